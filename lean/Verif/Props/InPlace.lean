import Verif.Props.Containers
import Verif.Proofs.Shape
import Verif.Proofs.Valueless
import Verif.Proofs.VecAppend
/-!
# Restoring over an object that already holds something (C22–C26)
-/

set_option autoImplicit false

namespace Ckpt

variable {R : RelMode} {cfg : Cfg} {env : Env} {t : Ty} {x : Val}

/-- Reading `bs` in place over `y`, from memory or from a stream and with any data following, consumes
exactly `bs` and leaves an object of which `Q` holds. -/
def ReadsOver (cfg : Cfg) (env : Env) (t : Ty) (bs : Bytes) (y : Val) (Q : Val → Prop) : Prop :=
  ∀ rest,
    (∃ z, Q z ∧ Yields (fun n => deserializeInPlace cfg (elem cfg env n t) (bs ++ rest) y) (.ok (z, bs.length))) ∧
    (∃ z, Q z ∧ Yields (fun n => deserializeInPlaceFromStream cfg (elem cfg env n t) (bs ++ rest) y) (.ok (z, rest)))

theorem ReadsOver.mono {bs : Bytes} {y : Val} {Q Q' : Val → Prop} (h : ReadsOver cfg env t bs y Q)
    (hQ : ∀ z, Q z → Q' z) : ReadsOver cfg env t bs y Q' := by
  intro rest
  obtain ⟨⟨a, ha, ea⟩, ⟨b, hb, eb⟩⟩ := h rest
  exact ⟨⟨a, hQ a ha, ea⟩, ⟨b, hQ b hb, eb⟩⟩

theorem readsOver_of_rd {n : Nat} {bs : Bytes} {y : Val} {Q : Val → Prop}
    (h : Rd (Scope.quiet (· ∈ builtinKinds)) (fun s => traverseTop cfg (elem cfg env n t) s y) bs Q) :
    ReadsOver cfg env t bs y Q :=
  fun rest => ⟨inPlace_of_rd (fun _ h => h) h rest, inStream_of_rd (fun _ h => h) h rest⟩

/-! ## C22 -/

/-- C22: a valueless variant is serialized without error, and reading it leaves the target exactly as it
was, whichever alternative it holds; a new object keeps the state its constructor left.  (`env.fresh` is
what the constructor makes.) -/
theorem C22_valueless_lost (hv : env.Valid R (· ∈ builtinKinds) cfg) {ts : List Ty}
    (hb : Ty.allOnlyBytes ts = false) (hts : ts.length < 2 ^ 64) :
    ∃ bs, StreamForm cfg env (.variant ts) .valueless bs ∧
      Yields (fun n => serialize cfg (elem cfg env n (.variant ts)) none .valueless)
        (.ok ({ mem := bs, size := bs.length, managed := true, calls := [] }, .valueless)) ∧
      (∀ i v, ReadsOver cfg env (.variant ts) bs (.variant i v) fun z => z = .variant i v) ∧
      ReadsOver cfg env (.variant ts) bs .valueless (fun z => z = .valueless) ∧
      Yields (fun n => deserialize cfg (elem cfg env n (.variant ts)) bs)
        (.ok (env.fresh (.variant ts), bs.length)) := by
  have hE : ∀ e, ¬ (Scope.quiet (· ∈ builtinKinds)).errs e := fun _ h => h
  have law := fun n y0 hy => valueless_law (R := R) hv n hb hts (y0 := y0) hy
  let bs := topEnc cfg (env.ti (.variant ts)) (lostCodec cfg .valueless) .valueless
  have hlen : bs.length < 2 ^ 64 := by
    simp only [bs, topEnc, lostCodec, node, sizeNode]
    cases cfg.check <;> simp [intBytes_length]
  have hover : ∀ y0, (y0 = .valueless ∨ ∃ i v, y0 = .variant i v) →
      ReadsOver cfg env (.variant ts) bs y0 fun z => z = y0 := by
    intro y0 hy
    exact readsOver_of_rd (n := 1) (top_rd (e := elem cfg env 1 (.variant ts)) (law 0 y0 hy) rfl rfl)
  refine ⟨bs, ⟨1, ?_⟩, ⟨1, ?_⟩, ?_, hover _ (.inl rfl), ?_⟩
  · intro n hn
    obtain ⟨n, rfl⟩ : ∃ m, n = m + 1 := ⟨n - 1, by omega⟩
    have := toStream_law (fun k h => h) (e := elem cfg env (n + 1) (.variant ts)) (law n _ (.inl rfl)) rfl
      { data := [] } (by simp)
    simp only [List.nil_append] at this
    exact this
  · intro n hn
    obtain ⟨n, rfl⟩ : ∃ m, n = m + 1 := ⟨n - 1, by omega⟩
    exact serialize_law (fun k h => h) (e := elem cfg env (n + 1) (.variant ts)) (law n _ (.inl rfl)) rfl hlen none
  · exact fun i v => hover _ (.inr ⟨i, v, rfl⟩)
  · have hf := (hv.fresh (.variant ts)).1
    have hfr : env.fresh (.variant ts) = .valueless ∨ ∃ i v, env.fresh (.variant ts) = .variant i v := by
      generalize env.fresh (.variant ts) = w at hf
      cases hf with
      | variant => exact .inr ⟨_, _, rfl⟩
      | valueless => exact .inl rfl
      | variantBytes h => rw [hb] at h; cases h
    simp only [deserialize_elem]
    obtain ⟨⟨z, rfl, hz⟩, _⟩ := hover _ hfr []
    simpa using hz

example : Ty.allOnlyBytes [Demo.int, Ty.str, .cls 3] = false ∧ [Demo.int, Ty.str, .cls 3].length < 2 ^ 64 ∧
    Demo.env.Valid .contents (· ∈ builtinKinds) (Demo.cfg true false) :=
  ⟨rfl, by decide, Demo.valid_contents⟩

/-- C22, variants of byte-copied alternatives only: the object is copied as it is, so whatever its representation says
(an alternative and its value, or that there is none) is what the restored object says.  The number of the alternative
is not written separately. -/
theorem C22_bytes_kept (hv : env.Valid R (· ∈ builtinKinds) cfg) {ts : List Ty} (hb : Ty.allOnlyBytes ts = true)
    {rep before : Bytes} (hr : rep.length = (env.ti (.variant ts)).sizeof)
    (hl : before.length = (env.ti (.variant ts)).sizeof) {bs : Bytes}
    (hs : StreamForm cfg env (.variant ts) (.raw rep) bs) :
    bs = node cfg true (env.ti (.variant ts)) 1 rep ∧
      ReadsBack cfg env (.variant ts) bs (.raw before) fun z => z = .raw rep := by
  constructor
  · obtain ⟨n, h⟩ := isEnc_of_stream hv (R := R) (.variantBytes hb hr) hs
    have := (h (n + 1) (by omega)).2
    rw [codec_variantBytes hb] at this
    exact this.symm
  refine (reads_back hv (.variantBytes hb hr) trivial hs (.variantBytes hb hl) trivial).mono ?_
  intro z hz
  cases hz with
  | variantBytes => rfl

/-- `std::variant<int, std::variant<double, int>>`. -/
example : Ty.allOnlyBytes [Demo.int, .variant [Demo.double, Demo.int]] = true := rfl

/-! ## C23 -/

/-- C23: whatever the evaluation order of the arguments of a call (`cfg.argOrder`, any permutation),
every member of a tuple is restored if the reader uses the order of the writer. -/
theorem C23_any_order (hv : env.Valid R (· ∈ builtinKinds) cfg) (order : Nat → List Nat)
    (ho : ∀ n, (order n).Perm (List.range n)) {ts : List Ty} {xs : List Val}
    (hx : WT R env (.tuple ts) (.coll xs)) {bs : Bytes}
    (hs : StreamForm { cfg with argOrder := order } env (.tuple ts) (.coll xs) bs) {y : Val}
    (hy : Clean R cfg env (.tuple ts) y) :
    ReadsBack { cfg with argOrder := order } env (.tuple ts) bs y fun z => ∃ ys, z = .coll ys ∧
      ys.length = ts.length ∧
      ∀ (i : Nat) t x y, ts[i]? = some t → xs[i]? = some x → ys[i]? = some y → Rel R env t x y := by
  have hcl : ∀ t y, Clean R cfg env t y → Clean R { cfg with argOrder := order } env t y := by
    intro t y h
    induction h with
    | prim h => exact .prim h
    | enm h => exact .enm h
    | chrono h => exact .chrono h
    | str => exact .str
    | vec h1 h2 h3 _ ih => exact .vec h1 h2 h3 ih
    | vecBool h => exact .vecBool h
    | seq h1 h2 _ ih => exact .seq h1 h2 ih
    | queue => exact .queue
    | oset => exact .oset
    | uset => exact .uset
    | pair h1 h2 _ _ i1 i2 => exact .pair h1 h2 i1 i2
    | tuple h1 h2 _ ih => exact .tuple h1 h2 ih
    | opt => exact .opt
    | variant h => exact .variant h
    | valueless h => exact .valueless h
    | variantBytes h h' => exact .variantBytes h h'
    | ptrNull => exact .ptrNull
    | ptr h1 h2 _ ih => exact .ptr h1 h2 ih
    | arr h1 h2 _ ih => exact .arr h1 h2 ih
    | obj h1 h2 h3 h4 _ ih => exact .obj h1 h2 h3 h4 ih
  have hv' : env.Valid R (· ∈ builtinKinds) { cfg with argOrder := order } :=
    { cfgOk := ⟨hv.cfgOk.size, hv.cfgOk.bool, hv.cfgOk.char, hv.cfgOk.int, hv.cfgOk.grow, hv.cfgOk.fits⟩
      ti := hv.ti
      order := ho
      arrange := hv.arrange
      fresh := fun t => ⟨hcl _ _ (hv.fresh t).1, (hv.fresh t).2⟩
      dflt := fun t v h => ⟨hcl _ _ (hv.dflt t v h).1, (hv.dflt t v h).2⟩
      hier := hv.hier
      plain := hv.plain
      regSize := hv.regSize
      serRegOk := hv.serRegOk
      kinds := hv.kinds
      sym := hv.sym }
  refine (reads_back hv' hx trivial hs (hcl _ _ hy) trivial).mono ?_
  intro z hz
  cases hz with
  | tuple h1 h2 h3 => exact ⟨_, rfl, h2, h3⟩

/-- The platform of the examples with members visited first to last. -/
def Demo.forward (check : Bool) : Cfg := { Demo.cfg check false with argOrder := List.range }

/-- The tuple `(int 1, double bits 2)`. -/
def Demo.twoVal : Val := .coll [.raw [1, 0, 0, 0], .raw [2, 0, 0, 0, 0, 0, 0, 0]]
/-- Its type. -/
def Demo.twoTy : Ty := .tuple [Demo.int, Demo.double]

/-- C23, the other half: the bytes that a program visiting the members last to first writes for
`(int 1, double 2)` are read by a program visiting them first to last as `(int 2, double 2^32)`,
without any error — and are rejected with an exception if every level carries headers. -/
theorem C23_other_order : ∃ bs bs',
    StreamForm (Demo.cfg false false) Demo.env Demo.twoTy Demo.twoVal bs ∧
    Yields (fun n => deserialize (Demo.forward false) (elem (Demo.forward false) Demo.env n Demo.twoTy) bs)
      (.ok (.coll [.raw [2, 0, 0, 0], .raw [0, 0, 0, 0, 1, 0, 0, 0]], bs.length)) ∧
    StreamForm (Demo.cfg true false) Demo.env Demo.twoTy Demo.twoVal bs' ∧
    ∃ e, Yields (fun n => deserialize (Demo.forward true) (elem (Demo.forward true) Demo.env n Demo.twoTy) bs')
      (.throw e) := by
  have w := fun c => fun {n m : Nat} (h : n ≤ m) =>
    toStream_le (cfg := Demo.cfg c false) (elem_le (Demo.cfg c false) Demo.env h Demo.twoTy) Demo.twoVal { data := [] }
  have r := fun c bs => fun {n m : Nat} (h : n ≤ m) =>
    inPlace_le (cfg := Demo.forward c) (elem_le (Demo.forward c) Demo.env h Demo.twoTy) bs (Demo.env.fresh Demo.twoTy)
  simp only [deserialize_elem]
  exact ⟨_, _, Yields.at (w false) 2 rfl nofun,
    Yields.at (r false _) 2 rfl nofun,
    Yields.at (w true) 2 rfl nofun,
    _, Yields.at (r true _) 2 rfl nofun⟩

/-! ## C24 -/

/-- C24: if the type and the types of everything in place inside its objects are replaced rather than
added to (`env.Replaces S`), then in-place deserialization over any object, in whatever state
(`Shape`), gives an object observably equal to the serialized one. -/
theorem C24_forgets (hv : env.Valid .contents (· ∈ builtinKinds) cfg) {S : Ty → Prop} (hS : env.Replaces S)
    (ht : S t) (hx : WT .contents env t x) (hxb : ByVal t x) {bs : Bytes} (hs : StreamForm cfg env t x bs)
    {y : Val} (hy : Shape env t y) (hyb : ByVal t y) :
    ReadsOver cfg env t bs y (Rel .contents env t x) := by
  have he := isEnc_of_stream hv hx hs
  have hp := prior_of_clean hv hxb hyb (hy.clean (fun _ _ _ => trivial) hv.sym hS ht hyb)
  intro rest
  exact ⟨he.inPlace hv (fun _ h => h) hp rest, he.inStream hv (fun _ h => h) hp rest⟩

/-- The types reachable from a pair of a linked list of nodes and a vector of variants that may hold a
map; `y` holds a valueless variant, a longer list, and a vector with other contents. -/
example : ∃ S : Ty → Prop, Demo.env.Replaces S ∧
    S (.pair (.uptr (.cls 4)) (.vec (.variant [.oset .map 0 (.pair Demo.int .str), .str]))) ∧
    Shape Demo.env (.pair (.uptr (.cls 4)) (.vec (.variant [.oset .map 0 (.pair Demo.int .str), .str])))
      (.coll [.ptr (some (.obj 4 [[.raw [8, 0, 0, 0], .ptr none]])),
        .vec 9 [.valueless, .variant 1 (.str ⟨15, [1]⟩)]]) := by
  refine ⟨fun t => t = .pair (.uptr (.cls 4)) (.vec (.variant [.oset .map 0 (.pair Demo.int .str), .str])) ∨
    t = .uptr (.cls 4) ∨ t = .cls 4 ∨ t = Demo.int ∨
    t = .vec (.variant [.oset .map 0 (.pair Demo.int .str), .str]) ∨
    t = .variant [.oset .map 0 (.pair Demo.int .str), .str], ?_, .inl rfl, ?_⟩
  · rintro t (rfl | rfl | rfl | rfl | rfl | rfl)
    · simp
    · simp [Env.isVirt, Demo.env, Demo.cls]
    · simp [Env.chain, Demo.env, Demo.cls]
    · trivial
    · exact ⟨by simp, fun _ => rfl⟩
    · trivial
  · refine .pair trivial trivial (.ptr (fun _ => rfl) ?_) (.vec (fun _ _ => trivial) ?_)
    · refine .obj (by decide) rfl ?_ ?_ ?_ <;> simp only [Demo.env, Demo.cls, Env.chain, List.nil_append] <;>
        rintro (_ | j) k p hk hp <;> simp at hk hp <;> subst hk hp <;> try rfl
      all_goals
        rintro (_ | _ | i) t x ht hx <;> simp [Demo.int] at ht hx <;> subst ht hx <;>
          first | exact .prim rfl | exact .ptrNull | simp [ByVal]
    · intro x hx
      simp only [List.mem_cons, List.not_mem_nil, or_false] at hx
      rcases hx with rfl | rfl
      · exact .valueless rfl
      · exact .variant rfl rfl trivial .str

/-! ## C25 -/

theorem sorted_of_rel {a : Assoc} {cmp : Nat} {xs zs : List Val} (hr : env.LtRespects R cmp t)
    (h3 : List.Forall₂ (Rel R env t) xs zs) (hs : env.Sorted a cmp xs) : env.Sorted a cmp zs := by
  have hl := h3.length_eq
  revert hs
  unfold Env.Sorted
  split
  all_goals
    simp only [List.pairwise_iff_getElem]
    intro h i j hi hj hij
    have hi' : i < xs.length := by omega
    have hj' : j < xs.length := by omega
    have ri := (forall₂_get h3).2 i _ _ (List.getElem?_eq_getElem hi') (List.getElem?_eq_getElem hi)
    have rj := (forall₂_get h3).2 j _ _ (List.getElem?_eq_getElem hj') (List.getElem?_eq_getElem hj)
    have := h i j hi' hj' hij
  · rw [← hr _ _ _ _ rj ri]; exact this
  · rw [← hr _ _ _ _ ri rj]; exact this

/-- C25, set and map: over a target holding `old`, the result is in order, contains every old entry
unchanged (so an existing key keeps its old mapped value), and contains exactly those restored entries
`zs` whose key was not there. -/
theorem C25_set_map (hv : env.Valid R (· ∈ builtinKinds) cfg) {a : Assoc} (ha : a.repeats = false) {cmp : Nat}
    (htr : ∀ u v w, env.lt cmp u v = true → env.lt cmp v w = true → env.lt cmp u w = true) {xs : List Val}
    (hx : WT R env (.oset a cmp t) (.coll xs)) {bs : Bytes}
    (hs : StreamForm cfg env (.oset a cmp t) (.coll xs) bs) {old : List Val} (hold : env.Sorted a cmp old) :
    ReadsOver cfg env (.oset a cmp t) bs (.coll old) fun z => ∃ zs ys, List.Forall₂ (Rel R env t) xs zs ∧
      z = .coll ys ∧ env.Sorted a cmp ys ∧ old.Sublist ys ∧
      ∀ v, v ∈ ys ↔ v ∈ old ∨ (v ∈ zs ∧ ∀ o ∈ old, env.lt cmp o v = true ∨ env.lt cmp v o = true) := by
  obtain ⟨n, h⟩ := merge_oset (ys := old) hv (isEnc_of_stream hv hx hs)
  refine (readsOver_of_rd h).mono ?_
  rintro z ⟨zs, hz, rfl⟩
  have hzs : env.Sorted a cmp zs := by
    cases hx with
    | oset _ hr hsrt => exact sorted_of_rel hr hz hsrt
  simp only [Env.Sorted, ha, Bool.false_eq_true, if_false] at hzs hold ⊢
  have h1 := foldl_unique htr hold hzs
  have h2 : env.emplaceO a cmp = emplaceUnique (env.lt cmp) := by
    funext ys x; simp [Env.emplaceO, multi_eq, ha]
  rw [h2]
  exact ⟨zs, _, hz, rfl, h1⟩

/-- C25, multiset and multimap: the result is in order and consists of the old and the restored
entries. -/
theorem C25_multi (hv : env.Valid R (· ∈ builtinKinds) cfg) {a : Assoc} (ha : a.repeats = true) {cmp : Nat}
    (has : ∀ u v, env.lt cmp u v = true → env.lt cmp v u = false)
    (htr : ∀ u v w, env.lt cmp v u = false → env.lt cmp w v = false → env.lt cmp w u = false) {xs : List Val}
    (hx : WT R env (.oset a cmp t) (.coll xs)) {bs : Bytes}
    (hs : StreamForm cfg env (.oset a cmp t) (.coll xs) bs) {old : List Val} (hold : env.Sorted a cmp old) :
    ReadsOver cfg env (.oset a cmp t) bs (.coll old) fun z => ∃ zs ys, List.Forall₂ (Rel R env t) xs zs ∧
      z = .coll ys ∧ env.Sorted a cmp ys ∧ old.Sublist ys ∧ ys.Perm (old ++ zs) := by
  obtain ⟨n, h⟩ := merge_oset (ys := old) hv (isEnc_of_stream hv hx hs)
  refine (readsOver_of_rd h).mono ?_
  rintro z ⟨zs, hz, rfl⟩
  simp only [Env.Sorted, ha, if_true] at hold ⊢
  have h1 := foldl_multi (zs := zs) has htr hold
  have h2 : env.emplaceO a cmp = emplaceMulti (env.lt cmp) := by
    funext ys x; simp [Env.emplaceO, multi_eq, ha]
  rw [h2]
  exact ⟨zs, _, hz, rfl, h1⟩

/-- C25, unordered containers: the old entries together with the restored entries, for unique keys
only those whose key was not there. -/
theorem C25_unordered (hv : env.Valid R (· ∈ builtinKinds) cfg) {a : Assoc} {eq : Nat} {xs : List Val}
    (hx : WT R env (.uset a eq t) (.coll xs)) {bs : Bytes}
    (hs : StreamForm cfg env (.uset a eq t) (.coll xs) bs) (old : List Val) :
    ReadsOver cfg env (.uset a eq t) bs (.coll old) fun z => ∃ zs ys, List.Forall₂ (Rel R env t) xs zs ∧
      z = .coll ys ∧ ys.Perm (old ++ zs.filter fun v => a.repeats || !old.any fun o => env.eq eq o v) := by
  obtain ⟨n, h⟩ := merge_uset (ys := old) hv (isEnc_of_stream hv hx hs)
  refine (readsOver_of_rd h).mono ?_
  rintro z ⟨zs, hz, rfl⟩
  refine ⟨zs, _, hz, rfl, ?_⟩
  cases hx with
  | uset _ hr hne =>
    rw [← multi_eq a]
    refine foldl_unordered (hv.arrange eq) zs old ?_
    intro ha
    rw [multi_eq] at ha
    have h := hne ha
    have hl := hz.length_eq
    rw [List.pairwise_iff_getElem] at h ⊢
    intro i j hi hj hij
    have hi' : i < xs.length := by omega
    have hj' : j < xs.length := by omega
    have ri := (forall₂_get hz).2 i _ _ (List.getElem?_eq_getElem hi') (List.getElem?_eq_getElem hi)
    have rj := (forall₂_get hz).2 j _ _ (List.getElem?_eq_getElem hj') (List.getElem?_eq_getElem hj)
    rw [← hr _ _ _ _ ri rj]
    exact h i j hi' hj' hij

/-- C25, queues: the restored elements are appended. -/
theorem C25_queue (hv : env.Valid R (· ∈ builtinKinds) cfg) {xs : List Val}
    (hx : WT R env (.queue t) (.coll xs)) {bs : Bytes}
    (hs : StreamForm cfg env (.queue t) (.coll xs) bs) (old : List Val) :
    ReadsOver cfg env (.queue t) bs (.coll old) fun z =>
      ∃ zs, List.Forall₂ (Rel R env t) xs zs ∧ z = .coll (old ++ zs) := by
  obtain ⟨n, h⟩ := merge_queue (ys := old) hv (isEnc_of_stream hv hx hs)
  exact readsOver_of_rd h

/-- C25, lists and deques of elements that cannot be copied: the restored elements are appended. -/
theorem C25_move_only_list (hv : env.Valid R (· ∈ builtinKinds) cfg) {k : SeqKind}
    (hm : env.copyable t = false) {xs : List Val} (hx : WT R env (.seq k t) (.coll xs)) {bs : Bytes}
    (hs : StreamForm cfg env (.seq k t) (.coll xs) bs) (old : List Val) :
    ReadsOver cfg env (.seq k t) bs (.coll old) fun z =>
      ∃ zs, List.Forall₂ (Rel R env t) xs zs ∧ z = .coll (old ++ zs) := by
  obtain ⟨n, h⟩ := merge_seq (ys := old) hv hm (isEnc_of_stream hv hx hs)
  exact readsOver_of_rd h

/-- A map with keys 1 and 2 over one with key 1; the comparator is a strict weak order. -/
example : WT R Demo.env (.oset .map 0 (.pair Demo.int .str))
      (.coll [.coll [.raw [1, 0, 0, 0], .str ⟨15, [65]⟩], .coll [.raw [2, 0, 0, 0], .str ⟨15, []⟩]]) ∧
    Demo.env.Sorted .map 0 [.coll [.raw [1, 0, 0, 0], .str ⟨15, [90]⟩]] ∧
    (∀ u v w, Demo.env.lt 0 u v = true → Demo.env.lt 0 v w = true → Demo.env.lt 0 u w = true) ∧
    (∀ u v, Demo.env.lt 0 u v = true → Demo.env.lt 0 v u = false) ∧
    (∀ u v w, Demo.env.lt 0 v u = false → Demo.env.lt 0 w v = false → Demo.env.lt 0 w u = false) := by
  refine ⟨?_, List.pairwise_singleton _ _, ?_, ?_, ?_⟩
  · refine .oset (by decide) Demo.lt_respects (List.Pairwise.cons (by simp; decide)
      (List.pairwise_singleton _ _)) (fun _ _ => trivial) ?_
    intro x hx
    simp only [List.mem_cons, List.not_mem_nil, or_false] at hx
    rcases hx with rfl | rfl <;> exact .pair trivial trivial (.prim rfl) (.str (by decide))
  all_goals simp only [Demo.env, decide_eq_true_eq, decide_eq_false_iff_not]; omega

/-! ## C26 -/

/-- C26: restoring over a non-empty vector whose elements can neither be default nor copy constructed
never gives back the source: if a call returns at all, the vector has the number of old elements plus the
number of serialized ones. -/
theorem C26_never_restored (hv : env.Valid R (· ∈ builtinKinds) cfg) (hd : env.dflt t = none)
    (hcp : env.copyable t = false) {cap : Nat} {xs : List Val} (hx : WT R env (.vec t) (.vec cap xs)) {bs : Bytes}
    (hs : StreamForm cfg env (.vec t) (.vec cap xs) bs) (c0 : Nat) (old : List Val) (more : Bytes) :
    (∀ z used, Yields (fun n => deserializeInPlace cfg (elem cfg env n (.vec t)) (bs ++ more) (.vec c0 old))
      (.ok (z, used)) → ∃ c1 ys, z = .vec c1 ys ∧ ys.length = old.length + xs.length) ∧
    (∀ z left, Yields (fun n => deserializeInPlaceFromStream cfg (elem cfg env n (.vec t)) (bs ++ more)
      (.vec c0 old)) (.ok (z, left)) → ∃ c1 ys, z = .vec c1 ys ∧ ys.length = old.length + xs.length) := by
  obtain ⟨n0, h0⟩ := isEnc_of_stream hv hx hs
  constructor
  · rintro z used ⟨n1, h1⟩
    obtain ⟨hP, hb⟩ := h0 (n0 + n1 + 1) (by omega)
    have h := h1 (n0 + n1 + 1) (by omega)
    obtain ⟨p, hp, h⟩ := Out.bind_ok_inv h
    simp only [Out.ok.injEq, Prod.mk.injEq] at h
    exact vec_append_length (n := n0 + n1) (s := { core := .unpacker (bs ++ more) 0 0, kind := .unpacker }) (s' := p.2) hv hd hcp hP
      ⟨rfl, by simp [Scope.quiet, builtinKinds], by simp⟩ (by
      simp only [Ser.remaining, List.drop_zero]; rw [← hb]) (by rw [← h.1]; exact hp)
  · rintro z left ⟨n1, h1⟩
    obtain ⟨hP, hb⟩ := h0 (n0 + n1 + 1) (by omega)
    have h := h1 (n0 + n1 + 1) (by omega)
    obtain ⟨p, hp, h⟩ := Out.bind_ok_inv h
    simp only [Out.ok.injEq, Prod.mk.injEq] at h
    exact vec_append_length (n := n0 + n1) (s := { core := .streamUnpacker (bs ++ more) 0, kind := .streamUnpacker }) (s' := p.2) hv hd hcp hP
      ⟨rfl, by simp [Scope.quiet, builtinKinds], trivial⟩ (by
      simp only [Ser.remaining]; rw [← hb]) (by rw [← h.1]; exact hp)

/-- C26: for elements of a class with one arithmetic member (of `m ≥ 1` bytes), without headers inside the
data, the call over a vector with at least one element reads past the end of the serialized data: from
memory that is undefined behaviour, from a stream an exception. -/
theorem C26_reads_past_end (hv : env.Valid R (· ∈ builtinKinds) cfg) (hc : cfg.check = false) {c id m : Nat}
    (hm : 0 < m) (hf : (env.cls c).fields = [.prim id m]) (hnv : (env.cls c).virt = false)
    (hd : env.dflt (.cls c) = none) (hcp : env.copyable (.cls c) = false) {cap : Nat} {xs : List Val}
    (hx : WT R env (.vec (.cls c)) (.vec cap xs)) {bs : Bytes}
    (hs : StreamForm cfg env (.vec (.cls c)) (.vec cap xs) bs) {c0 : Nat} {old : List Val} (hne : old ≠ [])
    (hold : ∀ o ∈ old, Clean R cfg env (.cls c) o ∧ ByVal (.cls c) o) :
    Yields (fun n => deserializeInPlace cfg (elem cfg env n (.vec (.cls c))) bs (.vec c0 old)) (.ub .readOverflow) ∧
    Yields (fun n => deserializeInPlaceFromStream cfg (elem cfg env n (.vec (.cls c))) bs (.vec c0 old))
      (.throw .streamShort) := by
  obtain ⟨n0, h0⟩ := isEnc_of_stream hv hx hs
  constructor
  · refine ⟨n0 + 3, fun n hn => ?_⟩
    obtain ⟨n, rfl⟩ : ∃ k, n = k + 3 := ⟨n - 3, by omega⟩
    obtain ⟨hP, hb⟩ := h0 (n + 3) (by omega)
    show (traverseTop cfg _ _ _ >>= _) = _
    rw [boxVec_short (s := { core := .unpacker bs 0 0, kind := .unpacker }) (K := (· ∈ builtinKinds)) hv hd hcp hf hm hnv hc hP hne hold
      ⟨rfl, by simp [Scope.quiet, builtinKinds], by simp⟩ (by simp only [Ser.remaining, List.drop_zero]; rw [← hb])]
    rfl
  · refine ⟨n0 + 3, fun n hn => ?_⟩
    obtain ⟨n, rfl⟩ : ∃ k, n = k + 3 := ⟨n - 3, by omega⟩
    obtain ⟨hP, hb⟩ := h0 (n + 3) (by omega)
    show (traverseTop cfg _ _ _ >>= _) = _
    rw [boxVec_short (s := { core := .streamUnpacker bs 0, kind := .streamUnpacker }) (K := (· ∈ builtinKinds)) hv hd hcp hf hm hnv hc hP hne hold
      ⟨rfl, by simp [Scope.quiet, builtinKinds], trivial⟩ (by simp only [Ser.remaining]; rw [← hb])]
    rfl

/-- Two handles over a vector of one handle. -/
example : Demo.env.dflt (.cls 7) = none ∧ Demo.env.copyable (.cls 7) = false ∧
    (Demo.env.cls 7).fields = [.prim 1 4] ∧ (Demo.env.cls 7).virt = false ∧
    WT R Demo.env (.vec (.cls 7)) (.vec 2 [.obj 7 [[.raw [1, 0, 0, 0]]], .obj 7 [[.raw [2, 0, 0, 0]]]]) ∧
    Clean .contents (Demo.cfg false false) Demo.env (.cls 7) (Demo.fresh (.cls 7)) ∧
    ByVal (.cls 7) (Demo.fresh (.cls 7)) := by
  refine ⟨rfl, rfl, rfl, rfl, .vec (by decide) (by decide) ⟨by decide, fun h => absurd rfl h⟩ ?_ ?_,
    Demo.fresh_clean (fun _ _ => trivial) _, Demo.fresh_byVal _⟩
  · simp [ByVal]
  · intro x hx
    simp only [List.mem_cons, List.not_mem_nil, or_false] at hx
    rcases hx with rfl | rfl <;>
      exact Demo.wt_obj (by decide) (by decide) (.cons (.cons ⟨trivial, .prim rfl⟩ .nil) .nil)

end Ckpt
