import Verif.Props.RoundTrip
import Verif.Proofs.CodecRel
/-!
# What each container restores (C17–C21)

The statements are about the entry points applied to a container itself; containers inside other
objects are covered by the relation in C01, which says the same about every nested container.
-/

set_option autoImplicit false

namespace Ckpt

variable {R : RelMode} {cfg : Cfg} {env : Env} {t : Ty} {x : Val}

/-- All four ways to read back the bytes of an object: by `deserialize` and `deserializeFromStream`
into a new object, and in place over `y`.  `Q` is what holds of the restored object. -/
structure ReadsBack (cfg : Cfg) (env : Env) (t : Ty) (bs : Bytes) (y : Val) (Q : Val → Prop) : Prop where
  fresh : ∃ z, Q z ∧ Yields (fun n => deserialize cfg (elem cfg env n t) bs) (.ok (z, bs.length))
  freshStream : ∃ z, Q z ∧
    Yields (fun n => deserializeFromStream cfg (elem cfg env n t) bs) (.ok (z, []))
  inPlace : ∃ z, Q z ∧
    Yields (fun n => deserializeInPlace cfg (elem cfg env n t) bs y) (.ok (z, bs.length))
  inPlaceStream : ∃ z, Q z ∧
    Yields (fun n => deserializeInPlaceFromStream cfg (elem cfg env n t) bs y) (.ok (z, []))

theorem ReadsBack.mono {bs : Bytes} {y : Val} {Q Q' : Val → Prop} (h : ReadsBack cfg env t bs y Q)
    (hQ : ∀ z, Q z → Q' z) : ReadsBack cfg env t bs y Q' := by
  obtain ⟨⟨a, ha, ea⟩, ⟨b, hb, eb⟩, ⟨c, hc, ec⟩, ⟨d, hd, ed⟩⟩ := h
  exact ⟨⟨a, hQ a ha, ea⟩, ⟨b, hQ b hb, eb⟩, ⟨c, hQ c hc, ec⟩, ⟨d, hQ d hd, ed⟩⟩

/-- The round trip for every notion of equality of values. -/
theorem reads_back (hv : env.Valid R (· ∈ builtinKinds) cfg) (hx : WT R env t x) (hb : ByVal t x)
    {bs : Bytes} (hs : StreamForm cfg env t x bs) {y : Val} (hy : Clean R cfg env t y)
    (hyb : ByVal t y) : ReadsBack cfg env t bs y (Rel R env t x) := by
  have he := isEnc_of_stream hv hx hs
  have hf := prior_of_clean hv hb (hv.fresh t).2 (hv.fresh t).1
  have hp := prior_of_clean hv hb hyb hy
  refine ⟨?_, ?_, ?_, ?_⟩
  · simp only [deserialize_elem]; simpa using he.inPlace hv (fun _ h => h) hf []
  · simp only [deserializeFromStream_elem]; simpa using he.inStream hv (fun _ h => h) hf []
  · simpa using he.inPlace hv (fun _ h => h) hp []
  · simpa using he.inStream hv (fun _ h => h) hp []

/-! ## C17 -/

/-- C17: a restored vector has the same elements in the same order and at least the capacity of the
source, whatever the construction category of the elements is (`env.dflt`, `env.copyable` are
arbitrary) and however `reserve` rounds up.  The target may be any vector that is clean. -/
theorem C17_vector (hv : env.Valid .capacity (· ∈ builtinKinds) cfg) {cap : Nat} {xs : List Val}
    (hx : WT .capacity env (.vec t) (.vec cap xs)) {bs : Bytes}
    (hs : StreamForm cfg env (.vec t) (.vec cap xs) bs) {y : Val}
    (hy : Clean .capacity cfg env (.vec t) y) :
    ReadsBack cfg env (.vec t) bs y fun z => ∃ cap' ys, z = .vec cap' ys ∧
      List.Forall₂ (Rel .capacity env t) xs ys ∧ cap ≤ cap' := by
  refine (reads_back hv hx trivial hs hy trivial).mono ?_
  intro z hz
  cases hz with
  | vec h1 h2 h3 => exact ⟨_, _, rfl, forall₂_of_get h2 h3, h1⟩

/-- C17 for `std::vector<bool>`. -/
theorem C17_vector_bool (hv : env.Valid .capacity (· ∈ builtinKinds) cfg) {cap : Nat} {xs : List Bool}
    (hx : WT .capacity env .vecBool (.vbool cap xs)) {bs : Bytes}
    (hs : StreamForm cfg env .vecBool (.vbool cap xs) bs) {y : Val}
    (hy : Clean .capacity cfg env .vecBool y) :
    ReadsBack cfg env .vecBool bs y fun z => ∃ cap', z = .vbool cap' xs ∧ cap ≤ cap' := by
  refine (reads_back hv hx trivial hs hy trivial).mono ?_
  intro z hz
  cases hz with
  | vecBool h1 => exact ⟨_, rfl, h1⟩

example : WT .capacity Demo.env (.vec (.uptr (.cls 1)))
    (.vec 5 [.ptr (some Demo.group), .ptr none]) ∧
    Clean .capacity (Demo.cfg true false) Demo.env (.vec (.uptr (.cls 1)))
      (.vec 2 [.ptr none, .ptr none]) ∧ Demo.env.copyable (.uptr (.cls 1)) = false := by
  refine ⟨.vec (by decide) (by decide) ⟨by decide, False.elim⟩ (fun _ _ => trivial) ?_,
    .vec ?_ (by decide) (fun _ _ => trivial) ?_, rfl⟩
  · intro x hx
    simp only [List.mem_cons, List.not_mem_nil, or_false] at hx
    rcases hx with rfl | rfl
    · exact Demo.groupPtr_wt
    · exact .ptrNull
  · intro c
    simp only [RelMode.capacity, Demo.cfg]
    split <;> omega
  · intro x hx
    simp only [List.mem_cons, List.not_mem_nil, or_false, or_self] at hx
    subst hx
    exact .ptrNull

/-! ## C18 -/

/-- C18: a restored list or deque has the same elements in the same order. -/
theorem C18_list_deque (hv : env.Valid R (· ∈ builtinKinds) cfg) {k : SeqKind} {xs : List Val}
    (hx : WT R env (.seq k t) (.coll xs)) {bs : Bytes}
    (hs : StreamForm cfg env (.seq k t) (.coll xs) bs) {y : Val} (hy : Clean R cfg env (.seq k t) y) :
    ReadsBack cfg env (.seq k t) bs y fun z => ∃ ys, z = .coll ys ∧ List.Forall₂ (Rel R env t) xs ys := by
  refine (reads_back hv hx trivial hs hy trivial).mono ?_
  intro z hz
  cases hz with
  | seq h2 h3 => exact ⟨_, rfl, forall₂_of_get h2 h3⟩

/-- C18: a restored queue has the same elements in the same order (`y`, the target of the in-place
calls, is empty; see C25 for others). -/
theorem C18_queue (hv : env.Valid R (· ∈ builtinKinds) cfg) {xs : List Val}
    (hx : WT R env (.queue t) (.coll xs)) {bs : Bytes}
    (hs : StreamForm cfg env (.queue t) (.coll xs) bs) :
    ReadsBack cfg env (.queue t) bs (.coll []) fun z =>
      ∃ ys, z = .coll ys ∧ List.Forall₂ (Rel R env t) xs ys := by
  refine (reads_back hv hx trivial hs .queue trivial).mono ?_
  intro z hz
  cases hz with
  | queue h2 h3 => exact ⟨_, rfl, forall₂_of_get h2 h3⟩

/-- C18: packing a queue does not consume it. -/
theorem C18_queue_kept (hv : env.Valid R (· ∈ builtinKinds) cfg) {xs : List Val}
    (hx : WT R env (.queue t) (.coll xs)) {fn : Option (Nat → Option Bytes)} {p : Packed} {x' : Val}
    (h : Yields (fun n => serialize cfg (elem cfg env n (.queue t)) fn (.coll xs)) (.ok (p, x'))) :
    x' = .coll xs :=
  (C05_object_unchanged hv hx).2.2.2.1 fn p x' h

example : WT R Demo.env (.queue .str) (.coll [.str ⟨15, [1]⟩, .str ⟨15, [2, 3]⟩]) ∧
    WT R Demo.env (.seq .deque (.uptr Demo.int)) (.coll [.ptr none, .ptr (some (.raw [1, 2, 3, 4]))]) := by
  refine ⟨.queue (by decide) (fun _ _ => trivial) ?_, .seq (by decide) (fun _ _ => trivial) ?_⟩
  all_goals
    intro x hx
    simp only [List.mem_cons, List.not_mem_nil, or_false] at hx
    rcases hx with rfl | rfl
  · exact .str (by decide)
  · exact .str (by decide)
  · exact .ptrNull
  · exact .ptr (fun _ => trivial) (fun c d ps h => by cases h) (.prim rfl)

/-! ## C19 -/

/-- C19: a restored ordered container has exactly the source entries, in the same order — for
multi-containers that includes the relative order of equivalent elements.  The comparator is
arbitrary except that it depends on observable values only (part of `WT`); the iteration order of
the source is strictly increasing, or not decreasing for multi-containers (also part of `WT`). -/
theorem C19_ordered (hv : env.Valid R (· ∈ builtinKinds) cfg) {a : Assoc} {cmp : Nat} {xs : List Val}
    (hx : WT R env (.oset a cmp t) (.coll xs)) {bs : Bytes}
    (hs : StreamForm cfg env (.oset a cmp t) (.coll xs) bs) :
    ReadsBack cfg env (.oset a cmp t) bs (.coll []) fun z =>
      ∃ ys, z = .coll ys ∧ List.Forall₂ (Rel R env t) xs ys ∧ env.Sorted a cmp ys := by
  refine (reads_back hv hx trivial hs .oset trivial).mono ?_
  intro z hz
  cases hz with
  | oset h2 h3 =>
    refine ⟨_, rfl, forall₂_of_get h2 h3, ?_⟩
    cases hx with
    | oset _ hr hsrt =>
      revert hsrt
      unfold Env.Sorted
      split
      all_goals
        simp only [List.pairwise_iff_getElem]
        intro h i j hi hj hij
        have hi' : i < xs.length := by omega
        have hj' : j < xs.length := by omega
        have ri := h3 i _ _ (List.getElem?_eq_getElem hi') (List.getElem?_eq_getElem hi)
        have rj := h3 j _ _ (List.getElem?_eq_getElem hj') (List.getElem?_eq_getElem hj)
        have := h i j hi' hj' hij
      · rw [← hr _ _ _ _ rj ri]; exact this
      · rw [← hr _ _ _ _ ri rj]; exact this

/-- A multimap with two equivalent keys. -/
example : WT R Demo.env (.oset .multimap 0 (.pair Demo.int .str))
    (.coll [.coll [.raw [1, 0, 0, 0], .str ⟨15, [66]⟩], .coll [.raw [1, 0, 0, 0], .str ⟨15, [65]⟩]]) := by
  refine .oset (by decide) Demo.lt_respects (List.Pairwise.cons (by simp; decide)
    (List.pairwise_singleton _ _)) (fun _ _ => trivial) ?_
  intro x hx
  simp only [List.mem_cons, List.not_mem_nil, or_false] at hx
  rcases hx with rfl | rfl <;> exact .pair trivial trivial (.prim rfl) (.str (by decide))

/-! ## C20 -/

/-- C20: a restored unordered container has the same entries with the same multiplicities: some
rearrangement of its contents equals the source element by element.  `env.arrange`, the iteration
order, is an arbitrary permutation after every insertion. -/
theorem C20_unordered (hv : env.Valid R (· ∈ builtinKinds) cfg) {a : Assoc} {eq : Nat} {xs : List Val}
    (hx : WT R env (.uset a eq t) (.coll xs)) {bs : Bytes}
    (hs : StreamForm cfg env (.uset a eq t) (.coll xs) bs) :
    ReadsBack cfg env (.uset a eq t) bs (.coll []) fun z =>
      ∃ ys zs, z = .coll ys ∧ zs.Perm ys ∧ List.Forall₂ (Rel R env t) xs zs := by
  refine (reads_back hv hx trivial hs .uset trivial).mono ?_
  intro z hz
  cases hz with
  | uset h2 h3 hp ho => exact ⟨_, _, rfl, hp, forall₂_of_get h2 h3⟩

example : WT .contents Demo.env (.uset .multiset 0 Demo.int)
    (.coll [.raw [1, 0, 0, 0], .raw [1, 0, 0, 0], .raw [2, 0, 0, 0]]) := by
  refine .uset (by decide) Demo.eq_respects (by decide) (.inl trivial) (fun _ _ => trivial) ?_
  intro x hx
  simp only [List.mem_cons, List.not_mem_nil, or_false] at hx
  rcases hx with rfl | rfl | rfl <;> exact .prim rfl

/-! ## C21 -/

/-- C21, optional: engaged iff the source was; the previous state of the target does not matter. -/
theorem C21_optional (hv : env.Valid R (· ∈ builtinKinds) cfg) {o : Option Val}
    (hx : WT R env (.opt t) (.opt o)) {bs : Bytes} (hs : StreamForm cfg env (.opt t) (.opt o) bs)
    (before : Option Val) :
    ReadsBack cfg env (.opt t) bs (.opt before) fun z => match o with
      | none => z = .opt none
      | some v => ∃ v', z = .opt (some v') ∧ Rel R env t v v' := by
  refine (reads_back hv hx trivial hs .opt trivial).mono ?_
  intro z hz
  cases hz with
  | optNone => rfl
  | optSome h => exact ⟨_, rfl, h⟩

/-- C21, variant: the same alternative, whatever the target held before (or if it was valueless). -/
theorem C21_variant (hv : env.Valid R (· ∈ builtinKinds) cfg) {ts : List Ty} {i : Nat} {v : Val}
    (hx : WT R env (.variant ts) (.variant i v)) {bs : Bytes}
    (hs : StreamForm cfg env (.variant ts) (.variant i v) bs) (before : Option (Nat × Val)) :
    ReadsBack cfg env (.variant ts) bs
      (match before with | some (j, w) => .variant j w | none => .valueless)
      fun z => ∃ t v', ts[i]? = some t ∧ z = .variant i v' ∧ Rel R env t v v' := by
  refine (reads_back hv hx trivial hs ?_ ?_).mono ?_
  · cases before with
    | none => exact .valueless (by cases hx; assumption)
    | some p => exact .variant (by cases hx; assumption)
  · trivial
  · intro z hz
    cases hz with
    | variant h1 h2 => exact ⟨_, _, h1, rfl, h2⟩

/-- C21, unique_ptr: null iff the source was.  The target may be null, or, for classes that are not
virtually serializable, point to any clean object (see C32 for the other classes). -/
theorem C21_unique_ptr (hv : env.Valid R (· ∈ builtinKinds) cfg) {p : Option Val}
    (hx : WT R env (.uptr t) (.ptr p)) {bs : Bytes} (hs : StreamForm cfg env (.uptr t) (.ptr p) bs)
    (before : Option Val)
    (hy : ∀ w, before = some w → env.isVirt t = false ∧ ByVal t w ∧ Clean R cfg env t w) :
    ReadsBack cfg env (.uptr t) bs (.ptr before) fun z => match p with
      | none => z = .ptr none
      | some v => ∃ v', z = .ptr (some v') ∧ Rel R env t v v' := by
  refine (reads_back hv hx trivial hs ?_ trivial).mono ?_
  · cases before with
    | none => exact .ptrNull
    | some w => obtain ⟨h1, h2, h3⟩ := hy w rfl; exact .ptr h1 h2 h3
  · intro z hz
    cases hz with
    | ptrNull => rfl
    | ptr h => exact ⟨_, rfl, h⟩

/-- C21: a null pointer is restored as null over any target, polymorphic or not. -/
theorem C21_unique_ptr_null (hv : env.Valid R (· ∈ builtinKinds) cfg) {bs : Bytes}
    (hs : StreamForm cfg env (.uptr t) (.ptr none) bs) (before : Option Val) :
    ReadsBack cfg env (.uptr t) bs (.ptr before) fun z => z = .ptr none := by
  have he := isEnc_of_stream hv .ptrNull hs
  have hf : ∀ n y, ByVal (.uptr t) y → Clean R cfg env (.uptr t) y →
      (codec R cfg env n (.uptr t)).P (.ptr none) →
      (codec R cfg env n (.uptr t)).prior (.ptr none) y :=
    fun n y hy hc hp => prior_of_clean (t := .uptr t) (x := .ptr none) hv trivial hy hc n hp
  have hp : ∀ n, (codec R cfg env n (.uptr t)).P (.ptr none) →
      (codec R cfg env n (.uptr t)).prior (.ptr none) (.ptr before) := by
    intro n h
    cases n with
    | zero => exact h.elim
    | succ n =>
      show PtrPrior _ _ _ none before
      exact ⟨nofun, nofun, nofun⟩
  have hnull : ∀ z, Rel R env (.uptr t) (.ptr none) z → z = .ptr none := by
    intro z hz; cases hz; rfl
  have hfr := fun n => hf n _ (hv.fresh (.uptr t)).2 (hv.fresh (.uptr t)).1
  refine ReadsBack.mono (Q := Rel R env (.uptr t) (.ptr none)) ⟨?_, ?_, ?_, ?_⟩ hnull
  · simp only [deserialize_elem]; simpa using he.inPlace hv (fun _ h => h) hfr []
  · simp only [deserializeFromStream_elem]; simpa using he.inStream hv (fun _ h => h) hfr []
  · simpa using he.inPlace hv (fun _ h => h) hp []
  · simpa using he.inStream hv (fun _ h => h) hp []

example : WT R Demo.env (.opt (.cls 2)) (.opt (some Demo.circle)) ∧
    WT R Demo.env (.variant [Demo.double, .str, Demo.int]) (.variant 2 (.raw [1, 2, 3, 4])) ∧
    WT R Demo.env (.uptr (.cls 1)) (.ptr (some Demo.circle)) :=
  ⟨.optSome rfl (Demo.circle_wt 2 (.inr rfl)), .variant rfl rfl (by decide) trivial (.prim rfl),
    Demo.circlePtr_wt⟩

end Ckpt
