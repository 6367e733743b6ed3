import Verif.Props.TornLists
import Verif.Proofs.DeliveredSets
/-!
# C77, sets and maps: what had been delivered completely is there
-/

set_option autoImplicit false

namespace Ckpt

section
variable {cfg : Cfg} {env : Env} {t : Ty}

/-- The serialize function of a set or map. -/
def growCall (cfg : Cfg) (env : Env) (add : List Val → Val → List Val) (u t : Ty) (n : Nat) (s : Ser) (v : Val) : Out (Val × Ser) :=
  match v with
  | .coll xs => do
    let (xs, s) ← serMapLike cfg (env.ti u).sizeof add (elem cfg env n t) s xs
    .ok (.coll xs, s)
  | _ => .ub .typeConfusion

/-- What it leaves. -/
def growCallEnd (cfg : Cfg) (env : Env) (add : List Val → Val → List Val) (t : Ty) (n : Nat) (s : Ser) (v : Val) : Out Val :=
  match v with
  | .coll xs => do
    let xs ← serGrowEnd cfg add (elem cfg env n t) s xs
    .ok (.coll xs)
  | _ => .ub .typeConfusion

/-- A call for a set. -/
theorem grow_cases {add : List Val → Val → List Val} {u : Ty} {n : Nat} {s : Ser} {ys : List Val} {z : Val}
    (e1 : dispatch cfg env (n + 1) u = dispatchEach (growCall cfg env add u t n))
    (e2 : dispatchEnd cfg env (n + 1) u =
      dispatchEachEnd (oneOf (dispatchEach (growCall cfg env add u t n))) (growCallEnd cfg env add t n))
    (h : (∃ s2, dispatch cfg env (n + 1) u s [.coll ys] = .ok ([z], s2)) ∨ dispatchEnd cfg env (n + 1) u s [.coll ys] = .ok [z]) :
    ∃ zs, z = .coll zs ∧ ((∃ s', serMapLike cfg (env.ti u).sizeof add (elem cfg env n t) s ys = .ok (zs, s')) ∨
      serGrowEnd cfg add (elem cfg env n t) s ys = .ok zs) := by
  have hf : ∀ s2, growCall cfg env add u t n s (.coll ys) = .ok (z, s2) → ∃ zs, z = .coll zs ∧
      ∃ s', serMapLike cfg (env.ti u).sizeof add (elem cfg env n t) s ys = .ok (zs, s') := by
    intro s2 h
    obtain ⟨⟨r1, r2⟩, h1, h⟩ := bind_eq_ok h
    cases h
    exact ⟨r1, rfl, _, h1⟩
  rw [oneOf_each] at e2
  rcases h with ⟨s2, h⟩ | h
  · rw [e1] at h
    obtain ⟨⟨r1, r2⟩, h1, h⟩ := bind_eq_ok h
    cases h
    obtain ⟨zs, h2, h3⟩ := hf _ h1
    exact ⟨zs, h2, .inl h3⟩
  · rw [e2] at h
    cases h1 : growCall cfg env add u t n s (.coll ys) with
    | ok r =>
      obtain ⟨r1, r2⟩ := r
      simp only [dispatchEachEnd, h1, Out.after, Out.bind_eq, Out.bind_ok] at h
      cases h
      obtain ⟨zs, h2, h3⟩ := hf _ h1
      exact ⟨zs, h2, .inl h3⟩
    | throw e =>
      simp only [dispatchEachEnd, h1, Out.after] at h
      obtain ⟨q, h4, h⟩ := bind_eq_ok h
      cases h
      obtain ⟨r, h5, h6⟩ := bind_eq_ok h4
      cases h6
      exact ⟨r, rfl, .inr h5⟩
    | _ => simp [dispatchEachEnd, h1, Out.after] at h

/-- What is left are the elements that were delivered and others, added one after the other. -/
theorem grow_left (hE : env.Sound cfg) (hv : env.Valid .contents (· ∈ builtinKinds) cfg) {u : Ty}
    {add : List Val → Val → List Val}
    (e1 : ∀ n, dispatch cfg env (n + 1) u = dispatchEach (growCall cfg env add u t n))
    (e2 : ∀ n, dispatchEnd cfg env (n + 1) u =
      dispatchEachEnd (oneOf (dispatchEach (growCall cfg env add u t n))) (growCallEnd cfg env add t n)) {xs ys : List Val}
    (hok : ∀ n, (codec .contents cfg env (n + 1) u).P (.coll xs) → SeqOk ((codec .contents cfg env n t).byVal t) xs)
    (henc : ∀ n, (codec .contents cfg env (n + 1) u).enc cfg.check (.coll xs) = sizeNode cfg cfg.check xs.length ++
      xs.flatMap (nodeEnc cfg cfg.check (env.ti t) ((codec .contents cfg env n t).byVal t)))
    (hpr : ∀ n, (codec .contents cfg env (n + 1) u).prior (.coll xs) (.coll ys) → ys = [])
    (hbx : ByVal u (.coll xs)) (hby : ByVal u (.coll ys))
    (hx : WT .contents env u (.coll xs)) {bs inp : Bytes}
    (hs : StreamForm cfg env u (.coll xs) bs) (hpre : inp <+: bs) (hne : inp ≠ bs)
    (hf : Formed env u (.coll ys)) (hy : Clean .contents cfg env u (.coll ys)) {fs : List Bytes}
    (hfs : ∀ (i : Nat) f, fs[i]? = some f → ∃ x, xs[i]? = some x ∧ StreamForm cfg env t x f)
    (hlen : 4 + countLength cfg + (fs.map (inner cfg)).sum ≤ inp.length) :
    ∃ us vs, List.Forall₂ (Rel .contents env t) (xs.take fs.length) us ∧
      Leaves (fun n => inPlaceFromStreamEnd cfg (elem cfg env n u) (dispatchEnd cfg env n u) inp (.coll ys))
        (.coll ((us ++ vs).foldl add [])) := by
  obtain ⟨-, w, z, -, -, N, hN⟩ := C77_checkpoint hE hv hx hbx hs hpre hne hf hy hby
  obtain ⟨n0, h0⟩ := isEnc_of_stream hv hx hs
  have hn1 : N ≤ max N n0 + 1 := by omega
  have hn2 : n0 ≤ max N n0 + 1 := by omega
  obtain ⟨hP, hform⟩ := h0 _ hn2
  have hprior := prior_of_clean hv hbx hby hy _ hP
  have hz := hN _ hn1
  generalize max N n0 = n at hP hform hprior hz
  have hP' := hok n hP
  have hprior' := hpr n hprior
  subst hprior'
  have hfirst := elemsEnc_length hv hP'.all hfs
  have hcount : (sizeNode cfg cfg.check xs.length).length = countLength cfg := by
    unfold sizeNode node countLength
    cases cfg.check <;> simp [intBytes_length]
  have hpfx : intBytes cfg.endian 4 (env.ti u).idx ++ (sizeNode cfg cfg.check xs.length ++
      elemsEnc cfg (env.ti t) ((codec .contents cfg env n t).byVal t) fs.length xs) <+: bs := by
    rw [← hform]
    show _ <+: intBytes cfg.endian 4 (env.ti u).idx ++ (codec .contents cfg env (n + 1) u).enc cfg.check (.coll xs) ++ _
    rw [henc, List.append_assoc, List.append_assoc]
    exact (List.prefix_append_right_inj _).2 ((List.prefix_append_right_inj _).2
      ((elemsEnc_prefix _ _ _).trans (List.prefix_append _ _)))
  obtain ⟨rest, hrest⟩ := List.prefix_of_prefix_length_le hpfx hpre (by
    simp only [List.length_append, intBytes_length, hcount]
    omega)
  let s : Ser := { core := .streamUnpacker inp 0, kind := .streamUnpacker }
  have hsR : s.Reader (Scope.quiet (· ∈ builtinKinds)) := ⟨rfl, (by decide : Kind.streamUnpacker ∈ builtinKinds), trivial⟩
  have hrem : s.remaining = intBytes cfg.endian 4 (env.ti u).idx ++ (sizeNode cfg cfg.check xs.length ++
      (elemsEnc cfg (env.ti t) ((codec .contents cfg env n t).byVal t) fs.length xs ++ rest)) := by
    show inp = _
    rw [← hrest]
    simp only [List.append_assoc]
  rcases (withTypeIdx_rd (cfg := cfg) (law hv n u).ti_valid s hsR).1 _ hrem with ⟨_, -, h1⟩ | ⟨_, hfail, _⟩
  case inr => exact hfail.elim
  have h1' : withTypeIdx cfg (elem cfg env (n + 1) u).ti s = .ok (s.advance 4) := by
    unfold withTypeIdx' at h1
    obtain ⟨b, hb, hb'⟩ := ok_of_bind h1
    rw [intBytes_length] at hb'
    cases hb'
    exact hb
  have hs4 : (s.advance 4).Reader (Scope.quiet (· ∈ builtinKinds)) :=
    hsR.advance (by rw [hrem]; simp [intBytes_length])
  obtain ⟨zs, rfl, hm⟩ := grow_cases (s := s.advance 4) (e1 n) (e2 n) (topEnd_cases h1' hz)
  obtain ⟨us, vs, hu, rfl⟩ := grow_delivered (k := fs.length) hv.cfgOk (law_byVal hv n t) (codec_fresh hv.toUsable n t) hP' hs4 rest (by
    rw [Ser.remaining_advance, hrem]
    exact List.drop_left' (intBytes_length _ _ _)) hm
  exact ⟨us, vs, hu.imp (fun x z h => codec_rel n t x z h), N, hN⟩

/-- **C77**, sets and maps, also with equivalent keys.  A checkpoint of a set ends within an element or later, the elements
before it have the checkpoints `fs`: those elements are in the set. -/
theorem C77_delivered_set (hE : env.Sound cfg) (hv : env.Valid .contents (· ∈ builtinKinds) cfg) {a : Assoc} {cmp : Nat}
    {xs ys : List Val} (hx : WT .contents env (.oset a cmp t) (.coll xs)) {bs inp : Bytes}
    (hs : StreamForm cfg env (.oset a cmp t) (.coll xs) bs) (hpre : inp <+: bs) (hne : inp ≠ bs)
    (hf : Formed env (.oset a cmp t) (.coll ys)) (hy : Clean .contents cfg env (.oset a cmp t) (.coll ys)) {fs : List Bytes}
    (hfs : ∀ (i : Nat) f, fs[i]? = some f → ∃ x, xs[i]? = some x ∧ StreamForm cfg env t x f)
    (hlen : 4 + countLength cfg + (fs.map (inner cfg)).sum ≤ inp.length) :
    ∃ zs, Leaves (fun n => inPlaceFromStreamEnd cfg (elem cfg env n (.oset a cmp t)) (dispatchEnd cfg env n (.oset a cmp t)) inp
        (.coll ys)) (.coll zs) ∧
      ∀ (i : Nat) x, i < fs.length → xs[i]? = some x → ∃ z ∈ zs, Rel .contents env t x z := by
  obtain ⟨us, vs, hu, hl⟩ := grow_left hE hv (u := .oset a cmp t) (add := env.emplaceO a cmp) (fun _ => rfl) (fun _ => rfl)
    (fun _ h => h.1) (fun _ => rfl) (fun _ h => h) trivial trivial hx hs hpre hne hf hy hfs hlen
  refine ⟨_, hl, fun i x hi hxi => ?_⟩
  have hsort : env.Sorted a cmp us := by
    cases hx with
    | oset _ hr h2 _ _ =>
      unfold Env.Sorted at h2 ⊢
      split at h2
      · rename_i hm
        simp only [hm, if_true]
        exact pairwise_respects (f := fun x y => env.lt cmp y x) (fun x y x' y' h h' => hr y x y' x' h' h) hu
          (h2.sublist (List.take_sublist _ _))
      · rename_i hm
        simp only [hm]
        exact pairwise_respects (f := fun x y => env.lt cmp x y) (fun x y x' y' h h' => hr x y x' y' h h') hu
          (h2.sublist (List.take_sublist _ _))
  have hxt : (xs.take fs.length)[i]? = some x := by rw [List.getElem?_take_of_lt hi, hxi]
  obtain ⟨z, hz, hr⟩ := forall₂_partner hu hxt
  refine ⟨z, ?_, hr⟩
  rw [List.foldl_append, foldl_emplaceO hsort]
  refine foldl_stays ?_ (List.mem_of_getElem? hz)
  intro x y acc h
  unfold Env.emplaceO
  split
  · exact emplaceMulti_stays h
  · exact emplaceUnique_stays h

/-- **C77**, unordered sets and maps, also with equal keys. -/
theorem C77_delivered_unordered (hE : env.Sound cfg) (hv : env.Valid .contents (· ∈ builtinKinds) cfg) {a : Assoc} {eq : Nat}
    {xs ys : List Val} (hx : WT .contents env (.uset a eq t) (.coll xs)) {bs inp : Bytes}
    (hs : StreamForm cfg env (.uset a eq t) (.coll xs) bs) (hpre : inp <+: bs) (hne : inp ≠ bs)
    (hf : Formed env (.uset a eq t) (.coll ys)) (hy : Clean .contents cfg env (.uset a eq t) (.coll ys)) {fs : List Bytes}
    (hfs : ∀ (i : Nat) f, fs[i]? = some f → ∃ x, xs[i]? = some x ∧ StreamForm cfg env t x f)
    (hlen : 4 + countLength cfg + (fs.map (inner cfg)).sum ≤ inp.length) :
    ∃ zs, Leaves (fun n => inPlaceFromStreamEnd cfg (elem cfg env n (.uset a eq t)) (dispatchEnd cfg env n (.uset a eq t)) inp
        (.coll ys)) (.coll zs) ∧
      ∀ (i : Nat) x, i < fs.length → xs[i]? = some x → ∃ z ∈ zs, Rel .contents env t x z := by
  obtain ⟨us, vs, hu, hl⟩ := grow_left hE hv (u := .uset a eq t) (add := env.emplaceU a eq) (fun _ => rfl) (fun _ => rfl)
    (fun _ h => h.1) (fun _ => rfl) (fun _ h => h) trivial trivial hx hs hpre hne hf hy hfs hlen
  refine ⟨_, hl, fun i x hi hxi => ?_⟩
  have hperm : (us.foldl (env.emplaceU a eq) []).Perm us := by
    cases hx with
    | uset _ hr hpw _ _ _ =>
      refine foldl_emplaceUnordered (hv.arrange eq) us [] (fun hm => ⟨by simp, ?_⟩)
      exact pairwise_respects (fun x y x' y' h h' => hr x y x' y' h h') hu
        ((hpw ((multi_eq a).symm.trans hm)).sublist (List.take_sublist _ _))
  have hxt : (xs.take fs.length)[i]? = some x := by rw [List.getElem?_take_of_lt hi, hxi]
  obtain ⟨z, hz, hr⟩ := forall₂_partner hu hxt
  refine ⟨z, ?_, hr⟩
  rw [List.foldl_append]
  exact foldl_stays (fun h => emplaceUnordered_stays (hv.arrange eq) h) (hperm.mem_iff.2 (List.mem_of_getElem? hz))

end

namespace Demo

/-- A map with the keys 1 and 2. -/
def dictionary : Val := .coll [.coll [.raw [1, 0, 0, 0], .str ⟨15, [65]⟩], .coll [.raw [2, 0, 0, 0], .str ⟨15, []⟩]]

/-- The type of the map. -/
def dictionaryTy : Ty := .oset .map 0 (.pair int .str)

/-- Its checkpoint up to the length of the second string. -/
def dictionaryStart : Bytes := intBytes .little 4 (env.ti dictionaryTy).idx ++ intBytes .little 8 2 ++
  [1, 0, 0, 0] ++ intBytes .little 8 1 ++ [65] ++ [2, 0, 0, 0]

theorem dictionary_wt : WT .contents env dictionaryTy dictionary := by
  refine .oset (by decide) lt_respects (List.Pairwise.cons (by simp; decide) (List.pairwise_singleton _ _)) (fun _ _ => trivial) ?_
  intro x hx
  simp only [List.mem_cons, List.not_mem_nil, or_false] at hx
  rcases hx with rfl | rfl <;> exact .pair trivial trivial (.prim rfl) (.str (by decide))

theorem dictionary_form : StreamForm (cfg false false) env dictionaryTy dictionary
    (dictionaryStart ++ (intBytes .little 8 0 ++ intBytes .little 8 (env.ti dictionaryTy).sizeof)) :=
  Yields.at (fun {_ _} hnm => toStream_le (elem_le (cfg false false) env hnm dictionaryTy) dictionary _) 4 rfl nofun

theorem entry_form : StreamForm (cfg false false) env (.pair int .str) (.coll [.raw [1, 0, 0, 0], .str ⟨15, [65]⟩])
    (intBytes .little 4 (env.ti (.pair int .str)).idx ++ ([1, 0, 0, 0] ++ intBytes .little 8 1 ++ [65]) ++
      intBytes .little 8 (env.ti (.pair int .str)).sizeof) :=
  Yields.at (fun {_ _} hnm => toStream_le (elem_le (cfg false false) env hnm (.pair int .str)) _ _) 4 rfl nofun

/-- An unordered set of numbers. -/
def bag : Val := .coll [.raw [1, 0, 0, 0], .raw [1, 0, 0, 0], .raw [2, 0, 0, 0]]

/-- Its checkpoint up to the third number. -/
def bagStart : Bytes := intBytes .little 4 (env.ti (.uset .multiset 0 int)).idx ++ intBytes .little 8 3 ++
  [1, 0, 0, 0, 1, 0, 0, 0]

theorem bag_wt : WT .contents env (.uset .multiset 0 int) bag := by
  refine .uset (by decide) eq_respects (by decide) (.inl trivial) (fun _ _ => trivial) ?_
  intro x hx
  simp only [List.mem_cons, List.not_mem_nil, or_false] at hx
  rcases hx with rfl | rfl | rfl <;> exact .prim rfl

theorem bag_form : StreamForm (cfg false false) env (.uset .multiset 0 int) bag
    (bagStart ++ ([2, 0, 0, 0] ++ intBytes .little 8 (env.ti (.uset .multiset 0 int)).sizeof)) :=
  Yields.at (fun {_ _} hnm => toStream_le (elem_le (cfg false false) env hnm (.uset .multiset 0 int)) bag _) 3 rfl nofun

theorem unit_form : StreamForm (cfg false false) env int (.raw [1, 0, 0, 0])
    (intBytes .little 4 (env.ti int).idx ++ [1, 0, 0, 0] ++ intBytes .little 8 (env.ti int).sizeof) :=
  Yields.at (fun {_ _} hnm => toStream_le (elem_le (cfg false false) env hnm int) (.raw [1, 0, 0, 0]) _) 3 rfl nofun

end Demo

/-- A checkpoint of a map that ends within its second entry: `C77_delivered_set` applies, the map has the first entry. -/
example :
    WT .contents Demo.env Demo.dictionaryTy Demo.dictionary ∧
    StreamForm (Demo.cfg false false) Demo.env Demo.dictionaryTy Demo.dictionary
      (Demo.dictionaryStart ++ (intBytes .little 8 0 ++ intBytes .little 8 (Demo.env.ti Demo.dictionaryTy).sizeof)) ∧
    Formed Demo.env Demo.dictionaryTy (.coll []) ∧ Clean .contents (Demo.cfg false false) Demo.env Demo.dictionaryTy (.coll []) ∧
    (∃ f, StreamForm (Demo.cfg false false) Demo.env (.pair Demo.int .str) (.coll [.raw [1, 0, 0, 0], .str ⟨15, [65]⟩]) f ∧
      4 + countLength (Demo.cfg false false) + ([f].map (inner (Demo.cfg false false))).sum ≤ Demo.dictionaryStart.length) ∧
    Leaves (fun n => inPlaceFromStreamEnd (Demo.cfg false false) (elem (Demo.cfg false false) Demo.env n Demo.dictionaryTy)
      (dispatchEnd (Demo.cfg false false) Demo.env n Demo.dictionaryTy) Demo.dictionaryStart (.coll []))
      (.coll [.coll [.raw [1, 0, 0, 0], .str ⟨15, [65]⟩]]) :=
  ⟨Demo.dictionary_wt, Demo.dictionary_form, Demo.fresh_formed Demo.dictionaryTy, .oset, ⟨_, Demo.entry_form, by decide⟩,
    yields_of (fun _ _ => ends_le _ _) (n := 4) rfl⟩

/-- A checkpoint of an unordered set that ends before its third element: `C77_delivered_unordered` applies with two. -/
example :
    WT .contents Demo.env (.uset .multiset 0 Demo.int) Demo.bag ∧
    StreamForm (Demo.cfg false false) Demo.env (.uset .multiset 0 Demo.int) Demo.bag
      (Demo.bagStart ++ ([2, 0, 0, 0] ++ intBytes .little 8 (Demo.env.ti (.uset .multiset 0 Demo.int)).sizeof)) ∧
    Formed Demo.env (.uset .multiset 0 Demo.int) (.coll []) ∧
    Clean .contents (Demo.cfg false false) Demo.env (.uset .multiset 0 Demo.int) (.coll []) ∧
    (∃ f, StreamForm (Demo.cfg false false) Demo.env Demo.int (.raw [1, 0, 0, 0]) f ∧
      4 + countLength (Demo.cfg false false) + ([f, f].map (inner (Demo.cfg false false))).sum ≤ Demo.bagStart.length) :=
  ⟨Demo.bag_wt, Demo.bag_form, Demo.fresh_formed (.uset .multiset 0 Demo.int), .uset, ⟨_, Demo.unit_form, by decide⟩⟩

end Ckpt
