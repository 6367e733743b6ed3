import Verif.Props.TornVectors
/-!
# C77, arrays of a fixed length: what had been delivered completely is there
-/

set_option autoImplicit false

namespace Ckpt

section
variable {cfg : Cfg} {env : Env} {t : Ty}

/-- A call for an array. -/
theorem fixed_cases {n k : Nat} {s : Ser} {ys : List Val} {z : Val}
    (h : (∃ s2, dispatch cfg env (n + 1) (.arr k t) s [.coll ys] = .ok ([z], s2)) ∨
      dispatchEnd cfg env (n + 1) (.arr k t) s [.coll ys] = .ok [z]) :
    ∃ zs, z = .coll zs ∧
      ((∃ s', serializeArray cfg (elem cfg env n t) s ys = .ok (zs, s')) ∨
        serializeArrayEnd cfg (elem cfg env n t) (dispatchEnd cfg env n t) s ys = .ok zs) := by
  let f : Ser → Val → Out (Val × Ser) := fun s v =>
    match v with
    | .coll xs =>
      if xs.length = k then do
        let (xs, s) ← serArray cfg (elem cfg env n t) s xs
        .ok (.coll xs, s)
      else .ub .typeConfusion
    | _ => .ub .typeConfusion
  let g : Ser → Val → Out Val := fun s v =>
    match v with
    | .coll xs =>
      if xs.length = k then do
        let xs ← serializeArrayEnd cfg (elem cfg env n t) (dispatchEnd cfg env n t) s xs
        .ok (.coll xs)
      else .ub .typeConfusion
    | _ => .ub .typeConfusion
  have e1 : dispatch cfg env (n + 1) (.arr k t) = dispatchEach f := rfl
  have e2 : dispatchEnd cfg env (n + 1) (.arr k t) = dispatchEachEnd (oneOf (dispatchEach f)) g := rfl
  have e3 : oneOf (dispatchEach f) = f := oneOf_each f
  have hf : ∀ s2, f s (.coll ys) = .ok (z, s2) → ∃ zs, z = .coll zs ∧
      ∃ s', serializeArray cfg (elem cfg env n t) s ys = .ok (zs, s') := by
    intro s2 h
    by_cases hk : ys.length = k
    · simp only [f, hk, if_true] at h
      obtain ⟨⟨r1, r2⟩, h1, h⟩ := bind_eq_ok h
      cases h
      exact ⟨_, rfl, _, h1⟩
    · simp [f, hk] at h
  have hg : g s (.coll ys) = .ok z → ∃ zs, z = .coll zs ∧
      serializeArrayEnd cfg (elem cfg env n t) (dispatchEnd cfg env n t) s ys = .ok zs := by
    intro h
    by_cases hk : ys.length = k
    · simp only [g, hk, if_true] at h
      obtain ⟨r, h1, h⟩ := bind_eq_ok h
      cases h
      exact ⟨_, rfl, h1⟩
    · simp [g, hk] at h
  rcases h with ⟨s2, h⟩ | h
  · rw [e1] at h
    obtain ⟨⟨r1, r2⟩, h1, h⟩ := bind_eq_ok h
    cases h
    obtain ⟨v, h2, h3⟩ := hf _ h1
    exact ⟨v, h2, .inl h3⟩
  · rw [e2, e3] at h
    cases h1 : f s (.coll ys) with
    | ok r =>
      obtain ⟨r1, r2⟩ := r
      simp only [dispatchEachEnd, h1, Out.after, Out.bind_eq, Out.bind_ok] at h
      cases h
      obtain ⟨v, h2, h3⟩ := hf _ h1
      exact ⟨v, h2, .inl h3⟩
    | throw e =>
      simp only [dispatchEachEnd, h1, Out.after] at h
      obtain ⟨q, h4, h⟩ := bind_eq_ok h
      cases h
      obtain ⟨v, h2, h3⟩ := hg h4
      exact ⟨v, h2, .inr h3⟩
    | _ => simp [dispatchEachEnd, h1, Out.after] at h

/-- **C77**, arrays of a fixed length.  A checkpoint of an array of numbers, or in a build without error checking of
strings or containers, ends within an element or later; the elements before it have the checkpoints `fs`, the header and
trailer of which are not there within the array: those elements are as saved. -/
theorem C77_delivered_array (hE : env.Sound cfg) (hv : env.Valid .contents (· ∈ builtinKinds) cfg)
    (ht : (∃ id size, t = .prim id size) ∨ (cfg.check = false ∧ OneByOne t = true)) {k : Nat}
    {xs ys : List Val} (hx : WT .contents env (.arr k t) (.coll xs)) {bs inp : Bytes}
    (hs : StreamForm cfg env (.arr k t) (.coll xs) bs) (hpre : inp <+: bs) (hne : inp ≠ bs)
    (hf : Formed env (.arr k t) (.coll ys)) (hy : Clean .contents cfg env (.arr k t) (.coll ys)) {fs : List Bytes}
    (hfs : ∀ (i : Nat) f, fs[i]? = some f → ∃ x, xs[i]? = some x ∧ StreamForm cfg env t x f)
    (hlen : 4 + headLength cfg + (fs.map fun f => f.length - 12).sum ≤ inp.length) :
    ∃ zs, Leaves (fun n => inPlaceFromStreamEnd cfg (elem cfg env n (.arr k t)) (dispatchEnd cfg env n (.arr k t)) inp
        (.coll ys)) (.coll zs) ∧
      ∀ (i : Nat) x, i < fs.length → xs[i]? = some x → ∃ z, zs[i]? = some z ∧ Rel .contents env t x z := by
  have hbx : ByVal (.arr k t) (.coll xs) := trivial
  have hby : ByVal (.arr k t) (.coll ys) := trivial
  obtain ⟨-, w, z, -, -, N, hN⟩ := C77_checkpoint hE hv hx hbx hs hpre hne hf hy hby
  obtain ⟨n0, h0⟩ := isEnc_of_stream hv hx hs
  have hn1 : N ≤ max N n0 + 1 := by omega
  have hn2 : n0 ≤ max N n0 + 1 := by omega
  obtain ⟨hP, henc⟩ := h0 _ hn2
  have hprior := prior_of_clean hv hbx hby hy _ hP
  have hz := hN _ hn1
  generalize max N n0 = n at hP henc hprior hz
  have hP' : ∀ x ∈ xs, ((codec .contents cfg env n t).byVal t).P x := hP.2.1
  have hprior' : List.Forall₂ ((codec .contents cfg env n t).byVal t).prior xs ys := hprior
  let s : Ser := { core := .streamUnpacker inp 0, kind := .streamUnpacker }
  have hsR : s.Reader (Scope.quiet (· ∈ builtinKinds)) := ⟨rfl, (by decide : Kind.streamUnpacker ∈ builtinKinds), trivial⟩
  have hpfx0 : intBytes cfg.endian 4 (env.ti (.arr k t)).idx <+: bs := by
    rw [← henc]
    show _ <+: intBytes cfg.endian 4 (env.ti (.arr k t)).idx ++ _ ++ _
    rw [List.append_assoc]
    exact List.prefix_append _ _
  obtain ⟨rest0, hrest0⟩ := List.prefix_of_prefix_length_le hpfx0 hpre (by rw [intBytes_length]; omega)
  rcases (withTypeIdx_rd (cfg := cfg) (law hv n (.arr k t)).ti_valid s hsR).1 rest0 hrest0.symm with ⟨_, -, h1⟩ | ⟨_, hfail, _⟩
  case inr => exact hfail.elim
  have h1' : withTypeIdx cfg (elem cfg env (n + 1) (.arr k t)).ti s = .ok (s.advance 4) := by
    unfold withTypeIdx' at h1
    obtain ⟨b, hb, hb'⟩ := ok_of_bind h1
    rw [intBytes_length] at hb'
    cases hb'
    exact hb
  have hs4 : (s.advance 4).Reader (Scope.quiet (· ∈ builtinKinds)) :=
    hsR.advance (by
      show 4 ≤ inp.length
      omega)
  obtain ⟨zs, rfl, hm⟩ := fixed_cases (n := n) (s := s.advance 4) (topEnd_cases h1' hz)
  refine ⟨zs, ⟨N, hN⟩, fun i x hi hx => ?_⟩
  have hxs : 0 < xs.length := by
    have := (List.getElem?_eq_some_iff.1 hx).1
    omega
  have hfirst := vectorEnc_length hv hP' hfs
  have hhead : (arrayHead cfg (env.ti t)).length = headLength cfg := by
    unfold arrayHead headLength
    cases cfg.check <;> simp [intBytes_length]
  have hpfx : intBytes cfg.endian 4 (env.ti (.arr k t)).idx ++
      (arrayHead cfg (env.ti t) ++ (xs.take fs.length).flatMap (((codec .contents cfg env n t).byVal t).enc cfg.check)) <+: bs := by
    rw [← henc]
    show _ <+: intBytes cfg.endian 4 (env.ti (.arr k t)).idx ++
      arrEnc cfg cfg.check (env.ti t) ((codec .contents cfg env n t).byVal t) xs ++ _
    rw [List.append_assoc]
    refine (List.prefix_append_right_inj _).2 ?_
    refine List.IsPrefix.trans ?_ (List.prefix_append _ _)
    have htake : ∀ w, (xs.take fs.length).flatMap (((codec .contents cfg env n t).byVal t).enc w) <+:
        xs.flatMap (((codec .contents cfg env n t).byVal t).enc w) := fun w =>
      ⟨(xs.drop fs.length).flatMap _, by rw [← List.flatMap_append, List.take_append_drop]⟩
    unfold arrEnc arrayHead node
    cases cfg.check
    · simpa [hxs] using htake false
    · simp only [gt_iff_lt, hxs, if_true, List.append_assoc]
      exact (List.prefix_append_right_inj _).2 ((htake true).trans (List.prefix_append _ _))
  obtain ⟨rest, hrest⟩ := List.prefix_of_prefix_length_le hpfx hpre (by
    simp only [List.length_append, intBytes_length, hhead, hfirst]
    omega)
  have hrem : s.remaining = intBytes cfg.endian 4 (env.ti (.arr k t)).idx ++ (arrayHead cfg (env.ti t) ++
        ((xs.take fs.length).flatMap (((codec .contents cfg env n t).byVal t).enc cfg.check) ++ rest)) := by
    show inp = _
    rw [← hrest]
    simp only [List.append_assoc]
  obtain ⟨z, hz1, hz2⟩ := array_delivered (k := fs.length) (law_byVal hv n t).ti_valid
    (handler_delivers hv ht n) hP' hprior' hs4 rest (by
    rw [Ser.remaining_advance, hrem]
    exact List.drop_left' (intBytes_length _ _ _)) hm i x hi hx
  exact ⟨z, hz1, codec_rel n t x z hz2⟩

end

namespace Demo

/-- An array of two numbers. -/
def fixedInts : Val := .coll [.raw [1, 0, 0, 0], .raw [2, 0, 0, 0]]

/-- Its checkpoint without the last byte of the second number. -/
def fixedStart : Bytes := intBytes .little 4 (env.ti (.arr 2 int)).idx ++ [1, 0, 0, 0, 2, 0, 0]

theorem fixed_wt : WT .contents env (.arr 2 int) fixedInts := by
  refine .arr rfl ⟨nofun, fun h => h.elim⟩ (fun _ _ => trivial) fun x hx => ?_
  simp only [List.mem_cons, List.not_mem_nil, or_false] at hx
  rcases hx with rfl | rfl <;> exact .prim rfl

theorem fixed_form : StreamForm (cfg false false) env (.arr 2 int) fixedInts
    (fixedStart ++ ([0] ++ intBytes .little 8 (env.ti (.arr 2 int)).sizeof)) :=
  Yields.at (fun {_ _} hnm => toStream_le (elem_le (cfg false false) env hnm (.arr 2 int)) fixedInts _) 3 rfl nofun

end Demo

/-- A checkpoint of an array of two numbers that ends within the second, read into one of two other numbers:
`C77_delivered_array` applies with one element delivered, and the other one has the bytes that were there. -/
example :
    WT .contents Demo.env (.arr 2 Demo.int) Demo.fixedInts ∧
    StreamForm (Demo.cfg false false) Demo.env (.arr 2 Demo.int) Demo.fixedInts
      (Demo.fixedStart ++ ([0] ++ intBytes .little 8 (Demo.env.ti (.arr 2 Demo.int)).sizeof)) ∧
    Formed Demo.env (.arr 2 Demo.int) (Demo.fresh (.arr 2 Demo.int)) ∧
    Clean .contents (Demo.cfg false false) Demo.env (.arr 2 Demo.int) (Demo.fresh (.arr 2 Demo.int)) ∧
    (∃ f, StreamForm (Demo.cfg false false) Demo.env Demo.int (.raw [1, 0, 0, 0]) f ∧
      4 + headLength (Demo.cfg false false) + ([f].map fun f => f.length - 12).sum ≤ Demo.fixedStart.length) ∧
    Leaves (fun n => inPlaceFromStreamEnd (Demo.cfg false false) (elem (Demo.cfg false false) Demo.env n (.arr 2 Demo.int))
      (dispatchEnd (Demo.cfg false false) Demo.env n (.arr 2 Demo.int)) Demo.fixedStart (.coll [.raw [9, 9, 9, 9], .raw [9, 9, 9, 9]]))
      (.coll [.raw [1, 0, 0, 0], .raw [2, 0, 0, 9]]) :=
  ⟨Demo.fixed_wt, Demo.fixed_form, Demo.fresh_formed _, Demo.fresh_clean (fun _ _ => trivial) _, ⟨_, Demo.one_form, by decide⟩,
    yields_of (fun _ _ => ends_le _ _) (n := 3) rfl⟩

end Ckpt
