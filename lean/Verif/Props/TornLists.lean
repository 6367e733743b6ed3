import Verif.Props.Torn
import Verif.Proofs.DeliveredLists
/-!
# C77, lists, queues and pairs: what had been delivered completely is there
-/

set_option autoImplicit false

namespace Ckpt

/-- The bytes of a number of elements. -/
def countLength (cfg : Cfg) : Nat := if cfg.check then 20 else 8

section
variable {cfg : Cfg} {env : Env} {t : Ty}

theorem elemsEnc_length (hv : env.Valid .contents (· ∈ builtinKinds) cfg) {n : Nat} : ∀ {fs : List Bytes} {xs : List Val},
    (∀ x ∈ xs, ((codec .contents cfg env n t).byVal t).P x) →
    (∀ (i : Nat) f, fs[i]? = some f → ∃ x, xs[i]? = some x ∧ StreamForm cfg env t x f) →
    (elemsEnc cfg (env.ti t) ((codec .contents cfg env n t).byVal t) fs.length xs).length = (fs.map (inner cfg)).sum
  | [], _, _, _ => rfl
  | f :: _, [], _, hf => by obtain ⟨_, h, _⟩ := hf 0 f rfl; cases h
  | f :: fs, x :: xs, h, hf => by
    have ih := elemsEnc_length hv (fs := fs) (fun y hy => h y (by simp [hy])) (fun i f' hi => hf (i + 1) f' hi)
    obtain ⟨_, hx, hs⟩ := hf 0 f rfl
    cases hx
    have := inner_eq hv (h x (by simp)).1 hs
    simp only [elemsEnc, List.length_cons, List.take_succ_cons, List.flatMap_cons, List.length_append, List.map_cons,
      List.sum_cons] at ih ⊢
    rw [ih]
    exact congrArg (· + _) this

/-- A call for a list. -/
theorem list_cases {n : Nat} {k : SeqKind} {s : Ser} {ys : List Val} {z : Val}
    (h : (∃ s2, dispatch cfg env (n + 1) (.seq k t) s [.coll ys] = .ok ([z], s2)) ∨
      dispatchEnd cfg env (n + 1) (.seq k t) s [.coll ys] = .ok [z]) :
    ∃ zs, z = .coll zs ∧ ((∃ s', serList cfg (env.ti (.seq k t)).sizeof (elem cfg env n t) s ys = .ok (zs, s')) ∨
      serListEnd cfg (elem cfg env n t) (dispatchEnd cfg env n t) s ys = .ok zs) := by
  let f : Ser → Val → Out (Val × Ser) := fun s v =>
    match v with
    | .coll xs => do
      let (xs, s) ← serList cfg (env.ti (.seq k t)).sizeof (elem cfg env n t) s xs
      .ok (.coll xs, s)
    | _ => .ub .typeConfusion
  let g : Ser → Val → Out Val := fun s v =>
    match v with
    | .coll xs => do
      let xs ← serListEnd cfg (elem cfg env n t) (dispatchEnd cfg env n t) s xs
      .ok (.coll xs)
    | _ => .ub .typeConfusion
  have e1 : dispatch cfg env (n + 1) (.seq k t) = dispatchEach f := rfl
  have e2 : dispatchEnd cfg env (n + 1) (.seq k t) = dispatchEachEnd (oneOf (dispatchEach f)) g := rfl
  have e3 : oneOf (dispatchEach f) = f := oneOf_each f
  have hf : ∀ s2, f s (.coll ys) = .ok (z, s2) → ∃ zs, z = .coll zs ∧
      ∃ s', serList cfg (env.ti (.seq k t)).sizeof (elem cfg env n t) s ys = .ok (zs, s') := by
    intro s2 h
    obtain ⟨⟨r1, r2⟩, h1, h⟩ := bind_eq_ok h
    cases h
    exact ⟨r1, rfl, _, h1⟩
  have hg : g s (.coll ys) = .ok z → ∃ zs, z = .coll zs ∧
      serListEnd cfg (elem cfg env n t) (dispatchEnd cfg env n t) s ys = .ok zs := by
    intro h
    obtain ⟨r, h1, h⟩ := bind_eq_ok h
    cases h
    exact ⟨r, rfl, h1⟩
  rcases h with ⟨s2, h⟩ | h
  · rw [e1] at h
    obtain ⟨⟨r1, r2⟩, h1, h⟩ := bind_eq_ok h
    cases h
    obtain ⟨zs, h2, h3⟩ := hf _ h1
    exact ⟨zs, h2, .inl h3⟩
  · rw [e2, e3] at h
    cases h1 : f s (.coll ys) with
    | ok r =>
      obtain ⟨r1, r2⟩ := r
      simp only [dispatchEachEnd, h1, Out.after, Out.bind_eq, Out.bind_ok] at h
      cases h
      obtain ⟨zs, h2, h3⟩ := hf _ h1
      exact ⟨zs, h2, .inl h3⟩
    | throw e =>
      simp only [dispatchEachEnd, h1, Out.after] at h
      obtain ⟨q, h4, h⟩ := bind_eq_ok h
      cases h
      obtain ⟨zs, h2, h3⟩ := hg h4
      exact ⟨zs, h2, .inr h3⟩
    | _ => simp [dispatchEachEnd, h1, Out.after] at h

/-- **C77**, lists and deques.  A checkpoint of a list ends within an element or later, the elements before it have the
checkpoints `fs`: those elements are as saved. -/
theorem C77_delivered_list (hE : env.Sound cfg) (hv : env.Valid .contents (· ∈ builtinKinds) cfg) {k : SeqKind}
    {xs ys : List Val} (hx : WT .contents env (.seq k t) (.coll xs)) {bs inp : Bytes}
    (hs : StreamForm cfg env (.seq k t) (.coll xs) bs) (hpre : inp <+: bs) (hne : inp ≠ bs)
    (hf : Formed env (.seq k t) (.coll ys)) (hy : Clean .contents cfg env (.seq k t) (.coll ys)) {fs : List Bytes}
    (hfs : ∀ (i : Nat) f, fs[i]? = some f → ∃ x, xs[i]? = some x ∧ StreamForm cfg env t x f)
    (hlen : 4 + countLength cfg + (fs.map (inner cfg)).sum ≤ inp.length) :
    ∃ zs, Leaves (fun n => inPlaceFromStreamEnd cfg (elem cfg env n (.seq k t)) (dispatchEnd cfg env n (.seq k t)) inp
        (.coll ys)) (.coll zs) ∧
      ∀ (i : Nat) x, i < fs.length → xs[i]? = some x → ∃ z, zs[i]? = some z ∧ Rel .contents env t x z := by
  have hbx : ByVal (.seq k t) (.coll xs) := trivial
  have hby : ByVal (.seq k t) (.coll ys) := trivial
  obtain ⟨-, w, z, -, -, N, hN⟩ := C77_checkpoint hE hv hx hbx hs hpre hne hf hy hby
  obtain ⟨n0, h0⟩ := isEnc_of_stream hv hx hs
  have hn1 : N ≤ max N n0 + 1 := by omega
  have hn2 : n0 ≤ max N n0 + 1 := by omega
  obtain ⟨hP, henc⟩ := h0 _ hn2
  have hprior := prior_of_clean hv hbx hby hy _ hP
  have hz := hN _ hn1
  generalize max N n0 = n at hP henc hprior hz
  have hP' : SeqOk ((codec .contents cfg env n t).byVal t) xs := hP
  have hprior' : SeqPrior (elem cfg env n t) ((codec .contents cfg env n t).byVal t) xs ys := hprior
  have hfirst := elemsEnc_length hv hP'.all hfs
  have hcount : (sizeNode cfg cfg.check xs.length).length = countLength cfg := by
    unfold sizeNode node countLength
    cases cfg.check <;> simp [intBytes_length]
  have hpfx : intBytes cfg.endian 4 (env.ti (.seq k t)).idx ++ (sizeNode cfg cfg.check xs.length ++
      elemsEnc cfg (env.ti t) ((codec .contents cfg env n t).byVal t) fs.length xs) <+: bs := by
    rw [← henc]
    show _ <+: intBytes cfg.endian 4 (env.ti (.seq k t)).idx ++ (sizeNode cfg cfg.check xs.length ++
      xs.flatMap (nodeEnc cfg cfg.check (env.ti t) ((codec .contents cfg env n t).byVal t))) ++ _
    rw [List.append_assoc, List.append_assoc]
    exact (List.prefix_append_right_inj _).2 ((List.prefix_append_right_inj _).2
      ((elemsEnc_prefix _ _ _).trans (List.prefix_append _ _)))
  obtain ⟨rest, hrest⟩ := List.prefix_of_prefix_length_le hpfx hpre (by
    simp only [List.length_append, intBytes_length, hcount]
    omega)
  let s : Ser := { core := .streamUnpacker inp 0, kind := .streamUnpacker }
  have hsR : s.Reader (Scope.quiet (· ∈ builtinKinds)) := ⟨rfl, (by decide : Kind.streamUnpacker ∈ builtinKinds), trivial⟩
  have hrem : s.remaining = intBytes cfg.endian 4 (env.ti (.seq k t)).idx ++ (sizeNode cfg cfg.check xs.length ++
      (elemsEnc cfg (env.ti t) ((codec .contents cfg env n t).byVal t) fs.length xs ++ rest)) := by
    show inp = _
    rw [← hrest]
    simp only [List.append_assoc]
  rcases (withTypeIdx_rd (cfg := cfg) (law hv n (.seq k t)).ti_valid s hsR).1 _ hrem with ⟨_, -, h1⟩ | ⟨_, hfail, _⟩
  case inr => exact hfail.elim
  have h1' : withTypeIdx cfg (elem cfg env (n + 1) (.seq k t)).ti s = .ok (s.advance 4) := by
    unfold withTypeIdx' at h1
    obtain ⟨b, hb, hb'⟩ := ok_of_bind h1
    rw [intBytes_length] at hb'
    cases hb'
    exact hb
  have hs4 : (s.advance 4).Reader (Scope.quiet (· ∈ builtinKinds)) :=
    hsR.advance (by rw [hrem]; simp [intBytes_length])
  obtain ⟨zs, rfl, hm⟩ := list_cases (n := n) (s := s.advance 4) (topEnd_cases h1' hz)
  refine ⟨zs, ⟨N, hN⟩, fun i x hi hx => ?_⟩
  obtain ⟨z, hz1, hz2⟩ := list_delivered (k := fs.length) hv.cfgOk (law_byVal hv n t) (codec_fresh hv.toUsable n t) hP' hprior' hs4 rest (by
    rw [Ser.remaining_advance, hrem]
    exact List.drop_left' (intBytes_length _ _ _)) hm i x hi hx
  exact ⟨z, hz1, codec_rel n t x z hz2⟩

/-- A call for a queue. -/
theorem queue_cases {n : Nat} {s : Ser} {ys : List Val} {z : Val}
    (h : (∃ s2, dispatch cfg env (n + 1) (.queue t) s [.coll ys] = .ok ([z], s2)) ∨
      dispatchEnd cfg env (n + 1) (.queue t) s [.coll ys] = .ok [z]) :
    ∃ zs, z = .coll zs ∧ ((∃ s', serQueue cfg (env.ti (.queue t)).sizeof (elem cfg env n t) s ys = .ok (zs, s')) ∨
      serGrowEnd cfg (fun acc y => acc ++ [y]) (elem cfg env n t) s ys = .ok zs) := by
  let f : Ser → Val → Out (Val × Ser) := fun s v =>
    match v with
    | .coll xs => do
      let (xs, s) ← serQueue cfg (env.ti (.queue t)).sizeof (elem cfg env n t) s xs
      .ok (.coll xs, s)
    | _ => .ub .typeConfusion
  let g : Ser → Val → Out Val := fun s v =>
    match v with
    | .coll xs => do
      let xs ← serGrowEnd cfg (fun acc y => acc ++ [y]) (elem cfg env n t) s xs
      .ok (.coll xs)
    | _ => .ub .typeConfusion
  have e1 : dispatch cfg env (n + 1) (.queue t) = dispatchEach f := rfl
  have e2 : dispatchEnd cfg env (n + 1) (.queue t) = dispatchEachEnd (oneOf (dispatchEach f)) g := rfl
  have e3 : oneOf (dispatchEach f) = f := oneOf_each f
  have hf : ∀ s2, f s (.coll ys) = .ok (z, s2) → ∃ zs, z = .coll zs ∧
      ∃ s', serQueue cfg (env.ti (.queue t)).sizeof (elem cfg env n t) s ys = .ok (zs, s') := by
    intro s2 h
    obtain ⟨⟨r1, r2⟩, h1, h⟩ := bind_eq_ok h
    cases h
    exact ⟨r1, rfl, _, h1⟩
  have hg : g s (.coll ys) = .ok z → ∃ zs, z = .coll zs ∧
      serGrowEnd cfg (fun acc y => acc ++ [y]) (elem cfg env n t) s ys = .ok zs := by
    intro h
    obtain ⟨r, h1, h⟩ := bind_eq_ok h
    cases h
    exact ⟨r, rfl, h1⟩
  rcases h with ⟨s2, h⟩ | h
  · rw [e1] at h
    obtain ⟨⟨r1, r2⟩, h1, h⟩ := bind_eq_ok h
    cases h
    obtain ⟨zs, h2, h3⟩ := hf _ h1
    exact ⟨zs, h2, .inl h3⟩
  · rw [e2, e3] at h
    cases h1 : f s (.coll ys) with
    | ok r =>
      obtain ⟨r1, r2⟩ := r
      simp only [dispatchEachEnd, h1, Out.after, Out.bind_eq, Out.bind_ok] at h
      cases h
      obtain ⟨zs, h2, h3⟩ := hf _ h1
      exact ⟨zs, h2, .inl h3⟩
    | throw e =>
      simp only [dispatchEachEnd, h1, Out.after] at h
      obtain ⟨q, h4, h⟩ := bind_eq_ok h
      cases h
      obtain ⟨zs, h2, h3⟩ := hg h4
      exact ⟨zs, h2, .inr h3⟩
    | _ => simp [dispatchEachEnd, h1, Out.after] at h

/-- **C77**, queues.  A checkpoint of a queue ends within an element or later, the elements before it have the
checkpoints `fs`: those elements are as saved. -/
theorem C77_delivered_queue (hE : env.Sound cfg) (hv : env.Valid .contents (· ∈ builtinKinds) cfg) {xs ys : List Val} (hx : WT .contents env (.queue t) (.coll xs)) {bs inp : Bytes}
    (hs : StreamForm cfg env (.queue t) (.coll xs) bs) (hpre : inp <+: bs) (hne : inp ≠ bs)
    (hf : Formed env (.queue t) (.coll ys)) (hy : Clean .contents cfg env (.queue t) (.coll ys)) {fs : List Bytes}
    (hfs : ∀ (i : Nat) f, fs[i]? = some f → ∃ x, xs[i]? = some x ∧ StreamForm cfg env t x f)
    (hlen : 4 + countLength cfg + (fs.map (inner cfg)).sum ≤ inp.length) :
    ∃ zs, Leaves (fun n => inPlaceFromStreamEnd cfg (elem cfg env n (.queue t)) (dispatchEnd cfg env n (.queue t)) inp
        (.coll ys)) (.coll zs) ∧
      ∀ (i : Nat) x, i < fs.length → xs[i]? = some x → ∃ z, zs[i]? = some z ∧ Rel .contents env t x z := by
  have hbx : ByVal (.queue t) (.coll xs) := trivial
  have hby : ByVal (.queue t) (.coll ys) := trivial
  obtain ⟨-, w, z, -, -, N, hN⟩ := C77_checkpoint hE hv hx hbx hs hpre hne hf hy hby
  obtain ⟨n0, h0⟩ := isEnc_of_stream hv hx hs
  have hn1 : N ≤ max N n0 + 1 := by omega
  have hn2 : n0 ≤ max N n0 + 1 := by omega
  obtain ⟨hP, henc⟩ := h0 _ hn2
  have hprior := prior_of_clean hv hbx hby hy _ hP
  have hz := hN _ hn1
  generalize max N n0 = n at hP henc hprior hz
  have hP' : SeqOk ((codec .contents cfg env n t).byVal t) xs := hP
  have hprior' : ys = [] := hprior
  subst hprior'
  have hfirst := elemsEnc_length hv hP'.all hfs
  have hcount : (sizeNode cfg cfg.check xs.length).length = countLength cfg := by
    unfold sizeNode node countLength
    cases cfg.check <;> simp [intBytes_length]
  have hpfx : intBytes cfg.endian 4 (env.ti (.queue t)).idx ++ (sizeNode cfg cfg.check xs.length ++
      elemsEnc cfg (env.ti t) ((codec .contents cfg env n t).byVal t) fs.length xs) <+: bs := by
    rw [← henc]
    show _ <+: intBytes cfg.endian 4 (env.ti (.queue t)).idx ++ (sizeNode cfg cfg.check xs.length ++
      xs.flatMap (nodeEnc cfg cfg.check (env.ti t) ((codec .contents cfg env n t).byVal t))) ++ _
    rw [List.append_assoc, List.append_assoc]
    exact (List.prefix_append_right_inj _).2 ((List.prefix_append_right_inj _).2
      ((elemsEnc_prefix _ _ _).trans (List.prefix_append _ _)))
  obtain ⟨rest, hrest⟩ := List.prefix_of_prefix_length_le hpfx hpre (by
    simp only [List.length_append, intBytes_length, hcount]
    omega)
  let s : Ser := { core := .streamUnpacker inp 0, kind := .streamUnpacker }
  have hsR : s.Reader (Scope.quiet (· ∈ builtinKinds)) := ⟨rfl, (by decide : Kind.streamUnpacker ∈ builtinKinds), trivial⟩
  have hrem : s.remaining = intBytes cfg.endian 4 (env.ti (.queue t)).idx ++ (sizeNode cfg cfg.check xs.length ++
      (elemsEnc cfg (env.ti t) ((codec .contents cfg env n t).byVal t) fs.length xs ++ rest)) := by
    show inp = _
    rw [← hrest]
    simp only [List.append_assoc]
  rcases (withTypeIdx_rd (cfg := cfg) (law hv n (.queue t)).ti_valid s hsR).1 _ hrem with ⟨_, -, h1⟩ | ⟨_, hfail, _⟩
  case inr => exact hfail.elim
  have h1' : withTypeIdx cfg (elem cfg env (n + 1) (.queue t)).ti s = .ok (s.advance 4) := by
    unfold withTypeIdx' at h1
    obtain ⟨b, hb, hb'⟩ := ok_of_bind h1
    rw [intBytes_length] at hb'
    cases hb'
    exact hb
  have hs4 : (s.advance 4).Reader (Scope.quiet (· ∈ builtinKinds)) :=
    hsR.advance (by rw [hrem]; simp [intBytes_length])
  obtain ⟨zs, rfl, hm⟩ := queue_cases (n := n) (s := s.advance 4) (topEnd_cases h1' hz)
  refine ⟨zs, ⟨N, hN⟩, fun i x hi hx => ?_⟩
  obtain ⟨z, hz1, hz2⟩ := queue_delivered (k := fs.length) hv.cfgOk (law_byVal hv n t) (codec_fresh hv.toUsable n t) hP' hs4 rest (by
    rw [Ser.remaining_advance, hrem]
    exact List.drop_left' (intBytes_length _ _ _)) hm i x hi hx
  exact ⟨z, hz1, codec_rel n t x z hz2⟩

/-- A call for a pair. -/
theorem pair_cases {n : Nat} {a b : Ty} {s : Ser} {y1 y2 z : Val}
    (h : (∃ s2, dispatch cfg env (n + 1) (.pair a b) s [.coll [y1, y2]] = .ok ([z], s2)) ∨
      dispatchEnd cfg env (n + 1) (.pair a b) s [.coll [y1, y2]] = .ok [z]) :
    ∃ z1 z2, z = .coll [z1, z2] ∧
      ((∃ s', serPair cfg (env.ti (.pair a b)).sizeof (elem cfg env n a) (elem cfg env n b) s (y1, y2) = .ok ((z1, z2), s')) ∨
      serPairEnd cfg (elem cfg env n a) (dispatchEnd cfg env n a) (elem cfg env n b) (dispatchEnd cfg env n b) s (y1, y2) =
        .ok (z1, z2)) := by
  let f : Ser → Val → Out (Val × Ser) := fun s v =>
    match v with
    | .coll [x, y] => do
      let (p, s) ← serPair cfg (env.ti (.pair a b)).sizeof (elem cfg env n a) (elem cfg env n b) s (x, y)
      .ok (.coll [p.1, p.2], s)
    | _ => .ub .typeConfusion
  let g : Ser → Val → Out Val := fun s v =>
    match v with
    | .coll [x, y] => do
      let p ← serPairEnd cfg (elem cfg env n a) (dispatchEnd cfg env n a) (elem cfg env n b) (dispatchEnd cfg env n b) s (x, y)
      .ok (.coll [p.1, p.2])
    | _ => .ub .typeConfusion
  have e1 : dispatch cfg env (n + 1) (.pair a b) = dispatchEach f := rfl
  have e2 : dispatchEnd cfg env (n + 1) (.pair a b) = dispatchEachEnd (oneOf (dispatchEach f)) g := rfl
  have e3 : oneOf (dispatchEach f) = f := oneOf_each f
  have hf : ∀ s2, f s (.coll [y1, y2]) = .ok (z, s2) → ∃ z1 z2, z = .coll [z1, z2] ∧
      ∃ s', serPair cfg (env.ti (.pair a b)).sizeof (elem cfg env n a) (elem cfg env n b) s (y1, y2) = .ok ((z1, z2), s') := by
    intro s2 h
    obtain ⟨⟨r1, r2⟩, h1, h⟩ := bind_eq_ok h
    cases h
    exact ⟨_, _, rfl, _, h1⟩
  have hg : g s (.coll [y1, y2]) = .ok z → ∃ z1 z2, z = .coll [z1, z2] ∧
      serPairEnd cfg (elem cfg env n a) (dispatchEnd cfg env n a) (elem cfg env n b) (dispatchEnd cfg env n b) s (y1, y2) =
        .ok (z1, z2) := by
    intro h
    obtain ⟨r, h1, h⟩ := bind_eq_ok h
    cases h
    exact ⟨_, _, rfl, h1⟩
  rcases h with ⟨s2, h⟩ | h
  · rw [e1] at h
    obtain ⟨⟨r1, r2⟩, h1, h⟩ := bind_eq_ok h
    cases h
    obtain ⟨z1, z2, h2, h3⟩ := hf _ h1
    exact ⟨z1, z2, h2, .inl h3⟩
  · rw [e2, e3] at h
    cases h1 : f s (.coll [y1, y2]) with
    | ok r =>
      obtain ⟨r1, r2⟩ := r
      simp only [dispatchEachEnd, h1, Out.after, Out.bind_eq, Out.bind_ok] at h
      cases h
      obtain ⟨z1, z2, h2, h3⟩ := hf _ h1
      exact ⟨z1, z2, h2, .inl h3⟩
    | throw e =>
      simp only [dispatchEachEnd, h1, Out.after] at h
      obtain ⟨q, h4, h⟩ := bind_eq_ok h
      cases h
      obtain ⟨z1, z2, h2, h3⟩ := hg h4
      exact ⟨z1, z2, h2, .inr h3⟩
    | _ => simp [dispatchEachEnd, h1, Out.after] at h

/-- **C77**, pairs.  A checkpoint of a pair ends after its first member, which has the checkpoint `f`: that member is as
saved. -/
theorem C77_delivered_pair (hE : env.Sound cfg) (hv : env.Valid .contents (· ∈ builtinKinds) cfg) {a b : Ty}
    {x1 x2 y1 y2 : Val} (hx : WT .contents env (.pair a b) (.coll [x1, x2])) {bs inp : Bytes}
    (hs : StreamForm cfg env (.pair a b) (.coll [x1, x2]) bs) (hpre : inp <+: bs) (hne : inp ≠ bs)
    (hf : Formed env (.pair a b) (.coll [y1, y2])) (hy : Clean .contents cfg env (.pair a b) (.coll [y1, y2])) {f : Bytes}
    (hfs : StreamForm cfg env a x1 f) (hlen : 4 + inner cfg f ≤ inp.length) :
    ∃ z1 z2, Leaves (fun n => inPlaceFromStreamEnd cfg (elem cfg env n (.pair a b)) (dispatchEnd cfg env n (.pair a b)) inp
        (.coll [y1, y2])) (.coll [z1, z2]) ∧ Rel .contents env a x1 z1 := by
  have hbx : ByVal (.pair a b) (.coll [x1, x2]) := trivial
  have hby : ByVal (.pair a b) (.coll [y1, y2]) := trivial
  obtain ⟨-, w, z, -, -, N, hN⟩ := C77_checkpoint hE hv hx hbx hs hpre hne hf hy hby
  obtain ⟨n0, h0⟩ := isEnc_of_stream hv hx hs
  have hn1 : N ≤ max N n0 + 1 := by omega
  have hn2 : n0 ≤ max N n0 + 1 := by omega
  obtain ⟨hP, henc⟩ := h0 _ hn2
  have hprior := prior_of_clean hv hbx hby hy _ hP
  have hz := hN _ hn1
  generalize max N n0 = n at hP henc hprior hz
  have hP' : ((codec .contents cfg env n a).byVal a).P x1 ∧ ((codec .contents cfg env n b).byVal b).P x2 := hP
  have hprior' : ((codec .contents cfg env n a).byVal a).prior x1 y1 ∧ ((codec .contents cfg env n b).byVal b).prior x2 y2 :=
    hprior
  have hfirst : (nodeEnc cfg cfg.check (env.ti a) ((codec .contents cfg env n a).byVal a) x1).length = inner cfg f :=
    inner_eq hv hP'.1.1 hfs
  have hpfx : intBytes cfg.endian 4 (env.ti (.pair a b)).idx ++
      nodeEnc cfg cfg.check (env.ti a) ((codec .contents cfg env n a).byVal a) x1 <+: bs := by
    rw [← henc]
    show _ <+: intBytes cfg.endian 4 (env.ti (.pair a b)).idx ++
      (nodeEnc cfg cfg.check (env.ti a) ((codec .contents cfg env n a).byVal a) x1 ++ _) ++ _
    rw [List.append_assoc, List.append_assoc]
    exact (List.prefix_append_right_inj _).2 (List.prefix_append _ _)
  obtain ⟨rest, hrest⟩ := List.prefix_of_prefix_length_le hpfx hpre (by
    simp only [List.length_append, intBytes_length]
    omega)
  let s : Ser := { core := .streamUnpacker inp 0, kind := .streamUnpacker }
  have hsR : s.Reader (Scope.quiet (· ∈ builtinKinds)) := ⟨rfl, (by decide : Kind.streamUnpacker ∈ builtinKinds), trivial⟩
  have hrem : s.remaining = intBytes cfg.endian 4 (env.ti (.pair a b)).idx ++
      (nodeEnc cfg cfg.check (env.ti a) ((codec .contents cfg env n a).byVal a) x1 ++ rest) := by
    show inp = _
    rw [← hrest]
    simp only [List.append_assoc]
  rcases (withTypeIdx_rd (cfg := cfg) (law hv n (.pair a b)).ti_valid s hsR).1 _ hrem with ⟨_, -, h1⟩ | ⟨_, hfail, _⟩
  case inr => exact hfail.elim
  have h1' : withTypeIdx cfg (elem cfg env (n + 1) (.pair a b)).ti s = .ok (s.advance 4) := by
    unfold withTypeIdx' at h1
    obtain ⟨b, hb, hb'⟩ := ok_of_bind h1
    rw [intBytes_length] at hb'
    cases hb'
    exact hb
  have hs4 : (s.advance 4).Reader (Scope.quiet (· ∈ builtinKinds)) :=
    hsR.advance (by rw [hrem]; simp [intBytes_length])
  obtain ⟨z1, z2, rfl, hm⟩ := pair_cases (n := n) (s := s.advance 4) (topEnd_cases h1' hz)
  refine ⟨z1, z2, ⟨N, hN⟩, codec_rel (cfg := cfg) n a x1 z1 ?_⟩
  exact pair_delivered (y := (y1, y2)) (z := (z1, z2)) (law_byVal hv n a) hP'.1 hprior'.1 hs4 rest (by
    rw [Ser.remaining_advance, hrem]
    exact List.drop_left' (intBytes_length _ _ _)) hm

end

namespace Demo

/-- A list of two strings. -/
def pair : Val := .coll [.str ⟨15, [65, 66]⟩, .str ⟨15, [67]⟩]

/-- Its checkpoint up to the last byte of the second string. -/
def pairStart : Bytes := intBytes .little 4 (env.ti (.seq .list .str)).idx ++ intBytes .little 8 2 ++
  intBytes .little 8 2 ++ [65, 66] ++ intBytes .little 8 1

/-- The rest of it. -/
def pairEnd : Bytes := [67] ++ intBytes .little 8 (env.ti (.seq .list .str)).sizeof

theorem pair_wt : WT .contents env (.seq .list .str) pair := by
  refine .seq (by decide) (fun _ _ => trivial) fun x hx => ?_
  simp only [List.mem_cons, List.not_mem_nil, or_false] at hx
  rcases hx with rfl | rfl <;> exact .str (by decide)

theorem pair_form : StreamForm (cfg false false) env (.seq .list .str) pair (pairStart ++ pairEnd) :=
  Yields.at (fun {_ _} hnm => toStream_le (elem_le (cfg false false) env hnm (.seq .list .str)) pair _) 3 rfl nofun

end Demo

/-- A checkpoint of the list `"AB", "C"` that ends before the second string, read into an empty list: the assumptions of
`C77_delivered_list` hold with one element delivered completely. -/
example :
    let cfg := Demo.cfg false false
    Demo.env.Sound cfg ∧ Demo.env.Valid .contents (· ∈ builtinKinds) cfg ∧
    WT .contents Demo.env (.seq .list .str) Demo.pair ∧
    StreamForm cfg Demo.env (.seq .list .str) Demo.pair (Demo.pairStart ++ Demo.pairEnd) ∧
    Demo.pairStart <+: Demo.pairStart ++ Demo.pairEnd ∧ Demo.pairStart ≠ Demo.pairStart ++ Demo.pairEnd ∧
    Formed Demo.env (.seq .list .str) (Demo.fresh (.seq .list .str)) ∧
    Clean .contents cfg Demo.env (.seq .list .str) (Demo.fresh (.seq .list .str)) ∧
    (∃ f, StreamForm cfg Demo.env .str (.str ⟨15, [65, 66]⟩) f ∧
      4 + countLength cfg + ([f].map (inner cfg)).sum ≤ Demo.pairStart.length) ∧
    Leaves (fun n => inPlaceFromStreamEnd cfg (elem cfg Demo.env n (.seq .list .str))
      (dispatchEnd cfg Demo.env n (.seq .list .str)) Demo.pairStart (Demo.fresh (.seq .list .str)))
      (.coll [.str ⟨15, [65, 66]⟩, .str ⟨15, [0]⟩]) :=
  ⟨Demo.sound, Demo.valid_contents, Demo.pair_wt, Demo.pair_form, ⟨_, rfl⟩, by decide, Demo.fresh_formed _,
    Demo.fresh_clean (fun _ _ => trivial) _, ⟨_, Demo.name_form, by decide⟩,
    yields_of (fun _ _ => ends_le _ _) (n := 3) rfl⟩

namespace Demo

/-- The start of the checkpoint of a queue with the strings `"AB"`, `"C"`. -/
def queueStart : Bytes := intBytes .little 4 (env.ti (.queue .str)).idx ++ intBytes .little 8 2 ++
  intBytes .little 8 2 ++ [65, 66] ++ intBytes .little 8 1

theorem queue_wt : WT .contents env (.queue .str) pair := by
  refine .queue (by decide) (fun _ _ => trivial) fun x hx => ?_
  simp only [List.mem_cons, List.not_mem_nil, or_false] at hx
  rcases hx with rfl | rfl <;> exact .str (by decide)

theorem queue_form : StreamForm (cfg false false) env (.queue .str) pair
    (queueStart ++ ([67] ++ intBytes .little 8 (env.ti (.queue .str)).sizeof)) :=
  Yields.at (fun {_ _} hnm => toStream_le (elem_le (cfg false false) env hnm (.queue .str)) pair _) 3 rfl nofun

/-- The start of the checkpoint of a pair of these strings. -/
def twoStart : Bytes := intBytes .little 4 (env.ti (.pair .str .str)).idx ++ intBytes .little 8 2 ++ [65, 66] ++
  intBytes .little 8 1

theorem two_wt : WT .contents env (.pair .str .str) pair :=
  .pair trivial trivial (.str (by decide)) (.str (by decide))

theorem two_form : StreamForm (cfg false false) env (.pair .str .str) pair
    (twoStart ++ ([67] ++ intBytes .little 8 (env.ti (.pair .str .str)).sizeof)) :=
  Yields.at (fun {_ _} hnm => toStream_le (elem_le (cfg false false) env hnm (.pair .str .str)) pair _) 3 rfl nofun

end Demo

/-- A checkpoint of a queue that ends before its second element: `C77_delivered_queue` applies, and the queue has the
first element only. -/
example :
    WT .contents Demo.env (.queue .str) Demo.pair ∧
    StreamForm (Demo.cfg false false) Demo.env (.queue .str) Demo.pair
      (Demo.queueStart ++ ([67] ++ intBytes .little 8 (Demo.env.ti (.queue .str)).sizeof)) ∧
    Formed Demo.env (.queue .str) (.coll []) ∧ Clean .contents (Demo.cfg false false) Demo.env (.queue .str) (.coll []) ∧
    (∃ f, StreamForm (Demo.cfg false false) Demo.env .str (.str ⟨15, [65, 66]⟩) f ∧
      4 + countLength (Demo.cfg false false) + ([f].map (inner (Demo.cfg false false))).sum ≤ Demo.queueStart.length) ∧
    Leaves (fun n => inPlaceFromStreamEnd (Demo.cfg false false) (elem (Demo.cfg false false) Demo.env n (.queue .str))
      (dispatchEnd (Demo.cfg false false) Demo.env n (.queue .str)) Demo.queueStart (.coll []))
      (.coll [.str ⟨15, [65, 66]⟩]) :=
  ⟨Demo.queue_wt, Demo.queue_form, Demo.fresh_formed (.queue .str), .queue, ⟨_, Demo.name_form, by decide⟩,
    yields_of (fun _ _ => ends_le _ _) (n := 3) rfl⟩

/-- A checkpoint of a pair that ends within its second member: `C77_delivered_pair` applies. -/
example :
    WT .contents Demo.env (.pair .str .str) Demo.pair ∧
    StreamForm (Demo.cfg false false) Demo.env (.pair .str .str) Demo.pair
      (Demo.twoStart ++ ([67] ++ intBytes .little 8 (Demo.env.ti (.pair .str .str)).sizeof)) ∧
    Formed Demo.env (.pair .str .str) (Demo.fresh (.pair .str .str)) ∧
    Clean .contents (Demo.cfg false false) Demo.env (.pair .str .str) (Demo.fresh (.pair .str .str)) ∧
    (∃ f, StreamForm (Demo.cfg false false) Demo.env .str (.str ⟨15, [65, 66]⟩) f ∧
      4 + inner (Demo.cfg false false) f ≤ Demo.twoStart.length) ∧
    Leaves (fun n => inPlaceFromStreamEnd (Demo.cfg false false) (elem (Demo.cfg false false) Demo.env n (.pair .str .str))
      (dispatchEnd (Demo.cfg false false) Demo.env n (.pair .str .str)) Demo.twoStart (Demo.fresh (.pair .str .str)))
      (.coll [.str ⟨15, [65, 66]⟩, .str ⟨15, [0]⟩]) :=
  ⟨Demo.two_wt, Demo.two_form, Demo.fresh_formed _, Demo.fresh_clean (fun _ _ => trivial) _, ⟨_, Demo.name_form, by decide⟩,
    yields_of (fun _ _ => ends_le _ _) (n := 3) rfl⟩

end Ckpt
