import Verif.Proofs.Recursive
import Verif.Proofs.ComposePoly
/-!
Laws of pointers to hierarchies whose classes own such pointers.
-/

set_option autoImplicit false

namespace Ckpt

variable {K : Scope} {R : RelMode} {cfg : Cfg} {env : Env} {T V : Type}

theorem dispatchEach_one (f : Ser → T → Out (T × Ser)) (s : Ser) (x : T) :
    dispatchEach f s [x] = (f s x).bind fun p => .ok ([p.1], p.2) := by
  simp only [dispatchEach, Out.bind_eq]
  rfl

/-- What holds for a list of one object holds for the object. -/
theorem dispatchEach_one_le {f f' : Ser → T → Out (T × Ser)} {s : Ser} {x : T}
    (h : Out.Le (dispatchEach f s [x]) (dispatchEach f' s [x])) : Out.Le (f s x) (f' s x) := by
  rw [dispatchEach_one, dispatchEach_one] at h
  rcases h with h | h
  · refine .inl ?_
    cases he : f s x <;> rw [he] at h <;> simp [Out.bind] at h ⊢
  · cases he : f s x with
    | fuel => exact .inl rfl
    | ok p =>
      refine .inr ?_
      rw [he] at h
      cases he' : f' s x <;> rw [he'] at h <;> simp only [Out.bind] at h
      · injection h with h
        injection h with h1 h2
        injection h1 with h1 _
        rw [Prod.ext h1 h2]
      all_goals cases h
    | _ =>
      refine .inr ?_
      rw [he] at h
      cases he' : f' s x <;> rw [he'] at h <;> simp only [Out.bind] at h <;> cases h <;> rfl

section
variable {ti cti : TI} {c : Nat} {any : V} {ds : CppType (Option V) → DynTypes V}

/-- Pointers to objects of depth `j`. -/
def hierarchyRun (cfg : Cfg) (env : Env) (ti : TI) (c : Nat) (cti : TI) (any : V)
    (ds : CppType (Option V) → DynTypes V) : Nat → Nat → Ser → Option V → Out (Option V × Ser)
  | 0, _, _, _ => .fuel
  | j + 1, n, s, x =>
    serUniquePtr cfg ti.sizeof ((ds (.hierarchyTo cfg env ti c cti any ds j)).elem cfg env cti any n)
      (some ((ds (.hierarchyTo cfg env ti c cti any ds j)).virt cfg env c)) s x

theorem hierarchyTo_apply (j n : Nat) : (CppType.hierarchyTo cfg env ti c cti any ds j).apply n =
    dispatchEach (hierarchyRun cfg env ti c cti any ds j n) := by
  cases j <;> rfl

theorem hierarchyTo_head (j : Nat) : CppType.hierarchyTo cfg env ti c cti any ds j =
    { CppType.declared ti none (some none) false with
      apply := (CppType.hierarchyTo cfg env ti c cti any ds j).apply } := by
  cases j <;> rfl

theorem hierarchyTo_below (hg : CppType.Grows fun t => .polyPtr cfg env ti c cti any (ds t)) (n : Nat) :
    ∀ j, (CppType.hierarchyTo cfg env ti c cti any ds j).Below n (.hierarchyTo cfg env ti c cti any ds (j + 1))
  | 0 => by
    refine ⟨rfl, fun s xs => ?_⟩
    rw [hierarchyTo_apply, hierarchyTo_apply]
    exact dispatchEach_le (fl := .fuel) (fun _ _ => .inl rfl) s xs
  | j + 1 => hg n _ _ (hierarchyTo_below hg n j)

theorem hierarchyRun_below (hg : CppType.Grows fun t => .polyPtr cfg env ti c cti any (ds t)) (j n : Nat) (s : Ser)
    (x : Option V) :
    Out.Le (hierarchyRun cfg env ti c cti any ds j n s x) (hierarchyRun cfg env ti c cti any ds (j + 1) n s x) := by
  have h := (hierarchyTo_below hg n j).2 s [x]
  rw [hierarchyTo_apply, hierarchyTo_apply] at h
  exact dispatchEach_one_le h

/-- The type is the pointer to classes that own it. -/
theorem hierarchyPtr_unfold (hg : CppType.Grows fun t => .polyPtr cfg env ti c cti any (ds t)) (n : Nat) :
    (CppType.polyPtr cfg env ti c cti any (ds (.hierarchyPtr cfg env ti c cti any ds))).apply n =
      (CppType.hierarchyTo cfg env ti c cti any ds (n + 1)).apply n := by
  have h1 : (CppType.hierarchyPtr cfg env ti c cti any ds).Below n (.hierarchyTo cfg env ti c cti any ds n) :=
    ⟨by rw [hierarchyTo_head]; rfl, fun _ _ => .inr rfl⟩
  have h2 : (CppType.hierarchyTo cfg env ti c cti any ds n).Below n (.hierarchyPtr cfg env ti c cti any ds) :=
    ⟨by conv => rhs; rw [hierarchyTo_head]
        rfl, fun _ _ => .inr rfl⟩
  funext s xs
  rcases (hg n _ _ h1).2 s xs with h | h
  · rcases (hg n _ _ h2).2 s xs with h' | h'
    · exact h.trans h'.symm
    · exact h'.symm
  · exact h

theorem hierarchyPtr_composes_over (hK : ∀ k, K.kinds k ↔ k ∈ builtinKinds) (hv : env.Usable R K.kinds cfg)
    {us : Nat → AltUsages V} {o : Nat → V → V → Prop} {ps : Nat → List OverUse} (hti : ti.Valid) (hcti : cti.Valid)
    (hg : CppType.Grows fun t => .polyPtr cfg env ti c cti any (ds t))
    (hm : ∀ j, (ds (.hierarchyTo cfg env ti c cti any ds j)).MatchOver (us j) (o j) (ps j))
    (h : ∀ j, ∀ p ∈ ps j, OverUse.Lawful K cfg p)
    (hfit : ∀ j, (ds (.hierarchyTo cfg env ti c cti any ds j)).Fits env)
    (hnd : ∀ j, (ds (.hierarchyTo cfg env ti c cti any ds j)).classes.Nodup) :
    ∃ C, Composes K cfg (.hierarchyPtr cfg env ti c cti any ds)
      (.limit fun j => .polyPtr env c (ds (.hierarchyTo cfg env ti c cti any ds j)) (us j)) C ∧
      Codec.ReadsOver C fun x y => ∀ j, overPtr (o j) x y := by
  have hh : ∀ j, ∃ C : Nat → Codec V, Handles K cfg
      (fun n => (ds (.hierarchyTo cfg env ti c cti any ds j)).serialize cfg env n) (.alts (us j)) C ∧
      (∀ n v, (C n).P v → ∃ w, (ds (.hierarchyTo cfg env ti c cti any ds j)).make
        ((ds (.hierarchyTo cfg env ti c cti any ds j)).classOf v) = some w ∧ (C n).prior v w) ∧
      Codec.ReadsOver C (o j) :=
    fun j => dyn_handles_over hK hv (hm j) (h j) (hfit j) (hnd j)
  choose C hC hmade hCo using hh
  have hP := fun j => polyPtr_composes hv (hC j) (hmade j) hti hcti c any
  refine ⟨_, limit_composes_over (f := hierarchyRun cfg env ti c cti any ds) (o := fun x y => ∀ j, overPtr (o j) x y)
    (D := fun j n => match j with
      | 0 => ⟨fun _ => False, fun _ _ => [], fun _ _ => True, fun _ _ => False, fun _ => 0, fun _ => True⟩
      | j + 1 => polyPtrCodec cfg env ti c ((ds (.hierarchyTo cfg env ti c cti any ds j)).elem cfg env cti any n)
        (ds (.hierarchyTo cfg env ti c cti any ds j)) (singly (C j n)))
    hti (fun n => hierarchyTo_apply n n) (fun j n => hierarchyRun_below hg j n) ?_ ?_ (fun _ => rfl)
    (by rintro _ _ ⟨⟩; rfl) ?_ ?_ ?_, fun _ _ _ _ h => .inr h⟩
  · intro j n m hnm s x
    cases j with
    | zero => exact .refl _
    | succ j => exact serUniquePtr_le ⟨rfl, first_le ((hC j).le hnm)⟩ _ _ s x
  · intro j n
    cases j with
    | zero => exact ⟨fun _ h => h.elim, fun _ _ h => h.elim, fun _ h => h.elim⟩
    | succ j => exact polyPtr_each hv (hC j) hcti c any n
  · intro j x hx
    obtain ⟨n0, h0⟩ := (hP j).ok x hx
    exact ⟨j + 1, n0, h0 n0 (Nat.le_refl _)⟩
  · intro j n x y hx hy
    cases j with
    | zero => exact hx.elim
    | succ j =>
      rcases hy with hy | hy
      · exact (hP j).prior n x y hx (hy j)
      · exact polyPtr_over hv (hC j) (hmade j) hti hcti c any (hCo j) (hm j).classOf n x y hx (hy j)
  · intro j n x y hxy
    cases j with
    | zero => exact hxy.elim
    | succ j => exact ⟨j, (hP j).rel n x y hxy⟩

theorem hierarchyPtr_composes (hK : ∀ k, K.kinds k ↔ k ∈ builtinKinds) (hv : env.Usable R K.kinds cfg)
    {us : Nat → AltUsages V} {ps : Nat → List TypeUse} (hti : ti.Valid) (hcti : cti.Valid)
    (hg : CppType.Grows fun t => .polyPtr cfg env ti c cti any (ds t))
    (hm : ∀ j, (ds (.hierarchyTo cfg env ti c cti any ds j)).Match (us j) (ps j))
    (h : ∀ j, ∀ p ∈ ps j, ∃ C, Composes K cfg p.2.1 p.2.2 C)
    (hfit : ∀ j, (ds (.hierarchyTo cfg env ti c cti any ds j)).Fits env)
    (hnd : ∀ j, (ds (.hierarchyTo cfg env ti c cti any ds j)).classes.Nodup) :
    ∃ C, Composes K cfg (.hierarchyPtr cfg env ti c cti any ds)
      (.limit fun j => .polyPtr env c (ds (.hierarchyTo cfg env ti c cti any ds j)) (us j)) C := by
  choose o ho using fun j => (hm j).over
  obtain ⟨C, hC, _⟩ := hierarchyPtr_composes_over hK hv hti hcti hg ho (fun j => TypeUse.lawful (h j)) hfit hnd
  exact ⟨C, hC⟩

end

end Ckpt
