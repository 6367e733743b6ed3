import Verif.Proofs.SafeUniverse
import Verif.Proofs.Api
import Verif.Spec.Depth
/-!
Reading arbitrary bytes: how many calls are nested.
-/

set_option autoImplicit false

namespace Ckpt

section
variable {cfg : Cfg} {env : Env} {U : UB → Prop} {depth : Nat} {S : Ty → Prop} {rank : Ty → Nat}

theorem Ranked.descends (hR : Ranked env depth S rank) (j : Nat) :
    Descends env S (fun t _ => S t ∧ rank t ≤ j) (fun t _ => S t ∧ rank t ≤ j + 1) where
  vec h := hR.vec h.1
  seq h := hR.seq h.1
  queue h := hR.queue h.1
  oset h := hR.oset h.1
  uset h := hR.uset h.1
  opt h := hR.opt h.1
  variant h := hR.variant h.1
  uptr h := hR.uptr h.1
  pair h := by
    obtain ⟨⟨h1, h2⟩, h3, h4⟩ := hR.pair h.1
    exact ⟨⟨h1, by omega⟩, h3, by omega⟩
  tuple h i t x ht _ := by
    obtain ⟨h1, h2⟩ := hR.tuple h.1 t (List.mem_of_getElem? ht)
    exact ⟨h1, by omega⟩
  arr h x _ := by
    obtain ⟨h1, h2⟩ := hR.arr h.1
    exact ⟨h1, by omega⟩
  cls h p _ i t x ht _ := by
    obtain ⟨h1, h2⟩ := hR.cls h.1 t (List.mem_of_getElem? ht)
    exact ⟨h1, by omega⟩
  poly h hv hc k hk p _ i t x ht _ := by
    obtain ⟨h1, h2⟩ := hR.poly h.1 hv _ hc k hk t (List.mem_of_getElem? ht)
    exact ⟨h1, by omega⟩

/-- With fewer than `m + 1` bytes left, `depth * m + j` nested calls suffice for the types numbered up to `j`. -/
theorem dispatch_depth (hE : env.Sound cfg) (hU : ∀ u, Hazard cfg env u → U u) (hR : Ranked env depth S rank) :
    ∀ (n m j : Nat), depth * m + j ≤ n → j ≤ depth → ∀ (t : Ty) (Q : Nat → Prop),
      HS U (m + 1) (fun x => Inv env Q t x ∧ (S t ∧ rank t ≤ j)) (Inv env Q t) (fun _ => dispatch cfg env n t) := by
  intro n
  induction n with
  | zero =>
    intro m j hn hj t Q s xs _ hne hx
    cases xs with
    | nil => exact absurd rfl hne
    | cons x xs =>
      have := (hx x (by simp)).2
      have := hR.pos this.1
      omega
  | succ n ih =>
    intro m j hn hj t Q
    cases j with
    | zero =>
      intro s xs _ hne hx
      cases xs with
      | nil => exact absurd rfl hne
      | cons x xs =>
        have := (hx x (by simp)).2
        have := hR.pos this.1
        omega
    | succ j =>
      refine step (h := fun _ => dispatch cfg env n) hE hU (hR.descends j) (fun t ht Q => ?_)
        (fun t Q => ih m j (by omega) (by omega) t Q) t Q
      cases m with
      | zero => exact fun s xs hs _ _ => hs.zero.elim
      | succ m =>
        have := ih m depth (by rw [Nat.mul_succ] at hn; omega) (Nat.le_refl _) t Q
        exact this.imp (fun x hx => ⟨hx, ht, hR.le ht⟩) (fun _ => id)

/-- The same through `Traverse::with` at top level. -/
theorem traverseTop_depth (hE : env.Sound cfg) (hU : ∀ u, Hazard cfg env u → U u) {t : Ty}
    (ht : NestsUpTo env depth t) {s : Ser} {m n : Nat} (hn : depth * (m + 1) ≤ n) (hs : Reads U (m + 1) s) {x : Val}
    {Q : Nat → Prop} (hx : Inv env Q t x) :
    Good U (m + 1) (Inv env Q t) (traverseTop cfg (elem cfg env n t) s x) := by
  obtain ⟨S, rank, hR, hS⟩ := ht
  have hp : ∀ s, Reads U (m + 1) s → Evtl U (m + 1) (Inv env Q t) (fun _ => pipe cfg (elem cfg env n t) s x) :=
    fun s hs => pipe_ev (e := elem cfg env 0 t) (dispatch_depth hE hU hR n m depth hn (Nat.le_refl _) t Q) hs
      ⟨hx, hS, hR.le hS⟩
  refine Evtl.of_const ?_
  unfold traverseTop
  by_cases hc : cfg.check = true
  · simp only [hc, if_true]
    exact hp s hs
  · simp only [hc]
    refine Evtl.bindS (withTypeIdx_good hs _) (fun s' hs' => ?_)
    refine Evtl.bind (hp s' hs') (fun r hr hs'' => ?_)
    exact Evtl.bindS (withMemUsed_good hs'' _ _) (fun s3 hs3 => Evtl.pure hr hs3)

end
end Ckpt
