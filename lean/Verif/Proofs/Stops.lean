import Verif.Proofs.Post
/-!
Computations that end the program or throw after reading a known prefix of the input.
-/

set_option autoImplicit false

namespace Ckpt

/-- How a computation ends early: the program is ended, or an exception other than `serialization_error`. -/
inductive Halt
  | abort
  | user (n : Nat)

/-- The outcome. -/
def Halt.out {B : Type} : Halt → Out B
  | .abort => .abort
  | .user n => .throw (.user n)

/-- On every reading serializer whose input starts with `p` the computation ends this way. -/
def Stops (K : Scope) {B : Type} (m : Ser → Out (B × Ser)) (p : Bytes) (h : Halt) : Prop :=
  ∀ s, s.Reader K → ∀ rest, s.remaining = p ++ rest → m s = h.out

section
variable {K : Scope} {cfg : Cfg} {B C T : Type} {h : Halt}

theorem Halt.bind_out {B C : Type} (h : Halt) (f : B → Out C) : (h.out : Out B) >>= f = h.out := by
  cases h <;> rfl

theorem Halt.catchDepth_out {B : Type} (h : Halt) (ti : TI) : catchDepth ti (h.out : Out B) = h.out := by
  cases h <;> rfl

theorem Stops.congr {m m' : Ser → Out (B × Ser)} {p : Bytes} (hs : Stops K m p h)
    (hm : ∀ s, s.Reader K → m' s = m s) : Stops K m' p h := by
  intro s hr rest hp
  rw [hm s hr]; exact hs s hr rest hp

theorem Stops.then {m : Ser → Out (B × Ser)} {p : Bytes} (hs : Stops K m p h) {k : B × Ser → Out (C × Ser)} :
    Stops K (fun s => m s >>= k) p h := by
  intro s hr rest hp
  dsimp only
  rw [hs s hr rest hp, h.bind_out]

theorem Rd.stops (hE : ∀ e, ¬ K.errs e) {m : Ser → Out (B × Ser)} {k : B × Ser → Out (C × Ser)} {bs p : Bytes}
    {Q : B → Prop} (h1 : Rd K m bs Q) (h2 : ∀ b, Q b → Stops K (fun s => k (b, s)) p h) :
    Stops K (fun s => m s >>= k) (bs ++ p) h := by
  intro s hs rest hr
  rw [List.append_assoc] at hr
  obtain ⟨b, hb, hm⟩ := (h1.ok hE hs).1 _ hr
  simp only [Out.bind_eq, hm, Out.bind_ok]
  refine h2 b hb _ (hs.advance (by rw [hr]; simp)) rest ?_
  rw [Ser.remaining_advance, hr, List.drop_left]

theorem traverse_stops (hE : ∀ e, ¬ K.errs e) {ti : TI} (hti : ti.Valid) {g : Handler T} {ys : List T}
    {p : Bytes} (hh : Stops K (fun s => g s ys) p h) :
    Stops K (fun s => traverse cfg ti g s ys) ((if cfg.check then intBytes cfg.endian 4 ti.idx else []) ++ p) h := by
  by_cases hc : cfg.check = true
  · simp only [hc, if_true]
    refine ((withTypeIdx_rd (K := K) (cfg := cfg) hti).stops hE (k := fun r => catchDepth ti (g r.2 ys) >>= fun q =>
      withMemUsed cfg ti q.2 ys.length >>= fun s => .ok (q.1, s)) (p := p) ?_).congr ?_
    · intro _ _
      have h1 : Stops K (fun s => catchDepth ti (g s ys)) p h := fun s hs rest hr => by
        show catchDepth ti (g s ys) = _
        rw [show g s ys = h.out from hh s hs rest hr, h.catchDepth_out]
      exact h1.then
    · intro s _
      simp only [traverse, hc, if_true, withTypeIdx', Out.bind_eq, Out.bind_assoc, Out.bind_ok]
  · simp only [hc]
    exact hh.congr (fun s _ => by simp [traverse, hc])

theorem pipe_stops (hE : ∀ e, ¬ K.errs e) {e : Elem T} (hti : e.ti.Valid) {y : T} {p : Bytes}
    (hh : Stops K (fun s => e.apply s [y]) p h) :
    Stops K (fun s => pipe cfg e s y) ((if cfg.check then intBytes cfg.endian 4 e.ti.idx else []) ++ p) h :=
  ((traverse_stops (cfg := cfg) hE hti hh).then (k := only)).congr (fun _ _ => pipe_eq _ _ _)

theorem top_stops (hE : ∀ e, ¬ K.errs e) {e : Elem T} (hti : e.ti.Valid) {y : T} {p : Bytes}
    (hh : Stops K (fun s => e.apply s [y]) p h) :
    Stops K (fun s => traverseTop cfg e s y) (intBytes cfg.endian 4 e.ti.idx ++ p) h := by
  have hp := pipe_stops (cfg := cfg) hE hti hh
  by_cases hc : cfg.check = true
  · simp only [hc, if_true] at hp
    exact hp.congr (fun s _ => by simp [traverseTop, hc])
  · simp only [hc, Bool.false_eq_true, if_false, List.nil_append] at hp
    refine ((withTypeIdx_rd (K := K) (cfg := cfg) hti).stops hE (k := fun r => pipe cfg e r.2 y >>= fun q =>
      withMemUsed cfg e.ti q.2 1 >>= fun s => .ok (q.1, s)) (p := p) (fun _ _ => hp.then)).congr ?_
    intro s _
    simp only [traverseTop, hc, Bool.false_eq_true, if_false, withTypeIdx', Out.bind_eq, Out.bind_assoc, Out.bind_ok]

theorem each_stops {g : Ser → T → Out (T × Ser)} {y : T} {p : Bytes} (hs : Stops K (fun s => g s y) p h) :
    Stops K (fun s => dispatchEach g s [y]) p h :=
  (hs.then (k := fun r => dispatchEach g r.2 [] >>= fun q => .ok (r.1 :: q.1, q.2))).congr (fun _ _ => rfl)

end
end Ckpt
