import Verif.Proofs.Ends
import Verif.Proofs.Poly
/-!
What a computation returns if, after reading a known prefix of the input, it returns at all.
-/

set_option autoImplicit false

namespace Ckpt

/-- On every reading serializer whose input starts with `p`, the result of the computation, if any,
satisfies `Q`. -/
def Post (K : Scope) {B : Type} (m : Ser → Out (B × Ser)) (p : Bytes) (Q : B → Prop) : Prop :=
  ∀ s, s.Reader K → ∀ rest, s.remaining = p ++ rest → ∀ b s', m s = .ok (b, s') → Q b

section
variable {K : Scope} {cfg : Cfg} {B C T : Type}

theorem bind_eq_ok {α β : Type} {o : Out α} {f : α → Out β} {r : β} (h : o >>= f = .ok r) :
    ∃ a, o = .ok a ∧ f a = .ok r := by
  cases o <;> first | exact ⟨_, rfl, h⟩ | simp [Out.bind_eq, Out.bind] at h

theorem Post.of {m : Ser → Out (B × Ser)} {Q : B → Prop}
    (h : ∀ s, s.Reader K → ∀ b s', m s = .ok (b, s') → Q b) : Post K m [] Q :=
  fun s hs _ _ b s' hm => h s hs b s' hm

theorem Post.congr {m m' : Ser → Out (B × Ser)} {p : Bytes} {Q : B → Prop} (h : Post K m p Q)
    (hm : ∀ s, s.Reader K → m' s = m s) : Post K m' p Q := by
  intro s hs rest hr b s' he
  rw [hm s hs] at he
  exact h s hs rest hr b s' he

/-- The result of the first computation is passed on. -/
theorem Post.then {m : Ser → Out (B × Ser)} {p : Bytes} {Q : B → Prop} (h : Post K m p Q)
    {k : B × Ser → Out (C × Ser)} {Q' : C → Prop} (hk : ∀ b s c s', Q b → k (b, s) = .ok (c, s') → Q' c) :
    Post K (fun s => m s >>= k) p Q' := by
  intro s hs rest hr c s' he
  obtain ⟨⟨b, s1⟩, h1, h2⟩ := bind_eq_ok he
  exact hk b s1 c s' (h s hs rest hr b s1 h1) h2

theorem Rd.post (hE : ∀ e, ¬ K.errs e) {m : Ser → Out (B × Ser)} {k : B × Ser → Out (C × Ser)} {bs p : Bytes}
    {Q : B → Prop} {Q' : C → Prop} (h1 : Rd K m bs Q) (h2 : ∀ b, Q b → Post K (fun s => k (b, s)) p Q') :
    Post K (fun s => m s >>= k) (bs ++ p) Q' := by
  intro s hs rest hr c s' he
  rw [List.append_assoc] at hr
  obtain ⟨b, hb, hm⟩ := (h1.ok hE hs).1 _ hr
  simp only [Out.bind_eq, hm, Out.bind_ok] at he
  refine h2 b hb _ (hs.advance (by rw [hr]; simp)) rest ?_ c s' he
  rw [Ser.remaining_advance, hr, List.drop_left]

theorem catchDepth_ok {ti : TI} {o : Out B} {r : B} (h : catchDepth ti o = .ok r) : o = .ok r := by
  cases o with
  | throw e => cases e <;> simp [catchDepth] at h
  | _ => simpa [catchDepth] using h

theorem traverse_post (hE : ∀ e, ¬ K.errs e) {ti : TI} (hti : ti.Valid) {h : Handler T} {ys : List T}
    {p : Bytes} {Q : List T → Prop} (hh : Post K (fun s => h s ys) p Q) :
    Post K (fun s => traverse cfg ti h s ys) ((if cfg.check then intBytes cfg.endian 4 ti.idx else []) ++ p) Q := by
  by_cases hc : cfg.check = true
  · simp only [hc, if_true]
    refine ((withTypeIdx_rd (K := K) (cfg := cfg) hti).post hE (k := fun r => catchDepth ti (h r.2 ys) >>= fun q =>
      withMemUsed cfg ti q.2 ys.length >>= fun s => .ok (q.1, s)) (p := p) (Q' := Q) ?_).congr ?_
    · intro _ _
      have h1 : Post K (fun s => catchDepth ti (h s ys)) p Q := fun s hs rest hr b s' he =>
        hh s hs rest hr b s' (catchDepth_ok he)
      refine h1.then (k := fun q => withMemUsed cfg ti q.2 ys.length >>= fun s => .ok (q.1, s)) ?_
      intro b s c s' hb he
      obtain ⟨_, _, h2⟩ := bind_eq_ok he
      simp only [Out.ok.injEq, Prod.mk.injEq] at h2
      exact h2.1 ▸ hb
    · intro s _
      simp only [traverse, hc, if_true, withTypeIdx', Out.bind_eq, Out.bind_assoc, Out.bind_ok]
  · simp only [hc]
    exact hh.congr (fun s _ => by simp [traverse, hc])

theorem pipe_post (hE : ∀ e, ¬ K.errs e) {e : Elem T} (hti : e.ti.Valid) {y : T} {p : Bytes} {Q : T → Prop}
    (hh : Post K (fun s => e.apply s [y]) p (fun ys => ∀ z, ys = [z] → Q z)) :
    Post K (fun s => pipe cfg e s y) ((if cfg.check then intBytes cfg.endian 4 e.ti.idx else []) ++ p) Q := by
  refine ((traverse_post (cfg := cfg) hE hti hh).then (k := only) ?_).congr (fun s _ => pipe_eq _ _ _)
  intro b s c s' hb he
  unfold only at he
  split at he
  · simp only [Out.ok.injEq, Prod.mk.injEq] at he
    exact he.1 ▸ hb _ (by assumption)
  · exact absurd he (by simp)

theorem top_post (hE : ∀ e, ¬ K.errs e) {e : Elem T} (hti : e.ti.Valid) {y : T} {p : Bytes} {Q : T → Prop}
    (hh : Post K (fun s => e.apply s [y]) p (fun ys => ∀ z, ys = [z] → Q z)) :
    Post K (fun s => traverseTop cfg e s y) (intBytes cfg.endian 4 e.ti.idx ++ p) Q := by
  have hp := pipe_post (cfg := cfg) hE hti hh
  by_cases hc : cfg.check = true
  · simp only [hc, if_true] at hp
    exact hp.congr (fun s _ => by simp [traverseTop, hc])
  · simp only [hc, Bool.false_eq_true, if_false, List.nil_append] at hp
    refine ((withTypeIdx_rd (K := K) (cfg := cfg) hti).post hE (k := fun r => pipe cfg e r.2 y >>= fun q =>
      withMemUsed cfg e.ti q.2 1 >>= fun s => .ok (q.1, s)) (p := p) (Q' := Q) (fun _ _ => hp.then (k := fun q =>
      withMemUsed cfg e.ti q.2 1 >>= fun s => .ok (q.1, s)) ?_)).congr ?_
    · intro b s c s' hb he
      obtain ⟨_, _, h2⟩ := bind_eq_ok he
      simp only [Out.ok.injEq, Prod.mk.injEq] at h2
      exact h2.1 ▸ hb
    intro s _
    simp only [traverseTop, hc, Bool.false_eq_true, if_false, withTypeIdx', Out.bind_eq, Out.bind_assoc, Out.bind_ok]

theorem each_post {g : Ser → T → Out (T × Ser)} {y : T} {p : Bytes} {Q : T → Prop} (h : Post K (fun s => g s y) p Q) :
    Post K (fun s => dispatchEach g s [y]) p (fun ys => ∀ z, ys = [z] → Q z) := by
  refine (h.then (k := fun r => dispatchEach g r.2 [] >>= fun q => .ok (r.1 :: q.1, q.2)) ?_).congr (fun _ _ => rfl)
  intro b s c s' hb he z hz
  simp only [dispatchEach, Out.bind_eq, Out.bind_ok, Out.ok.injEq, Prod.mk.injEq] at he
  rw [← he.1] at hz
  simp only [List.cons.injEq, and_true] at hz
  exact hz ▸ hb

/-- What reading a pointer gives whose dynamic class index is `i`. -/
theorem uptr_post_null {e : Elem T} (hE : ∀ e, ¬ K.errs e) (hc : cfg.Valid) {sz : Nat} {vi : Virt T} {i : Nat}
    (hi : i < 2 ^ 32) {Q : T → Prop}
    (hQ : ∀ v, vi.construct i = .ok (some v) → ∀ s z s', pipe cfg e s v = .ok (z, s') → Q z) :
    Post K (fun s => serUniquePtr cfg sz e (some vi) s none)
      (boolNode cfg cfg.check false ++ node cfg cfg.check cfg.tiInt 1 (intBytes cfg.endian 4 i))
      (fun z => ∃ a, z = some a ∧ Q a) := by
  refine ((pipeBool_rd (K := K) hc (b := false) (b' := true)).post hE (k := fun p =>
      if p.1 then .ok (if p.2.isUnpacking then none else none, p.2) else
        reconstructPointedTo cfg e (some vi) p.2 none >>= fun q =>
          match q.1 with
          | none => .ub .nullDeref
          | some t => pipe cfg e q.2 t >>= fun r => .ok (some r.1, r.2)) ?_).congr ?_
  · rintro _ rfl
    simp only [Bool.false_eq_true, if_false]
    have h2 : Post K (fun s => (pipe cfg (intElem cfg) s (2 ^ 32 - 1) >>= fun p =>
        (if p.2.isUnpacking then vi.construct p.1 >>= fun t => .ok (t, p.2) else .ok (none, p.2))) >>= fun q =>
          match q.1 with
          | none => (.ub .nullDeref : Out (Option T × Ser))
          | some t => pipe cfg e q.2 t >>= fun r => .ok (some r.1, r.2))
        (node cfg cfg.check cfg.tiInt 1 (intBytes cfg.endian 4 i) ++ []) (fun z => ∃ a, z = some a ∧ Q a) := by
      refine ((intPipe_rd (K := K) hc (m := 2 ^ 32 - 1) hi).post hE (k := fun p =>
        (if p.2.isUnpacking then vi.construct p.1 >>= fun t => .ok (t, p.2) else .ok (none, p.2)) >>= fun q =>
          match q.1 with
          | none => (.ub .nullDeref : Out (Option T × Ser))
          | some t => pipe cfg e q.2 t >>= fun r => .ok (some r.1, r.2)) ?_).congr ?_
      · rintro _ rfl
        refine Post.of (fun s hs b s' he => ?_)
        simp only [hs.unpacking, if_true] at he
        obtain ⟨⟨v, s0⟩, hc', he⟩ := bind_eq_ok he
        obtain ⟨v', hcon, hc'⟩ := bind_eq_ok hc'
        simp only [Out.ok.injEq, Prod.mk.injEq] at hc'
        obtain ⟨rfl, rfl⟩ := hc'
        cases v' with
        | none => simp at he
        | some v =>
          obtain ⟨⟨a, s1⟩, h1, h2⟩ := bind_eq_ok he
          simp only [Out.ok.injEq, Prod.mk.injEq] at h2
          exact ⟨a, h2.1.symm, hQ v hcon _ _ _ h1⟩
      · intro s _
        simp only [Out.bind_eq, Out.bind_assoc]
    rw [List.append_nil] at h2
    refine h2.congr ?_
    intro s hs
    simp [reconstructPointedTo, hs.unpacking, hs.not_footprinting]
  · intro s hs
    simp [serUniquePtr, hs.not_footprinting]
    rfl

end
end Ckpt
