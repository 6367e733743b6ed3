import Verif.Proofs.Delivered
import Verif.Proofs.CodecLaw
import Verif.Proofs.Post
/-!
Reading stopped, but some of the elements of a list had been read completely: they are as restored.
-/

set_option autoImplicit false

namespace Ckpt

section
variable {T : Type} {K : Kind → Prop} {cfg : Cfg} {e : Elem T} {c : Codec T}

/-- The first `k` elements as written. -/
def elemsEnc (cfg : Cfg) (ti : TI) (c : Codec T) (k : Nat) (xs : List T) : Bytes :=
  (xs.take k).flatMap (nodeEnc cfg cfg.check ti c)

theorem elemsEnc_prefix (ti : TI) (k : Nat) (xs : List T) :
    elemsEnc cfg ti c k xs <+: xs.flatMap (nodeEnc cfg cfg.check ti c) := by
  refine ⟨(xs.drop k).flatMap (nodeEnc cfg cfg.check ti c), ?_⟩
  rw [elemsEnc, ← List.flatMap_append, List.take_append_drop]

/-- The elements that were read completely, one after the other into what is there. -/
theorem pipeEach_delivered {r : Residue T} (L : Law (Scope.quiet K) cfg e.ti e.apply c) : ∀ {k : Nat} {xs ys zs : List T} {s : Ser},
    (∀ x ∈ xs, c.P x) → List.Forall₂ c.prior xs ys → s.Reader (Scope.quiet K) → (rest : Bytes) →
    s.remaining = elemsEnc cfg e.ti c k xs ++ rest →
    ((∃ s', pipeEach cfg e s ys = .ok (zs, s')) ∨ pipeEachEnd cfg e r s ys = .ok zs) →
    ∀ (i : Nat) x, i < k → xs[i]? = some x → ∃ z, zs[i]? = some z ∧ c.rel x z
  | 0, _, _, _, _, _, _, _, _, _, _ => fun i _ h => absurd h (Nat.not_lt_zero i)
  | _ + 1, [], _, _, _, _, _, _, _, _, _ => fun _ _ _ h => by simp at h
  | _ + 1, _ :: _, [], _, _, _, hp, _, _, _, _ => by cases hp
  | k + 1, x :: xs, y :: ys, zs, s, h, hp, hs, rest, hr, hz => by
    simp only [elemsEnc, List.take_succ_cons, List.flatMap_cons, List.append_assoc] at hr
    obtain ⟨hp1, hp2⟩ := List.forall₂_cons.1 hp
    rcases (pipe_rd L (h x (by simp)) hp1 s hs).1 _ hr with ⟨b, hb, he⟩ | ⟨_, hf, _⟩
    case inr => exact hf.elim
    dsimp only at he
    have htail : ∃ zs', zs = b :: zs' ∧ ((∃ s', pipeEach cfg e (s.advance (nodeEnc cfg cfg.check e.ti c x).length) ys =
          .ok (zs', s')) ∨
        pipeEachEnd cfg e r (s.advance (nodeEnc cfg cfg.check e.ti c x).length) ys = .ok zs') := by
      rcases hz with ⟨s', hz⟩ | hz
      · simp only [pipeEach, he, Out.bind_eq, Out.bind_ok] at hz
        cases h1 : pipeEach cfg e (s.advance (nodeEnc cfg cfg.check e.ti c x).length) ys with
        | ok r =>
          rw [h1] at hz
          obtain ⟨r1, r2⟩ := r
          cases hz
          exact ⟨_, rfl, .inl ⟨_, rfl⟩⟩
        | _ => rw [h1] at hz; cases hz
      · simp only [pipeEachEnd, he, Out.after] at hz
        cases h1 : pipeEachEnd cfg e r (s.advance (nodeEnc cfg cfg.check e.ti c x).length) ys with
        | ok r =>
          rw [h1] at hz
          cases hz
          exact ⟨_, rfl, .inr rfl⟩
        | _ => rw [h1] at hz; cases hz
    obtain ⟨zs', rfl, hz'⟩ := htail
    have ih := pipeEach_delivered L (k := k) (xs := xs) (ys := ys) (fun x' hx => h x' (by simp [hx])) hp2
      (hs.advance (by rw [hr]; simp)) rest (by rw [Ser.remaining_advance, hr, List.drop_left]; rfl) hz'
    intro i x' hi hx
    cases i with
    | zero => cases hx; exact ⟨b, rfl, hb⟩
    | succ i => exact ih i x' (by omega) hx

/-- The same where each element is added after it has been read. -/
theorem loop_delivered (L : Law (Scope.quiet K) cfg e.ti e.apply c) (F : Fresh e c) : ∀ {k : Nat} {xs acc zs : List T} {s : Ser},
    (∀ x ∈ xs, c.P x) → s.Reader (Scope.quiet K) → (rest : Bytes) → s.remaining = elemsEnc cfg e.ti c k xs ++ rest →
    ((∃ s', unpackLoop cfg e (fun acc y => acc ++ [y]) xs.length s acc = .ok (zs, s')) ∨
      unpackLoopEnd cfg e (fun acc y => acc ++ [y]) xs.length s acc = .ok zs) →
    ∃ ws, zs = acc ++ ws ∧ ∀ (i : Nat) x, i < k → xs[i]? = some x → ∃ z, ws[i]? = some z ∧ c.rel x z
  | k, [], acc, zs, s, _, _, _, _, hz => by
    refine ⟨[], ?_, fun _ _ _ h => by simp at h⟩
    rcases hz with ⟨s', hz⟩ | hz <;> cases hz <;> simp
  | 0, x :: xs, acc, zs, s, h, hs, rest, hr, hz => by
    have key : ∀ {n : Nat} {acc : List T} {s : Ser}, ((∃ s', unpackLoop cfg e (fun acc y => acc ++ [y]) n s acc = .ok (zs, s')) ∨
        unpackLoopEnd cfg e (fun acc y => acc ++ [y]) n s acc = .ok zs) → ∃ ws, zs = acc ++ ws := by
      intro n
      induction n with
      | zero => intro acc s hz; exact ⟨[], by rcases hz with ⟨s', hz⟩ | hz <;> cases hz <;> simp⟩
      | succ n ih =>
        intro acc s hz
        rcases hz with ⟨s', hz⟩ | hz
        · obtain ⟨⟨b, s1⟩, h1, hz⟩ := bind_eq_ok hz
          obtain ⟨ws, rfl⟩ := ih (.inl ⟨_, hz⟩)
          exact ⟨b :: ws, by simp⟩
        · unfold unpackLoopEnd at hz
          cases h1 : pipe cfg e s e.fresh with
          | ok q =>
            rw [h1] at hz
            obtain ⟨ws, rfl⟩ := ih (.inr hz)
            exact ⟨q.1 :: ws, by simp⟩
          | throw _ => rw [h1] at hz; cases hz; exact ⟨[], by simp⟩
          | _ => rw [h1] at hz; cases hz
    obtain ⟨ws, rfl⟩ := key hz
    exact ⟨ws, rfl, fun i _ h => absurd h (Nat.not_lt_zero i)⟩
  | k + 1, x :: xs, acc, zs, s, h, hs, rest, hr, hz => by
    simp only [elemsEnc, List.take_succ_cons, List.flatMap_cons, List.append_assoc] at hr
    rcases (pipe_rd L (h x (by simp)) (F.fresh x (h x (by simp))) s hs).1 _ hr with ⟨b, hb, he⟩ | ⟨_, hf, _⟩
    case inr => exact hf.elim
    dsimp only at he
    simp only [List.length_cons, unpackLoop, unpackLoopEnd, he, Out.bind_eq, Out.bind_ok, Out.after] at hz
    obtain ⟨ws, rfl, hw⟩ := loop_delivered L F (k := k) (xs := xs) (fun x' hx => h x' (by simp [hx]))
      (hs.advance (by rw [hr]; simp)) rest (by rw [Ser.remaining_advance, hr, List.drop_left]; rfl) hz
    refine ⟨b :: ws, by simp, fun i x' hi hx => ?_⟩
    cases i with
    | zero => cases hx; exact ⟨b, rfl, hb⟩
    | succ i => exact hw i x' (by omega) hx

/-- Lists and deques. -/
theorem list_delivered (hc : cfg.Valid) {r : Residue T} (L : Law (Scope.quiet K) cfg e.ti e.apply c) (F : Fresh e c) {sz k : Nat}
    {xs ys zs : List T} {s : Ser} (h : SeqOk c xs) (hp : SeqPrior e c xs ys) (hs : s.Reader (Scope.quiet K)) (rest : Bytes)
    (hr : s.remaining = sizeNode cfg cfg.check xs.length ++ (elemsEnc cfg e.ti c k xs ++ rest))
    (hz : (∃ s', serList cfg sz e s ys = .ok (zs, s')) ∨ serListEnd cfg e r s ys = .ok zs) :
    ∀ (i : Nat) x, i < k → xs[i]? = some x → ∃ z, zs[i]? = some z ∧ c.rel x z := by
  rcases (pipeSize_rd (m := ys.length) hc h.lt s hs).1 _ hr with ⟨_, rfl, he⟩ | ⟨_, hf, _⟩
  case inr => exact hf.elim
  have hs2 := hs.advance (n := (sizeNode cfg cfg.check xs.length).length) (by rw [hr]; simp)
  have hr2 : (s.advance (sizeNode cfg cfg.check xs.length).length).remaining = elemsEnc cfg e.ti c k xs ++ rest := by
    rw [Ser.remaining_advance, hr, List.drop_left]
  simp only [serList, serializeContainerSize, hs.not_footprinting, Bool.false_eq_true, if_false, he, Out.bind_eq, Out.bind_ok,
    hs2.unpacking, if_true, serListEnd, Out.after, deserializeOrderedElems, deserializeOrderedElemsEnd] at hz
  cases hcp : e.copyable with
  | true =>
    simp only [hcp, if_true] at hz
    exact pipeEach_delivered L h.all (forall₂_take_replicate xs ys e.fresh (hp.prior hcp) (fun x hx => F.fresh x (h.all x hx)))
      hs2 rest hr2 hz
  | false =>
    simp only [hcp, Bool.false_eq_true, if_false] at hz
    have hy := hp.empty hcp
    subst hy
    obtain ⟨ws, rfl, hw⟩ := loop_delivered L F h.all hs2 rest hr2 hz
    simpa using hw

/-- Queues, into an empty one. -/
theorem queue_delivered (hc : cfg.Valid) (L : Law (Scope.quiet K) cfg e.ti e.apply c) (F : Fresh e c) {sz k : Nat}
    {xs zs : List T} {s : Ser} (h : SeqOk c xs) (hs : s.Reader (Scope.quiet K)) (rest : Bytes)
    (hr : s.remaining = sizeNode cfg cfg.check xs.length ++ (elemsEnc cfg e.ti c k xs ++ rest))
    (hz : (∃ s', serQueue cfg sz e s [] = .ok (zs, s')) ∨ serGrowEnd cfg (fun acc y => acc ++ [y]) e s [] = .ok zs) :
    ∀ (i : Nat) x, i < k → xs[i]? = some x → ∃ z, zs[i]? = some z ∧ c.rel x z := by
  rcases (pipeSize_rd (m := 0) hc h.lt s hs).1 _ hr with ⟨_, rfl, he⟩ | ⟨_, hf, _⟩
  case inr => exact hf.elim
  have hs2 := hs.advance (n := (sizeNode cfg cfg.check xs.length).length) (by rw [hr]; simp)
  have hr2 : (s.advance (sizeNode cfg cfg.check xs.length).length).remaining = elemsEnc cfg e.ti c k xs ++ rest := by
    rw [Ser.remaining_advance, hr, List.drop_left]
  simp only [serQueue, serializeContainerSize, hs.not_footprinting, Bool.false_eq_true, if_false, he, Out.bind_eq, Out.bind_ok,
    hs2.unpacking, if_true, serGrowEnd, Out.after, List.length_nil] at hz
  obtain ⟨ws, rfl, hw⟩ := loop_delivered L F h.all hs2 rest hr2 hz
  simpa using hw

/-- The first member of a pair. -/
theorem pair_delivered {A B : Type} {e1 : Elem A} {e2 : Elem B} {r1 : Residue A} {r2 : Residue B} {c : Codec A}
    (L : Law (Scope.quiet K) cfg e1.ti e1.apply c) {sz : Nat} {x : A} {y z : A × B} {s : Ser} (h : c.P x) (hp : c.prior x y.1)
    (hs : s.Reader (Scope.quiet K)) (rest : Bytes) (hr : s.remaining = nodeEnc cfg cfg.check e1.ti c x ++ rest)
    (hz : (∃ s', serPair cfg sz e1 e2 s y = .ok (z, s')) ∨ serPairEnd cfg e1 r1 e2 r2 s y = .ok z) : c.rel x z.1 := by
  rcases (pipe_rd L h hp s hs).1 _ hr with ⟨b, hb, he⟩ | ⟨_, hf, _⟩
  case inr => exact hf.elim
  dsimp only at he
  rcases hz with ⟨s', hz⟩ | hz
  · simp only [serPair, hs.addBytes, he, Out.bind_eq, Out.bind_ok] at hz
    obtain ⟨⟨q1, q2⟩, -, hz⟩ := bind_eq_ok hz
    cases hz
    exact hb
  · simp only [serPairEnd, he, Out.after] at hz
    obtain ⟨q, -, hz⟩ := bind_eq_ok hz
    cases hz
    exact hb

end
end Ckpt
