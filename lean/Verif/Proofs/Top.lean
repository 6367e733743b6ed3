import Verif.Proofs.Api
/-!
Reading the bytes of an object over an object for which no codec is given: from the function that
serializes one object of the type to the entry points.
-/

set_option autoImplicit false

namespace Ckpt

/-- One computation with a sufficient nesting bound decides the outcome. -/
theorem Yields.at {α : Type} {f : Nat → Out α} (hm : ∀ {n m}, n ≤ m → Out.Le (f n) (f m)) (n0 : Nat) {r : Out α}
    (h : f n0 = r) (hr : r ≠ .fuel) : Yields f r :=
  ⟨n0, fun n hn => ((hm hn).eq_of_ne (by rw [h]; exact hr)).trans h⟩

section
variable {T : Type} {K : Scope} {cfg : Cfg} {e : Elem T}

theorem top_rd_of (hti : e.ti.Valid) {y : T} {p : Bytes} {Q : T → Prop}
    (hr : Rd K (fun s => e.apply s [y]) p (fun l => ∃ z, l = [z] ∧ Q z)) :
    Rd K (fun s => traverseTop cfg e s y) (node cfg true e.ti 1 p) Q := by
  have hpipe : Rd K (fun s => pipe cfg e s y) (node cfg cfg.check e.ti 1 p) Q := by
    refine (only_rd (traverse_rd (cfg := cfg) hti hr) (fun l hl => hl)).congr ?_ rfl (fun _ h => h)
    intro s _
    unfold pipe
    cases traverse cfg e.ti e.apply s [y] with
    | ok r =>
      simp only [Out.bind_eq, Out.bind_ok, only]
      split <;> simp_all
    | _ => rfl
  unfold traverseTop
  cases hc : cfg.check with
  | true =>
    simp only [if_true]
    rw [hc] at hpipe
    exact hpipe
  | false =>
    rw [hc] at hpipe
    simp only [Bool.false_eq_true, if_false, node, if_true]
    have h3 : ∀ z, Q z → Rd K (fun s => withMemUsed' cfg e.ti 1 s >>= fun r => .ok (z, r.2))
        (intBytes cfg.endian 8 (e.ti.sizeof * 1 % 2 ^ 64)) Q := by
      intro z hz
      refine ((withMemUsed_rd (cfg := cfg) (ti := e.ti) (len := 1)).map (fun _ => z)
        (Q' := Q) (fun _ _ => hz)).congr (fun s _ => rfl) rfl (fun _ h => h)
    refine ((withTypeIdx_rd (cfg := cfg) hti).bind (bs' := p ++
      intBytes cfg.endian 8 (e.ti.sizeof * 1 % 2 ^ 64))
      (k := fun r => pipe cfg e r.2 y >>= fun p => withMemUsed' cfg e.ti 1 p.2 >>= fun q => .ok (p.1, q.2))
      (fun _ _ => Rd.bind (by simpa [node] using hpipe) (fun z hz => h3 z hz))).congr ?_ ?_
      (fun _ h => h)
    · intro s _
      simp only [withTypeIdx', withMemUsed', Out.bind_eq, Out.bind_assoc, Out.bind_ok]
    · simp

theorem each_rd {f : Ser → T → Out (T × Ser)} {y : T} {p : Bytes} {Q : T → Prop}
    (hr : Rd K (fun s => f s y) p Q) :
    Rd K (fun s => dispatchEach f s [y]) p (fun l => ∃ z, l = [z] ∧ Q z) := by
  refine (hr.map (fun z => [z]) (Q' := fun l => ∃ z, l = [z] ∧ Q z) (fun z hz => ⟨z, rfl, hz⟩)).congr ?_ rfl
    (fun _ h => h)
  intro s _
  simp [dispatchEach]

end

section
variable {K : Kind → Prop} {cfg : Cfg} {env : Env} {t : Ty}

theorem inPlace_of_rd (hK : ∀ k, k ∈ builtinKinds → K k) {n : Nat} {y : Val} {bs : Bytes} {Q : Val → Prop}
    (h : Rd (Scope.quiet K) (fun s => traverseTop cfg (elem cfg env n t) s y) bs Q) (rest : Bytes) :
    ∃ z, Q z ∧ Yields (fun n => deserializeInPlace cfg (elem cfg env n t) (bs ++ rest) y)
      (.ok (z, bs.length)) := by
  have hr : Ser.Reader (Scope.quiet K) { core := .unpacker (bs ++ rest) 0 0, kind := .unpacker } :=
    ⟨rfl, hK .unpacker (by decide), by simp⟩
  obtain ⟨z, hz, he⟩ := (h.ok (fun _ h => h) hr).1 rest (by simp [Ser.remaining])
  have h1 : deserializeInPlace cfg (elem cfg env n t) (bs ++ rest) y = .ok (z, bs.length) := by
    unfold deserializeInPlace
    rw [he]
    simp [Ser.advance, Ser.count]
  refine ⟨z, hz, n, fun m hm => ?_⟩
  have h2 := (inPlace_le (cfg := cfg) (elem_le cfg env hm t) (bs ++ rest) y).eq_of_ne (by rw [h1]; simp)
  exact h2.trans h1

theorem inStream_of_rd (hK : ∀ k, k ∈ builtinKinds → K k) {n : Nat} {y : Val} {bs : Bytes} {Q : Val → Prop}
    (h : Rd (Scope.quiet K) (fun s => traverseTop cfg (elem cfg env n t) s y) bs Q) (rest : Bytes) :
    ∃ z, Q z ∧ Yields (fun n => deserializeInPlaceFromStream cfg (elem cfg env n t) (bs ++ rest) y)
      (.ok (z, rest)) := by
  have hr : Ser.Reader (Scope.quiet K)
      { core := .streamUnpacker (bs ++ rest) 0, kind := .streamUnpacker } :=
    ⟨rfl, hK .streamUnpacker (by decide), trivial⟩
  obtain ⟨z, hz, he⟩ := (h.ok (fun _ h => h) hr).1 rest (by simp [Ser.remaining])
  have h1 : deserializeInPlaceFromStream cfg (elem cfg env n t) (bs ++ rest) y = .ok (z, rest) := by
    unfold deserializeInPlaceFromStream
    rw [he]
    simp [Ser.advance, Ser.unread]
  refine ⟨z, hz, n, fun m hm => ?_⟩
  have h2 := (inStream_le (cfg := cfg) (elem_le cfg env hm t) (bs ++ rest) y).eq_of_ne (by rw [h1]; simp)
  exact h2.trans h1

end
end Ckpt
