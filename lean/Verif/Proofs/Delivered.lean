import Verif.Proofs.TornUniverse
import Verif.Proofs.Api
/-!
Reading stopped, but some of the members had been read completely: they are as restored.
-/

set_option autoImplicit false

namespace Ckpt

section
variable {T ι : Type} {K : Kind → Prop} {cfg : Cfg} {E : ι → Elem T} {C : ι → Codec T}

/-- The first `k` members as written. -/
def firstEnc (cfg : Cfg) (E : ι → Elem T) (C : ι → Codec T) : Nat → List ι → List T → Bytes
  | k + 1, t :: ts, x :: xs => nodeEnc cfg cfg.check (E t).ti (C t) x ++ firstEnc cfg E C k ts xs
  | _, _, _ => []

theorem firstEnc_prefix : ∀ (k : Nat) (ts : List ι) (xs : List T),
    firstEnc cfg E C k ts xs <+: membersEnc cfg cfg.check E C ts xs
  | 0, _, _ => List.nil_prefix
  | _ + 1, [], _ => List.nil_prefix
  | _ + 1, _ :: _, [] => List.nil_prefix
  | k + 1, _ :: ts, _ :: xs => (List.prefix_append_right_inj _).2 (firstEnc_prefix k ts xs)

/-- The members that were read completely. -/
theorem members_delivered {R : ι → Residue T} : ∀ {k : Nat} {ts : List ι} {xs ys zs : List T} {s : Ser},
    (∀ t ∈ ts, Law (Scope.quiet K) cfg (E t).ti (E t).apply (C t)) → All2 (fun t x => (C t).P x) ts xs →
    All3 (fun t x y => (C t).prior x y) ts xs ys → s.Reader (Scope.quiet K) → (rest : Bytes) →
    s.remaining = firstEnc cfg E C k ts xs ++ rest →
    ((∃ s', serMembers cfg (ts.map E) s ys = .ok (zs, s')) ∨
      serMembersEnd cfg (ts.map fun t => (E t, R t)) s ys = .ok zs) →
    ∀ (i : Nat) t x, i < k → ts[i]? = some t → xs[i]? = some x → ∃ z, zs[i]? = some z ∧ (C t).rel x z
  | 0, _, _, _, _, _, _, _, _, _, _, _, _ => fun i _ _ h => absurd h (Nat.not_lt_zero i)
  | _ + 1, [], _, _, _, _, _, _, _, _, _, _, _ => fun _ _ _ _ h => by simp at h
  | _ + 1, _ :: _, [], _, _, _, _, _, _, _, _, _, _ => fun _ _ _ _ _ h => by simp at h
  | _ + 1, _ :: _, _ :: _, [], _, _, _, _, hp, _, _, _, _ => by simp [All3] at hp
  | k + 1, t :: ts, x :: xs, y :: ys, zs, s, hL, h, hp, hs, rest, hr, hz => by
    simp only [firstEnc, List.append_assoc] at hr
    rcases (pipe_rd (hL t (by simp)) h.1 hp.1 s hs).1 _ hr with ⟨b, hb, he⟩ | ⟨_, hf, _⟩
    case inr => exact hf.elim
    dsimp only at he
    have htail : ∃ zs', zs = b :: zs' ∧ ((∃ s', serMembers cfg (ts.map E) (s.advance
          (nodeEnc cfg cfg.check (E t).ti (C t) x).length) ys = .ok (zs', s')) ∨
        serMembersEnd cfg (ts.map fun t => (E t, R t)) (s.advance (nodeEnc cfg cfg.check (E t).ti (C t) x).length) ys
          = .ok zs') := by
      rcases hz with ⟨s', hz⟩ | hz
      · simp only [List.map_cons, serMembers, he, Out.bind_eq, Out.bind_ok] at hz
        cases h1 : serMembers cfg (ts.map E) (s.advance (nodeEnc cfg cfg.check (E t).ti (C t) x).length) ys with
        | ok r =>
          rw [h1] at hz
          obtain ⟨r1, r2⟩ := r
          cases hz
          exact ⟨_, rfl, .inl ⟨_, rfl⟩⟩
        | _ => rw [h1] at hz; cases hz
      · simp only [List.map_cons, serMembersEnd, he, Out.after] at hz
        cases h1 : serMembersEnd cfg (ts.map fun t => (E t, R t))
          (s.advance (nodeEnc cfg cfg.check (E t).ti (C t) x).length) ys with
        | ok r =>
          rw [h1] at hz
          cases hz
          exact ⟨_, rfl, .inr rfl⟩
        | _ => rw [h1] at hz; cases hz
    obtain ⟨zs', rfl, hz'⟩ := htail
    have ih := members_delivered (k := k) (ts := ts) (xs := xs) (ys := ys) (fun t' ht => hL t' (by simp [ht])) h.2 hp.2
      (hs.advance (by rw [hr]; simp)) rest (by
        rw [Ser.remaining_advance, hr, List.drop_left]) hz'
    intro i t' x' hi ht hx
    cases i with
    | zero => cases ht; cases hx; exact ⟨b, rfl, hb⟩
    | succ i => exact ih i t' x' (by omega) ht hx

end

/-- The object after a complete call at top level that read the header. -/
theorem topEnd_cases {T : Type} {cfg : Cfg} {e : Elem T} {r : Residue T} {s s1 : Ser} {y z : T}
    (h1 : withTypeIdx cfg e.ti s = .ok s1) (h : traverseTopEnd cfg e r s y = .ok z) :
    (∃ s2, e.apply s1 [y] = .ok ([z], s2)) ∨ r s1 [y] = .ok [z] := by
  have one : ∀ {o : Out (List T)}, (o >>= fun ys => match ys with | [y] => Out.ok y | _ => .ub .badRegion) = .ok z →
      o = .ok [z] := by
    intro o ho
    cases o with
    | ok ys =>
      simp only [Out.bind_eq, Out.bind_ok] at ho
      split at ho
      · cases ho; rfl
      · cases ho
    | _ => cases ho
  unfold traverseTopEnd at h
  split at h
  · next hc =>
    have h := one h
    simp only [traverseEnd, hc, if_true, h1, Out.after] at h
    cases h2 : e.apply s1 [y] with
    | ok q =>
      rw [h2] at h
      obtain ⟨q1, q2⟩ := q
      dsimp only at h
      cases h3 : withMemUsed cfg e.ti q2 [y].length <;> rw [h3] at h <;> cases h <;> exact .inl ⟨_, rfl⟩
    | throw _ => rw [h2] at h; exact .inr h
    | _ => rw [h2] at h; cases h
  · next hc =>
    have hc : cfg.check = false := by simpa using hc
    simp only [h1, Out.after] at h
    cases h2 : pipe cfg e s1 y with
    | ok q =>
      rw [h2] at h
      obtain ⟨q1, q2⟩ := q
      dsimp only at h
      left
      have hq : q1 = z := by
        cases h3 : withMemUsed cfg e.ti q2 1 <;> rw [h3] at h <;> cases h <;> rfl
      subst hq
      simp only [pipe, traverse, hc, Bool.false_eq_true, if_false] at h2
      cases h4 : e.apply s1 [y] with
      | ok p =>
        obtain ⟨p1, p2⟩ := p
        simp only [h4, Out.bind_eq, Out.bind_ok] at h2
        split at h2
        · cases h2; exact ⟨_, rfl⟩
        · cases h2
      | _ => simp [h4] at h2
    | throw _ =>
      rw [h2] at h
      have h := one h
      simp only [traverseEnd, hc] at h
      exact .inr h
    | _ => rw [h2] at h; cases h

/-- The object after a call at top level that read all of it. -/
theorem topEnd_done {T : Type} {cfg : Cfg} {e : Elem T} {r : Residue T} {s s1 s2 : Ser} {y z w : T}
    (h1 : withTypeIdx cfg e.ti s = .ok s1) (h2 : e.apply s1 [y] = .ok ([w], s2)) (h : traverseTopEnd cfg e r s y = .ok z) :
    z = w := by
  unfold traverseTopEnd at h
  split at h
  · next hc =>
    simp only [pipeEnd, traverseEnd, hc, if_true, h1, h2, Out.after] at h
    cases h3 : withMemUsed cfg e.ti s2 [y].length <;> rw [h3] at h <;> cases h <;> rfl
  · next hc =>
    have hc : cfg.check = false := by simpa using hc
    have hp : pipe cfg e s1 y = .ok (w, s2) := by
      simp only [pipe, traverse, hc, h2, Bool.false_eq_true, if_false, Out.bind_eq, Out.bind_ok]
    simp only [h1, hp, Out.after] at h
    cases h3 : withMemUsed cfg e.ti s2 1 <;> rw [h3] at h <;> cases h <;> rfl

/-- An object of a class without bases. -/
theorem class_cases {cfg : Cfg} {env : Env} {c n : Nat} (hE : env.Sound cfg) (hvirt : (env.cls c).virt = false)
    (hc : env.chain c = [c]) {s : Ser} (hs : s.isUnpacking = true) {ys : List Val} {z : Val}
    (h : (∃ s2, dispatch cfg env (n + 1) (.cls c) s [.obj c [ys]] = .ok ([z], s2)) ∨
      dispatchEnd cfg env (n + 1) (.cls c) s [.obj c [ys]] = .ok [z]) :
    ∃ zs, z = .obj c [zs] ∧
      ((∃ s', serMembers cfg ((env.cls c).fields.map fun t => elem cfg env n t) s ys = .ok (zs, s')) ∨
        serMembersEnd cfg ((env.cls c).fields.map fun t => (elem cfg env n t, dispatchEnd cfg env n t)) s ys = .ok zs) := by
  have hvis := visited_unp hE hs c
  have hidx : List.idxOf c (env.chain c) = 0 := by rw [hc]; simp
  let f := onPart env c (fun s p => serMembers cfg (((env.cls c).visited s).map fun t => elem cfg env n t) s p)
  let g := onPartEnd env c (fun s p => serMembersEnd cfg
    (((env.cls c).visited s).map fun t => (elem cfg env n t, dispatchEnd cfg env n t)) s p)
  have e1 : dispatch cfg env (n + 1) (.cls c) = dispatchEach f := by
    show dispatchStep cfg env (dispatch cfg env n) (.cls c) = _
    unfold dispatchStep
    simp only [hvirt]
    rfl
  have e2 : dispatchEnd cfg env (n + 1) (.cls c) = dispatchEachEnd f g := by
    show dispatchStepEnd cfg env (dispatch cfg env n) (dispatchEnd cfg env n) (.cls c) = _
    unfold dispatchStepEnd
    simp only [hvirt]
    rfl
  have hf : ∀ s2, f s (.obj c [ys]) = .ok (z, s2) → ∃ zs, z = .obj c [zs] ∧
      ∃ s', serMembers cfg ((env.cls c).fields.map fun t => elem cfg env n t) s ys = .ok (zs, s') := by
    intro s2 h
    simp only [f, onPart, hidx, List.getElem?_cons_zero, hvis] at h
    cases h1 : serMembers cfg ((env.cls c).fields.map fun t => elem cfg env n t) s ys with
    | ok r =>
      rw [h1] at h
      obtain ⟨r1, r2⟩ := r
      cases h
      exact ⟨r1, rfl, r2, rfl⟩
    | _ => rw [h1] at h; cases h
  have hg : g s (.obj c [ys]) = .ok z → ∃ zs, z = .obj c [zs] ∧
      serMembersEnd cfg ((env.cls c).fields.map fun t => (elem cfg env n t, dispatchEnd cfg env n t)) s ys = .ok zs := by
    intro h
    simp only [g, onPartEnd, hidx, List.getElem?_cons_zero, hvis] at h
    cases h1 : serMembersEnd cfg ((env.cls c).fields.map fun t => (elem cfg env n t, dispatchEnd cfg env n t)) s ys with
    | ok r =>
      rw [h1] at h
      cases h
      exact ⟨r, rfl, rfl⟩
    | _ => rw [h1] at h; cases h
  rcases h with ⟨s2, h⟩ | h
  · rw [e1] at h
    cases h1 : f s (.obj c [ys]) with
    | ok r =>
      obtain ⟨r1, r2⟩ := r
      simp only [dispatchEach, h1, Out.bind_eq, Out.bind_ok] at h
      cases h
      obtain ⟨zs, h2, h3⟩ := hf _ h1
      exact ⟨zs, h2, .inl h3⟩
    | _ => simp [dispatchEach, h1] at h
  · rw [e2] at h
    cases h1 : f s (.obj c [ys]) with
    | ok r =>
      obtain ⟨r1, r2⟩ := r
      simp only [dispatchEachEnd, h1, Out.after, Out.bind_eq, Out.bind_ok] at h
      cases h
      obtain ⟨zs, h2, h3⟩ := hf _ h1
      exact ⟨zs, h2, .inl h3⟩
    | throw e =>
      simp only [dispatchEachEnd, h1, Out.after, Out.bind_eq] at h
      cases h4 : g s (.obj c [ys]) with
      | ok q =>
        rw [h4] at h
        cases h
        obtain ⟨zs, h2, h3⟩ := hg h4
        exact ⟨zs, h2, .inr h3⟩
      | _ => rw [h4] at h; cases h
    | _ => simp [dispatchEachEnd, h1, Out.after] at h

end Ckpt
