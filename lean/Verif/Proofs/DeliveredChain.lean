import Verif.Proofs.Delivered
import Verif.Proofs.UniverseLaw
import Verif.Proofs.Virtual
/-!
Reading an object of a polymorphic class stopped, but the parts of some of its classes had been read completely: they are
as restored.
-/

set_option autoImplicit false

namespace Ckpt

section
variable {K : Kind → Prop} {cfg : Cfg} {env : Env} {E : Ty → Elem Val} {C : Ty → Codec Val}

/-- The parts of the classes `ks` as written. -/
def partsEnc (cfg : Cfg) (env : Env) (E : Ty → Elem Val) (C : Ty → Codec Val) (ks : List Nat) (ps : List (List Val)) : Bytes :=
  chainEnc cfg cfg.check (fun k => env.ti (.cls k)) (fun k p => membersEnc cfg cfg.check E C (env.cls k).fields p) ks ps

theorem partsEnc_prefix : ∀ (j : Nat) (ks : List Nat) (ps : List (List Val)),
    partsEnc cfg env E C (ks.take j) (ps.take j) <+: partsEnc cfg env E C ks ps
  | 0, _, _ => by simp [partsEnc, chainEnc]
  | _ + 1, [], _ => by simp [partsEnc, chainEnc]
  | _ + 1, _ :: _, [] => by simp [partsEnc, chainEnc]
  | j + 1, _ :: ks, _ :: ps => (List.prefix_append_right_inj _).2 (partsEnc_prefix j ks ps)

/-- What is left of the parts when reading them throws. -/
def chainOfEnd (cfg : Cfg) (env : Env) (E : Ty → Elem Val) (R : Ty → Residue Val) (root : Nat) (ks : List Nat) (s : Ser)
    (ps : List (List Val)) : Out (List (List Val)) :=
  serChainEnd cfg env.serReg root
    (fun k => partElem (env.ti (.cls k))
      (fun s ps => dispatchEach (fun s p => serMembers cfg (((env.cls k).visited s).map E) s p) (s.setVdis false) ps) [])
    (fun k s ps => dispatchEachEnd (fun s p => serMembers cfg (((env.cls k).visited s).map E) s p)
      (fun s p => serMembersEnd cfg (((env.cls k).visited s).map fun t => (E t, R t)) s p) (s.setVdis false) ps) ks s ps

/-- The parts that were read completely. -/
theorem chain_delivered {R : Ty → Residue Val} (hti : ∀ t, (env.ti t).Valid) (hE : ∀ t, (E t).ti = env.ti t)
    (hL : ∀ t, Law (Scope.quiet K) cfg (E t).ti (E t).apply (C t)) (hA : env.AsymOk (Scope.quiet K) cfg) {root : Nat} :
    ∀ {j : Nat} {ks : List Nat} {ps qs zs : List (List Val)} {s : Ser},
    (∀ k ∈ ks, ∀ kd, K kd → env.serReg.lookup cfg.ndebug k root kd = .ok kd) →
    All2 (fun k p => All2 (fun t x => (C t).P x) (env.cls k).fields p) ks ps →
    All3 (fun k p q => (partCodec E C cfg (env.ti (.cls k)) (env.cls k).fields (env.cls k).rfields).prior p q) ks ps qs →
    s.Reader (Scope.quiet K) → (rest : Bytes) → s.remaining = partsEnc cfg env E C (ks.take j) (ps.take j) ++ rest →
    ((∃ s', chainOf cfg env E root ks s qs = .ok (zs, s')) ∨ chainOfEnd cfg env E R root ks s qs = .ok zs) →
    ∀ (i : Nat) k p, i < j → ks[i]? = some k → ps[i]? = some p → ∃ z, zs[i]? = some z ∧
      (partCodec E C cfg (env.ti (.cls k)) (env.cls k).fields (env.cls k).rfields).rel p z
  | 0, _, _, _, _, _, _, _, _, _, _, _, _ => fun i _ _ h => absurd h (Nat.not_lt_zero i)
  | _ + 1, [], _, _, _, _, _, _, _, _, _, _, _ => fun _ _ _ _ h => by simp at h
  | _ + 1, _ :: _, [], _, _, _, _, _, _, _, _, _, _ => fun _ _ _ _ _ h => by simp at h
  | _ + 1, _ :: _, _ :: _, [], _, _, _, _, hp, _, _, _, _ => by simp [All3] at hp
  | j + 1, k :: ks, p :: ps, q :: qs, zs, s, hk, h, hp, hs, rest, hr, hz => by
    have hl : env.serReg.lookup cfg.ndebug k root s.kind = .ok s.kind := hk k (by simp) _ hs.2.1
    simp only [List.take_succ_cons, partsEnc, chainEnc, List.append_assoc] at hr
    rcases (pipe_rd (e := partElem (env.ti (.cls k))
      (dispatchEach (fun s p => serMembers cfg (((env.cls k).visited s).map E) s p)) [])
      (cls_law hti hE hL hA k) (x := p) (y := q) h.1 hp.1 s hs).1 _ hr with ⟨b, hb, he⟩ | ⟨_, hf, _⟩
    case inr => exact hf.elim
    dsimp only at he
    generalize hlen : (nodeEnc cfg cfg.check (partElem (env.ti (.cls k))
      (dispatchEach (fun s p => serMembers cfg (((env.cls k).visited s).map E) s p)) []).ti
      (partCodec E C cfg (env.ti (.cls k)) (env.cls k).fields (env.cls k).rfields) p).length = len at he
    have htail : ∃ zs', zs = b :: zs' ∧ ((∃ s', chainOf cfg env E root ks (s.advance len) qs = .ok (zs', s')) ∨
        chainOfEnd cfg env E R root ks (s.advance len) qs = .ok zs') := by
      rcases hz with ⟨s', hz⟩ | hz
      · unfold chainOf at hz
        rw [serChain_eq (fun k s p => serMembers cfg (((env.cls k).visited s).map E) s p) _ _ hs.1 hl, he] at hz
        simp only [Out.bind_eq, Out.bind_ok] at hz
        change (chainOf cfg env E root ks (s.advance len) qs).bind _ = _ at hz
        cases h1 : chainOf cfg env E root ks (s.advance len) qs with
        | ok r =>
          rw [h1] at hz
          obtain ⟨r1, r2⟩ := r
          cases hz
          exact ⟨_, rfl, .inl ⟨_, rfl⟩⟩
        | _ => rw [h1] at hz; cases hz
      · have he' := (pipe_part cfg (env.ti (.cls k))
          (dispatchEach (fun s p => serMembers cfg (((env.cls k).visited s).map E) s p)) [] hs.1 q).trans he
        simp only [chainOfEnd, serChainEnd, hl, Out.after, ne_eq, not_true_eq_false, if_false, he'] at hz
        change (chainOfEnd cfg env E R root ks (s.advance len) qs).bind _ = _ at hz
        cases h1 : chainOfEnd cfg env E R root ks (s.advance len) qs with
        | ok r =>
          rw [h1] at hz
          cases hz
          exact ⟨_, rfl, .inr rfl⟩
        | _ => rw [h1] at hz; cases hz
    obtain ⟨zs', rfl, hz'⟩ := htail
    subst hlen
    have ih := chain_delivered (j := j) (ks := ks) (ps := ps) (qs := qs) hti hE hL hA (fun k' hk' => hk k' (by simp [hk']))
      h.2 hp.2 (hs.advance (by
        rw [hr]
        simp only [List.length_append]
        exact Nat.le_add_right _ _)) rest (by
        rw [Ser.remaining_advance, hr]
        exact List.drop_left) hz'
    intro i k' p' hi hk' hp'
    cases i with
    | zero => cases hk'; cases hp'; exact ⟨b, rfl, hb⟩
    | succ i => exact ih i k' p' (by omega) hk' hp'

end

/-- An object of a polymorphic class. -/
theorem chain_cases {cfg : Cfg} {env : Env} {c n : Nat} (hvirt : (env.cls c).virt = true) {s : Ser} (hs : s.vdis = false)
    {ys : List (List Val)} {z : Val}
    (h : (∃ s2, dispatch cfg env (n + 1) (.cls c) s [.obj c ys] = .ok ([z], s2)) ∨
      dispatchEnd cfg env (n + 1) (.cls c) s [.obj c ys] = .ok [z]) :
    ∃ zs, z = .obj c zs ∧ ((∃ s', chainOf cfg env (elem cfg env n) (env.root c) (env.chain c) s ys = .ok (zs, s')) ∨
      chainOfEnd cfg env (elem cfg env n) (dispatchEnd cfg env n) (env.root c) (env.chain c) s ys = .ok zs) := by
  rcases h with ⟨s2, h⟩ | h
  · have e1 : dispatch cfg env (n + 1) (.cls c) s [.obj c ys] =
        (chainOf cfg env (elem cfg env n) (env.root c) (env.chain c) s ys >>= fun r => .ok ([Val.obj c r.1], r.2)) := by
      show dispatchStep cfg env (dispatch cfg env n) (.cls c) _ _ = _
      unfold dispatchStep
      simp only [hvirt, if_true, hs]
      rfl
    rw [e1] at h
    cases h1 : chainOf cfg env (elem cfg env n) (env.root c) (env.chain c) s ys with
    | ok r =>
      rw [h1] at h
      obtain ⟨r1, r2⟩ := r
      cases h
      exact ⟨_, rfl, .inl ⟨_, rfl⟩⟩
    | _ => rw [h1] at h; cases h
  · have e2 : dispatchEnd cfg env (n + 1) (.cls c) s [.obj c ys] =
        (chainOfEnd cfg env (elem cfg env n) (dispatchEnd cfg env n) (env.root c) (env.chain c) s ys >>= fun r =>
          .ok [Val.obj c r]) := by
      show dispatchStepEnd cfg env (dispatch cfg env n) (dispatchEnd cfg env n) (.cls c) _ _ = _
      unfold dispatchStepEnd
      simp only [hvirt, if_true, hs]
      rfl
    rw [e2] at h
    cases h1 : chainOfEnd cfg env (elem cfg env n) (dispatchEnd cfg env n) (env.root c) (env.chain c) s ys with
    | ok r =>
      rw [h1] at h
      cases h
      exact ⟨_, rfl, .inr rfl⟩
    | _ => rw [h1] at h; cases h

end Ckpt
