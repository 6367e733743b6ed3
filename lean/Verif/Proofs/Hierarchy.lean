import Verif.Spec.Hierarchy
import Verif.Proofs.Virtual
import Mathlib.Tactic.Tauto
/-!
# Declared hierarchies: lemmas
-/

set_option autoImplicit false

namespace Ckpt

variable {P : Type} {cfg : Cfg} {reg : SerReg} {objs : ObjReg} {root : Nat} {part : Nat → Elem P}

theorem serChain_cons (k : Nat) (ks : List Nat) (s : Ser) (p : P) (ps : List P) :
    serChain cfg reg root part (k :: ks) s (p :: ps) =
      serPart cfg reg root part k s p >>= fun r =>
        serChain cfg reg root part ks r.2 ps >>= fun r' => .ok (r.1 :: r'.1, r'.2) := by
  simp only [serChain, serPart, Out.bind_eq]
  cases reg.lookup cfg.ndebug k root s.kind <;> simp only [Out.bind]
  split <;> simp only [Out.bind]

theorem serChain_snoc (k : Nat) (p : P) : ∀ (ks : List Nat) (s : Ser) (ps : List P), ks.length = ps.length →
    serChain cfg reg root part (ks ++ [k]) s (ps ++ [p]) =
      serChain cfg reg root part ks s ps >>= fun r => serPart cfg reg root part k r.2 p >>= fun r' =>
        .ok (r.1 ++ [r'.1], r'.2)
  | [], s, [], _ => by
    simp only [List.nil_append, serChain_cons, serChain, Out.bind_eq, Out.bind]
  | k' :: ks, s, p' :: ps, h => by
    simp only [List.cons_append, serChain_cons]
    rw [Out.bind_eq, Out.bind_eq, Out.bind_eq]
    cases serPart cfg reg root part k' s p' with
    | ok r =>
      simp only [Out.bind, Out.bind_eq]
      rw [serChain_snoc k p ks r.2 ps (by simpa using h)]
      simp only [Out.bind_eq]
      cases serChain cfg reg root part ks r.2 ps <;> simp only [Out.bind]
      rename_i a
      cases serPart cfg reg root part k a.2 p <;> simp only [Out.bind, List.cons_append]
    | _ => rfl

theorem declaredParts_length : ∀ (cs : Declared) (ps : List P), ps.length = cs.length + 1 →
    (declaredParts cs ps).length = (declaredClasses root cs).length
  | [], ps, h => by simp [declaredParts, declaredClasses]; simpa using h
  | (c, none) :: cs, p :: ps, h => by
    have := declaredParts_length cs ps (by simpa using h)
    simpa [declaredParts, declaredClasses] using this
  | (c, some q) :: cs, p :: ps, h => by
    have := declaredParts_length cs ps (by simpa using h)
    simpa [declaredParts, declaredClasses] using this

theorem serOnly_none (c : Nat) (cs : Declared) (s : Ser) (p : P) (ps : List P) :
    serOnlyDeclared cfg reg root part ((c, none) :: cs) s (p :: ps) =
      serOnlyDeclared cfg reg root part cs s ps >>= fun r => .ok (p :: r.1, r.2) := by
  simp only [serOnlyDeclared, declaredClasses, declaredParts, replaceParts]
  simp only [List.filter_cons, Option.isSome_none, Bool.false_eq_true, if_false, Out.bind_eq]
  cases serChain cfg reg root part (root :: ((cs.filter (·.2.isSome)).map (·.1)).reverse) s (declaredParts cs ps).reverse <;>
    simp only [Out.bind]

theorem serOnly_some (c q : Nat) (cs : Declared) (s : Ser) (p : P) (ps : List P) (h : ps.length = cs.length + 1) :
    serOnlyDeclared cfg reg root part ((c, some q) :: cs) s (p :: ps) =
      serOnlyDeclared cfg reg root part cs s ps >>= fun r => serPart cfg reg root part c r.2 p >>= fun r' =>
        .ok (r'.1 :: r.1, r'.2) := by
  simp only [serOnlyDeclared, declaredParts]
  have e : declaredClasses root ((c, some q) :: cs) = declaredClasses root cs ++ [c] := by
    simp [declaredClasses]
  rw [e, List.reverse_cons, serChain_snoc _ _ _ _ _ (by rw [List.length_reverse, declaredParts_length cs ps h])]
  simp only [Out.bind_eq]
  cases serChain cfg reg root part (declaredClasses root cs) s (declaredParts cs ps).reverse <;> simp only [Out.bind]
  rename_i a
  cases serPart cfg reg root part c a.2 p <;> simp only [Out.bind]
  simp [replaceParts]

/-- The class whose function is found when it is looked up from the most derived class. -/
def firstDeclared (root : Nat) : Declared → Nat
  | [] => root
  | (c, some _) :: _ => c
  | (_, none) :: cs => firstDeclared root cs

theorem firstDeclared_mem : ∀ cs : Declared, firstDeclared root cs = root ∨ firstDeclared root cs ∈ cs.map (·.1)
  | [] => .inl rfl
  | (c, some _) :: _ => .inr (by simp [firstDeclared])
  | (_, none) :: cs => (firstDeclared_mem cs).imp id fun h => by
    simp only [List.map_cons, List.mem_cons]; exact .inr h

/-- Distinct classes have distinct indices. -/
theorem idx_ne {a b : Nat} (ha : a ∈ objs) (hab : a ≠ b) : objs.idxOf a ≠ objs.idxOf b := by
  intro h
  unfold ObjReg.idxOf at h
  exact hab ((List.idxOf_inj ha).1 h)

theorem assertTypeIdxMatch_eq (nd : Bool) (i : Nat) (e : Option Nat) :
    assertTypeIdxMatch nd i e = if nd = true ∨ e = none ∨ e = some i then .ok () else .abort := by
  unfold assertTypeIdxMatch Out.assertThat
  cases nd <;> cases e <;> simp

theorem complete_cons_some (b r : Nat) (cs : Declared) : Complete ((b, some r) :: cs) ↔ Complete cs := by
  simp [Complete]

theorem not_complete_cons_none (b : Nat) (cs : Declared) : ¬ Complete ((b, none) :: cs) := by
  intro h
  simpa using h (b, none) (by simp)

/-- When the call goes through, and what it does otherwise. -/
def Checks (cfg : Cfg) (objs : ObjReg) (root : Nat) (expected : Option Nat) (cs : Declared) : Prop :=
  cfg.ndebug = true ∨ ((expected = none ∨ expected = some (objs.idxOf (firstDeclared root cs))) ∧ CompleteBelow cs)

theorem serDeclared_eq : ∀ (cs : Declared) (want expected : Option Nat) (s : Ser) (ps : List P),
    ps.length = cs.length + 1 → NamesDirect root cs → (cs.map (·.1) ++ [root]).Nodup → (∀ c ∈ cs, c.1 ∈ objs) →
    (want = none ∨ want = some (directBase root cs)) →
    (Checks cfg objs root expected cs →
      serDeclared cfg reg objs root part want expected cs s ps = serOnlyDeclared cfg reg root part cs s ps) ∧
    (¬ Checks cfg objs root expected cs →
      serDeclared cfg reg objs root part want expected cs s ps = .abort)
  | [], want, expected, s, [p], _, _, _, _, hw => by
    have hw' : want.all (· == root) = true := by
      rcases hw with rfl | rfl <;> simp [directBase]
    simp only [serDeclared, hw', if_true, assertTypeIdxMatch_eq, firstDeclared, CompleteBelow, and_true, Checks,
      serOnlyDeclared, declaredClasses, declaredParts, List.filter_nil, List.map_nil, List.reverse_nil,
      List.reverse_cons, List.nil_append, serChain_cons, serChain]
    refine ⟨fun hb => ?_, fun hb => ?_⟩
    · rw [if_pos hb]
      simp only [Out.bind_eq, Out.bind]
      cases serPart cfg reg root part root s p <;> simp [Out.bind, replaceParts]
    · rw [if_neg hb]
      rfl
  | (c, none) :: cs, want, expected, s, p :: ps, hl, hn, hd, ho', hw => by
    have hw' : want.all (· == c) = true := by
      rcases hw with rfl | rfl <;> simp [directBase]
    obtain ⟨h1, h2⟩ := serDeclared_eq cs none expected s ps (by simpa using hl) hn.2
      (by simpa using (List.nodup_cons.1 hd).2) (fun c hc => ho' c (by simp [hc])) (.inl rfl)
    simp only [serDeclared, hw', if_true, serOnly_none]
    refine ⟨fun h => ?_, fun h => ?_⟩
    · rw [h1 h]
    · rw [h2 h]; rfl
  | (c, some q) :: cs, want, expected, s, p :: ps, hl, hn, hd, ho', hw => by
    have hw' : want.all (· == c) = true := by
      rcases hw with rfl | rfl <;> simp [directBase]
    have hq : q = directBase root cs := hn.1 q rfl
    have hl' : ps.length = cs.length + 1 := by simpa using hl
    have hd' : (cs.map (·.1) ++ [root]).Nodup := by
      simp only [List.map_cons, List.cons_append] at hd
      exact (List.nodup_cons.1 hd).2
    obtain ⟨h1, h2⟩ := serDeclared_eq cs (some q) (some (objs.idxOf q)) s ps hl' hn.2 hd'
      (fun c hc => ho' c (by simp [hc])) (.inr (by rw [hq]))
    have hiff : Checks cfg objs root (some (objs.idxOf q)) cs ↔ cfg.ndebug = true ∨ Complete cs := by
      unfold Checks
      rw [hq]
      match cs, hd', ho' with
      | [], _, _ => simp [directBase, firstDeclared, CompleteBelow, Complete]
      | (b, some r) :: cs, _, _ =>
        rw [complete_cons_some]
        simp [directBase, firstDeclared, CompleteBelow]
      | (b, none) :: cs, hd', ho' =>
        have hne : objs.idxOf b ≠ objs.idxOf (firstDeclared root cs) := by
          refine idx_ne (ho' (b, none) (by simp)) (fun h => ?_)
          simp only [List.map_cons, List.cons_append] at hd'
          have hm := (List.nodup_cons.1 hd').1
          rcases firstDeclared_mem (root := root) cs with h' | h'
          · exact hm (by rw [h, h']; simp)
          · exact hm (by rw [h]; exact List.mem_append_left _ h')
        simp [directBase, firstDeclared, not_complete_cons_none, hne]
    rw [hiff] at h1 h2
    simp only [serDeclared, hw', if_true, assertTypeIdxMatch_eq, serOnly_some c q cs s p ps hl']
    have hck : Checks cfg objs root expected ((c, some q) :: cs) ↔
        cfg.ndebug = true ∨ ((expected = none ∨ expected = some (objs.idxOf c)) ∧ Complete cs) := Iff.rfl
    rw [hck]
    refine ⟨fun h => ?_, fun h => ?_⟩
    · rw [if_pos (h.imp id And.left), h1 (h.imp id And.right)]
      rfl
    · by_cases hb : cfg.ndebug = true ∨ expected = none ∨ expected = some (ObjReg.idxOf objs c)
      · rw [if_pos hb, h2 (by tauto)]
        rfl
      · rw [if_neg hb]
        rfl
  | [], _, _, _, [], hl, _, _, _, _ => by simp at hl
  | [], _, _, _, _ :: _ :: _, hl, _, _, _, _ => by simp at hl
  | _ :: _, _, _, _, [], hl, _, _, _, _ => by simp at hl

end Ckpt
