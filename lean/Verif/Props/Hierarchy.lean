import Verif.Proofs.Hierarchy
import Verif.Props.Virtual
/-!
# Missing declarations in class hierarchies (C60)
-/

set_option autoImplicit false

namespace Ckpt

variable {P : Type} {cfg : Cfg} {reg : SerReg} {objs : ObjReg} {root : Nat} {part : Nat → Elem P} {cs : Declared}

/-- C60: if every class is declared with its direct base, the object is serialized class by class from the
root down to its dynamic class, and its type index is that of its dynamic class. -/
theorem C60_declared (hn : NamesDirect root cs) (hc : Complete cs) (hd : (cs.map (·.1) ++ [root]).Nodup)
    (ho : ∀ c ∈ cs, c.1 ∈ objs) (s : Ser) {ps : List P} (hl : ps.length = cs.length + 1) :
    (virtualSerialize cfg reg objs root part cs s ps.reverse =
      serChain cfg reg root part (root :: (cs.map (·.1)).reverse) s ps >>= fun r => .ok (r.1.reverse, r.2)) ∧
    dynamicTypeIndex objs root cs = objs.idxOf (directBase root cs) := by
  constructor
  · have hb : ∀ cs : Declared, Complete cs → CompleteBelow cs := by
      intro cs hc
      match cs, hc with
      | [], _ => trivial
      | (_, some _) :: _, hc => exact (complete_cons_some ..).1 hc
      | (_, none) :: _, hc => exact absurd hc (not_complete_cons_none _ _)
    rw [virtualSerialize, (serDeclared_eq cs none none s ps.reverse (by simpa using hl) hn hd ho (.inl rfl)).1
      (.inr ⟨.inl rfl, hb cs hc⟩)]
    have h1 : declaredClasses root cs = root :: (cs.map (·.1)).reverse := by
      rw [declaredClasses, List.filter_eq_self.2 fun c h => hc c h]
    have h2 : ∀ (cs : Declared) (ps : List P), Complete cs → declaredParts cs ps = ps := by
      intro cs
      induction cs with
      | nil => intro ps _; rfl
      | cons c cs ih =>
        intro ps hc
        match c, ps, hc with
        | (c, some _), p :: ps, hc => simp [declaredParts, ih ps ((complete_cons_some ..).1 hc)]
        | (c, some _), [], _ => rfl
        | (c, none), _, hc => exact absurd hc (not_complete_cons_none _ _)
    have h3 : ∀ (cs : Declared) (ps qs : List P), Complete cs → ps.length = cs.length + 1 →
        replaceParts cs ps qs = qs := by
      intro cs
      induction cs with
      | nil => intro ps qs _ _; rfl
      | cons c cs ih =>
        intro ps qs hc hl
        match c, ps, qs, hc with
        | (c, some _), p :: ps, q :: qs, hc =>
          simp [replaceParts, ih ps qs ((complete_cons_some ..).1 hc) (by simpa using hl)]
        | (c, some _), p :: ps, [], _ => rfl
        | (c, some _), [], _, _ => simp at hl
        | (c, none), _, _, hc => exact absurd hc (not_complete_cons_none _ _)
    rw [serOnlyDeclared, h1, h2 _ _ hc, List.reverse_reverse]
    simp only [h3 _ ps.reverse _ hc (by simpa using hl)]
  · match cs, hc with
    | [], _ => rfl
    | (_, some _) :: _, _ => rfl
    | (_, none) :: _, hc => exact absurd hc (not_complete_cons_none _ _)

/-- C60: a missing declaration anywhere between the root and the most derived declared class fails the
library's assertion, whatever the object and the serializer. -/
theorem C60_missing_between (hn : NamesDirect root cs) (hd : (cs.map (·.1) ++ [root]).Nodup)
    (ho : ∀ c ∈ cs, c.1 ∈ objs) (s : Ser) {ps : List P} (hl : ps.length = cs.length + 1)
    (ha : cfg.ndebug = false) {below above : Declared} {c q b : Nat}
    (hcs : cs = below ++ (c, some q) :: above) (hb : (b, none) ∈ above) :
    virtualSerialize cfg reg objs root part cs s ps = .abort := by
  refine (serDeclared_eq cs none none s ps hl hn hd ho (.inl rfl)).2 ?_
  rintro (h | ⟨_, h⟩)
  · simp [ha] at h
  · subst hcs
    have : ∀ below : Declared, ¬ CompleteBelow (below ++ (c, some q) :: above) := by
      intro below
      induction below with
      | nil => exact fun h => by simpa using h (b, none) hb
      | cons d below ih =>
        obtain ⟨d, decl⟩ := d
        cases decl with
        | none => exact ih
        | some _ => exact fun h => by simpa using h (b, none) (by simp [hb])
    exact this below h

/-- C60: without assertions, the parts of classes without a declaration are left out, neither read nor
written; the others are serialized as usual. -/
theorem C60_left_out (hn : NamesDirect root cs) (hd : (cs.map (·.1) ++ [root]).Nodup)
    (ho : ∀ c ∈ cs, c.1 ∈ objs) (s : Ser) {ps : List P} (hl : ps.length = cs.length + 1)
    (ha : cfg.ndebug = true) :
    virtualSerialize cfg reg objs root part cs s ps =
      serChain cfg reg root part (declaredClasses root cs) s (declaredParts cs ps).reverse >>= fun r =>
        .ok (replaceParts cs ps r.1.reverse, r.2) :=
  (serDeclared_eq cs none none s ps hl hn hd ho (.inl rfl)).1 (.inl ha)

/-- C60: a class derived from a completely declared one but not declared itself is not noticed, with or
without assertions: the object is serialized, and its type index is, as if it were of its base class. -/
theorem C60_sliced (hn : NamesDirect root cs) (hc : Complete cs) {d : Nat}
    (hd : (d :: cs.map (·.1) ++ [root]).Nodup) (ho : ∀ c ∈ cs, c.1 ∈ objs) (hdo : d ∈ objs) (s : Ser) (p : P)
    {ps : List P} (hl : ps.length = cs.length + 1) :
    (virtualSerialize cfg reg objs root part ((d, none) :: cs) s (p :: ps) =
      virtualSerialize cfg reg objs root part cs s ps >>= fun r => .ok (p :: r.1, r.2)) ∧
    dynamicTypeIndex objs root ((d, none) :: cs) = dynamicTypeIndex objs root cs ∧
    dynamicTypeIndex objs root ((d, none) :: cs) ≠ objs.idxOf d := by
  refine ⟨rfl, rfl, ?_⟩
  have h := (C60_declared (cfg := cfg) (reg := reg) (part := part) hn hc (List.nodup_cons.1 hd).2 ho s hl).2
  rw [dynamicTypeIndex, h]
  refine (idx_ne hdo fun e => (List.nodup_cons.1 hd).1 ?_).symm
  match cs with
  | [] => simp [e, directBase]
  | (c, _) :: cs => simp [e, directBase]

/-- C60: naming an indirect base is not noticed either: the classes in between are left out. -/
theorem C60_indirect (hn : NamesDirect root cs) (hc : Complete cs) {d : Nat} {mid : Declared}
    (hd : (cs.map (·.1) ++ [root]).Nodup) (ho : ∀ c ∈ cs, c.1 ∈ objs)
    (hm : ∀ m ∈ mid, m.1 ≠ directBase root cs) (s : Ser) (p : P) {ms ps : List P}
    (hml : ms.length = mid.length) (hl : ps.length = cs.length + 1) :
    virtualSerialize cfg reg objs root part ((d, some (directBase root cs)) :: (mid ++ cs)) s (p :: (ms ++ ps)) =
      virtualSerialize cfg reg objs root part cs s ps >>= fun r =>
        serPart cfg reg root part d r.2 p >>= fun q => .ok (q.1 :: (ms ++ r.1), q.2) := by
  have hb : CompleteBelow cs := by
    match cs, hc with
    | [], _ => trivial
    | (_, some _) :: _, hc => exact (complete_cons_some ..).1 hc
    | (_, none) :: _, hc => exact absurd hc (not_complete_cons_none _ _)
  have hf : firstDeclared root cs = directBase root cs := by
    match cs, hc with
    | [], _ => rfl
    | (_, some _) :: _, hc => rfl
    | (_, none) :: _, hc => exact absurd hc (not_complete_cons_none _ _)
  have hskip : ∀ (mid : Declared) (ms : List P), (∀ m ∈ mid, m.1 ≠ directBase root cs) → ms.length = mid.length →
      serDeclared cfg reg objs root part (some (directBase root cs)) (some (objs.idxOf (directBase root cs)))
        (mid ++ cs) s (ms ++ ps) = serOnlyDeclared cfg reg root part cs s ps >>= fun r => .ok (ms ++ r.1, r.2) := by
    intro mid
    induction mid with
    | nil =>
      intro ms _ h
      have : ms = [] := List.length_eq_zero_iff.1 h
      subst this
      rw [List.nil_append, List.nil_append, (serDeclared_eq cs _ _ s ps hl hn hd ho (.inr rfl)).1
        (.inr ⟨.inr (by rw [hf]), hb⟩)]
      simp only [List.nil_append, Out.bind_eq]
      cases serOnlyDeclared cfg reg root part cs s ps <;> rfl
    | cons m mid ih =>
      intro ms hm h
      match ms, h with
      | m' :: ms, h =>
        have hne : ((some (directBase root cs)).all (· == m.1)) = false := by
          simp [(hm m (by simp)).symm]
        simp only [List.cons_append, serDeclared, hne, Bool.false_eq_true, if_false]
        rw [ih ms (fun x hx => hm x (by simp [hx])) (by simpa using h)]
        simp only [Out.bind_eq]
        cases serOnlyDeclared cfg reg root part cs s ps <;> rfl
  rw [virtualSerialize, virtualSerialize, (serDeclared_eq cs none none s ps hl hn hd ho (.inl rfl)).1
    (.inr ⟨.inl rfl, hb⟩)]
  simp only [serDeclared, Option.all_none, if_true, hskip mid ms hm hml, assertTypeIdxMatch_eq, true_or, or_true]
  simp only [Out.bind_eq]
  cases serOnlyDeclared cfg reg root part cs s ps <;> simp only [Out.bind]

/-- C60: what a declaration leaves out is not in the checkpoint: two objects that differ only in the parts of
classes without a declaration leave the serializer in the same state. -/
theorem C60_lost (hn : NamesDirect root cs) (hd : (cs.map (·.1) ++ [root]).Nodup)
    (ho : ∀ c ∈ cs, c.1 ∈ objs) (s s1 s2 : Ser) {ps ps' qs qs' : List P} (hl : ps.length = cs.length + 1)
    (hl' : ps'.length = cs.length + 1)
    (hp : ∀ (i c q : Nat), cs[i]? = some (c, some q) → ps[i]? = ps'[i]?) (hr : ps[cs.length]? = ps'[cs.length]?)
    (h1 : virtualSerialize cfg reg objs root part cs s ps = .ok (qs, s1))
    (h2 : virtualSerialize cfg reg objs root part cs s ps' = .ok (qs', s2)) : s1 = s2 := by
  have hsame : ∀ (cs : Declared) (ps ps' : List P), ps.length = cs.length + 1 → ps'.length = cs.length + 1 →
      (∀ (i c q : Nat), cs[i]? = some (c, some q) → ps[i]? = ps'[i]?) → ps[cs.length]? = ps'[cs.length]? →
      declaredParts cs ps = declaredParts cs ps' := by
    intro cs
    induction cs with
    | nil =>
      intro ps ps' h h' _ hr
      match ps, ps', h, h' with
      | [p], [p'], _, _ => simpa [declaredParts] using hr
    | cons c cs ih =>
      intro ps ps' h h' hp hr
      match c, ps, ps', h, h' with
      | (c, decl), p :: ps, p' :: ps', h, h' =>
        have := ih ps ps' (by simpa using h) (by simpa using h')
          (fun i c q hi => by simpa using hp (i + 1) c q (by simpa using hi)) (by simpa using hr)
        cases decl with
        | none => simpa [declaredParts] using this
        | some q =>
          have h0 : p = p' := by simpa using hp 0 c q rfl
          simp [declaredParts, this, h0]
  have he := hsame cs ps ps' hl hl' hp hr
  have key : ∀ ps : List P, ps.length = cs.length + 1 → ∀ qs s', virtualSerialize cfg reg objs root part cs s ps = .ok (qs, s') →
      ∃ rs, serChain cfg reg root part (declaredClasses root cs) s (declaredParts cs ps).reverse = .ok (rs, s') := by
    intro ps hl qs s' h
    have := serDeclared_eq (reg := reg) (part := part) (cfg := cfg) cs none none s ps hl hn hd ho (.inl rfl)
    by_cases hck : Checks cfg objs root none cs
    · rw [virtualSerialize, this.1 hck, serOnlyDeclared] at h
      revert h
      cases serChain cfg reg root part (declaredClasses root cs) s (declaredParts cs ps).reverse with
      | ok r =>
        intro h
        simp only [Out.bind_eq, Out.bind, Out.ok.injEq, Prod.mk.injEq] at h
        exact ⟨r.1, by rw [← h.2]⟩
      | _ => intro h; simp [Out.bind] at h
    · rw [virtualSerialize, this.2 hck] at h
      simp at h
  obtain ⟨r1, k1⟩ := key ps hl _ _ h1
  obtain ⟨r2, k2⟩ := key ps' hl' _ _ h2
  rw [he, k2] at k1
  simp only [Out.ok.injEq, Prod.mk.injEq] at k1
  exact k1.2.symm

/-- `D : C : B : A`, declared, with `B`'s declaration removed, and with `D`'s removed. -/
example : NamesDirect 1 [(4, some 3), (3, some 2), (2, some 1)] ∧ Complete [(4, some 3), (3, some 2), (2, some 1)] ∧
    NamesDirect 1 [(4, some 3), (3, some 2), (2, none)] ∧ NamesDirect 1 [(4, none), (3, some 2), (2, some 1)] ∧
    ([4, 3, 2] ++ [1]).Nodup ∧ (∀ c ∈ ([(4, some 3), (3, some 2), (2, none)] : Declared), c.1 ∈ [1, 2, 3, 4]) ∧
    declaredClasses 1 [(4, some 3), (3, some 2), (2, none)] = [1, 3, 4] ∧
    declaredParts [(4, some 3), (3, some 2), (2, none)] ["d", "c", "b", "a"] = ["d", "c", "a"] ∧
    replaceParts [(4, some 3), (3, some 2), (2, none)] ["d", "c", "b", "a"] ["D", "C", "A"] = ["D", "C", "b", "A"] := by
  refine ⟨?_, ?_, ?_, ?_, by decide, by decide, rfl, rfl, rfl⟩ <;> simp [NamesDirect, Complete, directBase]

end Ckpt
