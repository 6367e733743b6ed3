import Verif.Proofs.Virtual
/-!
Registries after any sequence of registrations.
-/

set_option autoImplicit false

namespace Ckpt

/-- What static initialisation and the first calls do to the serializer registries, in any order: a class
is registered for a serializer (built-in or user-defined), or instantiated for all built-in ones. -/
inductive RegOp
  | register (c : Nat) (k : Kind)
  | instantiate (d : Nat)

/-- One step. -/
def RegOp.run (root : Nat → Nat) (r : SerReg) : RegOp → SerReg
  | .register c k => r.register c k
  | .instantiate d => r.instantiate d (root d)

/-- Any history, from empty registries. -/
def RegOp.runAll (root : Nat → Nat) (ops : List RegOp) : SerReg := ops.foldl (RegOp.run root) (fun _ => [])

theorem RegOp.inv (root : Nat → Nat) (ops : List RegOp) : (RegOp.runAll root ops).Inv root := by
  have : ∀ (ops : List RegOp) (r : SerReg), r.Inv root → (ops.foldl (RegOp.run root) r).Inv root := by
    intro ops
    induction ops with
    | nil => intro r h; exact h
    | cons op ops ih =>
      intro r h
      refine ih _ ?_
      cases op with
      | register c k => exact h.register c k
      | instantiate d => exact (h.instantiate d).1
  exact this ops _ ⟨fun _ => by simp, fun _ _ h => by simp at h⟩

/-- Entries for user-defined traversers are never linked. -/
def SerReg.Unlinked (r : SerReg) : Prop := ∀ c, ∀ en ∈ r c, en.kind = .custom → en.base = none

theorem SerReg.Unlinked.register {r : SerReg} (h : r.Unlinked) (c : Nat) (k : Kind) : (r.register c k).Unlinked := by
  intro c' en hen hk
  rcases SerReg.mem_register hen with h' | h'
  · exact h c' en h' hk
  · exact h'

theorem SerReg.Unlinked.link {r : SerReg} (h : r.Unlinked) (d b : Nat) {k : Kind} (hkc : k ≠ .custom)
    (hex : ∃ en ∈ r d, en.kind = k) : (r.link d b k).Unlinked := by
  intro c en hen hk
  unfold SerReg.link at hen
  split at hen
  · subst c
    obtain ⟨j, hj⟩ := List.getElem?_of_mem hen
    rw [List.getElem?_mapIdx] at hj
    cases hg : (r d)[j]? with
    | none => rw [hg] at hj; cases hj
    | some e0 =>
      rw [hg] at hj
      simp only [Option.map_some, Option.some.injEq] at hj
      split at hj
      · rename_i hjj
        subst hj hjj
        obtain ⟨e1, h1, h1k⟩ := SerReg.idxOf_spec hex
        rw [hg, Option.some.injEq] at h1
        subst h1
        exact (hkc (h1k.symm.trans hk)).elim
      · subst hj
        exact h d e0 (List.mem_of_getElem? hg) hk
  · exact h c en hen hk

theorem SerReg.Unlinked.registerIt {r : SerReg} (h : r.Unlinked) (d b : Nat) {k : Kind} (hkc : k ≠ .custom) :
    (r.registerIt d b k).Unlinked := by
  unfold SerReg.registerIt
  refine ((h.register d k).register b k).link d b hkc ?_
  obtain ⟨en, hen, hk⟩ := SerReg.register_mem r d k
  obtain ⟨i, hi⟩ := List.getElem?_of_mem hen
  exact ⟨en, List.mem_of_getElem? (SerReg.register_get _ b k d i en hi), hk⟩

theorem SerReg.Unlinked.instantiate {r : SerReg} (h : r.Unlinked) (d b : Nat) : (r.instantiate d b).Unlinked := by
  unfold SerReg.instantiate
  have : ∀ (ks : List Kind) (r : SerReg), (∀ k ∈ ks, k ≠ .custom) → r.Unlinked →
      (ks.foldl (fun r k => r.registerIt d b k) r).Unlinked := by
    intro ks
    induction ks with
    | nil => intro r _ h; exact h
    | cons k ks ih =>
      intro r hks h
      exact ih _ (fun k' hk' => hks k' (by simp [hk'])) (h.registerIt d b (hks k (by simp)))
  exact this _ r (by decide) h

theorem RegOp.unlinked (root : Nat → Nat) (ops : List RegOp) : (RegOp.runAll root ops).Unlinked := by
  have : ∀ (ops : List RegOp) (r : SerReg), r.Unlinked → (ops.foldl (RegOp.run root) r).Unlinked := by
    intro ops
    induction ops with
    | nil => intro r h; exact h
    | cons op ops ih =>
      intro r h
      refine ih _ ?_
      cases op with
      | register c k => exact h.register c k
      | instantiate d => exact h.instantiate d _
  exact this ops _ (fun _ _ h => by simp at h)

theorem SerReg.lookup_custom {r : SerReg} {root : Nat → Nat} (hI : r.Inv root) (hU : r.Unlinked) {d : Nat}
    (hd : d ≠ root d) (nd : Bool) : r.lookup nd d (root d) .custom =
      if nd then .throw .badFunctionCall else .abort := by
  have hI' := ((hI.register (root d) .custom).instantiate d).1
  have hU' := (hU.register (root d) .custom).instantiate d (root d)
  have hmem : ∃ en ∈ ((r.register (root d) .custom).instantiate d (root d)) (root d), en.kind = .custom := by
    have h0 := SerReg.register_mem r (root d) .custom
    have hreg : ∀ (r : SerReg) (c : Nat) (k : Kind), (∃ en ∈ r (root d), en.kind = .custom) →
        ∃ en ∈ (r.register c k) (root d), en.kind = .custom := by
      rintro r c k ⟨en, hen, hk⟩
      obtain ⟨i, hi⟩ := List.getElem?_of_mem hen
      exact ⟨en, List.mem_of_getElem? (SerReg.register_get r c k _ i en hi), hk⟩
    have hlink : ∀ (r : SerReg) (a b : Nat) (k : Kind), (∃ en ∈ r (root d), en.kind = .custom) →
        ∃ en ∈ (r.link a b k) (root d), en.kind = .custom := by
      intro r a b k h
      have h1 : Kind.custom ∈ (r (root d)).map (·.kind) := by
        obtain ⟨en, hen, hk⟩ := h; exact List.mem_map.2 ⟨en, hen, hk⟩
      rw [← SerReg.link_kinds r a b k] at h1
      obtain ⟨en, hen, hk⟩ := List.mem_map.1 h1
      exact ⟨en, hen, hk⟩
    unfold SerReg.instantiate
    generalize r.register (root d) .custom = r1 at h0
    generalize builtinKinds = ks
    induction ks generalizing r1 with
    | nil => exact h0
    | cons k ks ih => exact ih _ (hlink _ _ _ _ (hreg _ _ _ (hreg _ _ _ h0)))
  unfold SerReg.lookup
  generalize (r.register (root d) .custom).instantiate d (root d) = r' at *
  simp only [hd, if_false, SerReg.getBaseIdx]
  obtain ⟨e0, he0, hk0⟩ := SerReg.idxOf_spec hmem
  have : (r' d).find? (fun en => en.base == some (r'.idxOf (root d) .custom)) = none := by
    rw [List.find?_eq_none]
    intro en hen hb
    have hb' : en.base = some (r'.idxOf (root d) .custom) := by simpa using hb
    have := hI'.linked d en hen _ hb'
    rw [he0] at this
    simp only [Option.map_some, Option.some.injEq] at this
    rw [hU' d en hen (this.symm.trans hk0)] at hb'
    cases hb'
  rw [this]
  cases nd <;> rfl

/-! ### Object registry -/

theorem ObjReg.register_nodup {r : ObjReg} (h : r.Nodup) (d : Nat) : (r.register d).Nodup := by
  unfold ObjReg.register
  split
  · exact h
  · rename_i hd
    rw [List.nodup_append]
    exact ⟨h, by simp, by rintro a ha b hb rfl; simp at hb; exact hd (hb ▸ ha)⟩

theorem ObjReg.register_mem {r : ObjReg} (d d' : Nat) : d' ∈ r.register d ↔ d' ∈ r ∨ d' = d := by
  unfold ObjReg.register
  split
  · rename_i h
    constructor
    · exact .inl
    · rintro (h' | rfl)
      · exact h'
      · exact h
  · simp

theorem ObjReg.all {ds : List Nat} : (ds.foldl ObjReg.register []).Nodup ∧
    ∀ d, d ∈ ds.foldl ObjReg.register [] ↔ d ∈ ds := by
  have : ∀ (ds : List Nat) (r : ObjReg), r.Nodup → (ds.foldl ObjReg.register r).Nodup ∧
      ∀ d, d ∈ ds.foldl ObjReg.register r ↔ d ∈ r ∨ d ∈ ds := by
    intro ds
    induction ds with
    | nil => intro r h; exact ⟨h, by simp⟩
    | cons a ds ih =>
      intro r h
      obtain ⟨h1, h2⟩ := ih (r.register a) (ObjReg.register_nodup h a)
      refine ⟨h1, fun d => ?_⟩
      rw [List.foldl_cons, h2, ObjReg.register_mem, List.mem_cons, or_assoc]
  obtain ⟨h1, h2⟩ := this ds [] List.nodup_nil
  exact ⟨h1, fun d => by rw [h2]; simp⟩

end Ckpt
