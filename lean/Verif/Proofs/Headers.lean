import Verif.Proofs.Api
import Verif.Proofs.Registry
import Verif.Proofs.Reject
/-!
Rejection of wrong headers.
-/

set_option autoImplicit false

namespace Ckpt

variable {T : Type} {cfg : Cfg} {e : Elem T}

/-- Any serializer class. -/
def anyKind : Scope := Scope.quiet fun _ => True

theorem top_reject {s : Ser} (hs : s.Reader anyKind) {b rest : Bytes}
    (hb : b.length = 4) (hr : s.remaining = b ++ rest)
    (hbad : validateIndex (intVal cfg.endian b) = false ∨ e.ti.idx ≠ intVal cfg.endian b) (y : T) :
    traverseTop cfg e s y =
      .throw (.ser (.wrongType e.ti.idx (intVal cfg.endian b)) 0 [e.ti.name]) := by
  unfold traverseTop
  cases hc : cfg.check with
  | true => simp [pipe, traverse_reject hc hs hb hr hbad]
  | false => simp [withTypeIdx_reject hs hb hr hbad]

theorem inPlace_reject {b rest : Bytes} (hb : b.length = 4)
    (hbad : validateIndex (intVal cfg.endian b) = false ∨ e.ti.idx ≠ intVal cfg.endian b) (y : T) :
    deserializeInPlace cfg e (b ++ rest) y =
      .throw (.ser (.wrongType e.ti.idx (intVal cfg.endian b)) 0 [e.ti.name]) := by
  unfold deserializeInPlace
  rw [top_reject (s := { core := .unpacker (b ++ rest) 0 0, kind := .unpacker })
    ⟨rfl, trivial, by simp⟩ hb (rest := rest) (by simp [Ser.remaining]) hbad]
  rfl

theorem inStream_reject {b rest : Bytes} (hb : b.length = 4)
    (hbad : validateIndex (intVal cfg.endian b) = false ∨ e.ti.idx ≠ intVal cfg.endian b) (y : T) :
    deserializeInPlaceFromStream cfg e (b ++ rest) y =
      .throw (.ser (.wrongType e.ti.idx (intVal cfg.endian b)) 0 [e.ti.name]) := by
  unfold deserializeInPlaceFromStream
  rw [top_reject (s := { core := .streamUnpacker (b ++ rest) 0, kind := .streamUnpacker })
    ⟨rfl, trivial, trivial⟩ hb (rest := rest) (by simp [Ser.remaining]) hbad]
  rfl

/-! ## Registration -/

theorem registerAll_length : ∀ (ns : List Nat) (r : TypeReg), (r.registerAll ns).1.length = ns.length
  | [], _ => rfl
  | n :: ns, r => by simp [TypeReg.registerAll, registerAll_length ns]

theorem registerAll_get : ∀ (ns : List Nat) (r : TypeReg) (k : Nat), r.next < 2 ^ 16 → k < ns.length →
    (r.registerAll ns).1[k]? = some (encodeIndex ((r.next + k) % 2 ^ 16))
  | [], _, _, _, h => by simp at h
  | n :: ns, r, 0, hr, _ => by
    simp [TypeReg.registerAll, TypeReg.register, TypeReg.getIndex, Nat.mod_eq_of_lt hr]
  | n :: ns, r, k + 1, hr, h => by
    have := registerAll_get ns (r.register n).2 k (Nat.mod_lt _ (by decide)) (by simpa using h)
    simp only [TypeReg.registerAll, List.getElem?_cons_succ]
    rw [this]
    simp only [TypeReg.register, TypeReg.getIndex]
    congr 2
    omega

theorem nameFor_register_other {r : TypeReg} {n i : Nat} (h : i ≠ encodeIndex r.next) :
    (r.register n).2.nameFor i = r.nameFor i := by
  have h' : (encodeIndex r.next == i) = false := by simpa using fun he => h he.symm
  simp only [TypeReg.nameFor, TypeReg.register, TypeReg.getIndex, List.find?_cons, h', List.find?_filter]
  congr 1
  congr 1
  funext a
  by_cases ha : a.1 = i
  · simp [ha, h]
  · simp [ha]

theorem nameFor_registerAll_other : ∀ (ns : List Nat) (r : TypeReg) (i : Nat),
    r.next + ns.length ≤ 2 ^ 16 → i < 2 ^ 16 →
    (∀ k < ns.length, i ≠ r.next + k) →
    (r.registerAll ns).2.nameFor (encodeIndex i) = r.nameFor (encodeIndex i)
  | [], _, _, _, _, _ => rfl
  | n :: ns, r, i, hr, hi, h => by
    simp only [List.length_cons] at hr h
    have hne : encodeIndex i ≠ encodeIndex r.next := fun he =>
      h 0 (by omega) (by simpa using encodeIndex_inj hi (by omega) he)
    simp only [TypeReg.registerAll]
    by_cases hns : ns = []
    · subst hns; exact nameFor_register_other hne
    · have hpos : 0 < ns.length := List.length_pos_of_ne_nil hns
      have hnext : (r.register n).2.next = r.next + 1 := by
        simp only [TypeReg.register, TypeReg.getIndex]
        exact Nat.mod_eq_of_lt (by omega)
      rw [nameFor_registerAll_other ns (r.register n).2 i (by omega) hi
        (fun k hk => by rw [hnext]; have := h (k + 1) (by omega); omega)]
      exact nameFor_register_other hne

theorem registerAll_names : ∀ (ns : List Nat) (r : TypeReg), r.next + ns.length ≤ 2 ^ 16 →
    ∀ k < ns.length, (r.registerAll ns).2.nameFor (encodeIndex (r.next + k)) = ns[k]?
  | [], _, _, k, hk => by simp at hk
  | n :: ns, r, hr, k, hk => by
    simp only [List.length_cons] at hr hk
    simp only [TypeReg.registerAll]
    have hnext : ns ≠ [] → (r.register n).2.next = r.next + 1 := by
      intro hns
      have hpos : 0 < ns.length := List.length_pos_of_ne_nil hns
      simp only [TypeReg.register, TypeReg.getIndex]
      exact Nat.mod_eq_of_lt (by omega)
    cases k with
    | zero =>
      have h1 : (r.register n).2.nameFor (encodeIndex r.next) = some n := by
        simp [TypeReg.nameFor, TypeReg.register, TypeReg.getIndex]
      by_cases hns : ns = []
      · subst hns; simpa [TypeReg.registerAll] using h1
      · rw [nameFor_registerAll_other ns _ _ (by rw [hnext hns]; omega) (by omega)
          (fun k hk => by rw [hnext hns]; omega)]
        simpa using h1
    | succ k =>
      have hns : ns ≠ [] := by rintro rfl; simp at hk
      have := registerAll_names ns (r.register n).2 (by rw [hnext hns]; omega) k (by omega)
      rw [hnext hns, Nat.add_assoc, Nat.add_comm 1 k] at this
      simpa using this

end Ckpt
