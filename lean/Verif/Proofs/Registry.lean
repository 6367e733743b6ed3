import Verif.Spec.Wire
/-!
Arithmetic of type indices.
-/

set_option autoImplicit false

namespace Ckpt

theorem encodeIndex_eq {i : Nat} (h : i < 2 ^ 16) : encodeIndex i = 0xDE0000AD + 256 * i := by
  have h1 : deadMark = 0xDE0000 <<< 8 ||| 0xAD := by decide
  have h2 : 0xDE <<< 16 ||| i = 0xDE <<< 16 + i := (Nat.shiftLeft_add_eq_or_of_lt h _).symm
  have h3 : (0xDE0000 : Nat) = 0xDE <<< 16 := by decide
  unfold encodeIndex
  rw [h1, ← Nat.or_assoc, ← Nat.shiftLeft_or_distrib, Nat.or_comm i, h3, h2,
    ← Nat.shiftLeft_add_eq_or_of_lt (by decide : 0xAD < 2 ^ 8)]
  simp only [Nat.shiftLeft_eq]
  omega

/-- `validateIndex` looks at the lowest and the highest byte. -/
theorem validateIndex_iff {x : Nat} (h : x < 2 ^ 32) :
    validateIndex x = true ↔ x % 256 = 0xAD ∧ x / 2 ^ 24 = 0xDE := by
  have hm : deadMask = 0xFF <<< 24 ||| 0xFF := by decide
  have e1 : x &&& 0xFF = x % 256 := Nat.and_two_pow_sub_one_eq_mod x 8
  have e2 : x &&& (0xFF <<< 24) = (x / 2 ^ 24) <<< 24 := by
    have h4 : x = x % 2 ^ 24 + (x / 2 ^ 24) <<< 24 := by
      rw [Nat.shiftLeft_eq]; omega
    have h5 : (x / 2 ^ 24) <<< 24 + x % 2 ^ 24 = (x / 2 ^ 24) <<< 24 ||| x % 2 ^ 24 :=
      Nat.shiftLeft_add_eq_or_of_lt (Nat.mod_lt _ (by decide)) _
    have h6 : x = (x / 2 ^ 24) <<< 24 ||| x % 2 ^ 24 := by omega
    have h7 : x / 2 ^ 24 &&& 0xFF = x / 2 ^ 24 := by
      have := Nat.and_two_pow_sub_one_eq_mod (x / 2 ^ 24) 8
      have h8 : x / 2 ^ 24 % 2 ^ 8 = x / 2 ^ 24 := Nat.mod_eq_of_lt (by omega)
      rw [h8] at this
      exact this
    have h9 : x % 2 ^ 24 &&& (0xFF <<< 24) = 0 := by
      apply Nat.eq_of_testBit_eq
      intro j
      simp only [Nat.testBit_and, Nat.testBit_shiftLeft, Nat.zero_testBit]
      by_cases hj : 24 ≤ j
      · rw [Nat.testBit_lt_two_pow (Nat.lt_of_lt_of_le (Nat.mod_lt _ (by decide))
          (Nat.pow_le_pow_right (by decide) hj))]
        rfl
      · simp [hj]
    conv => lhs; rw [h6]
    rw [Nat.and_or_distrib_right, h9, Nat.or_zero, ← Nat.shiftLeft_and_distrib, h7]
  unfold validateIndex
  rw [hm, Nat.and_or_distrib_left, e1, e2,
    ← Nat.shiftLeft_add_eq_or_of_lt (Nat.lt_trans (Nat.mod_lt x (by decide)) (by decide) : x % 256 < 2 ^ 24)]
  simp only [Nat.shiftLeft_eq, deadMark, beq_iff_eq]
  omega

theorem encodeIndex_valid {i : Nat} (h : i < 2 ^ 16) :
    encodeIndex i < 2 ^ 32 ∧ validateIndex (encodeIndex i) = true := by
  rw [encodeIndex_eq h]
  have hlt : 0xDE0000AD + 256 * i < 2 ^ 32 := by omega
  refine ⟨hlt, (validateIndex_iff hlt).2 ?_⟩
  omega

theorem encodeIndex_inj {i j : Nat} (hi : i < 2 ^ 16) (hj : j < 2 ^ 16)
    (h : encodeIndex i = encodeIndex j) : i = j := by
  rw [encodeIndex_eq hi, encodeIndex_eq hj] at h
  omega

end Ckpt
