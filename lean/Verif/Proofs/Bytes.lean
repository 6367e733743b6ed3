import Verif.Model.Bytes
/-! Lemmas about fixed-width integers and regions. -/

set_option autoImplicit false

namespace Ckpt

@[simp] theorem leBytes_length (n v : Nat) : (leBytes n v).length = n := by
  induction n generalizing v with
  | zero => rfl
  | succ n ih => simp [leBytes, ih]

theorem leVal_leBytes (n v : Nat) : leVal (leBytes n v) = v % 256 ^ n := by
  induction n generalizing v with
  | zero => simp [leBytes, leVal, Nat.mod_one]
  | succ n ih =>
    have h1 : (UInt8.ofNat (v % 256)).toNat = v % 256 := by simp [UInt8.toNat_ofNat']
    simp only [leBytes, leVal, ih, h1]
    rw [Nat.pow_succ, Nat.mul_comm (256 ^ n) 256, Nat.mod_mul]

theorem leVal_lt (bs : Bytes) : leVal bs < 256 ^ bs.length := by
  induction bs with
  | nil => simp [leVal]
  | cons b bs ih =>
    have : b.toNat < 256 := b.toNat_lt
    simp only [leVal, List.length_cons, Nat.pow_succ]
    omega

theorem leBytes_leVal (bs : Bytes) : leBytes bs.length (leVal bs) = bs := by
  induction bs with
  | nil => rfl
  | cons b bs ih =>
    have hb : b.toNat < 256 := b.toNat_lt
    simp only [leVal, List.length_cons, leBytes]
    have h1 : (b.toNat + 256 * leVal bs) % 256 = b.toNat := by omega
    have h2 : (b.toNat + 256 * leVal bs) / 256 = leVal bs := by omega
    rw [h1, h2, ih]; simp

@[simp] theorem intBytes_length (e : Endian) (n v : Nat) : (intBytes e n v).length = n := by
  cases e <;> simp [intBytes]

theorem intVal_intBytes (e : Endian) (n v : Nat) : intVal e (intBytes e n v) = v % 256 ^ n := by
  cases e <;> simp [intBytes, intVal, leVal_leBytes]

theorem intVal_intBytes_of_lt (e : Endian) {n v : Nat} (h : v < 256 ^ n) :
    intVal e (intBytes e n v) = v := by
  rw [intVal_intBytes, Nat.mod_eq_of_lt h]

theorem intVal_lt (e : Endian) (bs : Bytes) : intVal e bs < 256 ^ bs.length := by
  cases e
  · exact leVal_lt bs
  · simpa [intVal] using leVal_lt bs.reverse

theorem intBytes_intVal (e : Endian) (bs : Bytes) : intBytes e bs.length (intVal e bs) = bs := by
  cases e
  · exact leBytes_leVal bs
  · have := leBytes_leVal bs.reverse
    simp only [List.length_reverse] at this
    simp [intBytes, intVal, this]

@[simp] theorem chunks_length (size k : Nat) (bs : Bytes) : (chunks size k bs).length = k := by
  induction k generalizing bs with
  | zero => rfl
  | succ k ih => simp [chunks, ih]

theorem chunks_flatten (size : Nat) (xs : List Bytes) (h : ∀ x ∈ xs, x.length = size) :
    chunks size xs.length xs.flatten = xs := by
  induction xs with
  | nil => rfl
  | cons x xs ih =>
    have hx : x.length = size := h x (by simp)
    simp only [List.length_cons, chunks, List.flatten_cons]
    rw [← hx, List.take_left, List.drop_left, hx, ih (fun y hy => h y (by simp [hy]))]

theorem flatten_length_of (size : Nat) (xs : List Bytes) (h : ∀ x ∈ xs, x.length = size) :
    xs.flatten.length = size * xs.length := by
  induction xs with
  | nil => rfl
  | cons x xs ih =>
    simp only [List.flatten_cons, List.length_append, List.length_cons,
      ih (fun y hy => h y (by simp [hy])), h x (by simp)]
    rw [Nat.mul_succ]; omega

theorem chunks_mem_length (size k : Nat) (bs : Bytes) (h : bs.length = size * k) :
    ∀ x ∈ chunks size k bs, x.length = size := by
  induction k generalizing bs with
  | zero => simp [chunks]
  | succ k ih =>
    intro x hx
    simp only [chunks, List.mem_cons] at hx
    rw [Nat.mul_succ] at h
    rcases hx with rfl | hx
    · simp; omega
    · exact ih (bs.drop size) (by simp; omega) x hx

end Ckpt
