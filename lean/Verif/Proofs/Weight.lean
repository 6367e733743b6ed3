import Verif.Spec.Weight
import Verif.Proofs.Post
import Verif.Proofs.Merge
/-!
What a reading call returns is paid for by the bytes it consumed.
-/

set_option autoImplicit false

namespace Ckpt

local macro "lia" : tactic => `(tactic| (first | omega | (dsimp only at *; omega)))

/-- How many bytes an unpacker has not read yet, up to a constant: those left in the stream; for memory, whose end is
not known to the library, those read so far with the opposite sign. -/
def Ser.left (s : Ser) : Int :=
  match s.core with
  | .unpacker _ _ used => - (used : Int)
  | .streamUnpacker inp _ => inp.length
  | _ => 0

/-- If `m` returns, it has read at least `b` bytes, and what it returns weighs at most `w0` and the number of other bytes
it has read. -/
def Pays {A : Type} (w0 b : Nat) (m : Ser → Out (A × Ser)) (w : A → Nat) : Prop :=
  ∀ s, s.isUnpacking = true → ∀ a s', m s = .ok (a, s') →
    s'.isUnpacking = true ∧ s'.left + b ≤ s.left ∧ w a + b + s'.left ≤ w0 + s.left

/-- The same for functions that return the serializer only. -/
def PaysS (b : Nat) (m : Ser → Out Ser) : Prop :=
  ∀ s, s.isUnpacking = true → ∀ s', m s = .ok s' → s'.isUnpacking = true ∧ s'.left + b ≤ s.left

section
variable {A B T : Type} {cfg : Cfg} {w0 b b' : Nat}

theorem Pays.pure {a : A} {w : A → Nat} (h : w a ≤ w0) : Pays w0 0 (fun s => .ok (a, s)) w := by
  intro s hs a' s' he
  cases he
  exact ⟨hs, by omega, by omega⟩

theorem Pays.bind {m : Ser → Out (A × Ser)} {k : A × Ser → Out (B × Ser)} {w : A → Nat} {w' : B → Nat}
    (h : Pays w0 b m w) (hk : ∀ a, Pays (w a) b' (fun s => k (a, s)) w') :
    Pays w0 (b + b') (fun s => m s >>= k) w' := by
  intro s hs a s' he
  obtain ⟨⟨a1, s1⟩, h1, h2⟩ := bind_eq_ok he
  obtain ⟨u1, l1, p1⟩ := h s hs a1 s1 h1
  obtain ⟨u2, l2, p2⟩ := hk a1 s1 u1 a s' h2
  exact ⟨u2, by lia, by lia⟩

theorem PaysS.bind {m : Ser → Out Ser} {k : Ser → Out (B × Ser)} {w' : B → Nat}
    (h : PaysS b m) (hk : Pays w0 b' k w') : Pays w0 (b + b') (fun s => m s >>= k) w' := by
  intro s hs a s' he
  obtain ⟨s1, h1, h2⟩ := bind_eq_ok he
  obtain ⟨u1, l1⟩ := h s hs s1 h1
  obtain ⟨u2, l2, p2⟩ := hk s1 u1 a s' h2
  exact ⟨u2, by lia, by lia⟩

theorem Pays.congr {m m' : Ser → Out (A × Ser)} {w : A → Nat} (h : Pays w0 b m w)
    (hm : ∀ s, s.isUnpacking = true → m' s = m s) : Pays w0 b m' w := by
  intro s hs a s' he
  rw [hm s hs] at he
  exact h s hs a s' he

theorem Pays.mono {m : Ser → Out (A × Ser)} {w : A → Nat} {w1 c : Nat} (h : Pays w0 b m w)
    (hw : w0 ≤ w1) (hb : c ≤ b) : Pays w1 c m w := by
  intro s hs a s' he
  obtain ⟨u, l, p⟩ := h s hs a s' he
  exact ⟨u, by lia, by lia⟩

/-- Something changes the result only. -/
theorem Pays.map {m : Ser → Out (A × Ser)} {w : A → Nat} {w' : B → Nat} (h : Pays w0 b m w) (f : A → B)
    (hf : ∀ a, w' (f a) ≤ w a) : Pays w0 b (fun s => m s >>= fun r => .ok (f r.1, r.2)) w' :=
  h.bind (b' := 0) (fun a => Pays.pure (hf a))

theorem Pays.none {m : Ser → Out (A × Ser)} {w : A → Nat} (h : ∀ s r, m s ≠ .ok r) : Pays w0 b m w :=
  fun s _ a s' he => absurd he (h s (a, s'))

/-- Bytes read on top are available. -/
theorem Pays.lift {m : Ser → Out (A × Ser)} {w : A → Nat} (h : Pays w0 b m w) (v : Nat) :
    Pays (w0 + v) b m (fun a => w a + v) := by
  intro s hs a s' he
  obtain ⟨u, l, p⟩ := h s hs a s' he
  exact ⟨u, l, by lia⟩

/-- Bytes read pay for what is returned. -/
theorem Pays.spend {m : Ser → Out (A × Ser)} {w : A → Nat} {c : Nat} (h : Pays w0 (b + c) m w) :
    Pays w0 b m (fun a => w a + c) := by
  intro s hs a s' he
  obtain ⟨u, l, p⟩ := h s hs a s' he
  exact ⟨u, by lia, by lia⟩

theorem Pays.weaken {m : Ser → Out (A × Ser)} {w w' : A → Nat} (h : Pays w0 b m w) (hw : ∀ a, w' a ≤ w a) :
    Pays w0 b m w' := by
  intro s hs a s' he
  obtain ⟨u, l, p⟩ := h s hs a s' he
  exact ⟨u, l, by have := hw a; omega⟩

theorem Ser.footprinting_of_unpacking {s : Ser} (h : s.isUnpacking = true) : s.isFootprinting = false := by
  unfold Ser.isUnpacking at h
  unfold Ser.isFootprinting
  revert h
  cases s.mode <;> decide

theorem Ser.packing_of_unpacking {s : Ser} (h : s.isUnpacking = true) : (s.isPacking || s.isSizing) = false := by
  unfold Ser.isUnpacking at h
  unfold Ser.isPacking Ser.isSizing
  revert h
  cases s.mode <;> decide

theorem Ser.addBytes_of_unpacking {s : Ser} (h : s.isUnpacking = true) (n : Nat) : s.addBytes n = s := by
  obtain ⟨core, kind, vdis⟩ := s
  cases core <;> first | rfl | exact absurd h (by simp [Ser.isUnpacking, Ser.mode])

theorem contiguousBytes_pays {s : Ser} (hs : s.isUnpacking = true) {size num : Nat} {data bs : Bytes} {s' : Ser}
    (h : s.contiguousBytes size num data = .ok (bs, s')) :
    s'.isUnpacking = true ∧ s'.left + size * num ≤ s.left ∧ bs.length = size * num := by
  obtain ⟨core, kind, vdis⟩ := s
  cases core with
  | unpacker mem cur used =>
    simp only [Ser.contiguousBytes] at h
    split at h
    · cases h
    · split at h
      · cases h
        refine ⟨rfl, ?_, ?_⟩
        · simp only [Ser.left]; omega
        · simp only [List.length_take, List.length_drop]; omega
      · cases h
  | streamUnpacker inp n =>
    simp only [Ser.contiguousBytes] at h
    split at h
    · cases h
    · split at h
      · cases h
        refine ⟨rfl, ?_, ?_⟩
        · simp only [Ser.left, List.length_drop]; omega
        · simp only [List.length_take]; omega
      · cases h
  | _ => exact absurd hs (by simp [Ser.isUnpacking, Ser.mode])

theorem dispatchByte_pays (size : Nat) {s : Ser} (hs : s.isUnpacking = true) {xs ys : List Bytes} {s' : Ser}
    (h : dispatchByte size s xs = .ok (ys, s')) :
    s'.isUnpacking = true ∧ s'.left + size * xs.length ≤ s.left ∧ ys.length = xs.length ∧
      ys.flatten.length = size * xs.length := by
  obtain ⟨⟨bs, s1⟩, h1, h2⟩ := bind_eq_ok h
  obtain ⟨u, l, hl⟩ := contiguousBytes_pays hs h1
  cases h2
  refine ⟨u, l, by simp, ?_⟩
  have := chunks_mem_length size xs.length bs hl
  rw [List.length_flatten, List.map_congr_left (g := fun _ => size) this]
  simp [Nat.mul_comm]

theorem dispatchInt_pays (n : Nat) (xs : List Nat) (v : Nat) :
    Pays v (n * xs.length) (fun s => dispatchInt cfg n s xs) (fun _ => v) := by
  intro s hs a s' he
  obtain ⟨⟨bs, s1⟩, h1, h2⟩ := bind_eq_ok he
  obtain ⟨u, l, _, _⟩ := dispatchByte_pays n hs h1
  cases h2
  rw [List.length_map] at l
  exact ⟨u, l, by lia⟩

theorem rawInt_pays (n v : Nat) : Pays 0 n (fun s => rawInt cfg n s v) (fun _ => 0) := by
  intro s hs a s' he
  obtain ⟨⟨ys, s1⟩, h1, he⟩ := bind_eq_ok he
  obtain ⟨u, l, _⟩ := dispatchInt_pays n [v] 0 s hs ys s1 h1
  simp only [List.length_singleton, Nat.mul_one] at l
  match ys with
  | [y] => cases he; exact ⟨u, l, by lia⟩
  | [] => cases he
  | _ :: _ :: _ => cases he

theorem withTypeIdx_pays (ti : TI) : PaysS 4 (withTypeIdx cfg ti) := by
  intro s hs s' he
  unfold withTypeIdx at he
  rw [Ser.packing_of_unpacking hs, if_neg (by simp), if_pos hs] at he
  obtain ⟨⟨v, s1⟩, h1, h2⟩ := bind_eq_ok he
  obtain ⟨u, l, _⟩ := rawInt_pays 4 0 s hs v s1 h1
  simp only at h2
  split at h2
  · cases h2
  · cases h2; exact ⟨u, l⟩

theorem withMemUsed_pays (ti : TI) (len : Nat) : PaysS 8 (fun s => withMemUsed cfg ti s len) := by
  intro s hs s' he
  simp only [withMemUsed] at he
  rw [Ser.packing_of_unpacking hs, if_neg (by simp), if_pos hs] at he
  obtain ⟨⟨v, s1⟩, h1, h2⟩ := bind_eq_ok he
  obtain ⟨u, l, _⟩ := rawInt_pays 8 0 s hs v s1 h1
  simp only at h2
  split at h2
  · cases h2
  · cases h2; exact ⟨u, l⟩

theorem traverse_pays {ti : TI} {h : Handler T} {xs : List T} {w : List T → Nat}
    (hh : Pays w0 b (fun s => h s xs) w) : Pays w0 b (fun s => traverse cfg ti h s xs) w := by
  unfold traverse
  split
  · intro s hs a s' he
    obtain ⟨s1, h1, he⟩ := bind_eq_ok he
    obtain ⟨⟨ys, s2⟩, h2, he⟩ := bind_eq_ok he
    obtain ⟨s3, h3, he⟩ := bind_eq_ok he
    obtain ⟨u1, l1⟩ := withTypeIdx_pays ti s hs s1 h1
    obtain ⟨u2, l2, p2⟩ := hh s1 u1 ys s2 (catchDepth_ok h2)
    obtain ⟨u3, l3⟩ := withMemUsed_pays ti _ s2 u2 s3 h3
    cases he
    exact ⟨u3, by lia, by lia⟩
  · exact hh

theorem pipe_pays {e : Elem T} {x : T} {w : T → Nat} {v : Nat}
    (hh : Pays (w0 + v) b (fun s => e.apply s [x]) (fun ys => (ys.map w).sum + v)) :
    Pays w0 b (fun s => pipe cfg e s x) w := by
  have := (traverse_pays (cfg := cfg) (ti := e.ti) hh).bind (k := fun r => match r.1 with
    | [y] => Out.ok (y, r.2)
    | _ => .ub .badRegion) (b' := 0) (w' := fun y => w y + v) (fun a => by
      match a with
      | [] => exact .none (by simp)
      | [y] => exact .pure (by simp)
      | _ :: _ :: _ => exact .none (by simp))
  intro s hs a s' he
  obtain ⟨u, l, p⟩ := this s hs a s' he
  exact ⟨u, by lia, by lia⟩

theorem pipeInt_pays {e : Elem Nat} {n : Nat} (he : e.apply = dispatchInt cfg n) (x v : Nat) :
    Pays v n (fun s => pipe cfg e s x) (fun _ => v) := by
  refine pipe_pays (v := 0) (w := fun _ => v) ?_
  intro s hs ys s' h
  simp only [he] at h
  obtain ⟨u, l, p⟩ := dispatchInt_pays n [x] v s hs ys s' h
  obtain ⟨⟨bs, s1⟩, h1, h2⟩ := bind_eq_ok h
  obtain ⟨_, _, hlen, _⟩ := dispatchByte_pays n hs h1
  cases h2
  simp only [List.map_map, List.length_map, List.length_cons, List.length_nil] at hlen l p ⊢
  match bs, hlen with
  | [y], _ => exact ⟨u, by simpa using l, by simp at p ⊢; omega⟩

theorem pipeSize_pays (x v : Nat) : Pays v 8 (fun s => pipeSize cfg s x) (fun _ => v) := pipeInt_pays rfl x v

theorem pipeBool_pays (x : Bool) (v : Nat) : Pays v 1 (fun s => pipeBool cfg s x) (fun _ => v) := by
  refine (pipeInt_pays (cfg := cfg) (e := boolElem cfg) rfl x.toNat v).bind (b' := 0) (fun a => ?_)
  simp only
  split
  · exact .pure (Nat.le_refl _)
  · split
    · exact .pure (Nat.le_refl _)
    · exact .none (by simp)

theorem dispatchEach_pays {f : Ser → T → Out (T × Ser)} {w : T → Nat} (hf : ∀ x, Pays (w x) b (fun s => f s x) w) :
    ∀ xs : List T, Pays ((xs.map w).sum + xs.length) (b * xs.length) (fun s => dispatchEach f s xs)
      (fun ys => (ys.map w).sum + ys.length)
  | [] => Pays.pure (a := ([] : List T)) (Nat.le_refl _)
  | x :: xs => by
    have ih := dispatchEach_pays hf xs
    intro s hs a s' he
    obtain ⟨⟨y, s1⟩, h1, he⟩ := bind_eq_ok he
    obtain ⟨⟨ys, s2⟩, h2, he⟩ := bind_eq_ok he
    obtain ⟨u1, l1, p1⟩ := hf x s hs y s1 h1
    obtain ⟨u2, l2, p2⟩ := ih s1 u1 ys s2 h2
    cases he
    simp only [List.map_cons, List.sum_cons, List.length_cons, Nat.mul_add, Nat.mul_one] at *
    exact ⟨u2, by lia, by lia⟩

theorem pipeEach_pays {e : Elem T} {w : T → Nat} (hf : ∀ x, Pays (w x) b (fun s => pipe cfg e s x) w) :
    ∀ xs : List T, Pays ((xs.map w).sum + xs.length) (b * xs.length) (fun s => pipeEach cfg e s xs)
      (fun ys => (ys.map w).sum + ys.length)
  | [] => Pays.pure (a := ([] : List T)) (Nat.le_refl _)
  | x :: xs => by
    have ih := pipeEach_pays hf xs
    intro s hs a s' he
    obtain ⟨⟨y, s1⟩, h1, he⟩ := bind_eq_ok he
    obtain ⟨⟨ys, s2⟩, h2, he⟩ := bind_eq_ok he
    obtain ⟨u1, l1, p1⟩ := hf x s hs y s1 h1
    obtain ⟨u2, l2, p2⟩ := ih s1 u1 ys s2 h2
    cases he
    simp only [List.map_cons, List.sum_cons, List.length_cons, Nat.mul_add, Nat.mul_one] at *
    exact ⟨u2, by lia, by lia⟩

theorem serializeArray_pays {e : Elem T} {w : T → Nat} {xs : List T}
    (hh : Pays ((xs.map w).sum + xs.length) (b * xs.length) (fun s => e.apply s xs)
      (fun ys => (ys.map w).sum + ys.length)) :
    Pays ((xs.map w).sum + xs.length) (b * xs.length) (fun s => serializeArray cfg e s xs)
      (fun ys => (ys.map w).sum + ys.length) := by
  unfold serializeArray
  split
  · exact traverse_pays hh
  · next h =>
    have : xs.length = 0 := by omega
    rw [this]
    exact .pure (by omega)

/-! ### Containers -/

/-- Elements that take at least a byte pay for themselves. -/
theorem array_pays {e : Elem T} {w : T → Nat} (hb : 1 ≤ b)
    (hh : ∀ xs, Pays ((xs.map w).sum + xs.length) (b * xs.length) (fun s => e.apply s xs)
      (fun ys => (ys.map w).sum + ys.length)) (xs : List T) :
    Pays (xs.map w).sum 0 (fun s => serializeArray cfg e s xs) (fun ys => ys.length + (ys.map w).sum) := by
  intro s hs a s' he
  obtain ⟨u, l, p⟩ := serializeArray_pays (cfg := cfg) (hh xs) s hs a s' he
  have : xs.length ≤ b * xs.length := Nat.le_mul_of_pos_left _ hb
  exact ⟨u, by lia, by lia⟩

theorem sum_take_le {w : T → Nat} (n : Nat) (xs : List T) : ((xs.take n).map w).sum ≤ (xs.map w).sum := by
  conv => rhs; rw [← List.take_append_drop n xs]
  rw [List.map_append, List.sum_append]
  omega

theorem seqResize_weight {w : T → Nat} {x : T} (hx : w x = 0) (xs : List T) (n : Nat) :
    ((xs.take n ++ List.replicate (n - xs.length) x).map w).sum ≤ (xs.map w).sum := by
  have := sum_take_le (w := w) n xs
  rw [List.map_append, List.sum_append, List.map_replicate, hx, List.sum_replicate_nat]
  simpa using this

theorem constructVectorData_weight {e : Elem T} {w : T → Nat} (hf : w e.fresh = 0) (hd : ∀ d, e.dflt = some d → w d = 0)
    (n : Nat) (v : Vec T) : ((constructVectorData cfg e n v).elems.map w).sum ≤ (v.elems.map w).sum := by
  unfold constructVectorData
  split
  · next d h => exact seqResize_weight (hd d h) _ _
  · split
    · exact seqResize_weight hf _ _
    · simp [hf]

theorem serVector_pays {e : Elem T} {w : T → Nat} {n : Nat} (hb : 1 ≤ b) (hf : w e.fresh = 0)
    (hd : ∀ d, e.dflt = some d → w d = 0)
    (hh : ∀ xs, Pays ((xs.map w).sum + xs.length) (b * xs.length) (fun s => e.apply s xs)
      (fun ys => (ys.map w).sum + ys.length)) (v : Vec T) :
    Pays (v.elems.length + (v.elems.map w).sum) 1 (fun s => serVector cfg n e s v)
      (fun v => v.elems.length + (v.elems.map w).sum) := by
  intro s hs a s' he
  simp only [serVector, Ser.footprinting_of_unpacking hs, Bool.false_eq_true, if_false, serializeVectorMeta] at he
  obtain ⟨⟨k, v1, s1⟩, h1, he⟩ := bind_eq_ok he
  obtain ⟨⟨c, s2⟩, h2, h1⟩ := bind_eq_ok h1
  obtain ⟨⟨k', s3⟩, h3, h1⟩ := bind_eq_ok h1
  obtain ⟨u2, l2, -⟩ := pipeSize_pays v.cap 0 s hs c s2 h2
  obtain ⟨u3, l3, -⟩ := pipeSize_pays _ 0 s2 u2 k' s3 h3
  cases h1
  simp only [u3, if_true] at he
  obtain ⟨⟨ys, s4⟩, h4, he⟩ := bind_eq_ok he
  obtain ⟨u4, l4, p4⟩ := array_pays hb hh _ s3 u3 ys s4 h4
  cases he
  have h5 := constructVectorData_weight (cfg := cfg) hf hd k' (v.reserve cfg c)
  have h6 : (v.reserve cfg c).elems = v.elems := by unfold Vec.reserve; split <;> rfl
  rw [h6] at h5
  exact ⟨u4, by lia, by lia⟩

theorem unpackBools_pays : ∀ (bs : List Bool), Pays 0 0 (fun s => unpackBools cfg s bs) (fun ys => ys.length)
  | [] => .pure (Nat.le_refl _)
  | _ :: bs => by
    have ih := unpackBools_pays bs
    intro s hs a s' he
    obtain ⟨⟨y, s1⟩, h1, he⟩ := bind_eq_ok he
    obtain ⟨⟨ys, s2⟩, h2, he⟩ := bind_eq_ok he
    obtain ⟨u1, l1, p1⟩ := pipeBool_pays false 0 s hs y s1 h1
    obtain ⟨u2, l2, p2⟩ := ih s1 u1 ys s2 h2
    cases he
    simp only [List.length_cons] at *
    exact ⟨u2, by lia, by lia⟩

theorem serVectorBool_pays {n : Nat} (v : Vec Bool) :
    Pays v.elems.length 1 (fun s => serVectorBool cfg n s v) (fun v => v.elems.length) := by
  intro s hs a s' he
  simp only [serVectorBool, Ser.footprinting_of_unpacking hs, Bool.false_eq_true, if_false, serializeVectorMeta] at he
  obtain ⟨⟨k, v1, s1⟩, h1, he⟩ := bind_eq_ok he
  obtain ⟨⟨c, s2⟩, h2, h1⟩ := bind_eq_ok h1
  obtain ⟨⟨k', s3⟩, h3, h1⟩ := bind_eq_ok h1
  obtain ⟨u2, l2, -⟩ := pipeSize_pays v.cap 0 s hs c s2 h2
  obtain ⟨u3, l3, -⟩ := pipeSize_pays _ 0 s2 u2 k' s3 h3
  cases h1
  simp only [u3, if_true] at he
  obtain ⟨⟨bs, s4⟩, h4, he⟩ := bind_eq_ok he
  obtain ⟨u4, l4, p4⟩ := unpackBools_pays _ s3 u3 bs s4 h4
  cases he
  exact ⟨u4, by lia, by lia⟩

theorem serString_pays {n : Nat} (x : Str) :
    Pays x.chars.length 1 (fun s => serString cfg n s x) (fun x => x.chars.length) := by
  intro s hs a s' he
  simp only [serString, Ser.footprinting_of_unpacking hs, Bool.false_eq_true, if_false] at he
  obtain ⟨⟨k, s1⟩, h1, he⟩ := bind_eq_ok he
  obtain ⟨⟨cs, s2⟩, h2, he⟩ := bind_eq_ok he
  obtain ⟨u1, l1, -⟩ := pipeSize_pays _ 0 s hs k s1 h1
  obtain ⟨⟨ys, s3⟩, h3, h2⟩ := bind_eq_ok h2
  cases h2
  cases he
  have hp : Pays 0 0 (fun s => serializeArray cfg (charElem cfg) s ((x.resize cfg k).chars.map fun c => [c]))
      (fun ys => ys.flatten.length) := by
    unfold serializeArray
    split
    · refine traverse_pays ?_
      intro s hs ys s' h
      obtain ⟨u, l, _, hl⟩ := dispatchByte_pays 1 hs (h : dispatchByte 1 s _ = _)
      exact ⟨u, by lia, by lia⟩
    · next h =>
      refine .pure ?_
      have : ((x.resize cfg k).chars.map fun c => [c]) = [] := List.length_eq_zero_iff.1 (by omega)
      rw [this]
      simp
  obtain ⟨u3, l3, p3⟩ := hp s1 u1 ys s2 h3
  exact ⟨u3, by lia, by lia⟩

theorem unpackLoop_pays {e : Elem T} {w : T → Nat} {wl : List T → Nat} {add : List T → T → List T}
    (hp : Pays 0 1 (fun s => pipe cfg e s e.fresh) w) (ha : ∀ acc y, wl (add acc y) ≤ wl acc + (1 + w y)) :
    ∀ (n : Nat) (acc : List T), Pays (wl acc) 0 (fun s => unpackLoop cfg e add n s acc) wl
  | 0, acc => .pure (Nat.le_refl _)
  | n + 1, acc => by
    intro s hs a s' he
    obtain ⟨⟨y, s1⟩, h1, he⟩ := bind_eq_ok he
    obtain ⟨u1, l1, p1⟩ := hp s hs y s1 h1
    obtain ⟨u2, l2, p2⟩ := unpackLoop_pays hp ha n (add acc y) s1 u1 a s' he
    have := ha acc y
    exact ⟨u2, by lia, by lia⟩

theorem serList_pays {e : Elem T} {w : T → Nat} {n : Nat} (hf : w e.fresh = 0)
    (hp : ∀ x, Pays (w x) 1 (fun s => pipe cfg e s x) w) (xs : List T) :
    Pays (xs.length + (xs.map w).sum) 1 (fun s => serList cfg n e s xs) (fun xs => xs.length + (xs.map w).sum) := by
  intro s hs a s' he
  obtain ⟨⟨k, s1⟩, h1, he⟩ := bind_eq_ok he
  unfold serializeContainerSize at h1
  rw [Ser.footprinting_of_unpacking hs, if_neg (by simp)] at h1
  obtain ⟨u1, l1, -⟩ := pipeSize_pays _ 0 s hs k s1 h1
  simp only [u1, if_true] at he
  have key : Pays (xs.length + (xs.map w).sum) 0 (fun s => deserializeOrderedElems cfg e s xs k)
      (fun xs => xs.length + (xs.map w).sum) := by
    unfold deserializeOrderedElems
    split
    · intro s hs a s' h
      obtain ⟨u, l, p⟩ := pipeEach_pays hp _ s hs a s' h
      have := seqResize_weight (w := w) hf xs k
      unfold seqResize at p
      simp only [seqResize] at l
      exact ⟨u, by lia, by lia⟩
    · exact unpackLoop_pays (wl := fun xs => xs.length + (xs.map w).sum) ((hp _).mono (by omega) (Nat.le_refl _))
        (fun acc y => by simp; omega) k xs
  obtain ⟨u2, l2, p2⟩ := key s1 u1 a s' he
  exact ⟨u2, by lia, by lia⟩

theorem serMapLike_pays {e : Elem T} {w : T → Nat} {n : Nat} {emplace : List T → T → List T} (hf : w e.fresh = 0)
    (hp : ∀ x, Pays (w x) 1 (fun s => pipe cfg e s x) w)
    (ha : ∀ acc y, (emplace acc y).length + ((emplace acc y).map w).sum ≤ (acc.length + (acc.map w).sum) + (1 + w y))
    (xs : List T) :
    Pays (xs.length + (xs.map w).sum) 1 (fun s => serMapLike cfg n emplace e s xs)
      (fun xs => xs.length + (xs.map w).sum) := by
  intro s hs a s' he
  obtain ⟨⟨k, s1⟩, h1, he⟩ := bind_eq_ok he
  unfold serializeContainerSize at h1
  rw [Ser.footprinting_of_unpacking hs, if_neg (by simp)] at h1
  obtain ⟨u1, l1, -⟩ := pipeSize_pays _ 0 s hs k s1 h1
  simp only [u1, if_true] at he
  obtain ⟨u2, l2, p2⟩ := unpackLoop_pays (wl := fun xs => xs.length + (xs.map w).sum)
    ((hp _).mono (by omega) (Nat.le_refl _)) ha k xs s1 u1 a s' he
  exact ⟨u2, by lia, by lia⟩

theorem serQueue_pays {e : Elem T} {w : T → Nat} {n : Nat} (hf : w e.fresh = 0)
    (hp : ∀ x, Pays (w x) 1 (fun s => pipe cfg e s x) w) (xs : List T) :
    Pays (xs.length + (xs.map w).sum) 1 (fun s => serQueue cfg n e s xs) (fun xs => xs.length + (xs.map w).sum) := by
  intro s hs a s' he
  simp only [serQueue, Ser.footprinting_of_unpacking hs, Bool.false_eq_true, if_false] at he
  obtain ⟨⟨k, s1⟩, h1, he⟩ := bind_eq_ok he
  unfold serializeContainerSize at h1
  rw [Ser.footprinting_of_unpacking hs, if_neg (by simp)] at h1
  obtain ⟨u1, l1, -⟩ := pipeSize_pays _ 0 s hs k s1 h1
  simp only [u1, if_true] at he
  obtain ⟨u2, l2, p2⟩ := unpackLoop_pays (wl := fun xs => xs.length + (xs.map w).sum)
    ((hp _).mono (by omega) (Nat.le_refl _)) (fun acc y => by simp; omega) k xs s1 u1 a s' he
  exact ⟨u2, by lia, by lia⟩

theorem emplaceUnique_weight {lt : T → T → Bool} {w : T → Nat} : ∀ (acc : List T) (y : T),
    (emplaceUnique lt acc y).length + ((emplaceUnique lt acc y).map w).sum ≤
      (acc.length + (acc.map w).sum) + (1 + w y)
  | [], y => by simp [emplaceUnique]
  | z :: zs, y => by
    have ih := emplaceUnique_weight (lt := lt) (w := w) zs y
    unfold emplaceUnique
    split
    · simp only [List.length_cons, List.map_cons, List.sum_cons]; omega
    · split <;> simp only [List.length_cons, List.map_cons, List.sum_cons] <;> omega

theorem emplaceMulti_weight {lt : T → T → Bool} {w : T → Nat} : ∀ (acc : List T) (y : T),
    (emplaceMulti lt acc y).length + ((emplaceMulti lt acc y).map w).sum ≤
      (acc.length + (acc.map w).sum) + (1 + w y)
  | [], y => by simp [emplaceMulti]
  | z :: zs, y => by
    have ih := emplaceMulti_weight (lt := lt) (w := w) zs y
    unfold emplaceMulti
    split <;> simp only [List.length_cons, List.map_cons, List.sum_cons] <;> omega

theorem emplaceUnordered_weight {multi : Bool} {eq : T → T → Bool} {arrange : List T → List T}
    (harr : ∀ xs, (arrange xs).Perm xs) {w : T → Nat} (acc : List T) (y : T) :
    (emplaceUnordered multi eq arrange acc y).length + ((emplaceUnordered multi eq arrange acc y).map w).sum ≤
      (acc.length + (acc.map w).sum) + (1 + w y) := by
  unfold emplaceUnordered
  split
  · omega
  · rw [(harr _).length_eq, ((harr _).map w).sum_nat]
    simp only [List.length_cons, List.map_cons, List.sum_cons]; omega

theorem serOptional_pays {e : Elem T} {w : T → Nat} {n : Nat} (hf : w e.fresh = 0)
    (hp : Pays (w e.fresh) 0 (fun s => pipe cfg e s e.fresh) w) (x : Option T) (v : Nat) :
    Pays v 1 (fun s => serOptional cfg n e s x) (fun x => x.elim 0 w) := by
  intro s hs a s' he
  simp only [serOptional, Ser.footprinting_of_unpacking hs, Bool.false_eq_true, if_false, hs, if_true] at he
  obtain ⟨⟨b, s1⟩, h1, he⟩ := bind_eq_ok he
  obtain ⟨u1, l1, -⟩ := pipeBool_pays false 0 s hs b s1 h1
  simp only at he
  split at he
  · obtain ⟨⟨y, s2⟩, h2, he⟩ := bind_eq_ok he
    obtain ⟨u2, l2, p2⟩ := hp s1 u1 y s2 h2
    cases he
    simp only [Option.elim]
    exact ⟨u2, by lia, by lia⟩
  · cases he
    simp only [Option.elim]
    exact ⟨u1, by lia, by lia⟩

theorem serUnderlying_pays {e : Elem T} {x : T} {w : T → Nat} (hp : Pays w0 b (fun s => pipe cfg e s x) w) :
    Pays w0 b (fun s => serUnderlying cfg e s x) w :=
  hp.bind (b' := 0) (fun _ => .pure (Nat.le_refl _))

end
end Ckpt
