import Verif.Proofs.Dangling
import Verif.Spec.Demo
import Mathlib.Tactic.Ring
/-!
# Footprint of objects with raw and shared pointers (C54)
-/

set_option autoImplicit false

namespace Ckpt

section
variable {cfg : Cfg} {env : Env} {H : Heap} {a : Nat}

/-- C54: the footprint of an object with pointers is the sum over all its members, where a pointer counts
itself and the object it points to, once for every pointer to it that is met. -/
theorem C54_counts {o : HObj} {k : Nat} (ho : H a = some o) (hc : H.Counts (Counted cfg env) o.members k) (off : Nat) :
    Yields (fun n => getMemoryFootprint cfg (heapElem cfg env H n a) a off)
      (.ok ((off + max (k % 2 ^ 64) o.ti.sizeof) % 2 ^ 64, a)) :=
  footprint_yields ho hc off

/-- C54: computing the footprint ends exactly when no infinite sequence of pointers starts at the object;
otherwise it never ends, whatever the nesting bound. -/
theorem C54_terminates_iff (h : ∀ b, H.Reaches a b → ∃ o, H b = some o ∧
      ∀ t x, Member.value t x ∈ o.members → ∃ f, Counted cfg env t x f) (off : Nat) :
    (H.Finite a → ∃ r, Yields (fun n => getMemoryFootprint cfg (heapElem cfg env H n a) a off) (.ok (r, a))) ∧
    (¬ H.Finite a → ∀ n, getMemoryFootprint cfg (heapElem cfg env H n a) a off = .fuel) := by
  refine ⟨fun hf => ?_, fun hf n => footprint_never h hf off n⟩
  obtain ⟨o, k, ho, hk⟩ := counts_of_finite h hf
  exact ⟨_, footprint_yields ho hk off⟩

theorem Heap.Finite.reaches (h : H.Finite a) {b : Nat} (hr : H.Reaches a b) : H.Finite b := by
  induction hr with
  | refl => exact h
  | step _ hp ih => exact ih.inv hp

theorem Heap.not_finite_of_cycle {b c : Nat} (h1 : H.Reaches a b) (h2 : H.Points b c) (h3 : H.Reaches c b) :
    ¬ H.Finite a := by
  intro h
  have hb := h.reaches h1
  clear h1 h
  induction hb generalizing c with
  | intro b _ ih =>
    rcases h3.first with rfl | ⟨d, hd, hr⟩
    · exact ih c h2 h2 .refl
    · exact ih c h2 hd (.step hr h2)

/-- C54: the footprint of an object from which a cycle of pointers is reached is never computed. -/
theorem C54_cycle (h : ∀ b, H.Reaches a b → ∃ o, H b = some o ∧
      ∀ t x, Member.value t x ∈ o.members → ∃ f, Counted cfg env t x f)
    {b c : Nat} (h1 : H.Reaches a b) (h2 : H.Points b c) (h3 : H.Reaches c b) (off n : Nat) :
    getMemoryFootprint cfg (heapElem cfg env H n a) a off = .fuel :=
  (C54_terminates_iff h off).2 (Heap.not_finite_of_cycle h1 h2 h3) n

/-- C54: if no infinite sequence of pointers starts at the object but some pointer leads to where no object is (any
more), reading there is undefined behaviour: the pointers are not skipped. -/
theorem C54_dangling (hf : H.Finite a) (h : ∀ b, H.Reaches a b → ∀ o, H b = some o →
      ∀ t x, Member.value t x ∈ o.members → ∃ f, Counted cfg env t x f)
    {b : Nat} (hr : H.Reaches a b) (hb : H b = none) (off : Nat) :
    Yields (fun n => getMemoryFootprint cfg (heapElem cfg env H n a) a off) (.ub .badRegion) :=
  footprint_dangling hf h hr hb off

/-- C54: objects shared by several pointers are counted several times: `d` layers, each object holding two
pointers to the one object of the next layer, count `2 ^ d` times the last object. -/
theorem C54_shared_counted_again {ti tip : TI} {ms : List Member} {k : Nat} (d : Nat)
    (hH : ∀ i < d, H i = some ⟨ti, [.pointer tip (some (i + 1)), .pointer tip (some (i + 1))]⟩)
    (hd : H d = some ⟨ti, ms⟩) (hk : H.Counts (Counted cfg env) ms k) (off : Nat) :
    Yields (fun n => getMemoryFootprint cfg (heapElem cfg env H n 0) 0 off)
      (.ok ((off + max (((2 ^ d - 1) * 2 * tip.sizeof + 2 ^ d * k) % 2 ^ 64) ti.sizeof) % 2 ^ 64, 0)) := by
  have key : ∀ j ≤ d, ∃ o, H (d - j) = some o ∧ o.ti = ti ∧
      H.Counts (Counted cfg env) o.members ((2 ^ j - 1) * 2 * tip.sizeof + 2 ^ j * k) := by
    intro j
    induction j with
    | zero => exact fun _ => ⟨_, hd, rfl, by simpa using hk⟩
    | succ j ih =>
      intro hj
      obtain ⟨o, ho, _, hc⟩ := ih (by omega)
      have hs : d - (j + 1) + 1 = d - j := by omega
      have h1 := hH (d - (j + 1)) (by omega)
      rw [hs] at h1
      refine ⟨_, h1, rfl, ?_⟩
      have h2 := Heap.Counts.pointer (ti := tip) ho hc (.pointer (ti := tip) ho hc .nil)
      have hp : 1 ≤ 2 ^ j := Nat.one_le_two_pow
      have he : tip.sizeof + ((2 ^ j - 1) * 2 * tip.sizeof + 2 ^ j * k) +
          (tip.sizeof + ((2 ^ j - 1) * 2 * tip.sizeof + 2 ^ j * k) + 0) =
          (2 ^ (j + 1) - 1) * 2 * tip.sizeof + 2 ^ (j + 1) * k := by
        obtain ⟨p, hp⟩ : ∃ p, 2 ^ j = p + 1 := ⟨2 ^ j - 1, by omega⟩
        have h1 : p + 1 - 1 = p := by omega
        have h2 : 2 * (p + 1) - 1 = 2 * p + 1 := by omega
        rw [Nat.pow_succ', hp, h1, h2]
        ring
      rw [he] at h2
      exact h2
  obtain ⟨o, ho, rfl, hc⟩ := key d (Nat.le_refl d)
  rw [Nat.sub_self] at ho
  exact C54_counts ho hc off

end

namespace Demo

/-- A `std::shared_ptr`: 16 bytes. -/
def tiShared : TI := ⟨900, 900, 16⟩
/-- A raw pointer. -/
def tiRaw : TI := ⟨901, 901, 8⟩
/-- `std::vector<std::shared_ptr<T>>`. -/
def tiShVec : TI := ⟨902, 902, 24⟩
/-- `std::function`. -/
def tiFn : TI := ⟨903, 903, 32⟩
/-- The class of the nodes. -/
def tiNode : TI := ⟨904, 904, 48⟩

/-- A node (0) that shares object 1 by a vector with one spare slot and a raw pointer; object 1 holds an
integer, a function and a null pointer. -/
def dag : Heap
  | 0 => some ⟨tiNode, [.pointers tiShVec tiShared 3 [some 1, some 1], .pointer tiRaw (some 1), .value int (.raw [1, 0, 0, 0])]⟩
  | 1 => some ⟨tiNode, [.value int (.raw [7, 0, 0, 0]), .handle tiFn, .pointer tiRaw none]⟩
  | _ => none

/-- Parent and child, each pointing to the other. -/
def cyclic : Heap
  | 0 => some ⟨tiNode, [.value int (.raw [1, 0, 0, 0]), .pointer tiShared (some 1)]⟩
  | 1 => some ⟨tiNode, [.pointer tiRaw (some 0)]⟩
  | _ => none

variable {check ndebug : Bool}

theorem counted_int {bs : Bytes} (h : bs.length = 4) : Counted (cfg check ndebug) env int (.raw bs) 4 :=
  C42_fundamental valid_exact (.prim h)

/-- 24 bytes of vector, two times 16 + 44 for its elements, 16 for the spare slot, 8 + 44 for the raw
pointer, 4 for the integer. -/
theorem dag_counts : ∃ o, dag 0 = some o ∧ dag.Counts (Counted (cfg check ndebug) env) o.members 216 := by
  have h1 : dag.Counts (Counted (cfg check ndebug) env)
      [.value int (.raw [7, 0, 0, 0]), .handle tiFn, .pointer tiRaw none] (4 + (32 + (8 + 0))) :=
    .value (counted_int rfl) (.handle (.null .nil))
  have h2 : dag 1 = some _ := rfl
  have h3 := Heap.Counts.pointers (tiv := tiShVec) (ti := tiShared) (cap := 3) (as := [some 1, some 1])
    (.pointer h2 h1 (.pointer h2 h1 .nil))
    (.pointer (ti := tiRaw) h2 h1 (.value (counted_int (bs := [1, 0, 0, 0]) rfl) .nil))
  exact ⟨_, rfl, h3⟩

/-- The hypothesis of `C54_counts` is met by a node whose members share an object; the object is counted
three times. -/
example : Yields (fun n => getMemoryFootprint (cfg check ndebug) (heapElem (cfg check ndebug) env dag n 0) 0 0)
    (.ok (216, 0)) := by
  obtain ⟨o, ho, hc⟩ := dag_counts (check := check) (ndebug := ndebug)
  have := C54_counts ho hc 0
  rw [show dag 0 = some _ from rfl, Option.some.injEq] at ho
  subst ho
  exact this

/-- The hypotheses of `C54_cycle` are met by a parent and a child that point to each other. -/
example (off n : Nat) :
    getMemoryFootprint (cfg check ndebug) (heapElem (cfg check ndebug) env cyclic n 0) 0 off = .fuel := by
  have p01 : cyclic.Points 0 1 := ⟨_, rfl, _, .tail _ (.head _), by simp [Member.targets]⟩
  have p10 : cyclic.Points 1 0 := ⟨_, rfl, _, .head _, by simp [Member.targets]⟩
  refine C54_cycle (b := 0) (c := 1) ?_ .refl p01 (.step .refl p10) off n
  intro b hb
  have hb : b = 0 ∨ b = 1 := by
    induction hb with
    | refl => exact .inl rfl
    | step _ hp ih =>
      obtain ⟨o, ho, m, hm, ht⟩ := hp
      rcases ih with rfl | rfl <;>
        · simp only [cyclic, Option.some.injEq] at ho
          subst ho
          simp only [List.mem_cons, List.not_mem_nil, or_false] at hm
          rcases hm with rfl | rfl <;> simp_all [Member.targets]
  rcases hb with rfl | rfl
  · refine ⟨_, rfl, fun t x hx => ?_⟩
    simp only [List.mem_cons, Member.value.injEq, List.not_mem_nil, or_false, reduceCtorEq] at hx
    obtain ⟨rfl, rfl⟩ := hx
    exact ⟨4, counted_int rfl⟩
  · exact ⟨_, rfl, fun t x hx => by simp at hx⟩

/-- Seven layers of two pointers each. -/
def layers : Heap := fun i =>
  if i < 7 then some ⟨tiNode, [.pointer tiShared (some (i + 1)), .pointer tiShared (some (i + 1))]⟩
  else some ⟨tiNode, [.value int (.raw [1, 0, 0, 0])]⟩

example : Yields (fun n => getMemoryFootprint (cfg check ndebug) (heapElem (cfg check ndebug) env layers n 0) 0 0)
    (.ok (127 * 32 + 128 * 4, 0)) :=
  C54_shared_counted_again (ti := tiNode) (tip := tiShared) (k := 4 + 0) 7 (fun i hi => by simp [layers, hi])
    (show layers 7 = some ⟨tiNode, [.value int (.raw [1, 0, 0, 0])]⟩ by simp [layers]) (.value (counted_int rfl) .nil) 0

/-- A node with an integer and a pointer to an object that was deleted. -/
def deleted : Heap := fun i =>
  if i = 0 then some ⟨tiNode, [.value int (.raw [1, 0, 0, 0]), .pointer tiRaw (some 5)]⟩ else none

/-- The hypotheses of `C54_dangling` are met by it. -/
example (off : Nat) : Yields (fun n => getMemoryFootprint (cfg check ndebug)
    (heapElem (cfg check ndebug) env deleted n 0) 0 off) (.ub .badRegion) := by
  have p05 : deleted.Points 0 5 := ⟨_, rfl, _, .tail _ (.head _), by simp [Member.targets]⟩
  have h5 : deleted 5 = none := rfl
  have hp : ∀ a b, deleted.Points a b → a = 0 ∧ b = 5 := by
    rintro a b ⟨o, ho, m, hm, ht⟩
    unfold deleted at ho
    split at ho
    · cases ho
      simp only [List.mem_cons, List.not_mem_nil, or_false] at hm
      rcases hm with rfl | rfl <;> simp_all [Member.targets]
    · cases ho
  refine C54_dangling (b := 5) (.intro _ fun b hb => ?_) ?_ (.step .refl p05) h5 off
  · obtain ⟨_, rfl⟩ := hp _ _ hb
    exact .intro _ fun c hc => absurd (hp _ _ hc).1 (by decide)
  · intro b _ o ho t x hx
    unfold deleted at ho
    split at ho
    · cases ho
      simp only [List.mem_cons, Member.value.injEq, List.not_mem_nil, or_false, reduceCtorEq] at hx
      obtain ⟨rfl, rfl⟩ := hx
      exact ⟨4, counted_int rfl⟩
    · cases ho

end Demo
end Ckpt
