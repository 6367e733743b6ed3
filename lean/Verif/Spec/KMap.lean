import Verif.Model.KMap
import Mathlib.Data.List.Forall2
/-!
# Specification: `Kokkos::UnorderedMap`
-/

set_option autoImplicit false

namespace Ckpt

variable {K V : Type}

/-- `EqualTo` is an equivalence, and insertions take free slots. -/
structure KHash.Lawful (h : KHash K V) : Prop where
  refl : ∀ a, h.eq a a = true
  symm : ∀ a b, h.eq a b = true → h.eq b a = true
  trans : ∀ a b c, h.eq a b = true → h.eq b c = true → h.eq a c = true
  place : ∀ slots k i, h.place slots k = some i → ∃ k0, slots[i]? = some (k0, none)

/-- No two entries with equal keys. -/
def KMap.Distinct (h : KHash K V) (m : KMap K V) : Prop :=
  (occupied m.slots).Pairwise fun a b => h.eq a.1 b.1 = false

/-- A map as Kokkos keeps it: no two entries with equal keys; capacities are of type `uint32_t`. -/
structure KMap.Ok (h : KHash K V) (m : KMap K V) : Prop where
  distinct : m.Distinct h
  cap_lt : m.capacity < 2 ^ 32

/-- No slot that is not in use holds the key of an entry. -/
def KMap.NoStale (h : KHash K V) (m : KMap K V) : Prop := ∀ k, (k, none) ∈ m.slots → m.find h k = none

/-- Insertions into a map constructed with this capacity succeed while it has fewer than `n` entries. -/
def KHash.Room (h : KHash K V) (cap n : Nat) : Prop :=
  ∀ slots k, slots.length = h.capacity cap → (occupied slots).length < n → (h.place slots k).isSome

/-- Both none, or both some and related. -/
inductive OptRel {A B : Type} (r : A → B → Prop) : Option A → Option B → Prop
  | none : OptRel r none none
  | some {a : A} {b : B} : r a b → OptRel r (some a) (some b)

/-- `m'` has the entries of `m0`, and for other keys copies of those of `m`. -/
def KMap.Merged (h : KHash K V) (r : V → V → Prop) (m0 m m' : KMap K V) : Prop :=
  ∀ k, match m0.find h k with
    | some v => m'.find h k = some v
    | none => OptRel r (m.find h k) (m'.find h k)

/-- `m'` is the result of reading `m` over `m0`; `rK` and `rV` relate keys and values to their copies. -/
structure KMap.ReadOver (h : KHash K V) (rK : K → K → Prop) (rV : V → V → Prop) (m0 m m' : KMap K V) : Prop where
  merged : KMap.Merged h rV m0 m m'
  distinct : m'.Distinct h
  capacity : m'.capacity = h.capacity (max m.capacity m0.size)
  /-- over an empty map, copies of the entries of `m` and nothing else -/
  entries : m0.size = 0 → ∃ l : List (K × V), (occupied m'.slots).Perm l ∧
    List.Forall₂ (fun p q => rK p.1 q.1 ∧ rV p.2 q.2) (occupied m.slots) l

/-- `m'` is a copy of `m`; its capacity is what is allocated for that of `m`. -/
structure KMap.Restored (h : KHash K V) (rK : K → K → Prop) (rV : V → V → Prop) (m m' : KMap K V) : Prop where
  find : ∀ k, OptRel rV (m.find h k) (m'.find h k)
  distinct : m'.Distinct h
  capacity : m'.capacity = h.capacity m.capacity
  entries : ∃ l : List (K × V), (occupied m'.slots).Perm l ∧
    List.Forall₂ (fun p q => rK p.1 q.1 ∧ rV p.2 q.2) (occupied m.slots) l

end Ckpt
