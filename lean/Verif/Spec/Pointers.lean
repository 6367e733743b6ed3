import Verif.Model.Pointers
import Verif.Spec.Yields
/-!
# Specification: what the footprint of objects with pointers counts
-/

set_option autoImplicit false

namespace Ckpt

/-- The addresses a member holds. -/
def Member.targets : Member → List Nat
  | .value _ _ => []
  | .handle _ => []
  | .pointer _ a => a.toList
  | .pointers _ _ _ as => as.filterMap id

/-- The object at `a` points to `b`. -/
def Heap.Points (H : Heap) (a b : Nat) : Prop := ∃ o, H a = some o ∧ ∃ m ∈ o.members, b ∈ m.targets

/-- `b` is reached from `a` by following pointers. -/
inductive Heap.Reaches (H : Heap) (a : Nat) : Nat → Prop
  | refl : Heap.Reaches H a a
  | step {b c : Nat} : Heap.Reaches H a b → H.Points b c → Heap.Reaches H a c

/-- No infinite sequence of pointers starts at `a`. -/
def Heap.Finite (H : Heap) (a : Nat) : Prop := Acc (fun b c => H.Points c b) a

/-- The sum over the members, where `value t x` is what a value counts: a pointer counts itself and,
again each time it is met, everything the object it points to counts. -/
inductive Heap.Counts (H : Heap) (value : Ty → Val → Nat → Prop) : List Member → Nat → Prop
  | nil : Heap.Counts H value [] 0
  | value {t : Ty} {x : Val} {f k : Nat} {ms : List Member} : value t x f → Heap.Counts H value ms k →
      Heap.Counts H value (.value t x :: ms) (f + k)
  | handle {ti : TI} {k : Nat} {ms : List Member} : Heap.Counts H value ms k →
      Heap.Counts H value (.handle ti :: ms) (ti.sizeof + k)
  | null {ti : TI} {k : Nat} {ms : List Member} : Heap.Counts H value ms k →
      Heap.Counts H value (.pointer ti none :: ms) (ti.sizeof + k)
  | pointer {ti : TI} {a : Nat} {o : HObj} {j k : Nat} {ms : List Member} : H a = some o →
      Heap.Counts H value o.members j → Heap.Counts H value ms k →
      Heap.Counts H value (.pointer ti (some a) :: ms) (ti.sizeof + j + k)
  | pointers {tiv ti : TI} {cap : Nat} {as : List (Option Nat)} {j k : Nat} {ms : List Member} :
      Heap.Counts H value (as.map (.pointer ti)) j → Heap.Counts H value ms k →
      Heap.Counts H value (.pointers tiv ti cap as :: ms)
        (tiv.sizeof + j + ti.sizeof * (cap - as.length) + k)

end Ckpt
