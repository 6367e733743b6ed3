import Verif.Model.Recursive
import Verif.Model.Api
/-!
# Specification: failures of a part, other than with `serialization_error`
-/

set_option autoImplicit false

namespace Ckpt

/-- An exception other than `serialization_error`, a failed assertion, undefined behaviour, or that it does not finish. -/
inductive Failure
  | throw (e : Err) (h : ∀ k depth trace, e ≠ .ser k depth trace)
  | abort
  | ub (u : UB)
  | fuel

/-- The outcome. -/
def Failure.out {α : Type} : Failure → Out α
  | .throw e _ => .throw e
  | .abort => .abort
  | .ub u => .ub u
  | .fuel => .fuel

variable {T A B O : Type}

/-- Two types that differ in how objects are handled only: the first one fails, or does what the second one does. -/
def CppType.FailsOr (fl : Failure) (n : Nat) (t t' : CppType T) : Prop :=
  t' = { t with apply := t'.apply } ∧ ∀ s xs, t.apply n s xs = fl.out ∨ t.apply n s xs = t'.apply n s xs

/-- Types with others within: each handled as the other or failing. -/
inductive MemberTypes.FailsOr (fl : Failure) (n : Nat) : {O : Type} → MemberTypes O → MemberTypes O → Prop
  | nil : MemberTypes.FailsOr fl n .nil .nil
  | cons {A O : Type} {t t' : CppType A} {ms ms' : MemberTypes O} : t.FailsOr fl n t' → MemberTypes.FailsOr fl n ms ms' →
      MemberTypes.FailsOr fl n (.cons t ms) (.cons t' ms')

/-- Alternative by alternative. -/
inductive AltTypes.FailsOr (fl : Failure) (n : Nat) : {V : Type} → AltTypes V → AltTypes V → Prop
  | nil : AltTypes.FailsOr fl n .nil .nil
  | cons {A V : Type} {t t' : CppType A} {as as' : AltTypes V} : t.FailsOr fl n t' → AltTypes.FailsOr fl n as as' →
      AltTypes.FailsOr fl n (.cons t as) (.cons t' as')

/-- Class by class. -/
inductive DynTypes.FailsOr (fl : Failure) (n : Nat) : {V : Type} → DynTypes V → DynTypes V → Prop
  | nil : DynTypes.FailsOr fl n .nil .nil
  | cons {O V : Type} (d : Nat) (fresh : O) {ms ms' : MemberTypes O} {ds ds' : DynTypes V} : ms.FailsOr fl n ms' →
      DynTypes.FailsOr fl n ds ds' → DynTypes.FailsOr fl n (.cons d fresh ms ds) (.cons d fresh ms' ds')

/-- A type that has another one within: if the other one fails, it fails in the same way or does not notice. -/
def CppType.PassesOn (fl : Failure) (F : CppType T → CppType A) : Prop :=
  ∀ n t t', t.FailsOr fl n t' → (F t).FailsOr fl n (F t')

def MemberTypes.PassesOn (fl : Failure) (M : CppType T → MemberTypes O) : Prop :=
  ∀ n t t', t.FailsOr fl n t' → (M t).FailsOr fl n (M t')

def AltTypes.PassesOn (fl : Failure) (M : CppType T → AltTypes O) : Prop :=
  ∀ n t t', t.FailsOr fl n t' → (M t).FailsOr fl n (M t')

def DynTypes.PassesOn (fl : Failure) (M : CppType T → DynTypes O) : Prop :=
  ∀ n t t', t.FailsOr fl n t' → (M t).FailsOr fl n (M t')

/-- A function that visits a type: if the type fails, it fails in the same way or does not notice. -/
def Prog.PassesOn (fl : Failure) (cfg : Cfg) (p : CppType T → Prog O) : Prop :=
  ∀ n t t', t.FailsOr fl n t' → ∀ s o, (p t).run cfg n s o = fl.out ∨ (p t).run cfg n s o = (p t').run cfg n s o

/-- The type, except that its function fails in certain situations. -/
def CppType.failing (fl : Failure) (when : Nat → Ser → List T → Bool) (t : CppType T) : CppType T :=
  { t with apply := fun n s xs => if when n s xs then fl.out else t.apply n s xs }

/-- Two types that differ in what their functions do in these situations only. -/
def CppType.AgreeBut (when : Nat → Ser → List T → Bool) (t t' : CppType T) : Prop :=
  t' = { t with apply := t'.apply } ∧ ∀ n s xs, when n s xs = false → t.apply n s xs = t'.apply n s xs

/-- Element types that differ in how objects are handled only: the first one fails, or does what the second one does. -/
def Elem.FailsOr (fl : Failure) (e e' : Elem T) : Prop :=
  e' = { e with apply := e'.apply } ∧ ∀ s xs, e.apply s xs = fl.out ∨ e.apply s xs = e'.apply s xs

/-- What `e` does in a call is the failure, or what `e'` does. -/
def CallsFailOr (fl : Failure) (cfg : Cfg) (e e' : Elem T) : Prop :=
  (∀ x, getSize cfg e x = fl.out ∨ getSize cfg e x = getSize cfg e' x) ∧
  (∀ x off, getMemoryFootprint cfg e x off = fl.out ∨ getMemoryFootprint cfg e x off = getMemoryFootprint cfg e' x off) ∧
  (∀ fn x, serialize cfg e fn x = fl.out ∨ serialize cfg e fn x = serialize cfg e' fn x) ∧
  (∀ x o, serializeToStream cfg e x o = fl.out ∨ serializeToStream cfg e x o = serializeToStream cfg e' x o) ∧
  (∀ x, traverseCustom cfg e x = fl.out ∨ traverseCustom cfg e x = traverseCustom cfg e' x) ∧
  (∀ mem, deserialize cfg e mem = fl.out ∨ deserialize cfg e mem = deserialize cfg e' mem) ∧
  (∀ mem y, deserializeInPlace cfg e mem y = fl.out ∨ deserializeInPlace cfg e mem y = deserializeInPlace cfg e' mem y) ∧
  (∀ inp, deserializeFromStream cfg e inp = fl.out ∨ deserializeFromStream cfg e inp = deserializeFromStream cfg e' inp) ∧
  (∀ inp y, deserializeInPlaceFromStream cfg e inp y = fl.out ∨
    deserializeInPlaceFromStream cfg e inp y = deserializeInPlaceFromStream cfg e' inp y)

end Ckpt
