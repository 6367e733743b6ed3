import Verif.Spec.Compose
import Verif.Spec.World
/-!
# Specification: checkpoints of restored objects
-/

set_option autoImplicit false

namespace Ckpt

variable {T A B : Type}

/-- A build of a program, in which the objects have type `type` and can be read over if `clean`. -/
structure Build (T : Type) where
  cfg : Cfg
  type : CppType T
  clean : T → Prop

/-- The object takes less than `2^64` bytes. -/
def Build.Small (p : Build T) (x : T) : Prop :=
  ∀ bs, Yields (fun n => serializeToStream p.cfg (p.type.elem n) x { data := [] }) (.ok (x, { data := bs })) →
    bs.length < 2 ^ 64

/-- The object is written as these bytes, to a stream, memory or file. -/
inductive Build.Saves (p : Build T) (x : T) : Bytes → Prop
  | stream {x' : T} {bs : Bytes} :
      Yields (fun n => serializeToStream p.cfg (p.type.elem n) x { data := [] }) (.ok (x', { data := bs })) → Saves p x bs
  | memory {x' : T} {r : Packed} : p.Small x →
      Yields (fun n => serialize p.cfg (p.type.elem n) none x) (.ok (r, x')) → Saves p x r.mem
  | file {x' : T} {w : World} {torn : Bytes → Bytes} {file : Nat} {bs : Bytes} : p.Small x → w.Ok →
      (∃ n0, ∀ n, n0 ≤ n → ∃ w', serializeToFile p.cfg (p.type.elem n) noFaults torn w file x = (.out (.ok x'), w') ∧
        w'.files file = some bs) → Saves p x bs

/-- The bytes, in a stream, memory or file, are read over an object or as a new one. -/
inductive Build.Restores (p : Build T) (bs : Bytes) : T → Prop
  | stream {rest rest' : Bytes} {y z : T} : p.clean y →
      Yields (fun n => deserializeInPlaceFromStream p.cfg (p.type.elem n) (bs ++ rest) y) (.ok (z, rest')) → Restores p bs z
  | newFromStream {rest rest' : Bytes} {z : T} :
      Yields (fun n => deserializeFromStream p.cfg (p.type.elem n) (bs ++ rest)) (.ok (z, rest')) → Restores p bs z
  | memory {rest : Bytes} {y z : T} {k : Nat} : p.clean y →
      Yields (fun n => deserializeInPlace p.cfg (p.type.elem n) (bs ++ rest) y) (.ok (z, k)) → Restores p bs z
  | newFromMemory {rest : Bytes} {z : T} {k : Nat} :
      Yields (fun n => deserialize p.cfg (p.type.elem n) (bs ++ rest)) (.ok (z, k)) → Restores p bs z
  | file {rest : Bytes} {y z : T} {w : World} {file : Nat} : p.clean y → w.Ok → w.files file = some (bs ++ rest) →
      (∃ n0, ∀ n, n0 ≤ n → ∃ w', deserializeInPlaceFromFile p.cfg (p.type.elem n) noFaults w file y = (.out (.ok z), w')) →
      Restores p bs z
  | newFromFile {rest : Bytes} {z : T} {w : World} {file : Nat} : w.Ok → w.files file = some (bs ++ rest) →
      (∃ n0, ∀ n, n0 ≤ n → ∃ w', deserializeFromFile p.cfg (p.type.elem n) noFaults w file = (.out (.ok z), w')) →
      Restores p bs z

/-- `Generations Ps k x z`: object `x` was written and read back, what was read was written and read back, and so on, `k`
times, each time by one of the builds `Ps`; `z` was read last. -/
inductive Generations (Ps : Build T → Prop) (x : T) : Nat → T → Prop
  | start : Generations Ps x 0 x
  | next {k : Nat} {y z : T} {bs : Bytes} {p : Build T} : Generations Ps x k y → Ps p → p.Saves y bs → p.Restores bs z →
      Generations Ps x (k + 1) z

/-- The build handles these objects. -/
def Build.Handles (p : Build T) (u : Usage T) : Prop :=
  ∃ R env, Env.Valid R (· ∈ builtinKinds) p.cfg env ∧ Composed R p.cfg env p.type { u with clean := p.clean }

/-- What is equal to an object that can be written can be written, and is equal to what is equal to it. -/
structure Usage.Lasting (u : Usage T) : Prop where
  ok : ∀ {x y : T}, u.ok x → u.same x y → u.ok y
  trans : ∀ {x y z : T}, u.ok x → u.same x y → u.same y z → u.same x z

def MemberUsages.Lasting : {O : Type} → MemberUsages O → Prop
  | _, .nil => True
  | _, .cons u us => u.Lasting ∧ us.Lasting

def AltUsages.Lasting : {V : Type} → AltUsages V → Prop
  | _, .nil => True
  | _, .cons u us => u.Lasting ∧ us.Lasting

/-- Contents; capacities do not shrink and fit their type. -/
def RelMode.sized : RelMode := ⟨fun a b => a ≤ b ∧ b < 2 ^ 64, True⟩

/-- Views with memory. -/
def Usage.allocated (u : Usage (View T)) : Usage (View T) := { u with ok := fun v => u.ok v ∧ v.alloc = true }

/-- Default-constructed, or with memory. -/
def Usage.dynAllocated (u : Usage (DynRank T)) : Usage (DynRank T) :=
  { u with ok := fun v => u.ok v ∧ (v.made = true → v.view.alloc = true) }

end Ckpt
