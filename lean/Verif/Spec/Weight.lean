import Verif.Model.Universe
/-!
# Specification: how much an object holds
-/

set_option autoImplicit false

namespace Ckpt

mutual
/-- The number of elements in containers, characters in strings and objects behind pointers that an object of type `t`
holds, directly or indirectly.  What is always there (members, elements of arrays, the value of an optional) is not
counted, and neither is unused capacity. -/
def Env.weight (env : Env) : Ty → Val → Nat
  | .str, .str x => x.chars.length
  | .vecBool, .vbool _ bs => bs.length
  | .vec t, .vec _ xs => xs.length + env.weights t xs
  | .seq _ t, .coll xs | .queue t, .coll xs | .oset _ _ t, .coll xs | .uset _ _ t, .coll xs =>
    xs.length + env.weights t xs
  | .arr _ t, .coll xs => env.weights t xs
  | .pair a b, .coll xs => env.weightsOf [a, b] xs
  | .tuple ts, .coll xs => env.weightsOf ts xs
  | .opt t, .opt x => env.weightIn t x
  | .variant ts, .variant i x => env.weight (ts[i]?.getD .str) x
  | .uptr t, .ptr x => x.elim 0 (fun _ => 1) + env.weightIn t x
  | .cls _, .obj d parts => env.weightParts (env.chain d) parts
  | _, _ => 0
/-- Of several objects of one type. -/
def Env.weights (env : Env) (t : Ty) : List Val → Nat
  | [] => 0
  | x :: xs => env.weight t x + env.weights t xs
/-- Of objects of several types. -/
def Env.weightsOf (env : Env) : List Ty → List Val → Nat
  | t :: ts, x :: xs => env.weight t x + env.weightsOf ts xs
  | _, _ => 0
/-- Of what may be there. -/
def Env.weightIn (env : Env) (t : Ty) : Option Val → Nat
  | none => 0
  | some x => env.weight t x
/-- Of the members of several classes. -/
def Env.weightParts (env : Env) : List Nat → List (List Val) → Nat
  | k :: ks, p :: ps => env.weightsOf (env.cls k).rfields p + env.weightParts ks ps
  | _, _ => 0
end

/-- The data of every object of the type have at least one byte; for a pointer that is not null, one more than the flag
in front of what it points to. -/
inductive Solid (env : Env) : Ty → Prop
  | prim {id size : Nat} : 0 < size → Solid env (.prim id size)
  | enm {id pid size : Nat} : 0 < size → Solid env (.enm id pid size)
  | chrono {id pid size : Nat} : 0 < size → Solid env (.chrono id pid size)
  | str : Solid env .str
  | vec {t : Ty} : Solid env (.vec t)
  | vecBool : Solid env .vecBool
  | seq {k : SeqKind} {t : Ty} : Solid env (.seq k t)
  | queue {t : Ty} : Solid env (.queue t)
  | oset {a : Assoc} {cmp : Nat} {t : Ty} : Solid env (.oset a cmp t)
  | uset {a : Assoc} {eq : Nat} {t : Ty} : Solid env (.uset a eq t)
  | fst {a b : Ty} : Solid env a → Solid env (.pair a b)
  | snd {a b : Ty} : Solid env b → Solid env (.pair a b)
  | tuple {ts : List Ty} {t : Ty} : t ∈ ts → Solid env t → Solid env (.tuple ts)
  | opt {t : Ty} : Solid env (.opt t)
  | variant {ts : List Ty} : Ty.allByteCopied ts = false → Solid env (.variant ts)
  | variantBytes {ts : List Ty} : 0 < (env.ti (.variant ts)).sizeof → Solid env (.variant ts)
  | uptr {t : Ty} : Solid env t → Solid env (.uptr t)
  | poly {c : Nat} : (env.cls c).virt = true → Solid env (.uptr (.cls c))
  | arr {n : Nat} {t : Ty} : 0 < n → Solid env t → Solid env (.arr n t)
  | cls {c : Nat} {t : Ty} : (env.cls c).virt = false → t ∈ (env.cls c).rfields → Solid env t → Solid env (.cls c)

/-- A set of types that contains with each type its parts, such that the elements of containers are `Solid`. -/
structure Paid (env : Env) (S : Ty → Prop) : Prop where
  vec : ∀ {t}, S (.vec t) → S t ∧ Solid env t
  seq : ∀ {k t}, S (.seq k t) → S t ∧ Solid env t
  queue : ∀ {t}, S (.queue t) → S t ∧ Solid env t
  oset : ∀ {a cmp t}, S (.oset a cmp t) → S t ∧ Solid env t
  uset : ∀ {a eq t}, S (.uset a eq t) → S t ∧ Solid env t
  pair : ∀ {a b}, S (.pair a b) → S a ∧ S b
  tuple : ∀ {ts}, S (.tuple ts) → ∀ t ∈ ts, S t
  opt : ∀ {t}, S (.opt t) → S t
  variant : ∀ {ts}, S (.variant ts) → ∀ t ∈ ts, S t
  uptr : ∀ {t}, S (.uptr t) → S t
  arr : ∀ {n t}, S (.arr n t) → S t
  cls : ∀ {c}, S (.cls c) → ∀ t ∈ (env.cls c).rfields, S t
  /-- an object of a virtually serializable class may be of any class. -/
  poly : ∀ {c}, S (.cls c) → (env.cls c).virt = true → ∀ d, ∀ t ∈ (env.cls d).rfields, S t

/-- The elements of every container that occurs in an object of type `t` are `Solid`. -/
def Accounted (env : Env) (t : Ty) : Prop := ∃ S, Paid env S ∧ S t

/-- New objects hold nothing. -/
def Env.StartsEmpty (env : Env) : Prop :=
  ∀ t, env.weight t (env.fresh t) = 0 ∧ ∀ d, env.dflt t = some d → env.weight t d = 0

end Ckpt
