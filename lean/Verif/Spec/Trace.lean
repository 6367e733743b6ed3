import Verif.Spec.BytesOnly
import Verif.Model.Universe
import Verif.Model.Api
import Verif.Model.File
/-!
# Specification: which traversals take place inside which
-/

set_option autoImplicit false

namespace Ckpt

/-- What can be the object of a traversal: an object of some type, the part of an object that belongs to one of
the classes of a virtual hierarchy, or a local variable of the library (a count, a flag, characters of a string,
the number of a class). -/
inductive Traversed
  | obj (t : Ty)
  | part (k : Nat)
  | count
  | flag
  | chars
  | entry

/-- Its type: name, index, size. -/
def Traversed.info (cfg : Cfg) (env : Env) : Traversed → TI
  | .obj t => env.ti t
  | .part k => env.ti (.cls k)
  | .count => cfg.tiSize
  | .flag => cfg.tiBool
  | .chars => cfg.tiChar
  | .entry => cfg.tiInt

/-- `Inside env a b`: the serialization code of `a` traverses `b` itself. -/
inductive Inside (env : Env) : Traversed → Traversed → Prop
  | enm {id pid size : Nat} : Inside env (.obj (.enm id pid size)) (.obj (.prim pid size))
  | chrono {id pid size : Nat} : Inside env (.obj (.chrono id pid size)) (.obj (.prim pid size))
  | strCount : Inside env (.obj .str) .count
  | strChars : Inside env (.obj .str) .chars
  | vecCount {t : Ty} : Inside env (.obj (.vec t)) .count
  | vec {t : Ty} : Inside env (.obj (.vec t)) (.obj t)
  | vboolCount : Inside env (.obj .vecBool) .count
  | vbool : Inside env (.obj .vecBool) .flag
  | seqCount {k : SeqKind} {t : Ty} : Inside env (.obj (.seq k t)) .count
  | seq {k : SeqKind} {t : Ty} : Inside env (.obj (.seq k t)) (.obj t)
  | queueCount {t : Ty} : Inside env (.obj (.queue t)) .count
  | queue {t : Ty} : Inside env (.obj (.queue t)) (.obj t)
  | osetCount {a : Assoc} {cmp : Nat} {t : Ty} : Inside env (.obj (.oset a cmp t)) .count
  | oset {a : Assoc} {cmp : Nat} {t : Ty} : Inside env (.obj (.oset a cmp t)) (.obj t)
  | usetCount {a : Assoc} {eq : Nat} {t : Ty} : Inside env (.obj (.uset a eq t)) .count
  | uset {a : Assoc} {eq : Nat} {t : Ty} : Inside env (.obj (.uset a eq t)) (.obj t)
  | fst {a b : Ty} : Inside env (.obj (.pair a b)) (.obj a)
  | snd {a b : Ty} : Inside env (.obj (.pair a b)) (.obj b)
  | tuple {ts : List Ty} {t : Ty} : t ∈ ts → Inside env (.obj (.tuple ts)) (.obj t)
  | optFlag {t : Ty} : Inside env (.obj (.opt t)) .flag
  | opt {t : Ty} : Inside env (.obj (.opt t)) (.obj t)
  | variantCount {ts : List Ty} : Ty.allOnlyBytes ts = false → Inside env (.obj (.variant ts)) .count
  | variant {ts : List Ty} {t : Ty} : Ty.allOnlyBytes ts = false → t ∈ ts → Inside env (.obj (.variant ts)) (.obj t)
  | ptrFlag {t : Ty} : Inside env (.obj (.uptr t)) .flag
  | ptrEntry {c : Nat} : (env.cls c).virt = true → Inside env (.obj (.uptr (.cls c))) .entry
  | ptr {t : Ty} : Inside env (.obj (.uptr t)) (.obj t)
  | arr {n : Nat} {t : Ty} : Inside env (.obj (.arr n t)) (.obj t)
  | member {c : Nat} {t : Ty} : (env.cls c).virt = false → t ∈ (env.cls c).fields ∨ t ∈ (env.cls c).rfields →
      Inside env (.obj (.cls c)) (.obj t)
  | virtPart {c d k : Nat} : (env.cls c).virt = true → k ∈ env.chain d → Inside env (.obj (.cls c)) (.part k)
  | partMember {k : Nat} {t : Ty} : t ∈ (env.cls k).fields ∨ t ∈ (env.cls k).rfields →
      Inside env (.part k) (.obj t)

/-- `b :: path` leads from `b` to `a`: each is traversed inside the next; `a` is the last. -/
inductive Leads (env : Env) (a : Traversed) : List Traversed → Prop
  | here : Leads env a [a]
  | inside {b c : Traversed} {path : List Traversed} : Inside env c b → Leads env a (c :: path) →
      Leads env a (b :: c :: path)

/-- The reason of a `serialization_error` raised by the traversal of `b`, and what `b` itself contributes to the
trace. -/
inductive Raised (cfg : Cfg) (env : Env) (b : Traversed) : SerErrKind → List Nat → Prop
  | wrongType {found : Nat} : validateIndex found = false ∨ (b.info cfg env).idx ≠ found →
      Raised cfg env b (.wrongType (b.info cfg env).idx found) [(b.info cfg env).name]
  | memUsed {found num : Nat} : (b.info cfg env).sizeof * num % sizeMod ≠ found →
      Raised cfg env b (.memUsed (b.info cfg env).name found ((b.info cfg env).sizeof * num % sizeMod)) []

/-- A `serialization_error` that leaves the traversal of `a`: raised in the traversal of some `b` that is reached
through traversals nested in each other, with a trace of their types, innermost first. -/
def Located (cfg : Cfg) (env : Env) (a : Traversed) (k : SerErrKind) (d : Nat) (tr : List Nat) : Prop :=
  ∃ b around own, Leads env a (b :: around) ∧ Raised cfg env b k own ∧ d = around.length ∧
    tr = own ++ around.map fun c => (c.info cfg env).name

/-- Reading an object of a type, in one of the ways the interface offers, leaves the caller with the exception
`err`: from memory, from a stream or from a file, into a new object or over an existing one. -/
inductive ReadThrows {T : Type} (cfg : Cfg) (e : Elem T) (err : Err) : Prop
  | memory (mem : Bytes) : deserialize cfg e mem = .throw err → ReadThrows cfg e err
  | memoryInPlace (mem : Bytes) (y : T) : deserializeInPlace cfg e mem y = .throw err → ReadThrows cfg e err
  | stream (inp : Bytes) : deserializeFromStream cfg e inp = .throw err → ReadThrows cfg e err
  | streamInPlace (inp : Bytes) (y : T) : deserializeInPlaceFromStream cfg e inp y = .throw err → ReadThrows cfg e err
  | file (F : Faults) (w : World) (file : Nat) : (deserializeFromFile cfg e F w file).1 = .out (.throw err) →
      ReadThrows cfg e err
  | fileInPlace (F : Faults) (w : World) (file : Nat) (y : T) :
      (deserializeInPlaceFromFile cfg e F w file y).1 = .out (.throw err) → ReadThrows cfg e err

end Ckpt
