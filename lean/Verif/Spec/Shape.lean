import Verif.Spec.Universe
/-!
# Specification: objects in any state, and types that forget

`Shape` says that a value is an object of a type, in whatever state a program may have left it.
`Env.Replaces` describes sets of types for which restoring in place is a plain assignment.
-/

set_option autoImplicit false

namespace Ckpt

/-- `Shape env t v`: `v` is an object of type `t`, in any state. -/
inductive Shape (env : Env) : Ty → Val → Prop
  | prim {id size : Nat} {bs : Bytes} : bs.length = size → Shape env (.prim id size) (.raw bs)
  | enm {id pid size : Nat} {bs : Bytes} : bs.length = size → Shape env (.enm id pid size) (.raw bs)
  | chrono {id pid size : Nat} {bs : Bytes} : bs.length = size → Shape env (.chrono id pid size) (.raw bs)
  | str {x : Str} : Shape env .str (.str x)
  | vec {t : Ty} {cap : Nat} {xs : List Val} : (∀ x ∈ xs, ByVal t x) → (∀ x ∈ xs, Shape env t x) →
      Shape env (.vec t) (.vec cap xs)
  | vecBool {cap : Nat} {bs : List Bool} : Shape env .vecBool (.vbool cap bs)
  | seq {k : SeqKind} {t : Ty} {xs : List Val} : (∀ x ∈ xs, ByVal t x) → (∀ x ∈ xs, Shape env t x) →
      Shape env (.seq k t) (.coll xs)
  | queue {t : Ty} {xs : List Val} : (∀ x ∈ xs, ByVal t x) → (∀ x ∈ xs, Shape env t x) →
      Shape env (.queue t) (.coll xs)
  | oset {a : Assoc} {cmp : Nat} {t : Ty} {xs : List Val} : (∀ x ∈ xs, ByVal t x) →
      (∀ x ∈ xs, Shape env t x) → Shape env (.oset a cmp t) (.coll xs)
  | uset {a : Assoc} {eq : Nat} {t : Ty} {xs : List Val} : (∀ x ∈ xs, ByVal t x) →
      (∀ x ∈ xs, Shape env t x) → Shape env (.uset a eq t) (.coll xs)
  | pair {a b : Ty} {x y : Val} : ByVal a x → ByVal b y → Shape env a x → Shape env b y →
      Shape env (.pair a b) (.coll [x, y])
  | tuple {ts : List Ty} {xs : List Val} : xs.length = ts.length →
      (∀ (i : Nat) t x, ts[i]? = some t → xs[i]? = some x → ByVal t x) →
      (∀ (i : Nat) t x, ts[i]? = some t → xs[i]? = some x → Shape env t x) →
      Shape env (.tuple ts) (.coll xs)
  | optNone {t : Ty} : Shape env (.opt t) (.opt none)
  | optSome {t : Ty} {x : Val} : ByVal t x → Shape env t x → Shape env (.opt t) (.opt (some x))
  | variant {ts : List Ty} {i : Nat} {t : Ty} {x : Val} : Ty.allOnlyBytes ts = false → ts[i]? = some t → ByVal t x →
      Shape env t x → Shape env (.variant ts) (.variant i x)
  | valueless {ts : List Ty} : Ty.allOnlyBytes ts = false → Shape env (.variant ts) .valueless
  | variantBytes {ts : List Ty} {bs : Bytes} : Ty.allOnlyBytes ts = true → bs.length = (env.ti (.variant ts)).sizeof →
      Shape env (.variant ts) (.raw bs)
  | ptrNull {t : Ty} : Shape env (.uptr t) (.ptr none)
  | ptr {t : Ty} {x : Val} : (env.isVirt t = false → ByVal t x) → Shape env t x →
      Shape env (.uptr t) (.ptr (some x))
  | arr {n : Nat} {t : Ty} {xs : List Val} : xs.length = n → (∀ x ∈ xs, ByVal t x) →
      (∀ x ∈ xs, Shape env t x) → Shape env (.arr n t) (.coll xs)
  | obj {c d : Nat} {ps : List (List Val)} : c ∈ env.chain d → ps.length = (env.chain d).length →
      (∀ (j k : Nat) p, (env.chain d)[j]? = some k → ps[j]? = some p →
        p.length = (env.cls k).fields.length) →
      (∀ (j k : Nat) p, (env.chain d)[j]? = some k → ps[j]? = some p →
        ∀ (i : Nat) t x, (env.cls k).fields[i]? = some t → p[i]? = some x → ByVal t x) →
      (∀ (j k : Nat) p, (env.chain d)[j]? = some k → ps[j]? = some p →
        ∀ (i : Nat) t x, (env.cls k).fields[i]? = some t → p[i]? = some x → Shape env t x) →
      Shape env (.cls c) (.obj d ps)

/-- A set `S` of types that contains, with a type, the types of everything in place inside its objects,
and no type whose `serialize` adds to what is there: queues and associative containers; lists, deques
and vectors whose elements cannot be created anew; pointers to polymorphic objects. -/
def Env.Replaces (env : Env) (S : Ty → Prop) : Prop := ∀ t, S t → match t with
  | .queue _ => False
  | .oset .. => False
  | .uset .. => False
  | .vec t => S t ∧ (env.dflt t = none → env.copyable t = true)
  | .seq _ t => S t ∧ env.copyable t = true
  | .uptr t => S t ∧ env.isVirt t = false
  | .pair a b => S a ∧ S b
  | .tuple ts => ∀ t ∈ ts, S t
  | .arr _ t => S t
  | .cls c => ∀ k ∈ env.chain c, ∀ t ∈ (env.cls k).fields, S t
  | _ => True

end Ckpt
