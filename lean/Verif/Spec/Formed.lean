import Verif.Spec.Universe
import Verif.Spec.Wire
/-!
# Specification: well-formed objects, and the hazards of reading arbitrary bytes
-/

set_option autoImplicit false

namespace Ckpt

/-- `Formed env t v`: `v` is an object of type `t` that meets the invariants of its type: capacities are
not exceeded, ordered containers are sorted (without equivalent keys unless the container allows them),
unordered ones have no equal keys (same), arrays and tuples are complete, a variant holds one of its
alternatives, an object has the parts of all its classes. -/
inductive Formed (env : Env) : Ty → Val → Prop
  | prim {id size : Nat} {bs : Bytes} : bs.length = size → Formed env (.prim id size) (.raw bs)
  | enm {id pid size : Nat} {bs : Bytes} : bs.length = size → Formed env (.enm id pid size) (.raw bs)
  | chrono {id pid size : Nat} {bs : Bytes} : bs.length = size → Formed env (.chrono id pid size) (.raw bs)
  | str {x : Str} : x.chars.length ≤ x.cap → Formed env .str (.str x)
  | vec {t : Ty} {cap : Nat} {xs : List Val} : xs.length ≤ cap → (∀ x ∈ xs, ByVal t x) →
      (∀ x ∈ xs, Formed env t x) → Formed env (.vec t) (.vec cap xs)
  | vecBool {cap : Nat} {bs : List Bool} : bs.length ≤ cap → Formed env .vecBool (.vbool cap bs)
  | seq {k : SeqKind} {t : Ty} {xs : List Val} : (∀ x ∈ xs, ByVal t x) → (∀ x ∈ xs, Formed env t x) →
      Formed env (.seq k t) (.coll xs)
  | queue {t : Ty} {xs : List Val} : (∀ x ∈ xs, ByVal t x) → (∀ x ∈ xs, Formed env t x) →
      Formed env (.queue t) (.coll xs)
  | oset {a : Assoc} {cmp : Nat} {t : Ty} {xs : List Val} : env.Sorted a cmp xs → (∀ x ∈ xs, ByVal t x) →
      (∀ x ∈ xs, Formed env t x) → Formed env (.oset a cmp t) (.coll xs)
  | uset {a : Assoc} {eq : Nat} {t : Ty} {xs : List Val} :
      (a.repeats = false → xs.Pairwise (fun x y => env.eq eq x y = false)) → (∀ x ∈ xs, ByVal t x) →
      (∀ x ∈ xs, Formed env t x) → Formed env (.uset a eq t) (.coll xs)
  | pair {a b : Ty} {x y : Val} : ByVal a x → ByVal b y → Formed env a x → Formed env b y →
      Formed env (.pair a b) (.coll [x, y])
  | tuple {ts : List Ty} {xs : List Val} : xs.length = ts.length →
      (∀ (i : Nat) t x, ts[i]? = some t → xs[i]? = some x → ByVal t x) →
      (∀ (i : Nat) t x, ts[i]? = some t → xs[i]? = some x → Formed env t x) →
      Formed env (.tuple ts) (.coll xs)
  | optNone {t : Ty} : Formed env (.opt t) (.opt none)
  | optSome {t : Ty} {x : Val} : ByVal t x → Formed env t x → Formed env (.opt t) (.opt (some x))
  | variant {ts : List Ty} {i : Nat} {t : Ty} {x : Val} : Ty.allOnlyBytes ts = false → ts[i]? = some t → ByVal t x →
      Formed env t x → Formed env (.variant ts) (.variant i x)
  | valueless {ts : List Ty} : Ty.allOnlyBytes ts = false → Formed env (.variant ts) .valueless
  | variantBytes {ts : List Ty} {bs : Bytes} : Ty.allOnlyBytes ts = true → bs.length = (env.ti (.variant ts)).sizeof →
      Formed env (.variant ts) (.raw bs)
  | ptrNull {t : Ty} : Formed env (.uptr t) (.ptr none)
  | ptr {t : Ty} {x : Val} : (env.isVirt t = false → ByVal t x) → Formed env t x →
      Formed env (.uptr t) (.ptr (some x))
  | arr {n : Nat} {t : Ty} {xs : List Val} : xs.length = n → (∀ x ∈ xs, ByVal t x) →
      (∀ x ∈ xs, Formed env t x) → Formed env (.arr n t) (.coll xs)
  | obj {c d : Nat} {ps : List (List Val)} : c ∈ env.chain d → ps.length = (env.chain d).length →
      (∀ (j k : Nat) p, (env.chain d)[j]? = some k → ps[j]? = some p →
        p.length = (env.cls k).fields.length) →
      (∀ (j k : Nat) p, (env.chain d)[j]? = some k → ps[j]? = some p →
        ∀ (i : Nat) t x, (env.cls k).fields[i]? = some t → p[i]? = some x → ByVal t x) →
      (∀ (j k : Nat) p, (env.chain d)[j]? = some k → ps[j]? = some p →
        ∀ (i : Nat) t x, (env.cls k).fields[i]? = some t → p[i]? = some x → Formed env t x) →
      Formed env (.cls c) (.obj d ps)

/-- What reading needs from the program and the standard library, whatever the bytes. -/
structure Env.Sound (cfg : Cfg) (env : Env) : Prop where
  /-- `reserve(n)` provides at least `n`. -/
  grow : ∀ n, n ≤ cfg.grow n
  /-- the arguments of a function call are all evaluated, once each. -/
  order : ∀ n, (cfg.argOrder n).Perm (List.range n)
  /-- an unordered container iterates over its elements, in some order. -/
  arrange : ∀ eq xs, (env.arrange eq xs).Perm xs
  /-- comparators are strict weak orders. -/
  asymm : ∀ cmp a b, env.lt cmp a b = true → env.lt cmp b a = false
  trans : ∀ cmp a b c, env.lt cmp a b = true → env.lt cmp b c = true → env.lt cmp a c = true
  weak : ∀ cmp a b c, env.lt cmp b a = false → env.lt cmp c b = false → env.lt cmp c a = false
  /-- key equality is symmetric. -/
  symm : ∀ e a b, env.eq e a b = env.eq e b a
  /-- constructors leave well-formed objects. -/
  fresh : ∀ t, Formed env t (env.fresh t) ∧ ByVal t (env.fresh t)
  dflt : ∀ t v, env.dflt t = some v → Formed env t v ∧ ByVal t v
  /-- the bases of a class belong to its hierarchy. -/
  hier : ∀ d, ∀ c ∈ env.chain d, env.root c = env.root d
  serRegOk : env.serReg.Inv env.root
  /-- `serialize` functions visit all the members when unpacking, too. -/
  sym : env.Symmetric

/-- The undefined behaviour that bytes from elsewhere can lead to:
* a byte other than 0 and 1 is read as a `bool`;
* without assertions, a dynamic type index names a class that cannot be constructed;
* a dynamic type index names a class of the hierarchy that does not derive from the static type of the
  pointer. -/
inductive Hazard (cfg : Cfg) (env : Env) : UB → Prop
  | bool : Hazard cfg env .badBool
  | abstract {c i d : Nat} : cfg.ndebug = true → (env.cls c).virt = true →
      (env.objReg (env.root c))[i]? = some d → (env.cls d).abstract = true → Hazard cfg env .nullDeref
  | sibling {c i d : Nat} : (env.cls c).virt = true → (env.objReg (env.root c))[i]? = some d →
      (env.cls d).abstract = false → c ∉ env.chain d → Hazard cfg env .typeConfusion

end Ckpt
