import Verif.Spec.BytesOnly
import Verif.Spec.Wire
/-!
# Specification: well-formed values and observable equality

Independent of how the library works: which values are values of a type, when two values of a type
are observably equal, and which objects a constructor may leave behind.
-/

set_option autoImplicit false

namespace Ckpt

/-- What an equality of values should say about things that are not contents: how capacities of
vectors are related, and whether the iteration order of unordered containers may differ. -/
structure RelMode where
  cap : Nat → Nat → Prop
  anyOrder : Prop

/-- Observable equality: contents only. -/
def RelMode.contents : RelMode := ⟨fun _ _ => True, True⟩
/-- Contents, and the second vector has at least the capacity of the first. -/
def RelMode.capacity : RelMode := ⟨fun a b => a ≤ b, True⟩
/-- Contents, vector capacities and iteration orders are identical. -/
def RelMode.exact : RelMode := ⟨fun a b => b = a, False⟩

/-- `Rel R env t x y`: the values `x` and `y` of type `t` are equal in the sense of `R`. -/
inductive Rel (R : RelMode) (env : Env) : Ty → Val → Val → Prop
  | prim {id size : Nat} {bs : Bytes} : Rel R env (.prim id size) (.raw bs) (.raw bs)
  | enm {id pid size : Nat} {bs : Bytes} : Rel R env (.enm id pid size) (.raw bs) (.raw bs)
  | chrono {id pid size : Nat} {bs : Bytes} : Rel R env (.chrono id pid size) (.raw bs) (.raw bs)
  | str {x y : Str} : x.chars = y.chars → Rel R env .str (.str x) (.str y)
  | vec {t : Ty} {c c' : Nat} {xs ys : List Val} : R.cap c c' → xs.length = ys.length →
      (∀ (i : Nat) x y, xs[i]? = some x → ys[i]? = some y → Rel R env t x y) →
      Rel R env (.vec t) (.vec c xs) (.vec c' ys)
  | vecBool {c c' : Nat} {bs : List Bool} : R.cap c c' →
      Rel R env .vecBool (.vbool c bs) (.vbool c' bs)
  | seq {k : SeqKind} {t : Ty} {xs ys : List Val} : xs.length = ys.length →
      (∀ (i : Nat) x y, xs[i]? = some x → ys[i]? = some y → Rel R env t x y) →
      Rel R env (.seq k t) (.coll xs) (.coll ys)
  | queue {t : Ty} {xs ys : List Val} : xs.length = ys.length →
      (∀ (i : Nat) x y, xs[i]? = some x → ys[i]? = some y → Rel R env t x y) →
      Rel R env (.queue t) (.coll xs) (.coll ys)
  | oset {a : Assoc} {cmp : Nat} {t : Ty} {xs ys : List Val} : xs.length = ys.length →
      (∀ (i : Nat) x y, xs[i]? = some x → ys[i]? = some y → Rel R env t x y) →
      Rel R env (.oset a cmp t) (.coll xs) (.coll ys)
  /-- the same entries with the same multiplicities, in any order. -/
  | uset {a : Assoc} {eq : Nat} {t : Ty} {xs zs ys : List Val} : xs.length = zs.length →
      (∀ (i : Nat) x z, xs[i]? = some x → zs[i]? = some z → Rel R env t x z) →
      zs.Perm ys → (R.anyOrder ∨ zs = ys) →
      Rel R env (.uset a eq t) (.coll xs) (.coll ys)
  | pair {a b : Ty} {x y x' y' : Val} : Rel R env a x x' → Rel R env b y y' →
      Rel R env (.pair a b) (.coll [x, y]) (.coll [x', y'])
  | tuple {ts : List Ty} {xs ys : List Val} : xs.length = ts.length → ys.length = ts.length →
      (∀ (i : Nat) t x y, ts[i]? = some t → xs[i]? = some x → ys[i]? = some y → Rel R env t x y) →
      Rel R env (.tuple ts) (.coll xs) (.coll ys)
  | optNone {t : Ty} : Rel R env (.opt t) (.opt none) (.opt none)
  | optSome {t : Ty} {x y : Val} : Rel R env t x y → Rel R env (.opt t) (.opt (some x)) (.opt (some y))
  | variant {ts : List Ty} {i : Nat} {t : Ty} {x y : Val} : ts[i]? = some t → Rel R env t x y →
      Rel R env (.variant ts) (.variant i x) (.variant i y)
  /-- a variant of byte-copied alternatives is its representation, which says which of them it holds. -/
  | variantBytes {ts : List Ty} {bs : Bytes} : Rel R env (.variant ts) (.raw bs) (.raw bs)
  | ptrNull {t : Ty} : Rel R env (.uptr t) (.ptr none) (.ptr none)
  | ptr {t : Ty} {x y : Val} : Rel R env t x y → Rel R env (.uptr t) (.ptr (some x)) (.ptr (some y))
  | arr {n : Nat} {t : Ty} {xs ys : List Val} : xs.length = n → ys.length = n →
      (∀ (i : Nat) x y, xs[i]? = some x → ys[i]? = some y → Rel R env t x y) →
      Rel R env (.arr n t) (.coll xs) (.coll ys)
  /-- the same dynamic type, and equal members in every class of the object. -/
  | obj {c d : Nat} {ps qs : List (List Val)} :
      ps.length = (env.chain d).length → qs.length = (env.chain d).length →
      (∀ (j k : Nat) p q, (env.chain d)[j]? = some k → ps[j]? = some p → qs[j]? = some q →
        p.length = (env.cls k).fields.length ∧ q.length = (env.cls k).fields.length) →
      (∀ (j k : Nat) p q, (env.chain d)[j]? = some k → ps[j]? = some p → qs[j]? = some q →
        ∀ (i : Nat) t x y, (env.cls k).fields[i]? = some t → p[i]? = some x → q[i]? = some y →
          Rel R env t x y) →
      Rel R env (.cls c) (.obj d ps) (.obj d qs)

/-- An object held by value has exactly the class of its declared type (only a pointee may be of a
derived class). -/
def ByVal : Ty → Val → Prop
  | .cls c, .obj d _ => d = c
  | _, _ => True

/-- The comparator of an ordered container depends only on the observable value of its arguments. -/
def Env.LtRespects (env : Env) (R : RelMode) (cmp : Nat) (t : Ty) : Prop :=
  ∀ a b a' b', Rel R env t a a' → Rel R env t b b' → env.lt cmp a b = env.lt cmp a' b'

/-- The same for the key equality of an unordered container. -/
def Env.EqRespects (env : Env) (R : RelMode) (eq : Nat) (t : Ty) : Prop :=
  ∀ a b a' b', Rel R env t a a' → Rel R env t b b' → env.eq eq a b = env.eq eq a' b'

/-- Iteration order of an ordered container: strictly increasing for unique keys, never decreasing
otherwise. -/
def Env.Sorted (env : Env) (a : Assoc) (cmp : Nat) (xs : List Val) : Prop :=
  if a.repeats then xs.Pairwise (fun x y => env.lt cmp y x = false)
  else xs.Pairwise (fun x y => env.lt cmp x y = true)

/-- The `serialize` function of class `t` does not visit the same members when unpacking. -/
def Env.Asym (env : Env) : Ty → Prop
  | .cls c => (env.cls c).rfields ≠ (env.cls c).fields
  | _ => False

/-- Every `serialize` function visits the same members when unpacking. -/
def Env.Symmetric (env : Env) : Prop := ∀ c, (env.cls c).rfields = (env.cls c).fields

/-- Arrays of `n` objects of type `t`: virtually serializable objects come one at a time (see C30);
for a class with an asymmetric `serialize` function, the array is below 2 GiB (see C15). -/
def Env.ArrOk (env : Env) (t : Ty) (n : Nat) : Prop :=
  (env.isVirt t = true → n ≤ 1) ∧ (env.Asym t → (env.ti t).sizeof * n < 2 ^ 31)

/-- `WT R env t v`: `v` is a value of type `t` (of which serialization is claimed to work). Sizes are
below `2^64`; comparators look at observable values only. -/
inductive WT (R : RelMode) (env : Env) : Ty → Val → Prop
  | prim {id size : Nat} {bs : Bytes} : bs.length = size → WT R env (.prim id size) (.raw bs)
  | enm {id pid size : Nat} {bs : Bytes} : bs.length = size → WT R env (.enm id pid size) (.raw bs)
  | chrono {id pid size : Nat} {bs : Bytes} : bs.length = size →
      WT R env (.chrono id pid size) (.raw bs)
  | str {x : Str} : x.chars.length < 2 ^ 64 → WT R env .str (.str x)
  | vec {t : Ty} {cap : Nat} {xs : List Val} : xs.length ≤ cap → cap < 2 ^ 64 →
      env.ArrOk t xs.length → (∀ x ∈ xs, ByVal t x) → (∀ x ∈ xs, WT R env t x) →
      WT R env (.vec t) (.vec cap xs)
  | vecBool {cap : Nat} {bs : List Bool} : bs.length ≤ cap → cap < 2 ^ 64 →
      WT R env .vecBool (.vbool cap bs)
  | seq {k : SeqKind} {t : Ty} {xs : List Val} : xs.length < 2 ^ 64 → (∀ x ∈ xs, ByVal t x) →
      (∀ x ∈ xs, WT R env t x) → WT R env (.seq k t) (.coll xs)
  | queue {t : Ty} {xs : List Val} : xs.length < 2 ^ 64 → (∀ x ∈ xs, ByVal t x) →
      (∀ x ∈ xs, WT R env t x) → WT R env (.queue t) (.coll xs)
  | oset {a : Assoc} {cmp : Nat} {t : Ty} {xs : List Val} : xs.length < 2 ^ 64 →
      env.LtRespects R cmp t → env.Sorted a cmp xs → (∀ x ∈ xs, ByVal t x) →
      (∀ x ∈ xs, WT R env t x) → WT R env (.oset a cmp t) (.coll xs)
  | uset {a : Assoc} {eq : Nat} {t : Ty} {xs : List Val} : xs.length < 2 ^ 64 →
      env.EqRespects R eq t →
      (a.repeats = false → xs.Pairwise (fun x y => env.eq eq x y = false)) →
      (R.anyOrder ∨ xs.length ≤ 1) →
      (∀ x ∈ xs, ByVal t x) → (∀ x ∈ xs, WT R env t x) → WT R env (.uset a eq t) (.coll xs)
  | pair {a b : Ty} {x y : Val} : ByVal a x → ByVal b y → WT R env a x → WT R env b y →
      WT R env (.pair a b) (.coll [x, y])
  | tuple {ts : List Ty} {xs : List Val} : xs.length = ts.length →
      (∀ (i : Nat) t x, ts[i]? = some t → xs[i]? = some x → ByVal t x) →
      (∀ (i : Nat) t x, ts[i]? = some t → xs[i]? = some x → WT R env t x) →
      WT R env (.tuple ts) (.coll xs)
  | optNone {t : Ty} : WT R env (.opt t) (.opt none)
  | optSome {t : Ty} {x : Val} : ByVal t x → WT R env t x → WT R env (.opt t) (.opt (some x))
  | variant {ts : List Ty} {i : Nat} {t : Ty} {x : Val} : Ty.allOnlyBytes ts = false → ts[i]? = some t → i < 2 ^ 64 →
      ByVal t x → WT R env t x → WT R env (.variant ts) (.variant i x)
  | variantBytes {ts : List Ty} {bs : Bytes} : Ty.allOnlyBytes ts = true → bs.length = (env.ti (.variant ts)).sizeof →
      WT R env (.variant ts) (.raw bs)
  | ptrNull {t : Ty} : WT R env (.uptr t) (.ptr none)
  /-- A pointee of a virtually serializable class is of a registered, constructible class derived from
  the declared one. -/
  | ptr {t : Ty} {x : Val} : (env.isVirt t = false → ByVal t x) →
      (∀ c d ps, t = .cls c → x = .obj d ps → (env.cls c).virt = true →
        d ∈ env.objReg (env.root c) ∧ (env.cls d).abstract = false) →
      WT R env t x → WT R env (.uptr t) (.ptr (some x))
  | arr {n : Nat} {t : Ty} {xs : List Val} : xs.length = n →
      env.ArrOk t n → (∀ x ∈ xs, ByVal t x) → (∀ x ∈ xs, WT R env t x) →
      WT R env (.arr n t) (.coll xs)
  /-- An object has the members of each of its classes. -/
  | obj {c d : Nat} {ps : List (List Val)} : c ∈ env.chain d → ((env.cls c).virt = false → d = c) →
      ps.length = (env.chain d).length →
      (∀ (j k : Nat) p, (env.chain d)[j]? = some k → ps[j]? = some p →
        p.length = (env.cls k).fields.length) →
      (∀ (j k : Nat) p, (env.chain d)[j]? = some k → ps[j]? = some p →
        ∀ (i : Nat) t x, (env.cls k).fields[i]? = some t → p[i]? = some x → ByVal t x) →
      (∀ (j k : Nat) p, (env.chain d)[j]? = some k → ps[j]? = some p →
        ∀ (i : Nat) t x, (env.cls k).fields[i]? = some t → p[i]? = some x → WT R env t x) →
      WT R env (.cls c) (.obj d ps)

/-- Reserving in a vector of capacity `cap` gives a capacity in the relation `R` asks for.
(Trivial for `RelMode.contents`, and for `RelMode.capacity` when `reserve` works.) -/
def RelMode.CapOk (R : RelMode) (cfg : Cfg) (cap : Nat) : Prop :=
  ∀ c < 2 ^ 64, R.cap c (if c ≤ cap then cap else cfg.grow c)

/-- `Clean R cfg env t v`: an object over which any value can be restored: associative containers and
queues in it are empty, so are lists and vectors of elements that cannot be copied, and
pointers to virtually serializable objects are null.  Everything else is arbitrary. -/
inductive Clean (R : RelMode) (cfg : Cfg) (env : Env) : Ty → Val → Prop
  | prim {id size : Nat} {bs : Bytes} : bs.length = size → Clean R cfg env (.prim id size) (.raw bs)
  | enm {id pid size : Nat} {bs : Bytes} : bs.length = size →
      Clean R cfg env (.enm id pid size) (.raw bs)
  | chrono {id pid size : Nat} {bs : Bytes} : bs.length = size →
      Clean R cfg env (.chrono id pid size) (.raw bs)
  | str {x : Str} : Clean R cfg env .str (.str x)
  | vec {t : Ty} {cap : Nat} {xs : List Val} : R.CapOk cfg cap →
      (env.dflt t = none → env.copyable t = false → xs = []) → (∀ x ∈ xs, ByVal t x) →
      (∀ x ∈ xs, Clean R cfg env t x) → Clean R cfg env (.vec t) (.vec cap xs)
  | vecBool {cap : Nat} {bs : List Bool} : R.CapOk cfg cap → Clean R cfg env .vecBool (.vbool cap bs)
  | seq {k : SeqKind} {t : Ty} {xs : List Val} : (env.copyable t = false → xs = []) →
      (∀ x ∈ xs, ByVal t x) → (∀ x ∈ xs, Clean R cfg env t x) →
      Clean R cfg env (.seq k t) (.coll xs)
  | queue {t : Ty} : Clean R cfg env (.queue t) (.coll [])
  | oset {a : Assoc} {cmp : Nat} {t : Ty} : Clean R cfg env (.oset a cmp t) (.coll [])
  | uset {a : Assoc} {eq : Nat} {t : Ty} : Clean R cfg env (.uset a eq t) (.coll [])
  | pair {a b : Ty} {x y : Val} : ByVal a x → ByVal b y → Clean R cfg env a x → Clean R cfg env b y →
      Clean R cfg env (.pair a b) (.coll [x, y])
  | tuple {ts : List Ty} {xs : List Val} : xs.length = ts.length →
      (∀ (i : Nat) t x, ts[i]? = some t → xs[i]? = some x → ByVal t x) →
      (∀ (i : Nat) t x, ts[i]? = some t → xs[i]? = some x → Clean R cfg env t x) →
      Clean R cfg env (.tuple ts) (.coll xs)
  | opt {t : Ty} {x : Option Val} : Clean R cfg env (.opt t) (.opt x)
  | variant {ts : List Ty} {i : Nat} {x : Val} : Ty.allOnlyBytes ts = false →
      Clean R cfg env (.variant ts) (.variant i x)
  | valueless {ts : List Ty} : Ty.allOnlyBytes ts = false → Clean R cfg env (.variant ts) .valueless
  | variantBytes {ts : List Ty} {bs : Bytes} : Ty.allOnlyBytes ts = true → bs.length = (env.ti (.variant ts)).sizeof →
      Clean R cfg env (.variant ts) (.raw bs)
  | ptrNull {t : Ty} : Clean R cfg env (.uptr t) (.ptr none)
  | ptr {t : Ty} {x : Val} : env.isVirt t = false → ByVal t x → Clean R cfg env t x →
      Clean R cfg env (.uptr t) (.ptr (some x))
  | arr {n : Nat} {t : Ty} {xs : List Val} : xs.length = n → (∀ x ∈ xs, ByVal t x) →
      (∀ x ∈ xs, Clean R cfg env t x) → Clean R cfg env (.arr n t) (.coll xs)
  | obj {c d : Nat} {ps : List (List Val)} : c ∈ env.chain d →
      ps.length = (env.chain d).length →
      (∀ (j k : Nat) p, (env.chain d)[j]? = some k → ps[j]? = some p →
        p.length = (env.cls k).rfields.length) →
      (∀ (j k : Nat) p, (env.chain d)[j]? = some k → ps[j]? = some p →
        ∀ (i : Nat) t x, (env.cls k).rfields[i]? = some t → p[i]? = some x → ByVal t x) →
      (∀ (j k : Nat) p, (env.chain d)[j]? = some k → ps[j]? = some p →
        ∀ (i : Nat) t x, (env.cls k).rfields[i]? = some t → p[i]? = some x → Clean R cfg env t x) →
      Clean R cfg env (.cls c) (.obj d ps)

/-- A serializer registry as any sequence of registrations and links leaves it: no class has two
entries for one serializer, and an entry linked to a base index is linked to the entry of the
same serializer. -/
structure SerReg.Inv (r : SerReg) (root : Nat → Nat) : Prop where
  nodup : ∀ c, ((r c).map (·.kind)).Nodup
  linked : ∀ c, ∀ en ∈ r c, ∀ i, en.base = some i →
    ((r (root c))[i]?).map (·.kind) = some en.kind

/-- Assumptions about the program and the standard library. `K` are the serializer classes in use. -/
structure Env.Usable (R : RelMode) (K : Kind → Prop) (cfg : Cfg) (env : Env) : Prop where
  cfgOk : cfg.Valid
  /-- every type was registered. -/
  ti : ∀ t, (env.ti t).Valid
  /-- the arguments of a function call are all evaluated, once each. -/
  order : ∀ n, (cfg.argOrder n).Perm (List.range n)
  /-- an unordered container iterates over its elements, in some order. -/
  arrange : ∀ eq xs, (env.arrange eq xs).Perm xs
  /-- constructors leave clean objects. -/
  fresh : ∀ t, Clean R cfg env t (env.fresh t) ∧ ByVal t (env.fresh t)
  dflt : ∀ t v, env.dflt t = some v → Clean R cfg env t v ∧ ByVal t v
  /-- the bases of a class belong to its hierarchy; a class outside virtual serialization has no
  bases of its own here. -/
  hier : ∀ d, ∀ c ∈ env.chain d, env.root c = env.root d
  plain : ∀ c, (env.cls c).virt = false → (env.cls c).bases = []
  /-- fewer than `2^31` classes per hierarchy. -/
  regSize : ∀ c, (env.objReg c).length < 2 ^ 31
  serRegOk : env.serReg.Inv env.root
  /-- virtual dispatch only works for the serializers of the library (see C46). -/
  kinds : (∃ c, (env.cls c).virt = true) → ∀ k, K k → k ∈ builtinKinds

/-- A program all of whose classes read the members they write. -/
structure Env.Valid (R : RelMode) (K : Kind → Prop) (cfg : Cfg) (env : Env) : Prop
    extends Env.Usable R K cfg env where
  sym : env.Symmetric

/-- The `serialize` functions that visit different members when unpacking are recognisable: the types
they visit have different indices (C13), and the class is smaller than 2 GiB. -/
def Env.Distinguishable (env : Env) : Prop :=
  ∀ c, (env.cls c).rfields ≠ (env.cls c).fields → (env.ti (.cls c)).sizeof < 2 ^ 31 ∧
    ∀ p ∈ (env.cls c).fields, ∀ u ∈ (env.cls c).rfields, (env.ti p).idx = (env.ti u).idx → p = u

end Ckpt
