import Verif.Spec.BytesOnly
import Verif.Model.Custom
/-!
# Specification: what a traverser with its own dispatcher is shown

Given by the value alone, without any traversal machinery.
-/

set_option autoImplicit false

namespace Ckpt

/-- A `size_t` as its eight bytes. -/
def sizeBytes (cfg : Cfg) (n : Nat) : Bytes := intBytes cfg.endian 8 n

/-- `Shown cfg env act asked t x bs`: a traverser whose dispatcher is `act` is shown exactly `bs` for an
object `x` of type `t`.  `asked = true`: the object is handed to the traverser (`s | x`, an element of
an array); `asked = false`: its own `serialize` function runs.

There is no rule for objects of virtually serializable classes. -/
inductive Shown (cfg : Cfg) (env : Env) (act : Ty → Action) : Bool → Ty → Val → Bytes → Prop
  /-- the dispatcher does not look inside. -/
  | instead {t : Ty} {x : Val} {tell : Val → Bytes} :
      env.ownFunction t = true → act t = .instead tell →
      Shown cfg env act true t x (tell x)
  /-- the dispatcher does something before and after. -/
  | around {t : Ty} {x : Val} {before after : Val → Bytes} {bs : Bytes} :
      env.ownFunction t = true → act t = .around before after →
      Shown cfg env act false t x bs → Shown cfg env act true t x (before x ++ bs ++ after x)
  /-- the dispatcher is not asked. -/
  | direct {t : Ty} {x : Val} {bs : Bytes} : env.ownFunction t = false →
      Shown cfg env act false t x bs → Shown cfg env act true t x bs
  | prim {id size : Nat} {bs : Bytes} : bs.length = size →
      Shown cfg env act false (.prim id size) (.raw bs) bs
  | enm {id pid size : Nat} {bs : Bytes} : bs.length = size →
      Shown cfg env act false (.enm id pid size) (.raw bs) bs
  | chrono {id pid size : Nat} {bs : Bytes} : bs.length = size →
      Shown cfg env act false (.chrono id pid size) (.raw bs) bs
  | str {x : Str} : x.chars.length < 2 ^ 64 →
      Shown cfg env act false .str (.str x) (sizeBytes cfg x.chars.length ++ x.chars)
  | vec {t : Ty} {cap : Nat} {xs : List Val} {b : Val → Bytes} : xs.length ≤ cap → cap < 2 ^ 64 →
      (∀ x ∈ xs, Shown cfg env act true t x (b x)) →
      Shown cfg env act false (.vec t) (.vec cap xs)
        (sizeBytes cfg cap ++ sizeBytes cfg xs.length ++ xs.flatMap b)
  | vecBool {cap : Nat} {bs : List Bool} : bs.length ≤ cap → cap < 2 ^ 64 →
      Shown cfg env act false .vecBool (.vbool cap bs)
        (sizeBytes cfg cap ++ sizeBytes cfg bs.length ++ bs.map (fun b => if b then 1 else 0))
  | seq {k : SeqKind} {t : Ty} {xs : List Val} {b : Val → Bytes} : xs.length < 2 ^ 64 →
      (∀ x ∈ xs, Shown cfg env act true t x (b x)) →
      Shown cfg env act false (.seq k t) (.coll xs) (sizeBytes cfg xs.length ++ xs.flatMap b)
  | queue {t : Ty} {xs : List Val} {b : Val → Bytes} : xs.length < 2 ^ 64 →
      (∀ x ∈ xs, Shown cfg env act true t x (b x)) →
      Shown cfg env act false (.queue t) (.coll xs) (sizeBytes cfg xs.length ++ xs.flatMap b)
  | oset {a : Assoc} {cmp : Nat} {t : Ty} {xs : List Val} {b : Val → Bytes} : xs.length < 2 ^ 64 →
      (∀ x ∈ xs, Shown cfg env act true t x (b x)) →
      Shown cfg env act false (.oset a cmp t) (.coll xs) (sizeBytes cfg xs.length ++ xs.flatMap b)
  | uset {a : Assoc} {eq : Nat} {t : Ty} {xs : List Val} {b : Val → Bytes} : xs.length < 2 ^ 64 →
      (∀ x ∈ xs, Shown cfg env act true t x (b x)) →
      Shown cfg env act false (.uset a eq t) (.coll xs) (sizeBytes cfg xs.length ++ xs.flatMap b)
  | pair {t u : Ty} {x y : Val} {bs cs : Bytes} :
      Shown cfg env act true t x bs → Shown cfg env act true u y cs →
      Shown cfg env act false (.pair t u) (.coll [x, y]) (bs ++ cs)
  /-- the elements of a tuple in the order in which the compiler evaluates arguments. -/
  | tuple {ts : List Ty} {xs : List Val} {b : Nat → Bytes} : xs.length = ts.length →
      (∀ (i : Nat) t x, ts[i]? = some t → xs[i]? = some x → Shown cfg env act true t x (b i)) →
      Shown cfg env act false (.tuple ts) (.coll xs) ((cfg.argOrder ts.length).flatMap b)
  | optNone {t : Ty} : Shown cfg env act false (.opt t) (.opt none) [0]
  | optSome {t : Ty} {x : Val} {bs : Bytes} : Shown cfg env act true t x bs →
      Shown cfg env act false (.opt t) (.opt (some x)) (1 :: bs)
  | variant {ts : List Ty} {i : Nat} {t : Ty} {x : Val} {bs : Bytes} : Ty.allOnlyBytes ts = false →
      ts[i]? = some t → i < 2 ^ 64 →
      Shown cfg env act true t x bs →
      Shown cfg env act false (.variant ts) (.variant i x) (sizeBytes cfg i ++ bs)
  | variantBytes {ts : List Ty} {bs : Bytes} : Ty.allOnlyBytes ts = true → bs.length = (env.ti (.variant ts)).sizeof →
      Shown cfg env act false (.variant ts) (.raw bs) bs
  | ptrNull {t : Ty} : Shown cfg env act false (.uptr t) (.ptr none) [1]
  | ptr {t : Ty} {x : Val} {bs : Bytes} : env.isVirt t = false → Shown cfg env act true t x bs →
      Shown cfg env act false (.uptr t) (.ptr (some x)) (0 :: bs)
  | arr {k : Nat} {t : Ty} {xs : List Val} {b : Val → Bytes} : xs.length = k →
      (∀ x ∈ xs, Shown cfg env act true t x (b x)) →
      Shown cfg env act false (.arr k t) (.coll xs) (xs.flatMap b)
  /-- the members of an object in order. -/
  | obj {c : Nat} {p : List Val} {b : Nat → Bytes} : (env.cls c).virt = false → (env.cls c).bases = [] →
      p.length = (env.cls c).fields.length →
      (∀ (i : Nat) t x, (env.cls c).fields[i]? = some t → p[i]? = some x →
        Shown cfg env act true t x (b i)) →
      Shown cfg env act false (.cls c) (.obj c [p])
        ((List.range (env.cls c).fields.length).flatMap b)

/-- The dispatcher that does nothing of its own (`BasicDispatcher`). -/
def noAction : Ty → Action := fun _ => .around (fun _ => []) (fun _ => [])

end Ckpt
