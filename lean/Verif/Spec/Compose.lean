import Verif.Model.Recursive
import Verif.Spec.Universe
import Verif.Spec.ViewMore
import Verif.Spec.KMap
import Verif.Spec.RoundTrips
import Verif.Spec.Visits
import Verif.Spec.Failure
/-!
# Specification: containers, classes and Kokkos classes within each other

`Usage` says, for a type, which objects can be written, over which objects they can be read, and when a restored object is
equal to the original; `Composed` says how these follow from the parts of the type.
-/

set_option autoImplicit false

namespace Ckpt

variable {T A B : Type}

/-- What is said about the objects of a type. -/
structure Usage (T : Type) where
  /-- objects that can be written -/
  ok : T → Prop
  /-- objects that can be read over -/
  clean : T → Prop
  /-- original and restored object -/
  same : T → T → Prop
  /-- arrays of so many objects can be handled at once -/
  many : Nat → Prop := fun _ => True

/-- A type of `Verif.Model.Universe`. -/
def Usage.base (R : RelMode) (cfg : Cfg) (env : Env) (t : Ty) : Usage Val where
  ok x := WT R env t x ∧ ByVal t x
  clean y := Clean R cfg env t y ∧ ByVal t y
  same := Rel R env t
  many := env.ArrOk t

/-- If some classes visit other members when reading: what is read has no object of such a class in it. -/
def Usage.checkedBase (R : RelMode) (cfg : Cfg) (env : Env) (t : Ty) : Usage Val :=
  { Usage.base R cfg env t with
    same := fun x y => Rel R env t x y ∧ ∀ k, Visits env t x k → (env.cls k).rfields = (env.cls k).fields }

/-- Vectors: the capacity does not shrink. -/
def Usage.vector (t : CppType T) (u : Usage T) : Usage (Vec T) where
  ok v := (∀ x ∈ v.elems, u.ok x) ∧ v.elems.length ≤ v.cap ∧ v.cap < 2 ^ 64 ∧ u.many v.elems.length
  clean v := (∀ x ∈ v.elems, u.clean x) ∧ (t.dflt = none → t.copyable = false → v.elems = []) ∧ v.cap < 2 ^ 64
  same v w := List.Forall₂ u.same v.elems w.elems ∧ v.cap ≤ w.cap ∧ w.cap < 2 ^ 64

/-- Lists and deques. -/
def Usage.list (t : CppType T) (u : Usage T) : Usage (List T) where
  ok xs := (∀ x ∈ xs, u.ok x) ∧ xs.length < 2 ^ 64
  clean ys := (∀ y ∈ ys, u.clean y) ∧ (t.copyable = false → ys = [])
  same := List.Forall₂ u.same

/-- Queues: read over an empty one. -/
def Usage.queue (u : Usage T) : Usage (List T) where
  ok xs := (∀ x ∈ xs, u.ok x) ∧ xs.length < 2 ^ 64
  clean ys := ys = []
  same := List.Forall₂ u.same

/-- Ordered containers: elements are in order, without equivalent ones if keys are unique. -/
def Usage.ordered (a : Assoc) (lt : T → T → Bool) (u : Usage T) : Usage (List T) where
  ok xs := (∀ x ∈ xs, u.ok x) ∧ xs.length < 2 ^ 64 ∧
    if a.repeats then xs.Pairwise (fun x y => lt y x = false) else xs.Pairwise (fun x y => lt x y = true)
  clean ys := ys = []
  same := List.Forall₂ u.same

/-- Unordered containers: the same elements in any order. -/
def Usage.unordered (a : Assoc) (eq : T → T → Bool) (u : Usage T) : Usage (List T) where
  ok xs := (∀ x ∈ xs, u.ok x) ∧ xs.length < 2 ^ 64 ∧ (a.repeats = false → xs.Pairwise (fun x y => eq x y = false))
  clean ys := ys = []
  same xs ws := ∃ zs, List.Forall₂ u.same xs zs ∧ zs.Perm ws

def Usage.pair (u : Usage A) (v : Usage B) : Usage (A × B) where
  ok x := u.ok x.1 ∧ v.ok x.2
  clean y := u.clean y.1 ∧ v.clean y.2
  same x w := u.same x.1 w.1 ∧ v.same x.2 w.2

/-- `none` as `none`, and an object as an object. -/
def Usage.sameOption (u : Usage T) : Option T → Option T → Prop
  | none, none => True
  | some x, some w => u.same x w
  | _, _ => False

/-- Optional objects: read over any. -/
def Usage.optional (u : Usage T) : Usage (Option T) where
  ok x := ∀ v, x = some v → u.ok v
  clean _ := True
  same := u.sameOption

/-- Owned objects: what is owned is read over. -/
def Usage.uniquePtr (u : Usage T) : Usage (Option T) where
  ok x := ∀ v, x = some v → u.ok v
  clean y := ∀ v, y = some v → u.clean v
  same := u.sameOption

def Usage.array (k : Nat) (u : Usage T) : Usage (List T) where
  ok xs := (∀ x ∈ xs, u.ok x) ∧ xs.length = k ∧ u.many k
  clean ys := (∀ y ∈ ys, u.clean y) ∧ ys.length = k
  same := List.Forall₂ u.same

/-- The object a new element of a view is. -/
def CppType.zero (t : CppType T) : T := t.dflt.getD t.fresh

/-- Views: read over any. -/
def Usage.view (ty : ViewTy) (t : CppType T) (u : Usage T) : Usage (View T) where
  ok v := v.Ok ty ∧ (∀ x ∈ v.data, u.ok x) ∧ u.many v.size
  clean _ := True
  same v w := v.Copy ty t.zero u.same w ∧ w.Ok ty

def Usage.dynRank (l : Layout) (t : CppType T) (u : Usage T) : Usage (DynRank T) where
  ok v := v.Ok l ∧ (∀ x ∈ v.view.data, u.ok x) ∧ u.many v.view.size
  clean _ := True
  same v w := v.Copy l t.zero u.same w ∧ w.Ok l

def Usage.dynamic (u : Usage T) : Usage (DynamicView T) where
  ok v := v.Ok ∧ ∀ x ∈ v.elems, u.ok x
  clean _ := True
  same v w := v.Copy u.same w ∧ w.Ok

/-- Views of `const` elements: without memory it can not be copied unless it has no elements. -/
def Usage.constView (ty : ViewTy) (t : CppType T) (u : Usage T) : Usage (View T) where
  ok v := v.Ok ty ∧ (∀ x ∈ v.data, u.ok x) ∧ u.many v.size ∧ (v.alloc = true ∨ v.size = 0)
  clean _ := True
  same v w := v.Copy ty t.zero u.same w ∧ w.Ok ty

/-- All objects that can be written are written with the same number of bytes. -/
def CppType.SameSize (cfg : Cfg) (t : CppType T) (u : Usage T) : Prop :=
  ∃ k, ∀ x, u.ok x → ∃ bs, Yields (fun n => serializeToStream cfg (t.elem n) x { data := [] })
    (.ok (x, { data := bs })) ∧ bs.length = k

/-- Kokkos maps: no slot that is not in use holds the key of an entry, insertions into a new map succeed; read over an
empty map. -/
def Usage.kmap (h : KHash A B) (u : Usage A) (v : Usage B) : Usage (KMap A B) where
  ok m := m.Ok h ∧ m.NoStale h ∧ h.Room m.capacity m.size ∧ ∀ p ∈ occupied m.slots, u.ok p.1 ∧ v.ok p.2
  clean m := m.size = 0
  same := KMap.Restored h u.same v.same

/-- What is said about each member. -/
inductive MemberUsages : Type → Type 1
  | nil : MemberUsages Unit
  | cons {A O : Type} (u : Usage A) (us : MemberUsages O) : MemberUsages (A × O)

/-- Every member is so. -/
def MemberUsages.All (P : {A : Type} → Usage A → A → Prop) : {O : Type} → MemberUsages O → O → Prop
  | _, .nil, _ => True
  | _, .cons u us, o => P u o.1 ∧ us.All P o.2

/-- Every member is equal to that of the other object. -/
def MemberUsages.Same : {O : Type} → MemberUsages O → O → O → Prop
  | _, .nil, _, _ => True
  | _, .cons u us, o, w => u.same o.1 w.1 ∧ us.Same o.2 w.2

/-- Classes: member by member. -/
def Usage.cls {O : Type} (us : MemberUsages O) : Usage O where
  ok := us.All fun u => u.ok
  clean := us.All fun u => u.clean
  same := us.Same

/-- What is said about each alternative. -/
inductive AltUsages : Type → Type 1
  | nil : AltUsages Empty
  | cons {A V : Type} (u : Usage A) (us : AltUsages V) : AltUsages (A ⊕ V)

/-- The value can be written. -/
def AltUsages.Ok : {V : Type} → AltUsages V → V → Prop
  | _, .cons u _, .inl x => u.ok x
  | _, .cons _ us, .inr v => us.Ok v

/-- The same alternative, and equal values. -/
def AltUsages.Same : {V : Type} → AltUsages V → V → V → Prop
  | _, .cons u _, .inl x, .inl y => u.same x y
  | _, .cons _ us, .inr v, .inr w => us.Same v w
  | _, .cons _ _, _, _ => False

/-- Variants that hold a value: read over any. -/
def Usage.variant {V : Type} (us : AltUsages V) : Usage (Option V) where
  ok v := ∃ x, v = some x ∧ us.Ok x
  clean _ := True
  same v w := ∃ x y, v = some x ∧ w = some y ∧ us.Same x y

/-- Objects with virtual serialization: class by class; not in arrays. -/
def Usage.object {O : Type} (us : MemberUsages O) : Usage O := { Usage.cls us with many := fun k => k ≤ 1 }

/-- Pointers to objects with virtual serialization: of registered classes that can be constructed; read over a null
pointer.  The restored object is of the same class. -/
def Usage.polyPtr {V : Type} (env : Env) (c : Nat) (ds : DynTypes V) (us : AltUsages V) : Usage (Option V) where
  ok x := ∀ v, x = some v → us.Ok v ∧ ds.classOf v ∈ env.objReg (env.root c) ∧
    (env.cls (ds.classOf v)).abstract = false
  clean y := y = none
  same x w := (x = none ∧ w = none) ∨ ∃ v v', x = some v ∧ w = some v' ∧ us.Same v v'

/-- A type with its usage. -/
abbrev TypeUse : Type 1 := (A : Type) × CppType A × Usage A

/-- Usages for each of the types; the last argument lists both. -/
inductive MemberTypes.Match : {O : Type} → MemberTypes O → MemberUsages O → List TypeUse → Prop
  | nil : Match .nil .nil []
  | cons {A O : Type} (t : CppType A) (u : Usage A) {ms : MemberTypes O} {us : MemberUsages O} {ps : List TypeUse} :
      Match ms us ps → Match (.cons t ms) (.cons u us) (⟨A, t, u⟩ :: ps)

/-- Usages for each of the alternatives; the last argument lists both. -/
inductive AltTypes.Match : {V : Type} → AltTypes V → AltUsages V → List TypeUse → Prop
  | nil : Match .nil .nil []
  | cons {A V : Type} (t : CppType A) (u : Usage A) {as : AltTypes V} {us : AltUsages V} {ps : List TypeUse} :
      Match as us ps → Match (.cons t as) (.cons u us) (⟨A, t, u⟩ :: ps)

/-- Usages for each of the classes, with new objects that can be read over; the last argument lists the types of the
parts. -/
inductive DynTypes.Match : {V : Type} → DynTypes V → AltUsages V → List TypeUse → Prop
  | nil : Match .nil .nil []
  | cons {O V : Type} (d : Nat) {fresh : O} {ms : MemberTypes O} {us : MemberUsages O} {ds : DynTypes V}
      {vs : AltUsages V} {ps qs : List TypeUse} : ms.Match us ps → (Usage.cls us).clean fresh → Match ds vs qs →
      Match (.cons d fresh ms ds) (.cons (.cls us) vs) (ps ++ qs)

/-- There is a type for each class of an object. -/
def DynTypes.Fits (env : Env) : {V : Type} → DynTypes V → Prop
  | _, .nil => True
  | _, .cons d _ ms ds => ms.length = (env.chain d).length ∧ ds.Fits env

/-- What a `serialize` function writes. -/
inductive Item : Type 1
  /-- an object -/
  | one {A : Type} (t : CppType A) (u : Usage A) (x : A)
  /-- an array -/
  | block {A : Type} (t : CppType A) (u : Usage A) (xs : List A)
  | count (c : Nat)
  | flag (b : Bool)

/-- It can be written; `ps` are the types with their usages. -/
def Item.Good (ps : TypeUse → Prop) : Item → Prop
  | @Item.one A t u x => ps ⟨A, t, u⟩ ∧ u.ok x
  | @Item.block A t u xs => ps ⟨A, t, u⟩ ∧ (∀ x ∈ xs, u.ok x) ∧ u.many xs.length
  | .count c => c < 2 ^ 64
  | .flag _ => True

/-- The function writes this of object `x`, which it does not change. -/
inductive Prog.Writes {O : Type} (x : O) : Prog O → List Item → Prop
  | done : Writes x .done []
  | visit {A : Type} {t : CppType A} (u : Usage A) {get : O → Option A} {set : A → O → O} {k : Prog O} {a : A}
      {is : List Item} : get x = some a → set a x = x → Writes x k is → Writes x (.visit t get set k) (.one t u a :: is)
  | block {A : Type} {t : CppType A} (u : Usage A) {get : O → Option (List A)} {set : List A → O → O} {k : Prog O}
      {as : List A} {is : List Item} : get x = some as → set as x = x → Writes x k is →
      Writes x (.block t get set k) (.block t u as :: is)
  | value {A : Type} {t : CppType A} (u : Usage A) {f : O → A} {k : A → Prog O} {is : List Item} :
      Writes x (k (f x)) is → Writes x (.value t f k) (.one t u (f x) :: is)
  | count {f : O → Nat} {k : Nat → Prog O} {is : List Item} : Writes x (k (f x)) is →
      Writes x (.count f k) (.count (f x) :: is)
  | flag {f : O → Bool} {k : Bool → Prog O} {is : List Item} : Writes x (k (f x)) is →
      Writes x (.flag f k) (.flag (f x) :: is)
  | update {g : O → O} {k : Prog O} {is : List Item} : g x = x → Writes x k is → Writes x (.update g k) is
  | mode {r w : Prog O} {is : List Item} : Writes x w is → Writes x (.mode r w) is
  | addBytes {f : O → Nat} {k : Prog O} {is : List Item} : Writes x k is → Writes x (.addBytes f k) is
  | look {k : O → Prog O} {is : List Item} : Writes x (k x) is → Writes x (.look k) is

/-- For each type with its usage: when object `x` can be read over object `y`. -/
abbrev OverRel : Type 1 := (q : TypeUse) → q.1 → q.1 → Prop

/-- Over the objects anything can be read over. -/
def cleanOver : OverRel := fun q _ y => q.2.2.clean y

/-- Reading this over an object, the function takes each item with the type it was written with, over an object it can be
read over, and, whatever equal objects it gets, ends with an object for which `Q` holds. -/
inductive Prog.TakesOver {O : Type} (r : OverRel) (Q : O → Prop) : List Item → Prog O → O → Prop
  | done {y : O} : Q y → TakesOver r Q [] .done y
  | visit {A : Type} {t : CppType A} {u : Usage A} {get : O → Option A} {set : A → O → O} {k : Prog O} {a b : A}
      {is : List Item} {y : O} : get y = some b → r ⟨A, t, u⟩ a b → (∀ a', u.same a a' → TakesOver r Q is k (set a' y)) →
      TakesOver r Q (.one t u a :: is) (.visit t get set k) y
  | block {A : Type} {t : CppType A} {u : Usage A} {get : O → Option (List A)} {set : List A → O → O} {k : Prog O}
      {as bs : List A} {is : List Item} {y : O} : get y = some bs → bs.length = as.length →
      (∀ (i : Nat) (a b : A), as[i]? = some a → bs[i]? = some b → r ⟨A, t, u⟩ a b) →
      (∀ as', List.Forall₂ u.same as as' → TakesOver r Q is k (set as' y)) →
      TakesOver r Q (.block t u as :: is) (.block t get set k) y
  | value {A : Type} {t : CppType A} {u : Usage A} {f : O → A} {k : A → Prog O} {a : A} {is : List Item} {y : O} :
      r ⟨A, t, u⟩ a (f y) → (∀ a', u.same a a' → TakesOver r Q is (k a') y) →
      TakesOver r Q (.one t u a :: is) (.value t f k) y
  | count {f : O → Nat} {k : Nat → Prog O} {c : Nat} {is : List Item} {y : O} : TakesOver r Q is (k c) y →
      TakesOver r Q (.count c :: is) (.count f k) y
  | flag {f : O → Bool} {k : Bool → Prog O} {b : Bool} {is : List Item} {y : O} : TakesOver r Q is (k b) y →
      TakesOver r Q (.flag b :: is) (.flag f k) y
  | update {g : O → O} {k : Prog O} {is : List Item} {y : O} : TakesOver r Q is k (g y) → TakesOver r Q is (.update g k) y
  | mode {p w : Prog O} {is : List Item} {y : O} : TakesOver r Q is p y → TakesOver r Q is (.mode p w) y
  | addBytes {f : O → Nat} {k : Prog O} {is : List Item} {y : O} : TakesOver r Q is k y →
      TakesOver r Q is (.addBytes f k) y
  | look {k : O → Prog O} {is : List Item} {y : O} : TakesOver r Q is (k y) y → TakesOver r Q is (.look k) y

/-- Each item is taken over an object anything can be read over. -/
abbrev Prog.Takes {O : Type} (Q : O → Prop) : List Item → Prog O → O → Prop := Prog.TakesOver cleanOver Q

/-- An array over objects anything can be read over. -/
theorem Prog.Takes.block {O : Type} {Q : O → Prop} {A : Type} {t : CppType A} {u : Usage A} {get : O → Option (List A)}
    {set : List A → O → O} {k : Prog O} {as bs : List A} {is : List Item} {y : O} (hg : get y = some bs)
    (hl : bs.length = as.length) (hb : ∀ b ∈ bs, u.clean b)
    (hk : ∀ as', List.Forall₂ u.same as as' → k.Takes Q is (set as' y)) :
    (Prog.block t get set k).Takes Q (.block t u as :: is) y :=
  Prog.TakesOver.block hg hl (fun _ _ b _ h => hb b (List.mem_of_getElem? h)) hk

/-- All types the function visits are among `ps`. -/
def Prog.Within {O : Type} (ps : TypeUse → Prop) : Prog O → Prop
  | .done => True
  | @Prog.visit _ A t _ _ k => (∃ u, ps ⟨A, t, u⟩) ∧ k.Within ps
  | @Prog.block _ A t _ _ k => (∃ u, ps ⟨A, t, u⟩) ∧ k.Within ps
  | @Prog.value _ A t _ k => (∃ u, ps ⟨A, t, u⟩) ∧ ∀ a, (k a).Within ps
  | .count _ k => ∀ c, (k c).Within ps
  | .flag _ k => ∀ b, (k b).Within ps
  | .update _ k => k.Within ps
  | .mode r w => r.Within ps ∧ w.Within ps
  | .addBytes _ k => k.Within ps
  | .look k => ∀ o, (k o).Within ps

/-! ### Functions that visit other items when reading -/

/-- The type index in front of an item; an array without elements leaves no trace. -/
def Item.mark (cfg : Cfg) : Item → Option Nat
  | .one t _ _ => some t.ti.idx
  | .block _ _ [] => none
  | .block t _ (_ :: _) => some t.ti.idx
  | .count _ => some cfg.tiSize.idx
  | .flag _ => some cfg.tiBool.idx

/-- The type of what the function visits next, over object `y`. -/
def Prog.asks {O : Type} (cfg : Cfg) : Prog O → O → Option TI
  | .visit t get _ _, y => (get y).map fun _ => t.ti
  | .block t get _ _, y =>
    match get y with
    | some (_ :: _) => some t.ti
    | _ => none
  | .value t _ _, _ => some t.ti
  | .count _ _, _ => some cfg.tiSize
  | .flag _ _, _ => some cfg.tiBool
  | _, _ => none

/-- Reading several objects of a class one after the other, with error checking: the rest of the function of the object
being read, the objects read before, this one and those to come.  Either an item has another type than the next thing
visited, there are no more items, there are some left at the end, or all objects are read and `Q` holds for them. -/
inductive Prog.Checked {O : Type} (cfg : Cfg) (p : Prog O) (Q : List O → Prop) :
    List Item → Prog O → List O → O → List O → Prop
  | last {zs : List O} {y : O} : Q (zs ++ [y]) → Checked cfg p Q [] .done zs y []
  | next {zs ys : List O} {y y' : O} {is : List Item} : Checked cfg p Q is p (zs ++ [y]) y' ys →
      Checked cfg p Q is .done zs y (y' :: ys)
  /-- items are left -/
  | left {zs : List O} {y : O} {i : Item} {j : Nat} {is : List Item} : i.mark cfg = some j →
      Checked cfg p Q (i :: is) .done zs y []
  /-- no items are left -/
  | over {zs ys : List O} {y : O} {q : Prog O} {ti : TI} : q.asks cfg y = some ti → Checked cfg p Q [] q zs y ys
  /-- the next item has another type -/
  | other {zs ys : List O} {y : O} {q : Prog O} {ti : TI} {i : Item} {j : Nat} {is : List Item} :
      q.asks cfg y = some ti → i.mark cfg = some j → ti.idx ≠ j → Checked cfg p Q (i :: is) q zs y ys
  /-- an array without elements is not noticed -/
  | noItem {zs ys : List O} {y : O} {q : Prog O} {i : Item} {is : List Item} : i.mark cfg = none →
      Checked cfg p Q is q zs y ys → Checked cfg p Q (i :: is) q zs y ys
  | noBlock {A : Type} {t : CppType A} {get : O → Option (List A)} {set : List A → O → O} {k : Prog O}
      {zs ys : List O} {y : O} {is : List Item} : get y = some [] → Checked cfg p Q is k zs (set [] y) ys →
      Checked cfg p Q is (.block t get set k) zs y ys
  | visit {A : Type} {t : CppType A} {u : Usage A} {get : O → Option A} {set : A → O → O} {k : Prog O} {a b : A}
      {is : List Item} {zs ys : List O} {y : O} : get y = some b → u.clean b →
      (∀ a', u.same a a' → Checked cfg p Q is k zs (set a' y) ys) →
      Checked cfg p Q (.one t u a :: is) (.visit t get set k) zs y ys
  | block {A : Type} {t : CppType A} {u : Usage A} {get : O → Option (List A)} {set : List A → O → O} {k : Prog O}
      {as bs : List A} {is : List Item} {zs ys : List O} {y : O} : get y = some bs → bs.length = as.length →
      (∀ b ∈ bs, u.clean b) → (∀ as', List.Forall₂ u.same as as' → Checked cfg p Q is k zs (set as' y) ys) →
      Checked cfg p Q (.block t u as :: is) (.block t get set k) zs y ys
  | value {A : Type} {t : CppType A} {u : Usage A} {f : O → A} {k : A → Prog O} {a : A} {is : List Item}
      {zs ys : List O} {y : O} : u.clean (f y) → (∀ a', u.same a a' → Checked cfg p Q is (k a') zs y ys) →
      Checked cfg p Q (.one t u a :: is) (.value t f k) zs y ys
  | count {f : O → Nat} {k : Nat → Prog O} {c : Nat} {is : List Item} {zs ys : List O} {y : O} :
      Checked cfg p Q is (k c) zs y ys → Checked cfg p Q (.count c :: is) (.count f k) zs y ys
  | flag {f : O → Bool} {k : Bool → Prog O} {b : Bool} {is : List Item} {zs ys : List O} {y : O} :
      Checked cfg p Q is (k b) zs y ys → Checked cfg p Q (.flag b :: is) (.flag f k) zs y ys
  | update {g : O → O} {k : Prog O} {is : List Item} {zs ys : List O} {y : O} : Checked cfg p Q is k zs (g y) ys →
      Checked cfg p Q is (.update g k) zs y ys
  | mode {r w : Prog O} {is : List Item} {zs ys : List O} {y : O} : Checked cfg p Q is r zs y ys →
      Checked cfg p Q is (.mode r w) zs y ys
  | addBytes {f : O → Nat} {k : Prog O} {is : List Item} {zs ys : List O} {y : O} : Checked cfg p Q is k zs y ys →
      Checked cfg p Q is (.addBytes f k) zs y ys
  | look {k : O → Prog O} {is : List Item} {zs ys : List O} {y : O} : Checked cfg p Q is (k y) zs y ys →
      Checked cfg p Q is (.look k) zs y ys

/-! ### Recursive classes -/

/-- Two types that differ in how objects are handled only, the first one not finishing where they do. -/
abbrev CppType.Below (n : Nat) (t t' : CppType T) : Prop := t.FailsOr .fuel n t'

/-- A type that has another one within: it finishes with the same outcome whenever it finished before, if the other does. -/
abbrev CppType.Grows (F : CppType T → CppType A) : Prop := CppType.PassesOn .fuel F

/-- A function that visits a type: it finishes with the same outcome whenever it finished before, if the type does. -/
abbrev Prog.Grows {O : Type} (cfg : Cfg) (p : CppType T → Prog O) : Prop := Prog.PassesOn .fuel cfg p

/-- No object can be written: that of a class which is declared only. -/
def Usage.none (clean : T → Prop) : Usage T := ⟨fun _ => False, clean, fun _ _ => False, fun _ => True⟩

/-- What is said about objects that are nested to any depth, given what is said for each depth. -/
def Usage.limit (us : Nat → Usage T) : Usage T where
  ok x := ∃ j, (us j).ok x
  clean y := ∀ j, (us j).clean y
  same x y := ∃ j, (us j).same x y
  many _ := True

/-- Types composed of the types of a program, with what can be said about their objects.  If `E` holds, some classes may
visit other members when reading than when writing, and error checking is on. -/
inductive ComposedOf (E : Bool) (R : RelMode) (cfg : Cfg) (env : Env) : {T : Type} → CppType T → Usage T → Prop
  | base (t : Ty) : ComposedOf E R cfg env (.base cfg env t) (.base R cfg env t)
  | vector {T : Type} {t : CppType T} {u : Usage T} {ti : TI} (c : Bool) : ti.Valid → ComposedOf E R cfg env t u →
      ComposedOf E R cfg env (.vector cfg ti c t) (.vector t u)
  | list {T : Type} {t : CppType T} {u : Usage T} {ti : TI} (c : Bool) : ti.Valid → ComposedOf E R cfg env t u →
      ComposedOf E R cfg env (.list cfg ti c t) (.list t u)
  | queue {T : Type} {t : CppType T} {u : Usage T} {ti : TI} (c : Bool) : ti.Valid → ComposedOf E R cfg env t u →
      ComposedOf E R cfg env (.queue cfg ti c t) (.queue u)
  /-- the comparison does not tell restored objects from the original ones -/
  | ordered {T : Type} {t : CppType T} {u : Usage T} {ti : TI} (c : Bool) (a : Assoc) {lt : T → T → Bool} :
      ti.Valid → ComposedOf E R cfg env t u → (∀ x y x' y', u.same x x' → u.same y y' → lt x y = lt x' y') →
      ComposedOf E R cfg env (.ordered cfg ti c a lt t) (.ordered a lt u)
  | unordered {T : Type} {t : CppType T} {u : Usage T} {ti : TI} (c : Bool) (a : Assoc) {eq : T → T → Bool}
      {arrange : List T → List T} : ti.Valid → ComposedOf E R cfg env t u →
      (∀ x y x' y', u.same x x' → u.same y y' → eq x y = eq x' y') → (∀ xs, (arrange xs).Perm xs) →
      ComposedOf E R cfg env (.unordered cfg ti c a eq arrange t) (.unordered a eq u)
  | pair {A B : Type} {a : CppType A} {b : CppType B} {u : Usage A} {v : Usage B} {ti : TI} : ti.Valid →
      ComposedOf E R cfg env a u → ComposedOf E R cfg env b v → ComposedOf E R cfg env (.pair cfg ti a b) (.pair u v)
  | optional {T : Type} {t : CppType T} {u : Usage T} {ti : TI} : ti.Valid → ComposedOf E R cfg env t u →
      ComposedOf E R cfg env (.optional cfg ti t) (.optional u)
  | uniquePtr {T : Type} {t : CppType T} {u : Usage T} {ti : TI} : ti.Valid → t.poly = false →
      ComposedOf E R cfg env t u → ComposedOf E R cfg env (.uniquePtr cfg ti t) (.uniquePtr u)
  | array {T : Type} {t : CppType T} {u : Usage T} {ti : TI} (k : Nat) : ti.Valid → ComposedOf E R cfg env t u →
      ComposedOf E R cfg env (.array cfg ti k t) (.array k u)
  /-- memory the host can access -/
  | view {T : Type} {t : CppType T} {u : Usage T} {k : ViewTI} {ty : ViewTy} : k.Valid → ty.host = true →
      ComposedOf E R cfg env t u → ComposedOf E R cfg env (.view cfg k ty t) (.view ty t u)
  | dynRank {T : Type} {t : CppType T} {u : Usage T} {k : DynTI} (l : Layout) : k.Valid →
      ComposedOf E R cfg env t u → ComposedOf E R cfg env (.dynRank cfg k l t) (.dynRank l t u)
  | dynamic {T : Type} {t : CppType T} {u : Usage T} {k : DynamicTI} : k.Valid →
      ComposedOf E R cfg env t u → ComposedOf E R cfg env (.dynamic cfg k t) (.dynamic u)
  /-- the objects its constructors make can be read over -/
  | cls {O : Type} {ms : MemberTypes O} {us : MemberUsages O} {ti : TI} {fresh : O} {dflt : Option O}
      {ps : List TypeUse} (c : Bool) : ti.Valid → ms.Match us ps → (∀ p ∈ ps, ComposedOf E R cfg env p.2.1 p.2.2) →
      (Usage.cls us).clean fresh → (∀ d, dflt = some d → (Usage.cls us).clean d) →
      ComposedOf E R cfg env (.cls cfg ti fresh dflt c ms) (.cls us)
  /-- memory the host can not access -/
  | deviceView {T : Type} {t : CppType T} {u : Usage T} {k : ViewTI} {ty : ViewTy} : k.Valid → t.SameSize cfg u →
      u.ok t.zero → ComposedOf E R cfg env t u → ComposedOf E R cfg env (.view cfg k ty t) (.view ty t u)
  | constView {T : Type} {t : CppType T} {u : Usage T} {k : ViewTI} {ty : ViewTy} : k.Valid → t.SameSize cfg u →
      u.ok t.zero → ComposedOf E R cfg env t u → ComposedOf E R cfg env (.constView cfg k ty t) (.constView ty t u)
  /-- the comparison does not tell restored keys from the original ones -/
  | kmap {A B : Type} {a : CppType A} {b : CppType B} {u : Usage A} {v : Usage B} {k : KMapTI} {h : KHash A B} :
      k.map.Valid → k.u32.Valid → h.Lawful → (∀ x y q, u.same x y → h.eq x q = h.eq y q) →
      ComposedOf E R cfg env a u → ComposedOf E R cfg env b v → ComposedOf E R cfg env (.kmap cfg k h a b) (.kmap h u v)
  | tuple {O : Type} {ms : MemberTypes O} {us : MemberUsages O} {ti : TI} {ps : List TypeUse} : ti.Valid →
      ms.Match us ps → (∀ p ∈ ps, ComposedOf E R cfg env p.2.1 p.2.2) → ComposedOf E R cfg env (.tuple cfg ti ms) (.cls us)
  | variant {V : Type} {as : AltTypes V} {us : AltUsages V} {ti : TI} {ps : List TypeUse} : ti.Valid →
      as.allBytes = false → as.length ≤ 2 ^ 64 → as.Match us ps → (∀ p ∈ ps, ComposedOf E R cfg env p.2.1 p.2.2) →
      ComposedOf E R cfg env (.variant cfg ti as) (.variant us)
  | object {O : Type} {ms : MemberTypes O} {us : MemberUsages O} {ti : TI} {fresh : O} {dflt : Option O}
      {ps : List TypeUse} (c : Bool) (d : Nat) : ti.Valid → ms.Match us ps →
      (∀ p ∈ ps, ComposedOf E R cfg env p.2.1 p.2.2) → ms.length = (env.chain d).length →
      (Usage.cls us).clean fresh → (∀ y, dflt = some y → (Usage.cls us).clean y) →
      ComposedOf E R cfg env (.object cfg env d ti fresh dflt c ms) (.object us)
  | polyPtr {V : Type} {ds : DynTypes V} {us : AltUsages V} {ti cti : TI} {ps : List TypeUse} (c : Nat) (any : V) :
      ti.Valid → cti.Valid → ds.Match us ps → (∀ p ∈ ps, ComposedOf E R cfg env p.2.1 p.2.2) → ds.Fits env →
      ds.classes.Nodup → ComposedOf E R cfg env (.polyPtr cfg env ti c cti any ds) (.polyPtr env c ds us)
  /-- a class with any `serialize` function: `items` is what is written of an object, and reading it over an object that
  can be read over gives an equal one -/
  | program {O : Type} {p : Prog O} {u : Usage O} {ti : TI} {fresh : O} {dflt : Option O} {ps : TypeUse → Prop}
      (c : Bool) (items : O → List Item) : ti.Valid → p.Within ps →
      (∀ q, ps q → ComposedOf E R cfg env q.2.1 q.2.2) →
      (∀ x, u.ok x → p.Writes x (items x) ∧ ∀ i ∈ items x, i.Good ps) →
      (∀ x y, u.ok x → u.clean y → p.Takes (u.same x) (items x) y) →
      u.clean fresh → (∀ d, dflt = some d → u.clean d) →
      ComposedOf E R cfg env (.program cfg ti fresh dflt c p) u
  | declared {O : Type} {ti : TI} {fresh : O} {dflt : Option O} {clean : O → Prop} (c : Bool) : ti.Valid →
      clean fresh → (∀ d, dflt = some d → clean d) → ComposedOf E R cfg env (.declared ti fresh dflt c) (.none clean)
  /-- a class with any `serialize` function that visits objects of the same class: as `program` for each depth -/
  | recursive {O : Type} {p : CppType O → Prog O} {us : Nat → Usage O} {ti : TI} {fresh : O} {dflt : Option O}
      {ps : Nat → TypeUse → Prop} (c : Bool) (items : Nat → O → List Item) : ti.Valid → Prog.Grows cfg p →
      (∀ j, (p (.unfold cfg ti fresh dflt c p j)).Within (ps j)) →
      (∀ j q, ps j q → ComposedOf E R cfg env q.2.1 q.2.2) →
      (∀ j x, (us j).ok x → (p (.unfold cfg ti fresh dflt c p j)).Writes x (items j x) ∧
        ∀ i ∈ items j x, i.Good (ps j)) →
      (∀ j x y, (us j).ok x → (us j).clean y →
        (p (.unfold cfg ti fresh dflt c p j)).Takes ((us j).same x) (items j x) y) →
      (∀ j, (us j).clean fresh) → (∀ j d, dflt = some d → (us j).clean d) →
      ComposedOf E R cfg env (.recursive cfg ti fresh dflt c p) (.limit us)
  /-- a pointer to a hierarchy whose classes visit such pointers: as `polyPtr` for each depth -/
  | hierarchyPtr {V : Type} {ds : CppType (Option V) → DynTypes V} {us : Nat → AltUsages V} {ti cti : TI}
      {ps : Nat → List TypeUse} (c : Nat) (any : V) : ti.Valid → cti.Valid →
      CppType.Grows (fun t => .polyPtr cfg env ti c cti any (ds t)) →
      (∀ j, (ds (.hierarchyTo cfg env ti c cti any ds j)).Match (us j) (ps j)) →
      (∀ j, ∀ p ∈ ps j, ComposedOf E R cfg env p.2.1 p.2.2) →
      (∀ j, (ds (.hierarchyTo cfg env ti c cti any ds j)).Fits env) →
      (∀ j, (ds (.hierarchyTo cfg env ti c cti any ds j)).classes.Nodup) →
      ComposedOf E R cfg env (.hierarchyPtr cfg env ti c cti any ds)
        (.limit fun j => .polyPtr env c (ds (.hierarchyTo cfg env ti c cti any ds j)) (us j))
  /-- less is said about the same type -/
  | weaken {T : Type} {t : CppType T} {u v : Usage T} : ComposedOf E R cfg env t u → (∀ x, v.ok x → u.ok x) →
      (∀ y, v.clean y → u.clean y) → (∀ x y, v.ok x → u.same x y → v.same x y) → (∀ n, v.many n → u.many n) →
      v.clean t.fresh → (∀ d, t.dflt = some d → v.clean d) → ComposedOf E R cfg env t v
  /-- a type of the program, any class of which may visit other members when reading -/
  | checkedBase (t : Ty) : E = true → ComposedOf E R cfg env (.base cfg env t) (.checkedBase R cfg env t)
  /-- a class with any `serialize` function, which may visit other items when reading than when writing: `u.same` holds
  between an object and what is read, if anything -/
  | checkedProgram {O : Type} {p : Prog O} {u : Usage O} {ti : TI} {fresh : O} {dflt : Option O} {ps : TypeUse → Prop}
      (c : Bool) (items : O → List Item) : E = true → ti.Valid → p.Within ps →
      (∀ q, ps q → ComposedOf E R cfg env q.2.1 q.2.2) →
      (∀ x, u.ok x → p.Writes x (items x) ∧ ∀ i ∈ items x, i.Good ps) →
      (∀ xs y ys, xs.length = ys.length + 1 → (∀ x ∈ xs, u.ok x) → (∀ z ∈ y :: ys, u.clean z) →
        p.Checked cfg (List.Forall₂ u.same xs) (xs.flatMap items) p [] y ys) →
      u.clean fresh → (∀ d, dflt = some d → u.clean d) → ti.sizeof < 2 ^ 31 →
      (∀ n, u.many n → ti.sizeof * n < 2 ^ 31) →
      ComposedOf E R cfg env (.program cfg ti fresh dflt c p) u

/-- Types all classes of which visit when reading what they visit when writing. -/
abbrev Composed (R : RelMode) (cfg : Cfg) (env : Env) {T : Type} (t : CppType T) (u : Usage T) : Prop :=
  ComposedOf false R cfg env t u

end Ckpt
