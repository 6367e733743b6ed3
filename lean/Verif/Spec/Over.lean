import Verif.Spec.Compose
/-!
# Specification: reading in place over objects that exist

`Usage.clean` says which objects can be read over whatever is read.  A pointer that owns an object can be read over if the
object that is read is of the same class, so what can be read over depends on the object that was written.  `OverOf` says,
part by part, when object `x` can be read over object `y`.
-/

set_option autoImplicit false

namespace Ckpt

/-- Every element is read over the element in its place, as far as there is one. -/
def OverElems {T : Type} (o : T → T → Prop) (xs ys : List T) : Prop :=
  ∀ (i : Nat) (x y : T), xs[i]? = some x → ys[i]? = some y → o x y

/-- The elements in place, unless the vector has to be made anew. -/
def overVector {T : Type} (t : CppType T) (o : T → T → Prop) (x y : Vec T) : Prop :=
  OverElems o x.elems y.elems ∧ (t.dflt = none → t.copyable = false → y.elems = []) ∧ y.cap < 2 ^ 64

def overList {T : Type} (t : CppType T) (o : T → T → Prop) (xs ys : List T) : Prop :=
  OverElems o xs ys ∧ (t.copyable = false → ys = [])

def overPair {A B : Type} (o : A → A → Prop) (o' : B → B → Prop) (x y : A × B) : Prop := o x.1 y.1 ∧ o' x.2 y.2

/-- If both pointers own an object, that object is read over the other. -/
def overPtr {T : Type} (o : T → T → Prop) (x y : Option T) : Prop := ∀ v w, x = some v → y = some w → o v w

/-- Objects of the same one of two classes. -/
def overEither {A V : Type} (o : A → A → Prop) (o' : V → V → Prop) : A ⊕ V → A ⊕ V → Prop
  | .inl x, .inl y => o x y
  | .inr v, .inr w => o' v w
  | _, _ => False

/-- A type, what is said about its objects, and when one is read over another. -/
abbrev OverUse : Type 1 := (A : Type) × CppType A × Usage A × (A → A → Prop)

/-- Members read over members; the last argument lists the types. -/
inductive MemberTypes.MatchOver : {O : Type} → MemberTypes O → MemberUsages O → (O → O → Prop) → List OverUse → Prop
  | nil : MatchOver .nil .nil (fun _ _ => True) []
  | cons {A O : Type} (t : CppType A) (u : Usage A) (o : A → A → Prop) {ms : MemberTypes O} {us : MemberUsages O}
      {os : O → O → Prop} {ps : List OverUse} : MatchOver ms us os ps →
      MatchOver (.cons t ms) (.cons u us) (overPair o os) (⟨A, t, u, o⟩ :: ps)

/-- Objects read over objects of the same class; the last argument lists the types of the parts. -/
inductive DynTypes.MatchOver : {V : Type} → DynTypes V → AltUsages V → (V → V → Prop) → List OverUse → Prop
  | nil : MatchOver .nil .nil (fun _ _ => True) []
  | cons {O V : Type} (d : Nat) {fresh : O} {ms : MemberTypes O} {us : MemberUsages O} {ds : DynTypes V}
      {vs : AltUsages V} {o : O → O → Prop} {os : V → V → Prop} {ps qs : List OverUse} : ms.MatchOver us o ps →
      (Usage.cls us).clean fresh → MatchOver ds vs os qs →
      MatchOver (.cons d fresh ms ds) (.cons (.cls us) vs) (overEither o os) (ps ++ qs)

/-- For the objects of one type and usage. -/
def OverRel.only (q : TypeUse) (o : q.1 → q.1 → Prop) : OverRel := fun p a b =>
  ∀ h : p = q, o (cast (congrArg Sigma.fst h) a) (cast (congrArg Sigma.fst h) b)

/-- Types composed of the types of a program, with what can be said about their objects and when object `x` can be read
over object `y`. -/
inductive OverOf (R : RelMode) (cfg : Cfg) (env : Env) : {T : Type} → CppType T → Usage T → (T → T → Prop) → Prop
  /-- whatever is read -/
  | clean {T : Type} {t : CppType T} {u : Usage T} : Composed R cfg env t u → OverOf R cfg env t u fun _ y => u.clean y
  | vector {T : Type} {t : CppType T} {u : Usage T} {o : T → T → Prop} {ti : TI} (c : Bool) : ti.Valid →
      OverOf R cfg env t u o → OverOf R cfg env (.vector cfg ti c t) (.vector t u) (overVector t o)
  | list {T : Type} {t : CppType T} {u : Usage T} {o : T → T → Prop} {ti : TI} (c : Bool) : ti.Valid →
      OverOf R cfg env t u o → OverOf R cfg env (.list cfg ti c t) (.list t u) (overList t o)
  | pair {A B : Type} {a : CppType A} {b : CppType B} {u : Usage A} {v : Usage B} {o : A → A → Prop} {o' : B → B → Prop}
      {ti : TI} : ti.Valid → OverOf R cfg env a u o → OverOf R cfg env b v o' →
      OverOf R cfg env (.pair cfg ti a b) (.pair u v) (overPair o o')
  | uniquePtr {T : Type} {t : CppType T} {u : Usage T} {o : T → T → Prop} {ti : TI} : ti.Valid → t.poly = false →
      OverOf R cfg env t u o → OverOf R cfg env (.uniquePtr cfg ti t) (.uniquePtr u) (overPtr o)
  | array {T : Type} {t : CppType T} {u : Usage T} {o : T → T → Prop} {ti : TI} (k : Nat) : ti.Valid →
      OverOf R cfg env t u o → OverOf R cfg env (.array cfg ti k t) (.array k u) (List.Forall₂ o)
  | cls {O : Type} {ms : MemberTypes O} {us : MemberUsages O} {o : O → O → Prop} {ti : TI} {fresh : O} {dflt : Option O}
      {ps : List OverUse} (c : Bool) : ti.Valid → ms.MatchOver us o ps →
      (∀ p ∈ ps, OverOf R cfg env p.2.1 p.2.2.1 p.2.2.2) → (Usage.cls us).clean fresh →
      (∀ d, dflt = some d → (Usage.cls us).clean d) → OverOf R cfg env (.cls cfg ti fresh dflt c ms) (.cls us) o
  | tuple {O : Type} {ms : MemberTypes O} {us : MemberUsages O} {o : O → O → Prop} {ti : TI} {ps : List OverUse} :
      ti.Valid → ms.MatchOver us o ps → (∀ p ∈ ps, OverOf R cfg env p.2.1 p.2.2.1 p.2.2.2) →
      OverOf R cfg env (.tuple cfg ti ms) (.cls us) o
  | object {O : Type} {ms : MemberTypes O} {us : MemberUsages O} {o : O → O → Prop} {ti : TI} {fresh : O}
      {dflt : Option O} {ps : List OverUse} (c : Bool) (d : Nat) : ti.Valid → ms.MatchOver us o ps →
      (∀ p ∈ ps, OverOf R cfg env p.2.1 p.2.2.1 p.2.2.2) → ms.length = (env.chain d).length →
      (Usage.cls us).clean fresh → (∀ y, dflt = some y → (Usage.cls us).clean y) →
      OverOf R cfg env (.object cfg env d ti fresh dflt c ms) (.object us) o
  /-- a class with any `serialize` function: `r` says what its parts are read over -/
  | program {O : Type} {p : Prog O} {u : Usage O} {o : O → O → Prop} {ti : TI} {fresh : O} {dflt : Option O}
      {ps : TypeUse → Prop} (c : Bool) (items : O → List Item) (r : OverRel) : ti.Valid → p.Within ps →
      (∀ q, ps q → OverOf R cfg env q.2.1 q.2.2 (r q)) →
      (∀ x, u.ok x → p.Writes x (items x) ∧ ∀ i ∈ items x, i.Good ps) →
      (∀ x y, u.ok x → u.clean y ∨ o x y → p.TakesOver r (u.same x) (items x) y) →
      u.clean fresh → (∀ d, dflt = some d → u.clean d) →
      OverOf R cfg env (.program cfg ti fresh dflt c p) u o
  /-- the same for a class whose function visits objects of the class -/
  | recursive {O : Type} {p : CppType O → Prog O} {us : Nat → Usage O} {o : Nat → O → O → Prop} {ti : TI} {fresh : O}
      {dflt : Option O} {ps : Nat → TypeUse → Prop} (c : Bool) (items : Nat → O → List Item) (r : Nat → OverRel) :
      ti.Valid → Prog.Grows cfg p →
      (∀ j, (p (.unfold cfg ti fresh dflt c p j)).Within (ps j)) →
      (∀ j q, ps j q → OverOf R cfg env q.2.1 q.2.2 (r j q)) →
      (∀ j x, (us j).ok x → (p (.unfold cfg ti fresh dflt c p j)).Writes x (items j x) ∧
        ∀ i ∈ items j x, i.Good (ps j)) →
      (∀ j x y, (us j).ok x → (us j).clean y ∨ o j x y →
        (p (.unfold cfg ti fresh dflt c p j)).TakesOver (r j) ((us j).same x) (items j x) y) →
      (∀ j, (us j).clean fresh) → (∀ j d, dflt = some d → (us j).clean d) →
      OverOf R cfg env (.recursive cfg ti fresh dflt c p) (.limit us) (fun x y => ∀ j, o j x y)
  /-- a null pointer, or an object of the class of the one that is read -/
  | polyPtr {V : Type} {ds : DynTypes V} {us : AltUsages V} {o : V → V → Prop} {ti cti : TI} {ps : List OverUse} (c : Nat)
      (any : V) : ti.Valid → cti.Valid → ds.MatchOver us o ps → (∀ p ∈ ps, OverOf R cfg env p.2.1 p.2.2.1 p.2.2.2) →
      ds.Fits env → ds.classes.Nodup → OverOf R cfg env (.polyPtr cfg env ti c cti any ds) (.polyPtr env c ds us) (overPtr o)
  /-- the same for objects that own such pointers, to any depth -/
  | hierarchyPtr {V : Type} {ds : CppType (Option V) → DynTypes V} {us : Nat → AltUsages V} {o : Nat → V → V → Prop}
      {ti cti : TI} {ps : Nat → List OverUse} (c : Nat) (any : V) : ti.Valid → cti.Valid →
      CppType.Grows (fun t => .polyPtr cfg env ti c cti any (ds t)) →
      (∀ j, (ds (.hierarchyTo cfg env ti c cti any ds j)).MatchOver (us j) (o j) (ps j)) →
      (∀ j, ∀ p ∈ ps j, OverOf R cfg env p.2.1 p.2.2.1 p.2.2.2) →
      (∀ j, (ds (.hierarchyTo cfg env ti c cti any ds j)).Fits env) →
      (∀ j, (ds (.hierarchyTo cfg env ti c cti any ds j)).classes.Nodup) →
      OverOf R cfg env (.hierarchyPtr cfg env ti c cti any ds)
        (.limit fun j => .polyPtr env c (ds (.hierarchyTo cfg env ti c cti any ds j)) (us j))
        (fun x y => ∀ j, overPtr (o j) x y)
  /-- either -/
  | either {T : Type} {t : CppType T} {u : Usage T} {o : T → T → Prop} : OverOf R cfg env t u o →
      OverOf R cfg env t u fun x y => o x y ∨ u.clean y
  /-- over fewer objects -/
  | fewer {T : Type} {t : CppType T} {u : Usage T} {o o' : T → T → Prop} : OverOf R cfg env t u o →
      (∀ x y, o' x y → o x y) → OverOf R cfg env t u o'
  /-- saying less -/
  | weaken {T : Type} {t : CppType T} {u v : Usage T} {o o' : T → T → Prop} : OverOf R cfg env t u o →
      (∀ x, v.ok x → u.ok x) → (∀ y, v.clean y → u.clean y) → (∀ x y, v.ok x → u.same x y → v.same x y) →
      (∀ n, v.many n → u.many n) → v.clean t.fresh → (∀ d, t.dflt = some d → v.clean d) →
      (∀ x y, v.ok x → o' x y → o x y) → OverOf R cfg env t v o'

end Ckpt
