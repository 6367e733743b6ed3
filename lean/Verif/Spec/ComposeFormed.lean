import Verif.Spec.Compose
import Verif.Spec.Formed
/-!
# Specification: well-formed objects of composed types

`Guarded` says, for a type composed of containers, classes and Kokkos classes, which objects are well-formed, from what is
well-formed for its parts.
-/

set_option autoImplicit false

namespace Ckpt

variable {T A B : Type}

/-- A well-formed view: as many extents and strides as dimensions, static extents as in the type, and elements for
`span()`.  Without strides of its own every element is within the memory. -/
structure View.Formed (ty : ViewTy) (I : T → Prop) (v : View T) : Prop where
  extents : v.extents.length = ty.rank
  strides : v.strides.length = ty.rank
  static : ∀ (i n : Nat), ty.dims[i]? = some (some n) → v.extents[i]? = some n
  data : v.alloc = true → v.data.length = v.span
  elems : ∀ x ∈ v.data, I x
  inside : ty.layout ≠ .stride → v.alloc = true → ∀ idx, InRange idx v.extents → ∃ x, v.get? idx = some x

/-- A well-formed `DynRankView`: so for its own number of dimensions, of at most seven. -/
def DynRank.Formed (l : Layout) (I : T → Prop) (v : DynRank T) : Prop :=
  v.rank ≤ 7 ∧ v.view.Formed ⟨l, List.replicate v.rank none, true⟩ I

/-- A well-formed `DynamicView`: its elements fit into the chunks. -/
def DynamicView.Formed (I : T → Prop) (v : DynamicView T) : Prop :=
  v.chunksFor v.size ≤ v.maxChunks ∧ ∀ x ∈ v.elems, I x

/-- Which objects are well-formed, for each member. -/
inductive MemberShapes : Type → Type 1
  | nil : MemberShapes Unit
  | cons {A O : Type} (I : A → Prop) (is : MemberShapes O) : MemberShapes (A × O)

/-- All members are well-formed. -/
def MemberShapes.All : {O : Type} → MemberShapes O → O → Prop
  | _, .nil, _ => True
  | _, .cons I is, o => I o.1 ∧ is.All o.2

/-- A type with its well-formed objects. -/
abbrev TypeShape : Type 1 := (A : Type) × CppType A × (A → Prop)

/-- Some of them. -/
abbrev TypeSet : Type 1 := TypeShape → Prop

/-- Shapes for each of the types; the last argument lists both. -/
inductive MemberTypes.Shaped : {O : Type} → MemberTypes O → MemberShapes O → List TypeShape → Prop
  | nil : Shaped .nil .nil []
  | cons {A O : Type} (t : CppType A) (I : A → Prop) {ms : MemberTypes O} {is : MemberShapes O} {ps : List TypeShape} :
      Shaped ms is ps → Shaped (.cons t ms) (.cons I is) (⟨A, t, I⟩ :: ps)

/-- Which objects are well-formed, for each alternative. -/
inductive AltShapes : Type → Type 1
  | nil : AltShapes Empty
  | cons {A V : Type} (I : A → Prop) (is : AltShapes V) : AltShapes (A ⊕ V)

/-- The value is well-formed. -/
def AltShapes.Holds : {V : Type} → AltShapes V → V → Prop
  | _, .cons I _, .inl x => I x
  | _, .cons _ is, .inr v => is.Holds v

/-- Shapes for each of the alternatives; the last argument lists both. -/
inductive AltTypes.Shaped : {V : Type} → AltTypes V → AltShapes V → List TypeShape → Prop
  | nil : Shaped .nil .nil []
  | cons {A V : Type} (t : CppType A) (I : A → Prop) {as : AltTypes V} {is : AltShapes V} {ps : List TypeShape} :
      Shaped as is ps → Shaped (.cons t as) (.cons I is) (⟨A, t, I⟩ :: ps)

/-- Shapes for each of the classes, with new objects that are well-formed; the last argument lists the types of the
parts. -/
inductive DynTypes.Shaped : {V : Type} → DynTypes V → AltShapes V → List TypeShape → Prop
  | nil : Shaped .nil .nil []
  | cons {O V : Type} (d : Nat) {fresh : O} {ms : MemberTypes O} {is : MemberShapes O} {ds : DynTypes V}
      {js : AltShapes V} {ps qs : List TypeShape} : ms.Shaped is ps → is.All fresh → Shaped ds js qs →
      Shaped (.cons d fresh ms ds) (.cons is.All js) (ps ++ qs)

/-- Whatever well-formed objects and numbers the function gets when reading over an object, it accesses only what there
is, or `U` allows the access, and it ends with an object for which `Q` holds; `ps` are the types it visits, with their
well-formed objects, and `qs` those it visits once it has read a number. -/
def Prog.Careful {O : Type} (U : UB → Prop) (ps qs : TypeShape → Prop) (Q : O → Prop) : Prog O → O → Prop
  | .done, y => Q y
  | @Prog.visit _ A t get set k, y =>
    match get y with
    | some b => ∃ I, ps ⟨A, t, I⟩ ∧ I b ∧ ∀ a, I a → k.Careful U ps qs Q (set a y)
    | none => U .nullDeref
  | @Prog.block _ A t get set k, y =>
    match get y with
    | some bs => ∃ I, ps ⟨A, t, I⟩ ∧ (∀ b ∈ bs, I b) ∧
        ∀ as, as.length = bs.length → (∀ a ∈ as, I a) → k.Careful U ps qs Q (set as y)
    | none => U .badRegion
  | @Prog.value _ A t f k, y => ∃ I, ps ⟨A, t, I⟩ ∧ I (f y) ∧ ∀ a, I a → (k a).Careful U ps qs Q y
  | .count _ k, y => ∀ c, (k c).Careful U qs qs Q y
  | .flag _ k, y => ∀ b, (k b).Careful U qs qs Q y
  | .update g k, y => k.Careful U ps qs Q (g y)
  | .mode r _, y => r.Careful U ps qs Q y
  | .addBytes _ k, y => k.Careful U ps qs Q y
  | .look k, y => (k y).Careful U ps qs Q y

/-- Types that differ in how objects are handled only. -/
def CppType.Like (t t' : CppType T) : Prop := t' = { t with apply := t'.apply }

/-- Types composed of the types of a program, with their well-formed objects.  A view makes access to memory outside of it
possible, so that it needs `U .badRegion`.  Within a recursive class: the types in `D` can be used, those in `L` where
something was read before. -/
inductive GuardedIn (U : UB → Prop) (cfg : Cfg) (env : Env) : (D L : TypeSet) → {T : Type} → CppType T →
    (T → Prop) → Prop
  | known {D L : TypeSet} {T : Type} {t : CppType T} {I : T → Prop} : D ⟨T, t, I⟩ → GuardedIn U cfg env D L t I
  | base {D L : TypeSet} (t : Ty) : GuardedIn U cfg env D L (.base cfg env t) (fun v => Ckpt.Formed env t v ∧ ByVal t v)
  | vector {D L : TypeSet} {T : Type} {t : CppType T} {I : T → Prop} (ti : TI) (c : Bool) :
      GuardedIn U cfg env L L t I →
      GuardedIn U cfg env D L (.vector cfg ti c t) (fun v => v.elems.length ≤ v.cap ∧ ∀ x ∈ v.elems, I x)
  | list {D L : TypeSet} {T : Type} {t : CppType T} {I : T → Prop} (ti : TI) (c : Bool) : GuardedIn U cfg env L L t I →
      GuardedIn U cfg env D L (.list cfg ti c t) (fun xs => ∀ x ∈ xs, I x)
  | queue {D L : TypeSet} {T : Type} {t : CppType T} {I : T → Prop} (ti : TI) (c : Bool) : GuardedIn U cfg env L L t I →
      GuardedIn U cfg env D L (.queue cfg ti c t) (fun xs => ∀ x ∈ xs, I x)
  /-- the comparison is a strict weak order -/
  | ordered {D L : TypeSet} {T : Type} {t : CppType T} {I : T → Prop} (ti : TI) (c : Bool) (a : Assoc)
      {lt : T → T → Bool} :
      GuardedIn U cfg env L L t I → (∀ x y, lt x y = true → lt y x = false) →
      (∀ x y z, lt x y = true → lt y z = true → lt x z = true) →
      (∀ x y z, lt y x = false → lt z y = false → lt z x = false) →
      GuardedIn U cfg env D L (.ordered cfg ti c a lt t) (fun xs => (∀ x ∈ xs, I x) ∧
        if a.repeats then xs.Pairwise (fun x y => lt y x = false) else xs.Pairwise (fun x y => lt x y = true))
  /-- the equality is symmetric -/
  | unordered {D L : TypeSet} {T : Type} {t : CppType T} {I : T → Prop} (ti : TI) (c : Bool) (a : Assoc)
      {eq : T → T → Bool}
      {arrange : List T → List T} : GuardedIn U cfg env L L t I → (∀ x y, eq x y = eq y x) →
      (∀ xs, (arrange xs).Perm xs) →
      GuardedIn U cfg env D L (.unordered cfg ti c a eq arrange t) (fun xs => (∀ x ∈ xs, I x) ∧
        (a.repeats = false → xs.Pairwise (fun x y => eq x y = false)))
  | pair {D L : TypeSet} {A B : Type} {a : CppType A} {b : CppType B} {I : A → Prop} {J : B → Prop} (ti : TI) :
      GuardedIn U cfg env D L a I → GuardedIn U cfg env D L b J →
      GuardedIn U cfg env D L (.pair cfg ti a b) (fun x => I x.1 ∧ J x.2)
  | optional {D L : TypeSet} {T : Type} {t : CppType T} {I : T → Prop} (ti : TI) : GuardedIn U cfg env L L t I →
      GuardedIn U cfg env D L (.optional cfg ti t) (fun x => ∀ v, x = some v → I v)
  | uniquePtr {D L : TypeSet} {T : Type} {t : CppType T} {I : T → Prop} (ti : TI) : t.poly = false →
      GuardedIn U cfg env L L t I →
      GuardedIn U cfg env D L (.uniquePtr cfg ti t) (fun x => ∀ v, x = some v → I v)
  | array {D L : TypeSet} {T : Type} {t : CppType T} {I : T → Prop} (ti : TI) (k : Nat) : GuardedIn U cfg env D L t I →
      GuardedIn U cfg env D L (.array cfg ti k t) (fun xs => xs.length = k ∧ ∀ x ∈ xs, I x)
  /-- Kokkos has at most 8 dimensions -/
  | view {D L : TypeSet} {T : Type} {t : CppType T} {I : T → Prop} (k : ViewTI) {ty : ViewTy} : U .badRegion →
      ty.rank ≤ 8 →
      GuardedIn U cfg env D L t I → GuardedIn U cfg env D L (.view cfg k ty t) (View.Formed ty I)
  | dynRank {D L : TypeSet} {T : Type} {t : CppType T} {I : T → Prop} (k : DynTI) (l : Layout) : U .badRegion →
      GuardedIn U cfg env D L t I → GuardedIn U cfg env D L (.dynRank cfg k l t) (DynRank.Formed l I)
  | dynamic {D L : TypeSet} {T : Type} {t : CppType T} {I : T → Prop} (k : DynamicTI) : GuardedIn U cfg env D L t I →
      GuardedIn U cfg env D L (.dynamic cfg k t) (DynamicView.Formed I)
  /-- constructors make well-formed objects -/
  | cls {D L : TypeSet} {O : Type} {ms : MemberTypes O} {is : MemberShapes O} {fresh : O} {dflt : Option O}
      {ps : List TypeShape} (ti : TI) (c : Bool) : ms.Shaped is ps → (∀ p ∈ ps, GuardedIn U cfg env D L p.2.1 p.2.2) →
      is.All fresh → (∀ d, dflt = some d → is.All d) →
      GuardedIn U cfg env D L (.cls cfg ti fresh dflt c ms) is.All
  | constView {D L : TypeSet} {T : Type} {t : CppType T} {I : T → Prop} (k : ViewTI) {ty : ViewTy} : U .badRegion →
      ty.rank ≤ 8 →
      GuardedIn U cfg env D L t I → GuardedIn U cfg env D L (.constView cfg k ty t) (View.Formed ty I)
  | kmap {D L : TypeSet} {A B : Type} {a : CppType A} {b : CppType B} {I : A → Prop} {J : B → Prop}
      (k : KMapTI) {h : KHash A B} :
      h.Lawful → GuardedIn U cfg env L L a I → GuardedIn U cfg env L L b J →
      GuardedIn U cfg env D L (.kmap cfg k h a b) (fun m => m.Distinct h ∧ ∀ p ∈ occupied m.slots, I p.1 ∧ J p.2)
  | tuple {D L : TypeSet} {O : Type} {ms : MemberTypes O} {is : MemberShapes O} {ps : List TypeShape} (ti : TI) :
      ms.Shaped is ps →
      (∀ p ∈ ps, GuardedIn U cfg env D L p.2.1 p.2.2) → GuardedIn U cfg env D L (.tuple cfg ti ms) is.All
  | variant {D L : TypeSet} {V : Type} {as : AltTypes V} {is : AltShapes V} {ps : List TypeShape} (ti : TI) :
      as.allBytes = false → as.Shaped is ps → (∀ p ∈ ps, GuardedIn U cfg env L L p.2.1 p.2.2) →
      GuardedIn U cfg env D L (.variant cfg ti as) (fun v => ∀ x, v = some x → is.Holds x)
  | object {D L : TypeSet} {O : Type} {ms : MemberTypes O} {is : MemberShapes O} {fresh : O} {dflt : Option O}
      {ps : List TypeShape} (ti : TI) (c : Bool) (d : Nat) : ms.Shaped is ps →
      (∀ p ∈ ps, GuardedIn U cfg env D L p.2.1 p.2.2) → ms.length = (env.chain d).length →
      is.All fresh → (∀ y, dflt = some y → is.All y) →
      GuardedIn U cfg env D L (.object cfg env d ti fresh dflt c ms) is.All
  /-- as for other pointers to classes: an index can name a class that can not be constructed, or one that does not
  derive from that of the pointer -/
  | polyPtr {D L : TypeSet} {V : Type} {ds : DynTypes V} {is : AltShapes V} {ps : List TypeShape}
      (ti : TI) (c : Nat) (cti : TI)
      (any : V) : ds.Shaped is ps → (∀ p ∈ ps, GuardedIn U cfg env L L p.2.1 p.2.2) → ds.Fits env →
      (∀ d ∈ env.objReg (env.root c), (env.cls d).abstract = true → cfg.ndebug = true → U .nullDeref) →
      (∀ d ∈ env.objReg (env.root c), (env.cls d).abstract = false → d ∉ ds.classes → U .typeConfusion) →
      GuardedIn U cfg env D L (.polyPtr cfg env ti c cti any ds) (fun x => ∀ v, x = some v → is.Holds v)
  /-- the `serialize` function makes well-formed objects of well-formed ones -/
  | program {D L : TypeSet} {O : Type} {p : Prog O} {I : O → Prop} {fresh : O} {dflt : Option O}
      {ps qs : TypeShape → Prop} (ti : TI) (c : Bool) : (∀ q, ps q → GuardedIn U cfg env D L q.2.1 q.2.2) →
      (∀ q, qs q → GuardedIn U cfg env L L q.2.1 q.2.2) → (∀ y, I y → p.Careful U ps qs I y) →
      I fresh → (∀ d, dflt = some d → I d) → GuardedIn U cfg env D L (.program cfg ti fresh dflt c p) I
  /-- the function `p t` of the class `t` does so, if objects of the class are read after something else was -/
  | recursive {D L : TypeSet} {O : Type} {p : CppType O → Prog O} {I : O → Prop} {fresh : O} {dflt : Option O}
      {ps qs : CppType O → TypeShape → Prop} (ti : TI) (c : Bool) : Prog.Grows cfg p →
      (∀ t, (CppType.declared ti fresh dflt c).Like t → ∀ q, ps t q →
        GuardedIn U cfg env D (fun r => L r ∨ r = ⟨O, t, I⟩) q.2.1 q.2.2) →
      (∀ t, (CppType.declared ti fresh dflt c).Like t → ∀ q, qs t q →
        GuardedIn U cfg env (fun r => L r ∨ r = ⟨O, t, I⟩) (fun r => L r ∨ r = ⟨O, t, I⟩) q.2.1 q.2.2) →
      (∀ t, (CppType.declared ti fresh dflt c).Like t → ∀ y, I y → (p t).Careful U (ps t) (qs t) I y) →
      I fresh → (∀ d, dflt = some d → I d) → GuardedIn U cfg env D L (.recursive cfg ti fresh dflt c p) I
  /-- the members of each class of the hierarchy, which can be pointers `t` to its root, are guarded -/
  | hierarchyPtr {D L : TypeSet} {V : Type} {ds : CppType (Option V) → DynTypes V} {is : AltShapes V}
      {ps : CppType (Option V) → List TypeShape} (ti : TI) (c : Nat) (cti : TI) (any : V) :
      CppType.Grows (fun t => .polyPtr cfg env ti c cti any (ds t)) →
      (∀ t, (CppType.declared ti none (some none) false).Like t → (ds t).Shaped is (ps t)) →
      (∀ t, (CppType.declared ti none (some none) false).Like t → ∀ p ∈ ps t,
        GuardedIn U cfg env (fun r => L r ∨ r = ⟨Option V, t, fun x => ∀ v, x = some v → is.Holds v⟩)
          (fun r => L r ∨ r = ⟨Option V, t, fun x => ∀ v, x = some v → is.Holds v⟩) p.2.1 p.2.2) →
      (∀ t, (CppType.declared ti none (some none) false).Like t → (ds t).Fits env) →
      (∀ d ∈ env.objReg (env.root c), (env.cls d).abstract = true → cfg.ndebug = true → U .nullDeref) →
      (∀ t, (CppType.declared ti none (some none) false).Like t →
        ∀ d ∈ env.objReg (env.root c), (env.cls d).abstract = false → d ∉ (ds t).classes → U .typeConfusion) →
      GuardedIn U cfg env D L (.hierarchyPtr cfg env ti c cti any ds) (fun x => ∀ v, x = some v → is.Holds v)

/-- Not within a recursive class. -/
abbrev Guarded (U : UB → Prop) (cfg : Cfg) (env : Env) {T : Type} (t : CppType T) (I : T → Prop) : Prop :=
  GuardedIn U cfg env (fun _ => False) (fun _ => False) t I

/-! ### The first bytes of a view -/

/-- What is written before the elements of a view with memory: label, number of dimensions, the 8 entries of the layout,
number of elements, and whether these are the memory as a whole. -/
structure ViewHeader where
  label : Bytes
  rank : Nat
  layout : LayoutVal
  num : Nat
  contig : Bool

/-- The numbers are of the types written. -/
structure ViewHeader.Ok (l : Layout) (h : ViewHeader) : Prop where
  label : h.label.length < 2 ^ 64
  rank : h.rank < 2 ^ 32
  entries : h.layout.length = 8
  layout : ∀ p ∈ h.layout, p.1 < 2 ^ 64 ∧ (l = .stride → p.2 < 2 ^ 64)
  num : h.num < 2 ^ 64

/-- Its bytes (container/view_serialize.h:117-148, 337-386). -/
def ViewHeader.bytes (cfg : Cfg) (k : ViewTI) (l : Layout) (h : ViewHeader) : Bytes :=
  let w := cfg.check
  node cfg w k.str 1 (sizeNode cfg w h.label.length ++
    if h.label.length > 0 then node cfg w cfg.tiChar h.label.length h.label else []) ++
  (node cfg w cfg.tiInt 1 (intBytes cfg.endian 4 h.rank) ++
  (node cfg w k.layout 1 (h.layout.flatMap fun p => sizeNode cfg w p.1 ++ if l = .stride then sizeNode cfg w p.2 else []) ++
  (sizeNode cfg w h.num ++ (boolNode cfg w h.contig ++ boolNode cfg w true))))

/-- The extents of a view made of the layout: static ones as in the type. -/
def ViewTy.extentsOf (ty : ViewTy) (lay : LayoutVal) : List Nat :=
  List.zipWith (fun d (p : Nat × Nat) => d.getD p.1) ty.dims lay

end Ckpt
