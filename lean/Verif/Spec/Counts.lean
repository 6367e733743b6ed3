import Verif.Spec.Compose
/-!
# What is counted by the footprinter, for types nested in any way
-/

set_option autoImplicit false

namespace Ckpt

variable {T A O V : Type}

/-- A footprinter that has counted `m` bytes. -/
def Ser.counted (m : Nat) : Ser := { core := .footprinter m, kind := .footprinter }

/-- `s | x` with a footprinter counts `f` bytes, as `size_t`, and leaves `x` as it is. -/
def Counts (cfg : Cfg) (t : CppType T) (x : T) (f : Nat) : Prop :=
  ∃ n0, ∀ n ≥ n0, ∀ m < 2 ^ 64, pipe cfg (t.elem n) (.counted m) x = .ok (x, .counted ((m + f) % 2 ^ 64))

/-- `serializeArray` with a footprinter counts `f` bytes for these objects. -/
def CountsArray (cfg : Cfg) (t : CppType T) (xs : List T) (f : Nat) : Prop :=
  ∃ n0, ∀ n ≥ n0, ∀ m < 2 ^ 64, serializeArray cfg (t.elem n) (.counted m) xs = .ok (xs, .counted ((m + f) % 2 ^ 64))

/-- So many bytes are counted for each of the members. -/
inductive MemberTypes.Counts (cfg : Cfg) : {O : Type} → MemberTypes O → O → List Nat → Prop
  | nil : MemberTypes.Counts cfg .nil () []
  | cons {A O : Type} {t : CppType A} {ms : MemberTypes O} {a : A} {o : O} {f : Nat} {fs : List Nat} :
      Ckpt.Counts cfg t a f → MemberTypes.Counts cfg ms o fs → MemberTypes.Counts cfg (.cons t ms) (a, o) (f :: fs)

/-- So many bytes are counted for the alternative that is held. -/
inductive AltTypes.Counts (cfg : Cfg) : {V : Type} → AltTypes V → V → Nat → Prop
  | here {A V : Type} {t : CppType A} {as : AltTypes V} {a : A} {f : Nat} :
      Ckpt.Counts cfg t a f → AltTypes.Counts cfg (.cons t as) (.inl a) f
  | there {A V : Type} {t : CppType A} {as : AltTypes V} {v : V} {f : Nat} :
      AltTypes.Counts cfg as v f → AltTypes.Counts cfg (.cons t as) (.inr v) f

/-- So many bytes are counted for the classes of the object behind a pointer. -/
inductive DynTypes.Counts (cfg : Cfg) : {V : Type} → DynTypes V → V → List Nat → Prop
  | here {O V : Type} {d : Nat} {fresh : O} {ms : MemberTypes O} {ds : DynTypes V} {o : O} {fs : List Nat} :
      ms.Counts cfg o fs → DynTypes.Counts cfg (.cons d fresh ms ds) (.inl o) fs
  | there {O V : Type} {d : Nat} {fresh : O} {ms : MemberTypes O} {ds : DynTypes V} {v : V} {fs : List Nat} :
      DynTypes.Counts cfg ds v fs → DynTypes.Counts cfg (.cons d fresh ms ds) (.inr v) fs

/-- Following the function on `x`: so many bytes are counted for what it visits and with `addBytes`. -/
inductive Prog.Counts (cfg : Cfg) (x : O) : Prog O → Nat → Prop
  | done : Counts cfg x .done 0
  | visit {A : Type} {t : CppType A} {get : O → Option A} {set : A → O → O} {k : Prog O} {a : A} {f g : Nat} :
      get x = some a → set a x = x → Ckpt.Counts cfg t a f → Counts cfg x k g → Counts cfg x (.visit t get set k) (f + g)
  | block {A : Type} {t : CppType A} {get : O → Option (List A)} {set : List A → O → O} {k : Prog O} {as : List A}
      {f g : Nat} : get x = some as → set as x = x → CountsArray cfg t as f → Counts cfg x k g →
      Counts cfg x (.block t get set k) (f + g)
  | value {A : Type} {t : CppType A} {v : O → A} {k : A → Prog O} {f g : Nat} : Ckpt.Counts cfg t (v x) f →
      Counts cfg x (k (v x)) g → Counts cfg x (.value t v k) (f + g)
  | count {v : O → Nat} {k : Nat → Prog O} {g : Nat} : v x < 2 ^ 64 → Counts cfg x (k (v x)) g →
      Counts cfg x (.count v k) (8 + g)
  | flag {v : O → Bool} {k : Bool → Prog O} {g : Nat} : Counts cfg x (k (v x)) g → Counts cfg x (.flag v k) (1 + g)
  | update {h : O → O} {k : Prog O} {g : Nat} : h x = x → Counts cfg x k g → Counts cfg x (.update h k) g
  | mode {r w : Prog O} {g : Nat} : Counts cfg x w g → Counts cfg x (.mode r w) g
  | addBytes {v : O → Nat} {k : Prog O} {g : Nat} : Counts cfg x k g → Counts cfg x (.addBytes v k) (v x + g)
  | look {k : O → Prog O} {g : Nat} : Counts cfg x (k x) g → Counts cfg x (.look k) g

/-- The bytes of a layout object: 8 extents, and 8 strides for `LayoutStride`. -/
def Layout.counted : Layout → Nat
  | .stride => 128
  | _ => 64

/-- All indices within these extents. -/
def indices : List Nat → List (List Nat)
  | [] => [[]]
  | n :: ns => (List.range n).flatMap fun i => (indices ns).map (i :: ·)

/-- What is counted for the elements of a view, `f` bytes for each of them: all of its memory if there are no gaps, the
elements that have an index otherwise. -/
def View.counted (f : T → Nat) (v : View T) : Nat :=
  if v.alloc then
    if v.contig then (v.data.map f).sum
    else ((indices v.extents).map fun idx => ((v.get? idx).map f).getD 0).sum
  else 0

end Ckpt
