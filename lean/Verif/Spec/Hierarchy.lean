import Verif.Model.Hierarchy
/-!
# Which declarations of a hierarchy are right (C60)
-/

set_option autoImplicit false

namespace Ckpt

/-- The class above: the first of `cs`, or the root. -/
def directBase (root : Nat) : Declared → Nat
  | [] => root
  | (c, _) :: _ => c

/-- Declarations name the direct base (but may be missing). -/
def NamesDirect (root : Nat) : Declared → Prop
  | [] => True
  | (_, decl) :: cs => (∀ q, decl = some q → q = directBase root cs) ∧ NamesDirect root cs

/-- Every class has a declaration. -/
def Complete (cs : Declared) : Prop := ∀ c ∈ cs, c.2.isSome

/-- The classes below the most derived one that has a declaration all have one. -/
def CompleteBelow : Declared → Prop
  | [] => True
  | (_, none) :: cs => CompleteBelow cs
  | (_, some _) :: cs => Complete cs

/-- The classes with a declaration and the root, root first. -/
def declaredClasses (root : Nat) (cs : Declared) : List Nat :=
  root :: ((cs.filter (·.2.isSome)).map (·.1)).reverse

variable {P : Type}

/-- The parts of these classes, most derived first. -/
def declaredParts : Declared → List P → List P
  | (_, none) :: cs, _ :: ps => declaredParts cs ps
  | (_, some _) :: cs, p :: ps => p :: declaredParts cs ps
  | _, ps => ps

/-- `ps` with the parts of these classes replaced by `qs`. -/
def replaceParts : Declared → List P → List P → List P
  | (_, none) :: cs, p :: ps, qs => p :: replaceParts cs ps qs
  | (_, some _) :: cs, _ :: ps, q :: qs => q :: replaceParts cs ps qs
  | _, _, qs => qs

/-- Serialize the parts of the classes with a declaration (root first) and leave the others alone. -/
def serOnlyDeclared (cfg : Cfg) (reg : SerReg) (root : Nat) (part : Nat → Elem P) (cs : Declared) (s : Ser)
    (ps : List P) : Out (List P × Ser) :=
  serChain cfg reg root part (declaredClasses root cs) s (declaredParts cs ps).reverse >>= fun r =>
    .ok (replaceParts cs ps r.1.reverse, r.2)

end Ckpt
