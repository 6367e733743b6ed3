import Verif.Model.Program
/-!
# Recursive classes

Classes whose `serialize` function visits, within other types, objects of the class itself: trees, linked lists.  Such
classes are types of `Verif.Model.Universe` already if all members are; here the members are of any types.
-/

set_option autoImplicit false

namespace Ckpt

variable {O : Type}

/-- A class that is declared, its `serialize` function is not known yet. -/
def CppType.declared (ti : TI) (fresh : O) (dflt : Option O) (copyable : Bool) : CppType O :=
  { ti := ti, apply := fun _ => dispatchEach fun _ _ => .fuel, fresh := fresh, dflt := dflt, copyable := copyable }

/-- The class whose `serialize` function is `p t` where `t` is the class, with objects of the class within each other up
to `j` deep. -/
def CppType.unfold (cfg : Cfg) (ti : TI) (fresh : O) (dflt : Option O) (copyable : Bool) (p : CppType O → Prog O) :
    Nat → CppType O
  | 0 => .declared ti fresh dflt copyable
  | j + 1 => .program cfg ti fresh dflt copyable (p (.unfold cfg ti fresh dflt copyable p j))

/-- The class whose `serialize` function is `p t` where `t` is the class itself
(dispatch_serializer_nonbyte.h:174-201), e.g. `struct Node { std::vector<Node> kids; }`.  As for the types of
`Verif.Model.Universe`, an outcome is given for every bound of the nesting. -/
def CppType.recursive (cfg : Cfg) (ti : TI) (fresh : O) (dflt : Option O) (copyable : Bool) (p : CppType O → Prog O) :
    CppType O :=
  { ti := ti, apply := fun n => (CppType.unfold cfg ti fresh dflt copyable p n).apply n, fresh := fresh, dflt := dflt,
    copyable := copyable }

/-! ### Pointers to a hierarchy whose classes own such pointers -/

/-- As `CppType.hierarchyPtr`, with objects owned by each other up to `j` deep. -/
def CppType.hierarchyTo {V : Type} (cfg : Cfg) (env : Env) (ti : TI) (c : Nat) (cti : TI) (any : V)
    (ds : CppType (Option V) → DynTypes V) : Nat → CppType (Option V)
  | 0 => .declared ti none (some none) false
  | j + 1 => .polyPtr cfg env ti c cti any (ds (.hierarchyTo cfg env ti c cti any ds j))

/-- `std::unique_ptr<C>` to a class with virtual serialization, of number `c` and type `cti`
(container/unique_ptr_serialize.h:53-80), where the functions of the classes of the hierarchy, `ds t`, visit members of
this type `t`, or containers of it: `struct Group : Base { std::vector<std::unique_ptr<Base>> kids; }`,
`struct Decorator : Base { std::unique_ptr<Base> inner; }`.  An outcome is given for every bound of the nesting. -/
def CppType.hierarchyPtr {V : Type} (cfg : Cfg) (env : Env) (ti : TI) (c : Nat) (cti : TI) (any : V)
    (ds : CppType (Option V) → DynTypes V) : CppType (Option V) :=
  { CppType.declared ti none (some none) false with
    apply := fun n => (CppType.hierarchyTo cfg env ti c cti any ds n).apply n }

end Ckpt
