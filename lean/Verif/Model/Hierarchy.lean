import Verif.Model.Virtual
/-!
# Class hierarchies as the program declares them

`serChain` (Model/Virtual) is `_checkpointDynamicSerialize` when every class of the hierarchy has its own
version of it.  Here a class may lack one, or name another class than its direct base: the macros
`checkpoint_virtual_serialize_derived_from(PARENT)` (dispatch/vrt/derived.h:53-87) and the classes
`SerializableDerived<T, PARENT>` (derived.h:115-125, which contain the macro) are inserted by hand.
-/

set_option autoImplicit false

namespace Ckpt

/-- The classes of an object other than the root of its hierarchy, most derived first: its number, and the
class its declaration names as `PARENT`, if it has a declaration. -/
abbrev Declared := List (Nat × Option Nat)

/-- `assertTypeIdxMatch<ObjT>(expected_idx)` (dispatch/vrt/inheritance_assert_helpers.h:54-70); `none` is
`no_type_idx`. -/
def assertTypeIdxMatch (ndebug : Bool) (objIdx : Nat) (expected : Option Nat) : Out Unit :=
  Out.assertThat ndebug (expected == some objIdx || expected == none)

variable {P : Type}

/-- What the closure found in the registry does for the part of class `c`
(serializer_registry.h:112-121). -/
def serPart (cfg : Cfg) (reg : SerReg) (root : Nat) (part : Nat → Elem P) (c : Nat) (s : Ser) (p : P) :
    Out (P × Ser) := do
  let kind ← reg.lookup cfg.ndebug c root s.kind
  if kind ≠ s.kind then .ub .typeConfusion else pipe cfg (part c) (s.setVdis true) p

/-- `_checkpointDynamicSerialize` of the classes `cs` with root `root` (base.h:55-69, derived.h:54-80).
`want` is the class it is called on: `none` for the virtual call in `virtualSerialize`
(virtual_serialize.h:60-66), `some q` for `q::_checkpointDynamicSerialize`; a class without a declaration
inherits the function of its base.  The parts are in the order of the classes.  A declaration naming a class
that is no base does not compile (`badRegion`). -/
def serDeclared (cfg : Cfg) (reg : SerReg) (objs : ObjReg) (root : Nat) (part : Nat → Elem P) :
    Option Nat → Option Nat → Declared → Ser → List P → Out (List P × Ser)
  | want, expected, [], s, [p] =>
    if want.all (· == root) then do
      assertTypeIdxMatch cfg.ndebug (objs.idxOf root) expected
      let (q, s) ← serPart cfg reg root part root s p
      .ok ([q], s)
    else .ub .badRegion
  | want, expected, (c, decl) :: cs, s, p :: ps =>
    if want.all (· == c) then
      match decl with
      | none => do
        let (qs, s) ← serDeclared cfg reg objs root part none expected cs s ps
        .ok (p :: qs, s)
      | some parent => do
        assertTypeIdxMatch cfg.ndebug (objs.idxOf c) expected
        let (qs, s) ← serDeclared cfg reg objs root part (some parent) (some (objs.idxOf parent)) cs s ps
        let (q, s) ← serPart cfg reg root part c s p
        .ok (q :: qs, s)
    else do
      let (qs, s) ← serDeclared cfg reg objs root part want expected cs s ps
      .ok (p :: qs, s)
  | _, _, _, _, _ => .ub .badRegion

/-- `virtualSerialize` (virtual_serialize.h:60-66). -/
def virtualSerialize (cfg : Cfg) (reg : SerReg) (objs : ObjReg) (root : Nat) (part : Nat → Elem P)
    (cs : Declared) (s : Ser) (ps : List P) : Out (List P × Ser) :=
  serDeclared cfg reg objs root part none none cs s ps

/-- `_checkpointDynamicTypeIndex()` (base.h:70-75, derived.h:81-86), also inherited by classes without a
declaration. -/
def dynamicTypeIndex (objs : ObjReg) (root : Nat) : Declared → Nat
  | [] => objs.idxOf root
  | (c, some _) :: _ => objs.idxOf c
  | (_, none) :: cs => dynamicTypeIndex objs root cs

end Ckpt
