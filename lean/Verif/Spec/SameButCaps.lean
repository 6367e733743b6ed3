import Mathlib.Data.List.Forall2
import Verif.Model.Universe
/-!
# Types whose checkpoints can be written in one way only
-/

set_option autoImplicit false

namespace Ckpt

/-- The same object, but for the capacities of its vectors. -/
inductive SameButCaps : Val → Val → Prop
  | refl (v : Val) : SameButCaps v v
  | vec {cap cap' : Nat} {xs ys : List Val} : List.Forall₂ SameButCaps xs ys → SameButCaps (.vec cap xs) (.vec cap' ys)
  | vbool {cap cap' : Nat} {bs : List Bool} : SameButCaps (.vbool cap bs) (.vbool cap' bs)
  | coll {xs ys : List Val} : List.Forall₂ SameButCaps xs ys → SameButCaps (.coll xs) (.coll ys)
  | opt {x y : Val} : SameButCaps x y → SameButCaps (.opt (some x)) (.opt (some y))
  | ptr {x y : Val} : SameButCaps x y → SameButCaps (.ptr (some x)) (.ptr (some y))
  | obj {d : Nat} {ps qs : List (List Val)} : List.Forall₂ (List.Forall₂ SameButCaps) ps qs →
      SameButCaps (.obj d ps) (.obj d qs)

/-- A set `S` of types that contains, with a type, the types of everything its objects contain or own.  None of them
takes data in more than one form, or adds to what is there: no associative containers and queues, no lists, deques and
vectors whose elements cannot be created anew, no variants other than those that are copied as bytes.  The classes of
pointers with virtual serialization are registered once, and assertions are enabled (which compare the class of an
object that is there with that in the data).  `vectors`: are vectors among the types? -/
def Env.OneForm (cfg : Cfg) (env : Env) (vectors : Prop) (S : Ty → Prop) : Prop := ∀ t, S t → match t with
  | .queue _ => False
  | .oset .. => False
  | .uset .. => False
  | .variant ts => Ty.allByteCopied ts = true
  | .vec t => vectors ∧ S t ∧ (env.dflt t = none → env.copyable t = true)
  | .vecBool => vectors
  | .seq _ t => S t ∧ env.copyable t = true
  | .opt t => S t
  | .uptr (.cls c) => S (.cls c) ∧ ((env.cls c).virt = true → cfg.ndebug = false ∧ (env.objReg (env.root c)).Nodup)
  | .uptr t => S t
  | .pair a b => S a ∧ S b
  | .tuple ts => ∀ t ∈ ts, S t
  | .arr _ t => S t
  | .cls c => if (env.cls c).virt then ∀ k, ∀ t ∈ (env.cls k).fields, S t else ∀ t ∈ (env.cls c).fields, S t
  | _ => True

end Ckpt
