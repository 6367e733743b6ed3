import Verif.Spec.Universe
/-!
# Specification: classes whose `serialize` function takes part in serializing a value
-/

set_option autoImplicit false

namespace Ckpt

/-- `Visits env t v k`: the value `v` of type `t` is, or holds at some nesting depth, an object that has
a part of class `k` (`k` is the class of the object or one of its base classes). -/
inductive Visits (env : Env) : Ty → Val → Nat → Prop
  | here {c d k : Nat} {ps : List (List Val)} : k ∈ env.chain d → Visits env (.cls c) (.obj d ps) k
  | member {c d j m i k : Nat} {ps : List (List Val)} {p : List Val} {t : Ty} {x : Val} :
      (env.chain d)[j]? = some m → ps[j]? = some p → (env.cls m).fields[i]? = some t →
      p[i]? = some x → Visits env t x k → Visits env (.cls c) (.obj d ps) k
  | vec {t : Ty} {cap k : Nat} {xs : List Val} {x : Val} : x ∈ xs → Visits env t x k →
      Visits env (.vec t) (.vec cap xs) k
  | seq {q : SeqKind} {t : Ty} {k : Nat} {xs : List Val} {x : Val} : x ∈ xs → Visits env t x k →
      Visits env (.seq q t) (.coll xs) k
  | queue {t : Ty} {k : Nat} {xs : List Val} {x : Val} : x ∈ xs → Visits env t x k →
      Visits env (.queue t) (.coll xs) k
  | oset {a : Assoc} {cmp : Nat} {t : Ty} {k : Nat} {xs : List Val} {x : Val} : x ∈ xs →
      Visits env t x k → Visits env (.oset a cmp t) (.coll xs) k
  | uset {a : Assoc} {eq : Nat} {t : Ty} {k : Nat} {xs : List Val} {x : Val} : x ∈ xs →
      Visits env t x k → Visits env (.uset a eq t) (.coll xs) k
  | fst {a b : Ty} {k : Nat} {x y : Val} : Visits env a x k → Visits env (.pair a b) (.coll [x, y]) k
  | snd {a b : Ty} {k : Nat} {x y : Val} : Visits env b y k → Visits env (.pair a b) (.coll [x, y]) k
  | tuple {ts : List Ty} {i : Nat} {t : Ty} {k : Nat} {xs : List Val} {x : Val} : ts[i]? = some t →
      xs[i]? = some x → Visits env t x k → Visits env (.tuple ts) (.coll xs) k
  | opt {t : Ty} {k : Nat} {x : Val} : Visits env t x k → Visits env (.opt t) (.opt (some x)) k
  | variant {ts : List Ty} {i : Nat} {t : Ty} {k : Nat} {x : Val} : ts[i]? = some t →
      Visits env t x k → Visits env (.variant ts) (.variant i x) k
  | uptr {t : Ty} {k : Nat} {x : Val} : Visits env t x k → Visits env (.uptr t) (.ptr (some x)) k
  | arr {n : Nat} {t : Ty} {k : Nat} {xs : List Val} {x : Val} : x ∈ xs → Visits env t x k →
      Visits env (.arr n t) (.coll xs) k

end Ckpt
