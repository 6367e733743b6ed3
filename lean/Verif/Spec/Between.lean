import Verif.Spec.Universe
/-!
# Specification: an object between its old value and the restored one

`Between env t y w z`: reading into `y` would have given `w`, but stopped before it was complete and left `z`.
-/

set_option autoImplicit false

namespace Ckpt

/-- A list of objects that is read from the front: `ys` before, `ws` when complete, `zs` left.  What comes before the
place where reading stopped is as restored, what comes after it is as before; `B i` relates the three values of the
`i`-th object at that place. -/
inductive PartRead {I T : Type} (B : I → T → T → T → Prop) : List I → List T → List T → List T → Prop
  /-- not begun -/
  | kept {is : List I} {ys ws : List T} : PartRead B is ys ws ys
  /-- complete -/
  | done {is : List I} {ys ws : List T} : PartRead B is ys ws ws
  /-- stopped within the first object -/
  | part {i : I} {is : List I} {y w z : T} {ys ws : List T} : B i y w z → PartRead B (i :: is) (y :: ys) (w :: ws) (z :: ys)
  /-- the first object is complete -/
  | next {i : I} {is : List I} {y w : T} {ys ws zs : List T} : PartRead B is ys ws zs →
      PartRead B (i :: is) (y :: ys) (w :: ws) (w :: zs)

/-- `rs` is what a sequence with elements `ys` is resized to when it is to have `n`: the first of its elements, and newly
constructed ones if there are not as many. -/
def Resized (env : Env) (t : Ty) (ys : List Val) (n : Nat) (rs : List Val) : Prop :=
  ∃ c, (c = env.fresh t ∨ env.dflt t = some c) ∧ rs = ys.take n ++ List.replicate (n - ys.length) c

/-- `Between env t y w z`: the object of type `t` was `y`, would have become `w`, and is `z`. -/
inductive Between (env : Env) : Ty → Val → Val → Val → Prop
  /-- as before -/
  | kept {t : Ty} {y w : Val} : Between env t y w y
  /-- as restored -/
  | done {t : Ty} {y w : Val} : Between env t y w w
  /-- the first bytes of a value that is copied as bytes -/
  | prim {id size : Nat} {a b : Bytes} (k : Nat) :
      Between env (.prim id size) (.raw a) (.raw b) (.raw (b.take k ++ a.drop k))
  | variantBytes {ts : List Ty} {a b : Bytes} (k : Nat) : Ty.allOnlyBytes ts = true →
      Between env (.variant ts) (.raw a) (.raw b) (.raw (b.take k ++ a.drop k))
  /-- a string has its new length; the first characters are as restored, the others as after `resize` -/
  | str {x w z : Str} (k : Nat) :
      z.chars = w.chars.take k ++
        (x.chars.take w.chars.length ++ List.replicate (w.chars.length - x.chars.length) 0).drop k →
      Between env .str (.str x) (.str w) (.str z)
  /-- a vector got a new capacity only -/
  | vecCap {t : Ty} {cap cap' : Nat} {ys : List Val} {w : Val} : Between env (.vec t) (.vec cap ys) w (.vec cap' ys)
  /-- a vector has its new size -/
  | vec {t : Ty} {cap cap' cap'' : Nat} {ys rs ws zs : List Val} : Resized env t ys ws.length rs →
      PartRead (Between env) (List.replicate rs.length t) rs ws zs →
      Between env (.vec t) (.vec cap ys) (.vec cap' ws) (.vec cap'' zs)
  | vecBoolCap {cap cap' : Nat} {bs : List Bool} {w : Val} : Between env .vecBool (.vbool cap bs) w (.vbool cap' bs)
  | vecBool {cap cap' cap'' : Nat} {ys ws : List Bool} (k : Nat) :
      Between env .vecBool (.vbool cap ys) (.vbool cap' ws)
        (.vbool cap'' (ws.take k ++ (ys.take ws.length ++ List.replicate (ws.length - ys.length) false).drop k))
  /-- a list or deque whose elements can be copied has its new size -/
  | seq {k : SeqKind} {t : Ty} {ys rs ws zs : List Val} : env.copyable t = true → Resized env t ys ws.length rs →
      PartRead (Between env) (List.replicate rs.length t) rs ws zs → Between env (.seq k t) (.coll ys) (.coll ws) (.coll zs)
  /-- one whose elements can not be copied got the first of the elements added -/
  | seqAdd {k : SeqKind} {t : Ty} {ys es : List Val} (i : Nat) : env.copyable t = false →
      Between env (.seq k t) (.coll ys) (.coll (ys ++ es)) (.coll (ys ++ es.take i))
  | queue {t : Ty} {ys es : List Val} (i : Nat) :
      Between env (.queue t) (.coll ys) (.coll (ys ++ es)) (.coll (ys ++ es.take i))
  /-- the first of the elements were inserted -/
  | oset {a : Assoc} {cmp : Nat} {t : Ty} {ys es : List Val} (i : Nat) :
      Between env (.oset a cmp t) (.coll ys) (.coll (es.foldl (env.emplaceO a cmp) ys))
        (.coll ((es.take i).foldl (env.emplaceO a cmp) ys))
  | uset {a : Assoc} {eq : Nat} {t : Ty} {ys es : List Val} (i : Nat) :
      Between env (.uset a eq t) (.coll ys) (.coll (es.foldl (env.emplaceU a eq) ys))
        (.coll ((es.take i).foldl (env.emplaceU a eq) ys))
  | fst {a b : Ty} {y1 y2 w1 w2 z1 : Val} : Between env a y1 w1 z1 →
      Between env (.pair a b) (.coll [y1, y2]) (.coll [w1, w2]) (.coll [z1, y2])
  | snd {a b : Ty} {y1 y2 w1 w2 z2 : Val} : Between env b y2 w2 z2 →
      Between env (.pair a b) (.coll [y1, y2]) (.coll [w1, w2]) (.coll [w1, z2])
  /-- the members of a tuple, in whatever order they are visited -/
  | tuple {ts : List Ty} {ys ws zs : List Val} :
      (∀ (i : Nat) t y w z, ts[i]? = some t → ys[i]? = some y → ws[i]? = some w → zs[i]? = some z → Between env t y w z) →
      zs.length = ys.length → ws.length = ys.length → Between env (.tuple ts) (.coll ys) (.coll ws) (.coll zs)
  | arr {n : Nat} {t : Ty} {ys ws zs : List Val} : PartRead (Between env) (List.replicate ys.length t) ys ws zs →
      Between env (.arr n t) (.coll ys) (.coll ws) (.coll zs)
  /-- a pointer that owns the object being read: the one it owned before, if any -/
  | ptr {t : Ty} {p : Option Val} {y w z : Val} : (∀ x, p = some x → y = x) → Between env t y w z →
      Between env (.uptr t) (.ptr p) (.ptr (some w)) (.ptr (some z))
  /-- an object: reading stopped within the members of class `k`, the `j`-th of its classes from the root -/
  | obj {c d j k : Nat} {ps qs : List (List Val)} {p q m : List Val} : (env.chain d)[j]? = some k → ps[j]? = some p →
      qs[j]? = some q → PartRead (Between env) (env.cls k).fields p q m →
      Between env (.cls c) (.obj d ps) (.obj d qs) (.obj d (qs.take j ++ m :: ps.drop (j + 1)))

end Ckpt
