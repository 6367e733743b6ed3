import Verif.Model.UserBody
import Verif.Spec.Universe
/-!
# Specification: serialize functions with control flow
-/

set_option autoImplicit false

namespace Ckpt

/-- What happens to an object. -/
inductive Step
  /-- the first `n` objects of type `t` in member `m` are visited, at once (`block`) or one by one -/
  | visit (m : Nat) (t : Ty) (n : Nat) (block : Bool)
  /-- member `m` is replaced by `n` new objects of type `t` (only when reading) -/
  | make (m : Nat) (t : Ty) (n : Nat)
  /-- number `c` is recorded -/
  | count (c : Nat)

/-- What the function does to `x`, in this order. -/
def Body.steps (x : Slots) : Body → List Step
  | .done => []
  | .each m t n k => .visit m t n false :: k.steps x
  | .array m t n k => .visit m t n true :: k.steps x
  | .count f k => .count (f x) :: (k (f x)).steps x
  | .flag f k => (k (f x)).steps x
  | .make m t n k => .make m t n :: k.steps x
  | .look k => (k x).steps x

/-- `a` may come before `b`: a member is visited at most once, and made anew at most once, before that. -/
def Step.Before : Step → Step → Prop
  | .visit m _ _ _, .visit m' _ _ _ => m ≠ m'
  | .visit m _ _ _, .make m' _ _ => m ≠ m'
  | .make m _ _, .make m' _ _ => m ≠ m'
  | _, _ => True

/-- What has been read into `y` so far is what is in `x`, and members made anew have the size asked for. -/
def Agree (R : RelMode) (env : Env) (past : List Step) (x y : Slots) : Prop :=
  (∀ m t n b, Step.visit m t n b ∈ past → n ≤ (y m).length ∧
    ∀ i < n, ∀ v w, (x m)[i]? = some v → (y m)[i]? = some w → Rel R env t v w) ∧
  ∀ m t n, Step.make m t n ∈ past → (y m).length = n

/-- Every decision the function makes depends only on what was visited before. -/
def Body.Determined (R : RelMode) (env : Env) (x : Slots) : List Step → Body → Prop
  | _, .done => True
  | past, .each m t n k => k.Determined R env x (past ++ [.visit m t n false])
  | past, .array m t n k => k.Determined R env x (past ++ [.visit m t n true])
  | past, .count f k => (k (f x)).Determined R env x (past ++ [.count (f x)])
  | past, .flag f k => (k (f x)).Determined R env x past
  | past, .make m t n k => k.Determined R env x (past ++ [.make m t n])
  | past, .look k => (∀ y, Agree R env past x y → k y = k x) ∧ (k x).Determined R env x past

/-- `x` is an object the function can write. -/
structure Fits (R : RelMode) (env : Env) (x : Slots) (steps : List Step) : Prop where
  values : ∀ m t n b, Step.visit m t n b ∈ steps → n ≤ (x m).length ∧
    ∀ v ∈ (x m).take n, WT R env t v ∧ ByVal t v
  blocks : ∀ m t n, Step.visit m t n true ∈ steps → env.ArrOk t n
  counts : ∀ c, Step.count c ∈ steps → c < 2 ^ 64
  order : steps.Pairwise Step.Before

/-- What member `m` of the target `y` is when it is read into. -/
def StartOf (env : Env) (y : Slots) (steps : List Step) (m : Nat) (vs : List Val) : Prop :=
  (∃ t n, Step.make m t n ∈ steps ∧ vs = madeOf env t n) ∨ ((∀ t n, Step.make m t n ∉ steps) ∧ vs = y m)

/-- `y` has the members that are read into without being made anew, as objects over which any value can be restored;
what is made anew is large enough and of the right type. -/
def Ready (R : RelMode) (cfg : Cfg) (env : Env) (y : Slots) (steps : List Step) : Prop :=
  ∀ m t n b, Step.visit m t n b ∈ steps →
    (∃ n', n ≤ n' ∧ Step.make m t n' ∈ steps) ∨
    ((∀ t' n', Step.make m t' n' ∉ steps) ∧ n ≤ (y m).length ∧ ∀ v ∈ (y m).take n, Clean R cfg env t v ∧ ByVal t v)

/-- `w` is `y` after what was visited of `x` has been read into it. -/
structure Restored (R : RelMode) (env : Env) (x y : Slots) (steps : List Step) (w : Slots) : Prop where
  /-- what was visited is as in `x` -/
  visited : ∀ m t n b, Step.visit m t n b ∈ steps → ∀ i < n, ∃ v v', (x m)[i]? = some v ∧ (w m)[i]? = some v' ∧
    Rel R env t v v'
  /-- further elements of the same member are as they were -/
  beyond : ∀ m t n b, Step.visit m t n b ∈ steps → ∃ vs, StartOf env y steps m vs ∧ (w m).length = vs.length ∧
    (w m).drop n = vs.drop n
  /-- and so are the other members -/
  others : ∀ m, (∀ t n b, Step.visit m t n b ∉ steps) → StartOf env y steps m (w m)

end Ckpt
