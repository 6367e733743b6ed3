import Verif.Model.Outcome
/-!
# Specification: final outcome of a computation with a nesting bound
-/

set_option autoImplicit false

namespace Ckpt

/-- The computation `f`, run with any sufficiently large nesting bound, ends with outcome `r`. -/
def Yields {α : Type} (f : Nat → Out α) (r : Out α) : Prop := ∃ n0, ∀ n, n0 ≤ n → f n = r

end Ckpt
