import Verif.Spec.Yields
import Verif.Model.Api
/-!
# Specification: written and read back
-/

set_option autoImplicit false

namespace Ckpt

variable {T : Type}

/-- Object `x` is written to a stream and to memory as the same bytes, of the size computed before, is not changed by
that, and reading these bytes, whatever follows, over a target `y` with `prior y` gives a `w` with `rel y w` and consumes
exactly these bytes.  `E` is the type. -/
def RoundTrips (cfg : Cfg) (E : Nat → Elem T) (x : T) (prior : T → Prop) (rel : T → T → Prop) : Prop :=
  ∃ bs, Yields (fun n => serializeToStream cfg (E n) x { data := [] }) (.ok (x, { data := bs })) ∧
    Yields (fun n => getSize cfg (E n) x) (.ok (bs.length % 2 ^ 64, x)) ∧
    (bs.length < 2 ^ 64 → Yields (fun n => serialize cfg (E n) none x)
      (.ok ({ mem := bs, size := bs.length, managed := true, calls := [] }, x))) ∧
    ∀ y rest, prior y →
      (∃ w, rel y w ∧ Yields (fun n => deserializeInPlace cfg (E n) (bs ++ rest) y) (.ok (w, bs.length))) ∧
      (∃ w, rel y w ∧ Yields (fun n => deserializeInPlaceFromStream cfg (E n) (bs ++ rest) y) (.ok (w, rest)))

/-- The call ends with a `serialization_error`. -/
def Rejects {α : Type} (f : Nat → Out α) : Prop := ∃ k d tr, Yields f (.throw (.ser k d tr))

/-- As `RoundTrips`, but reading may also end with a `serialization_error`. -/
def RestoresOrRejects (cfg : Cfg) (E : Nat → Elem T) (x : T) (prior : T → Prop) (rel : T → T → Prop) : Prop :=
  ∃ bs, Yields (fun n => serializeToStream cfg (E n) x { data := [] }) (.ok (x, { data := bs })) ∧
    Yields (fun n => getSize cfg (E n) x) (.ok (bs.length % 2 ^ 64, x)) ∧
    (bs.length < 2 ^ 64 → Yields (fun n => serialize cfg (E n) none x)
      (.ok ({ mem := bs, size := bs.length, managed := true, calls := [] }, x))) ∧
    ∀ y rest, prior y →
      ((∃ w, rel y w ∧ Yields (fun n => deserializeInPlace cfg (E n) (bs ++ rest) y) (.ok (w, bs.length))) ∨
        Rejects fun n => deserializeInPlace cfg (E n) (bs ++ rest) y) ∧
      ((∃ w, rel y w ∧ Yields (fun n => deserializeInPlaceFromStream cfg (E n) (bs ++ rest) y) (.ok (w, rest))) ∨
        Rejects fun n => deserializeInPlaceFromStream cfg (E n) (bs ++ rest) y)

end Ckpt
