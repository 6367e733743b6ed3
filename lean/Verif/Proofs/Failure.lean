import Verif.Proofs.Grows
import Verif.Proofs.FileEnc
import Verif.Spec.Failure
/-!
Failures of parts at the entry points.
-/

set_option autoImplicit false

namespace Ckpt

variable {fl : Failure} {cfg : Cfg} {T : Type}

theorem failing_failsOr {when : Nat → Ser → List T → Bool} {t t' : CppType T} (h : t.AgreeBut when t') (n : Nat) :
    (t.failing fl when).FailsOr fl n t' := by
  refine ⟨h.1, fun s xs => ?_⟩
  simp only [CppType.failing]
  split
  · exact .inl rfl
  · rename_i hw
    exact .inr (h.2 n s xs (by simpa using hw))

theorem CppType.AgreeBut.refl (when : Nat → Ser → List T → Bool) (t : CppType T) : t.AgreeBut when t :=
  ⟨rfl, fun _ _ _ _ => rfl⟩

theorem getSize_le {e e' : Elem T} (h : Elem.Or fl e e') (x : T) : Out.Or fl (getSize cfg e x) (getSize cfg e' x) :=
  (traverseTop_le h _ _).bind fun _ => .refl _

theorem packMem_le {e e' : Elem T} (h : Elem.Or fl e e') (k : Kind) (mem : Bytes) (x : T) :
    Out.Or fl (packMem cfg e k mem x) (packMem cfg e' k mem x) :=
  (traverseTop_le h _ _).bind fun _ => .refl _

theorem serialize_le {e e' : Elem T} (h : Elem.Or fl e e') (fn : Option (Nat → Option Bytes)) (x : T) :
    Out.Or fl (serialize cfg e fn x) (serialize cfg e' fn x) := by
  refine (getSize_le h x).bind fun p => ?_
  dsimp only [packBuffer]
  split
  · exact (packMem_le h _ _ _).bind fun _ => .refl _
  · exact (packMem_le h _ _ _).bind fun _ => .refl _

theorem leave_cases {α : Type} (F : Faults) (w : World) (b : IOBuffer) (o : Out α) :
    (leave F w b o).1 = .out o ∨ (leave F w b o).1 = .terminate := by
  unfold leave
  split
  · split
    · exact .inl rfl
    · exact .inr rfl
  · split
    · exact .inl rfl
    · exact .inr rfl
  · exact .inl rfl

end Ckpt
