import Verif.Model.File
/-!
# Specification: how a call that writes or reads a file can end

In terms of the system calls made (latest first, with whether they failed), the open descriptors and the
mapped regions.
-/

set_option autoImplicit false

namespace Ckpt

/-- The ways a call that works on `file` can end, from state `w` of the process to state `w'`.  `prepare`
are the calls that may be made between `open` and `mmap`, `close` those to be made at the end, latest first. -/
inductive Ending {α : Type} (prepare close : List Call) (w w' : World) (file : Nat) : Final α → Prop
  /-- the file could not be opened: nothing happened. -/
  | notOpened : w'.log = (.open_, true) :: w.log → w'.fds = w.fds → w'.maps = w.maps →
      w'.files = w.files → Ending prepare close w w' file (.out (.throw .io))
  /-- a later step failed: the descriptor stays open. -/
  | leaked {c : Call} {mid : List (Call × Bool)} {fd : Nat} :
      c ∈ Call.mmap :: prepare → (∀ p ∈ mid, p.1 ∈ prepare) →
      w'.log = (c, true) :: (mid ++ (.open_, false) :: w.log) →
      (∀ p ∈ w.fds, p.1 ≠ fd) → w'.fds = (fd, file) :: w.fds → w'.maps = w.maps →
      Ending prepare close w w' file (.out (.throw .io))
  /-- the file was mapped, and closed: no descriptor and no mapping is left. -/
  | balanced {o : Out α} {mid : List (Call × Bool)} : (∀ p ∈ mid, p.1 ∈ prepare) →
      w'.log = close.map (·, false) ++ (.mmap, false) :: (mid ++ (.open_, false) :: w.log) →
      w'.fds = w.fds → w'.maps = w.maps → ((∃ a, o = .ok a) ∨ ∃ err, o = .throw err) →
      Ending prepare close w w' file (.out o)
  /-- the file was mapped, and a step of closing it failed: the program ends. -/
  | terminated {c : Call} {mid did : List (Call × Bool)} : (∀ p ∈ mid, p.1 ∈ prepare) → c ∈ close →
      did <:+ (close.map (·, false)).tail →
      w'.log = (c, true) :: (did ++ (.mmap, false) :: (mid ++ (.open_, false) :: w.log)) →
      Ending prepare close w w' file .terminate
  /-- the file was mapped, and the program died of something else before closing it. -/
  | died {o : Out α} {mid : List (Call × Bool)} : (∀ p ∈ mid, p.1 ∈ prepare) →
      w'.log = (.mmap, false) :: (mid ++ (.open_, false) :: w.log) →
      (o = .abort ∨ (∃ u, o = .ub u) ∨ o = .fuel) → Ending prepare close w w' file (.out o)

end Ckpt
