import Verif.Model.File
/-!
# Specification: what a file holds after a crash

The process can be killed, or the machine can lose power, at any moment.  A killed process leaves what
it has written so far; after a power loss a file is as it was when it was last synchronised, or as the
process had left it, or, while its size is unchanged since the synchronisation, any mixture of the two
(blocks are written back in any order, and at any moment of the packing).
Simplified: a change of size takes effect as a whole.
-/

set_option autoImplicit false

namespace Ckpt

/-- `d` has the length of `a` and `b`, and each of its bytes comes from one of them. -/
def Torn (a b d : Bytes) : Prop :=
  a.length = b.length ∧ d.length = b.length ∧ ∀ i : Nat, d[i]? = a[i]? ∨ d[i]? = b[i]?

/-- What file `p` may hold after a crash somewhere in the history `hist` (newest state first). -/
inductive AfterCrash (p : Nat) (hist : List Snap) : Option Bytes → Prop
  /-- everything the process did is there. -/
  | files {s : Snap} : s ∈ hist → AfterCrash p hist (s.files p)
  /-- only what was synchronised is there. -/
  | disk {s : Snap} : s ∈ hist → AfterCrash p hist (s.disk p)
  /-- part of what was stored into the mapped file between two states is there. -/
  | torn {l l' : List Snap} {s s' : Snap} {a b d : Bytes} : hist = l ++ s' :: s :: l' →
      s.files p = some a → s.disk p = some a → s'.files p = some b → Torn a b d → AfterCrash p hist (some d)

/-- The states of the files in the course of the calls made so far. -/
def World.history (w : World) : List Snap := w.toSnap :: w.past

end Ckpt
