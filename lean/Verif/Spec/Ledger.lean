import Verif.Model.Api
/-!
# Accounts of memory and objects

An event trace is replayed against two accounts: blocks of memory obtained and not yet given back, and
objects constructed and not yet destroyed.  Giving back or destroying what is not there is an error, and
so is applying `operator delete` to memory of the caller.
-/

set_option autoImplicit false

namespace Ckpt

/-- The accounts. -/
structure Ledger where
  blocks : Nat
  objects : Nat
  deriving DecidableEq, Repr

/-- One event; `none` is an error. -/
def Ledger.step (l : Ledger) : Ev → Option Ledger
  | .allocate => some { l with blocks := l.blocks + 1 }
  | .construct => some { l with objects := l.objects + 1 }
  | .destroy => if l.objects = 0 then none else some { l with objects := l.objects - 1 }
  | .deallocate => if l.blocks = 0 then none else some { l with blocks := l.blocks - 1 }
  | .deleteCallers => none

/-- A trace. -/
def Ledger.replay : List Ev → Ledger → Option Ledger
  | [], l => some l
  | e :: es, l => (l.step e).bind (replay es)

end Ckpt
