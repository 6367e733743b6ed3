import Verif.Model.File
/-!
# Specification: the system as files are written and read
-/

set_option autoImplicit false

namespace Ckpt

/-- Descriptors and addresses handed out next are not in use. -/
structure World.Ok (w : World) : Prop where
  fds : ∀ p ∈ w.fds, p.1 < w.nextFd
  maps : ∀ p ∈ w.maps, p.1 < w.nextMap

/-- No system call fails for outside reasons. -/
def noFaults : Faults := fun _ => none

end Ckpt
