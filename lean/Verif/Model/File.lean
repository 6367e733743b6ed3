import Verif.Model.Api
/-!
# Files

src/checkpoint/buffer/io_buffer.h and io_buffer.cc on a model of the POSIX calls they make, and the
entry points for files in src/checkpoint/checkpoint_api.impl.h.

Simplified: paths are numbers and every path can be created; a file has no holes; calls not in
io_buffer.cc (other processes, other threads) do not interfere.
-/

set_option autoImplicit false

namespace Ckpt

/-- Why a system call failed, as far as the code looks at `errno`. -/
inductive Errno
  | nospc
  | other
  deriving DecidableEq, Repr

/-- The system calls of io_buffer.cc. -/
inductive Call
  | open_ | fstat | fallocate | ftruncate | fsync | mmap | msync | munmap | close
  deriving DecidableEq, Repr

/-- What other processes see of the files (`files`) and what survives a crash of the machine
(`disk`). -/
structure Snap where
  files : Nat → Option Bytes
  disk : Nat → Option Bytes

/-- A mapped region: the file behind it and its length. -/
structure Mapping where
  path : Nat
  len : Nat
  deriving DecidableEq, Repr

/-- The operating system, as seen by one process. -/
structure World extends Snap where
  /-- open descriptors with the file they refer to. -/
  fds : List (Nat × Nat) := []
  nextFd : Nat := 3
  /-- mapped regions by address. -/
  maps : List (Nat × Mapping) := []
  nextMap : Nat := 1
  /-- system calls made so far, newest first, and whether they failed. -/
  log : List (Call × Bool) := []
  /-- the states of the files before each system call and each packing into a mapped file, newest
  first. -/
  past : List Snap := []

/-- Which system calls fail for reasons outside the model: the `i`-th call made. -/
abbrev Faults := Nat → Option Errno

namespace World
variable (F : Faults) (w : World)

/-- The fault that hits the next call. -/
def fault : Option Errno := F w.log.length

/-- Record a call. -/
def called (c : Call) (failed : Bool) : World :=
  { w with log := (c, failed) :: w.log, past := w.toSnap :: w.past }

/-- Replace the contents of a file (by a system call). -/
def setFile (p : Nat) (bs : Option Bytes) : World :=
  { w with files := fun q => if q = p then bs else w.files q }

/-- `open(path, O_RDONLY)`. -/
def openRead (p : Nat) : Option Nat × World :=
  if (w.fault F).isSome || (w.files p).isNone then (none, w.called .open_ true)
  else
    (some w.nextFd, { w.called .open_ false with fds := (w.nextFd, p) :: w.fds, nextFd := w.nextFd + 1 })

/-- `open(path, O_CREAT | O_RDWR | O_TRUNC)`: an existing file is cut to length zero. -/
def openTrunc (p : Nat) : Option Nat × World :=
  if (w.fault F).isSome then (none, w.called .open_ true)
  else
    (some w.nextFd, { (w.called .open_ false).setFile p (some []) with
      fds := (w.nextFd, p) :: w.fds, nextFd := w.nextFd + 1 })

/-- `fstat(fd, ..)`: the size of the file. -/
def fstat (p : Nat) : Option Nat × World :=
  if (w.fault F).isSome then (none, w.called .fstat true)
  else (some ((w.files p).getD []).length, w.called .fstat false)

/-- `fallocate(fd, 0, 0, size)`: the file is extended with zeros if it is shorter. -/
def fallocate (p size : Nat) : Option Errno × World :=
  match w.fault F with
  | some e => (some e, w.called .fallocate true)
  | none =>
    let bs := (w.files p).getD []
    (none, (w.called .fallocate false).setFile p (some (bs ++ List.replicate (size - bs.length) 0)))

/-- `ftruncate(fd, size)`: cut or extended with zeros. -/
def ftruncate (p size : Nat) : Bool × World :=
  if (w.fault F).isSome then (false, w.called .ftruncate true)
  else
    let bs := (w.files p).getD []
    (true, (w.called .ftruncate false).setFile p (some (bs.take size ++ List.replicate (size - bs.length) 0)))

/-- Everything written to a file so far survives a crash. -/
def sync (p : Nat) : World := { w with disk := fun q => if q = p then w.files p else w.disk q }

/-- `fsync(fd)`. -/
def fsync (p : Nat) : Bool × World :=
  if (w.fault F).isSome then (false, w.called .fsync true) else (true, (w.called .fsync false).sync p)

/-- `mmap(nullptr, size, .., MAP_SHARED, fd, 0)`: a length of zero is an error. -/
def mmap (p size : Nat) : Option Nat × World :=
  if (w.fault F).isSome || size = 0 then (none, w.called .mmap true)
  else
    (some w.nextMap, { w.called .mmap false with
      maps := (w.nextMap, ⟨p, size⟩) :: w.maps, nextMap := w.nextMap + 1 })

/-- `msync(addr, size, MS_SYNC)`; fails if nothing is mapped there. -/
def msync (addr : Nat) : Bool × World :=
  match w.maps.find? (·.1 == addr) with
  | none => (false, w.called .msync true)
  | some m =>
    if (w.fault F).isSome then (false, w.called .msync true)
    else (true, (w.called .msync false).sync m.2.path)

/-- `munmap(addr, size)`. -/
def munmap (addr : Nat) : Bool × World :=
  if (w.fault F).isSome then (false, w.called .munmap true)
  else (true, { w.called .munmap false with maps := w.maps.filter (·.1 != addr) })

/-- `close(fd)`; fails if the descriptor is not open. -/
def close (fd : Nat) : Bool × World :=
  if (w.fault F).isSome || !(w.fds.any (·.1 == fd)) then (false, w.called .close true)
  else (true, { w.called .close false with fds := w.fds.filter (·.1 != fd) })

/-- The process stores into a shared mapping, which leaves `bs` in the file. -/
def stored (p : Nat) (bs : Bytes) : World :=
  { w.setFile p (some bs) with past := w.toSnap :: w.past }

end World

/-- `IOBuffer` (io_buffer.h:54-104): `ModeEnum` (write or read), `file_`, `size_`, `buffer_` (address 0 is
`nullptr`), `fd_` (`none` is -1). -/
structure IOBuffer where
  write : Bool
  file : Nat
  size : Nat
  buffer : Nat := 0
  fd : Option Nat := none
  deriving DecidableEq, Repr

/-- `setupForRead` (io_buffer.cc:63-126); `none` if it throws `runtime_error`. -/
def setupForRead (F : Faults) (w : World) (file : Nat) : Option IOBuffer × World :=
  match w.openRead F file with
  | (none, w) => (none, w)
  | (some fd, w) =>
    match w.fstat F file with
    | (none, w) => (none, w)
    | (some size, w) =>
      match w.mmap F file size with
      | (none, w) => (none, w)
      | (some addr, w) =>
        (some { write := false, file := file, size := size, buffer := addr, fd := some fd }, w)

/-- `setupForWrite` (io_buffer.cc:128-215) with `fallocate` available
(`checkpoint_has_fallocate`): other failures of it than `ENOSPC` are ignored. -/
def setupForWrite (F : Faults) (w : World) (file size : Nat) : Option IOBuffer × World :=
  match w.openTrunc F file with
  | (none, w) => (none, w)
  | (some fd, w) =>
    match w.fallocate F file size with
    | (some .nospc, w) => (none, w)
    | (_, w) =>
      match w.ftruncate F file size with
      | (false, w) => (none, w)
      | (true, w) =>
        match w.fsync F file with
        | (false, w) => (none, w)
        | (true, w) =>
          match w.mmap F file size with
          | (none, w) => (none, w)
          | (some addr, w) =>
            (some { write := true, file := file, size := size, buffer := addr, fd := some fd }, w)

/-- `closeFile` (io_buffer.cc:230-306); `false` if it throws. -/
def closeFile (F : Faults) (w : World) (b : IOBuffer) : Bool × World :=
  match b.fd with
  | none => (true, w)
  | some fd =>
    let r := if b.write then w.msync F b.buffer else (true, w)
    match r with
    | (false, w) => (false, w)
    | (true, w) =>
      match w.munmap F b.buffer with
      | (false, w) => (false, w)
      | (true, w) => w.close F fd

/-- How a call that uses files ends: like other library code, or with `std::terminate`. -/
inductive Final (α : Type)
  | out (o : Out α)
  | terminate
  deriving DecidableEq, Repr

/-- Leaving the scope of an `IOBuffer` with outcome `o`, normally or by an exception:
`~IOBuffer` (io_buffer.h:87) runs `closeFile`; destructors are `noexcept`, so an exception out of it
terminates the program.  Nothing runs after a failed assertion or undefined behaviour. -/
def leave {α : Type} (F : Faults) (w : World) (b : IOBuffer) (o : Out α) : Final α × World :=
  match o with
  | .ok _ | .throw _ =>
    match closeFile F w b with
    | (true, w) => (.out o, w)
    | (false, w) => (.terminate, w)
  | o => (.out o, w)

variable {T : Type}

/-- `serializeToFile` (checkpoint_api.impl.h:101-107): sizes the object, creates the packer with its
`IOBuffer` (packer.impl.h:85-93, dispatch.impl.h:208-211), packs, and destroys them.  The mapping is
shared, so what is packed is in the file at once.  `torn` is what the file holds when packing does not
end normally: arbitrary here, as the outcome does not say how far it came. -/
def serializeToFile (cfg : Cfg) (e : Elem T) (F : Faults) (torn : Bytes → Bytes) (w : World) (file : Nat) (x : T) :
    Final T × World :=
  match getSize cfg e x with
  | .ok (len, x) =>
    match setupForWrite F w file len with
    | (none, w) => (.out (.throw .io), w)
    | (some b, w) =>
      let mem := (w.files file).getD []
      match packMem cfg e .packerIO mem x with
      | .ok (mem, _, x) => leave F (w.stored file mem) b (.ok x)
      | .throw err => leave F (w.stored file (torn mem)) b (.throw err)
      | .abort => (.out .abort, w.stored file (torn mem))
      | .ub u => (.out (.ub u), w.stored file (torn mem))
      | .fuel => (.out .fuel, w)
  | .throw err => (.out (.throw err), w)
  | .abort => (.out .abort, w)
  | .ub u => (.out (.ub u), w)
  | .fuel => (.out .fuel, w)

/-- Unpacking over the object `y` from the memory `mem` with an `UnpackerBuffer<IOBuffer>`
(dispatch.impl.h:218-222, unpacker.impl.h:70-80).  Simplified: bytes between the end of the file and the
end of its last page count as outside of the memory. -/
def unpackIO (cfg : Cfg) (e : Elem T) (mem : Bytes) (y : T) : Out T := do
  let (y, _) ← traverseTop cfg e { core := .unpacker mem 0 0, kind := .unpackerIO } y
  .ok y

/-- `deserializeInPlaceFromFile` (checkpoint_api.impl.h:119-124). -/
def deserializeInPlaceFromFile (cfg : Cfg) (e : Elem T) (F : Faults) (w : World) (file : Nat) (y : T) :
    Final T × World :=
  match setupForRead F w file with
  | (none, w) => (.out (.throw .io), w)
  | (some b, w) => leave F w b (unpackIO cfg e ((w.files file).getD []) y)

/-- `deserializeFromFile` (checkpoint_api.impl.h:109-117), value only; what happens to the object created
for the result is `deserializeUnguarded`. -/
def deserializeFromFile (cfg : Cfg) (e : Elem T) (F : Faults) (w : World) (file : Nat) : Final T × World :=
  deserializeInPlaceFromFile cfg e F w file e.fresh

end Ckpt
