import Verif.Model.Api
/-!
# What it means that memory and a stream holding the same bytes are read alike
-/

set_option autoImplicit false

namespace Ckpt

/-- The outcomes of reading `bytes` from memory, with the number of bytes read, and from a stream, with the bytes left in
it. -/
inductive SameReading {T : Type} (bytes : Bytes) : Out (T × Nat) → Out (T × Bytes) → Prop
  /-- The same object, and as many bytes. -/
  | read (z : T) (k : Nat) (hk : k ≤ bytes.length) : SameReading bytes (.ok (z, k)) (.ok (z, bytes.drop k))
  /-- Too few bytes: only the stream notices. -/
  | short : SameReading bytes (.ub .readOverflow) (.throw .streamShort)
  /-- The same exception. -/
  | refused (e : Err) (he : e ≠ .streamShort) : SameReading bytes (.throw e) (.throw e)
  /-- The same failed assertion. -/
  | abort : SameReading bytes .abort .abort
  /-- The same undefined behaviour, other than reading too far. -/
  | ub (u : UB) (hu : u ≠ .readOverflow) : SameReading bytes (.ub u) (.ub u)
  | fuel : SameReading bytes .fuel .fuel

end Ckpt
