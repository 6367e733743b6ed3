import Verif.Spec.SameReading
import Verif.Proofs.Media
import Verif.Proofs.File
import Verif.Proofs.Post
import Verif.Proofs.Api
import Verif.Props.Weight
import Verif.Spec.DemoList
/-!
# Properties: the same bytes, read from different media (C82)
-/

set_option autoImplicit false

namespace Ckpt

section
variable {cfg : Cfg} {env : Env} {t : Ty}

theorem elem_agrees {b b' : Bool} (hE : env.Sound cfg) (n : Nat) (t : Ty) :
    (elem cfg env n t).apply.Agrees b b' := by
  simpa only [elem, Env.elemOf] using dispatch_agrees (b := b) (b' := b') hE n t

/-- **C82**.  Reading the same bytes from memory and from a stream into objects with the same value ends alike, whatever
the bytes and whatever the object. -/
theorem C82_in_place (hE : env.Sound cfg) (n : Nat) (bytes : Bytes) (y : Val) :
    SameReading bytes (deserializeInPlace cfg (elem cfg env n t) bytes y)
      (deserializeInPlaceFromStream cfg (elem cfg env n t) bytes y) := by
  have ht : Twin true false { core := .unpacker bytes 0 0, kind := .unpacker }
      { core := .streamUnpacker bytes 0, kind := .streamUnpacker } :=
    ⟨⟨(bytes, 0), by simp [Core.place], rfl⟩, ⟨rfl, rfl⟩, ⟨by simp [builtinKinds], by simp [builtinKinds]⟩, rfl⟩
  have h := traverseTop_agree (cfg := cfg) (elem_agrees hE n t) ht y
  unfold deserializeInPlace deserializeInPlaceFromStream
  generalize ho : traverseTop cfg (elem cfg env n t) { core := .unpacker bytes 0 0, kind := .unpacker } y = o at h
  generalize hq : traverseTop cfg (elem cfg env n t) { core := .streamUnpacker bytes 0, kind := .streamUnpacker } y = q at h
  cases h with
  | @ok r r' hr =>
    obtain ⟨z, s⟩ := r
    obtain ⟨z', s'⟩ := r'
    obtain ⟨rfl, ht⟩ := hr
    obtain ⟨j, hj, hk⟩ := top_onMemory n ho
    obtain ⟨inp, i, hi⟩ := top_onStream n hq
    obtain ⟨p, h1, h2⟩ := ht.place
    rw [hi] at h2
    rw [hj] at h1
    simp only [Core.place, and_true, hk, if_true, Option.some.injEq] at h1 h2
    subst h1
    cases h2
    have hc : s.count = j := by simp only [Ser.count, hj]
    have hu : s'.unread = bytes.drop j := by simp only [Ser.unread, hi]
    simp only [Out.bind_eq, Out.bind_ok, hc, hu]
    exact .read z j hk
  | short => exact .short
  | throw e he => exact .refused e he
  | abort => exact .abort
  | ub u hu => exact .ub u hu
  | fuel => exact .fuel

/-- **C82**, for `deserialize` and `deserializeFromStream`. -/
theorem C82_new (hE : env.Sound cfg) (n : Nat) (bytes : Bytes) :
    SameReading bytes (deserialize cfg (elem cfg env n t) bytes) (deserializeFromStream cfg (elem cfg env n t) bytes) := by
  rw [deserialize_elem, deserializeFromStream_elem]
  exact C82_in_place hE n bytes _

/-- The contents of a file, read as they are read from memory. -/
theorem unpackIO_eq (hE : env.Sound cfg) (n : Nat) (bytes : Bytes) (y : Val) :
    unpackIO cfg (elem cfg env n t) bytes y =
      deserializeInPlace cfg (elem cfg env n t) bytes y >>= fun r => .ok r.1 := by
  have ht : Twin true true { core := .unpacker bytes 0 0, kind := .unpackerIO }
      { core := .unpacker bytes 0 0, kind := .unpacker } :=
    ⟨⟨(bytes, 0), by simp [Core.place], by simp [Core.place]⟩, ⟨rfl, rfl⟩,
      ⟨by simp [builtinKinds], by simp [builtinKinds]⟩, rfl⟩
  have h := traverseTop_agree (cfg := cfg) (elem_agrees hE n t) ht y
  unfold unpackIO deserializeInPlace
  generalize traverseTop cfg (elem cfg env n t) { core := .unpacker bytes 0 0, kind := .unpackerIO } y = o at h ⊢
  generalize traverseTop cfg (elem cfg env n t) { core := .unpacker bytes 0 0, kind := .unpacker } y = q at h ⊢
  cases h with
  | @ok r r' hr =>
    obtain ⟨z, s⟩ := r
    obtain ⟨z', s'⟩ := r'
    obtain ⟨rfl, -⟩ := hr
    rfl
  | _ => rfl

/-- **C82**, files: if neither opening nor closing the file fails, the call ends as reading its contents from memory. -/
theorem C82_file (hE : env.Sound cfg) (n : Nat) {w : World} (hw : w.Ok) {file : Nat} {bytes : Bytes}
    (hf : w.files file = some bytes) (hb : bytes ≠ []) (y : Val) :
    (deserializeInPlaceFromFile cfg (elem cfg env n t) noFaults w file y).1 =
      .out (deserializeInPlace cfg (elem cfg env n t) bytes y >>= fun r => .ok r.1) := by
  rw [← unpackIO_eq hE]
  generalize hu : unpackIO cfg (elem cfg env n t) bytes y = o
  by_cases ho : (∃ a, o = .ok a) ∨ ∃ err, o = .throw err
  · obtain ⟨w', h, -⟩ := inPlaceFromFile_noFaults hw hf hb hu ho
    rw [h]
  · obtain ⟨w1, hs, h1, h2, h3, h4⟩ := setupForRead_noFaults hf hb
    have hm : (w1.files file).getD [] = bytes := by simp [h3, hf]
    simp only [deserializeInPlaceFromFile, hs, hm, hu]
    cases o <;> first | rfl | exact (ho (.inl ⟨_, rfl⟩)).elim | exact (ho (.inr ⟨_, rfl⟩)).elim

/-- **C82**, files, whichever system calls fail: the exception for that, the end of the program, or the same. -/
theorem C82_file_faults (hE : env.Sound cfg) (n : Nat) (F : Faults) (w : World) (file : Nat) (y : Val) :
    (deserializeInPlaceFromFile cfg (elem cfg env n t) F w file y).1 = .out (.throw .io) ∨
    (deserializeInPlaceFromFile cfg (elem cfg env n t) F w file y).1 = .terminate ∨
    ∃ bytes, w.files file = some bytes ∧ (deserializeInPlaceFromFile cfg (elem cfg env n t) F w file y).1 =
      .out (deserializeInPlace cfg (elem cfg env n t) bytes y >>= fun r => .ok r.1) := by
  unfold deserializeInPlaceFromFile
  have hr := setupForRead_cases F w file
  generalize setupForRead F w file = r at hr
  cases hr with
  | closed => exact .inl rfl
  | leaked => exact .inl rfl
  | @done w' bs h0 h1 h2 h3 h4 h5 h6 =>
    right
    dsimp only
    simp only [h5, h0, Option.getD_some, Option.some.injEq, exists_eq_left', ← unpackIO_eq hE n bs y]
    unfold leave
    split
    · split <;> simp
    · split <;> simp
    · simp

/-- So whoever wants to know whether memory holds a whole object can ask the stream: the unchecked call reads past the end
exactly when the checked one throws. -/
theorem C82_overrun (hE : env.Sound cfg) (n : Nat) (bytes : Bytes) (y : Val) :
    deserializeInPlace cfg (elem cfg env n t) bytes y = .ub .readOverflow ↔
      deserializeInPlaceFromStream cfg (elem cfg env n t) bytes y = .throw .streamShort := by
  have h := C82_in_place (t := t) hE n bytes y
  generalize deserializeInPlace cfg (elem cfg env n t) bytes y = o at h
  generalize deserializeInPlaceFromStream cfg (elem cfg env n t) bytes y = q at h
  cases h <;> simp_all

end

/-! ## The hypotheses hold -/

namespace Demo

example (n : Nat) (bytes : Bytes) (y : Val) : SameReading bytes
    (deserializeInPlace (cfg true false) (elem (cfg true false) Demo.env n (.vec (.uptr (.cls 1)))) bytes y)
    (deserializeInPlaceFromStream (cfg true false) (elem (cfg true false) Demo.env n (.vec (.uptr (.cls 1)))) bytes y) :=
  C82_in_place sound n bytes y

/-- A checkpoint of two nodes of a linked list. -/
def twoNodes : Bytes := intBytes .little 4 (listEnv.ti (.uptr (.cls 0))).idx ++ [0, 0, 1] ++
  intBytes .little 8 (listEnv.ti (.uptr (.cls 0))).sizeof

/-- It is read from more bytes than it takes. -/
example : ∃ z, deserializeInPlaceFromStream (cfg false false) (elem (cfg false false) listEnv 8 (.uptr (.cls 0)))
      (twoNodes ++ [7, 7]) (.ptr none) = .ok (z, [7, 7]) ∧
    deserializeInPlace (cfg false false) (elem (cfg false false) listEnv 8 (.uptr (.cls 0)))
      (twoNodes ++ [7, 7]) (.ptr none) = .ok (z, 15) :=
  ⟨.ptr (some (.obj 0 [[.ptr (some (.obj 0 [[.ptr none]]))]])), rfl, rfl⟩

/-- And from fewer. -/
example : deserializeInPlaceFromStream (cfg false false) (elem (cfg false false) listEnv 8 (.uptr (.cls 0)))
      (twoNodes.take 6) (.ptr none) = .throw .streamShort ∧
    deserializeInPlace (cfg false false) (elem (cfg false false) listEnv 8 (.uptr (.cls 0)))
      (twoNodes.take 6) (.ptr none) = .ub .readOverflow := ⟨rfl, rfl⟩

example (n : Nat) (y : Val) : (deserializeInPlaceFromFile (cfg false false)
      (elem (cfg false false) listEnv n (.uptr (.cls 0))) noFaults
      { files := fun _ => some twoNodes, disk := fun _ => none } 0 y).1 =
    .out (deserializeInPlace (cfg false false) (elem (cfg false false) listEnv n (.uptr (.cls 0))) twoNodes y >>=
      fun r => .ok r.1) :=
  C82_file list_sound n ⟨by simp, by simp⟩ rfl (by decide) y

end Demo

end Ckpt
