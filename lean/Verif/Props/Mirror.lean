import Verif.Proofs.MirrorTypes
import Verif.Props.Media
import Verif.Props.Depth
/-!
# Properties: what is accepted is the checkpoint of what it is read as (C83)
-/

set_option autoImplicit false

namespace Ckpt

section
variable {cfg : Cfg} {env : Env} {S : Ty → Prop} {t : Ty}

theorem elem_copies {V : Prop} {E : Val → Val → Prop} (hE : env.Sound cfg) (hS : env.OneForm cfg V S) (ha : Admits V E)
    (n : Nat) (ht : S t) : (elem cfg env n t).apply.Copies false false E := by
  simpa only [elem, Env.elemOf] using dispatch_copies hE hS ha n t ht

/-- **C83**.  Whatever the bytes and whatever the object read into: if reading succeeds, then the bytes that were taken are
the checkpoint of the object that was read, up to the capacities of vectors. -/
theorem C83_stream (hE : env.Sound cfg) (hS : env.OneForm cfg True S) (ht : S t) (n : Nat) {bytes rest : Bytes} {y z : Val}
    (h : deserializeInPlaceFromStream cfg (elem cfg env n t) bytes y = .ok (z, rest)) :
    ∃ bs z', bytes = bs ++ rest ∧ SameButCaps z z' ∧
      serializeToStream cfg (elem cfg env n t) z' ⟨[], none⟩ = .ok (z', ⟨bs, none⟩) :=
  stream_copies (elem_copies hE hS admits_caps n ht) h

/-- **C83**, without vectors: of that very object. -/
theorem C83_exact (hE : env.Sound cfg) (hS : env.OneForm cfg False S) (ht : S t) (n : Nat) {bytes rest : Bytes} {y z : Val}
    (h : deserializeInPlaceFromStream cfg (elem cfg env n t) bytes y = .ok (z, rest)) :
    ∃ bs, bytes = bs ++ rest ∧ serializeToStream cfg (elem cfg env n t) z ⟨[], none⟩ = .ok (z, ⟨bs, none⟩) := by
  obtain ⟨bs, z', hb, rfl, hs⟩ := stream_copies (elem_copies hE hS admits_eq n ht) h
  exact ⟨bs, hb, hs⟩

theorem stream_of_memory (hE : env.Sound cfg) (n : Nat) {bytes : Bytes} {y z : Val} {k : Nat}
    (h : deserializeInPlace cfg (elem cfg env n t) bytes y = .ok (z, k)) :
    deserializeInPlaceFromStream cfg (elem cfg env n t) bytes y = .ok (z, bytes.drop k) := by
  have hr := C82_in_place (t := t) hE n bytes y
  rw [h] at hr
  generalize deserializeInPlaceFromStream cfg (elem cfg env n t) bytes y = q at hr
  cases hr
  rfl

/-- **C83**, memory: the first `k` bytes, where `k` is the number of bytes read. -/
theorem C83_memory (hE : env.Sound cfg) (hS : env.OneForm cfg True S) (ht : S t) (n : Nat) {bytes : Bytes} {y z : Val} {k : Nat}
    (h : deserializeInPlace cfg (elem cfg env n t) bytes y = .ok (z, k)) : ∃ z', SameButCaps z z' ∧
      serializeToStream cfg (elem cfg env n t) z' ⟨[], none⟩ = .ok (z', ⟨bytes.take k, none⟩) := by
  obtain ⟨bs, z', hb, hz, hs⟩ := C83_stream hE hS ht n (stream_of_memory hE n h)
  have : bs = bytes.take k := List.append_cancel_right (hb.symm.trans (List.take_append_drop k bytes).symm)
  exact ⟨z', hz, this ▸ hs⟩

/-- **C83**, memory, without vectors. -/
theorem C83_memory_exact (hE : env.Sound cfg) (hS : env.OneForm cfg False S) (ht : S t) (n : Nat) {bytes : Bytes} {y z : Val}
    {k : Nat} (h : deserializeInPlace cfg (elem cfg env n t) bytes y = .ok (z, k)) :
    serializeToStream cfg (elem cfg env n t) z ⟨[], none⟩ = .ok (z, ⟨bytes.take k, none⟩) := by
  obtain ⟨bs, hb, hs⟩ := C83_exact hE hS ht n (stream_of_memory hE n h)
  have : bs = bytes.take k := List.append_cancel_right (hb.symm.trans (List.take_append_drop k bytes).symm)
  exact this ▸ hs

/-- **C83**, files, whichever system calls fail: the first bytes of the file. -/
theorem C83_file (hE : env.Sound cfg) (hS : env.OneForm cfg True S) (ht : S t) (n : Nat) {F : Faults} {w : World} {file : Nat}
    {y z : Val} (h : (deserializeInPlaceFromFile cfg (elem cfg env n t) F w file y).1 = .out (.ok z)) :
    ∃ bytes k z', w.files file = some bytes ∧ SameButCaps z z' ∧
      serializeToStream cfg (elem cfg env n t) z' ⟨[], none⟩ = .ok (z', ⟨bytes.take k, none⟩) := by
  rcases C82_file_faults (t := t) hE n F w file y with h' | h' | ⟨bytes, hf, h'⟩
  · rw [h] at h'; cases h'
  · rw [h] at h'; cases h'
  · rw [h] at h'
    simp only [Final.out.injEq] at h'
    obtain ⟨⟨z1, k⟩, h1, h2⟩ := bind_eq_ok h'.symm
    cases h2
    obtain ⟨z', hz, hs⟩ := C83_memory hE hS ht n h1
    exact ⟨bytes, k, z', hf, hz, hs⟩

/-- So no byte is ignored: inputs that are read as the same object are the same as far as they are read, whatever was in
the objects that they were read into. -/
theorem C83_every_byte (hE : env.Sound cfg) (hS : env.OneForm cfg False S) (ht : S t) (n : Nat) {bytes bytes' rest rest' : Bytes}
    {y y' z : Val} (h : deserializeInPlaceFromStream cfg (elem cfg env n t) bytes y = .ok (z, rest))
    (h' : deserializeInPlaceFromStream cfg (elem cfg env n t) bytes' y' = .ok (z, rest')) :
    ∃ bs, bytes = bs ++ rest ∧ bytes' = bs ++ rest' := by
  obtain ⟨bs, hb, hs⟩ := C83_exact hE hS ht n h
  obtain ⟨bs', hb', hs'⟩ := C83_exact hE hS ht n h'
  rw [hs] at hs'
  cases hs'
  exact ⟨bs, hb, hb'⟩

/-- **C83**, objects created for the result. -/
theorem C83_new (hE : env.Sound cfg) (hS : env.OneForm cfg True S) (ht : S t) (n : Nat) {bytes rest : Bytes} {z : Val}
    (h : deserializeFromStream cfg (elem cfg env n t) bytes = .ok (z, rest)) :
    ∃ bs z', bytes = bs ++ rest ∧ SameButCaps z z' ∧
      serializeToStream cfg (elem cfg env n t) z' ⟨[], none⟩ = .ok (z', ⟨bs, none⟩) :=
  C83_stream hE hS ht n h

end

/-! ## The hypotheses hold; where they do not, the claim is false -/

namespace Demo

theorem occurring_oneForm {check : Bool} : Demo.env.OneForm (cfg check false) True (· ∈ occurring) := by
  have hcls : ∀ d, ∀ t ∈ (Demo.env.cls d).fields, t ∈ occurring := by
    intro d
    match d with
    | 0 | 1 | 2 | 3 | 4 | 5 | 6 | 7 => simp [Demo.env, cls, occurring]
    | d + 8 => simp [Demo.env, cls]
  intro t ht
  simp only [occurring, List.mem_cons, List.not_mem_nil, or_false] at ht
  rcases ht with rfl | rfl | rfl | rfl | rfl | rfl | rfl | rfl | rfl | rfl | rfl | rfl
  · trivial
  · trivial
  · trivial
  · exact hcls 6
  · exact ⟨trivial, by simp [occurring], fun h => by simp [Demo.env] at h⟩
  · exact ⟨by simp [occurring], fun _ => ⟨rfl, by decide⟩⟩
  · exact fun k => hcls k
  · exact ⟨by simp [occurring], fun h => by simp [Demo.env, cls] at h⟩
  · exact hcls 4
  · exact ⟨by simp [occurring], rfl⟩
  · exact ⟨by simp [occurring], by simp [occurring]⟩
  · exact ⟨trivial, by simp [occurring], fun h => by simp [Demo.env, int] at h⟩

theorem list_oneForm {check ndebug : Bool} :
    listEnv.OneForm (cfg check ndebug) False (fun t => t = .uptr (.cls 0) ∨ t = .cls 0) := by
  rintro t (rfl | rfl)
  · exact ⟨.inr rfl, fun h => by simp [listEnv] at h⟩
  · simp [listEnv]

example (n : Nat) (bytes rest : Bytes) (y z : Val) (h : deserializeInPlaceFromStream (cfg true false)
      (elem (cfg true false) Demo.env n (.vec (.uptr (.cls 1)))) bytes y = .ok (z, rest)) :
    ∃ bs z', bytes = bs ++ rest ∧ SameButCaps z z' ∧ serializeToStream (cfg true false)
      (elem (cfg true false) Demo.env n (.vec (.uptr (.cls 1)))) z' ⟨[], none⟩ = .ok (z', ⟨bs, none⟩) :=
  C83_stream sound occurring_oneForm (by simp [occurring]) n h

example : ∃ z, deserializeInPlaceFromStream (cfg false false) (elem (cfg false false) listEnv 8 (.uptr (.cls 0)))
      (twoNodes ++ [7, 7]) (.ptr none) = .ok (z, [7, 7]) ∧
    serializeToStream (cfg false false) (elem (cfg false false) listEnv 8 (.uptr (.cls 0))) z ⟨[], none⟩ =
      .ok (z, ⟨twoNodes, none⟩) :=
  ⟨.ptr (some (.obj 0 [[.ptr (some (.obj 0 [[.ptr none]]))]])), rfl, rfl⟩

/-- The bytes of an object of type `t` in a stream, in a build without error checking. -/
def framed (t : Ty) (bs : Bytes) : Bytes :=
  intBytes .little 4 (Demo.env.ti t).idx ++ bs ++ intBytes .little 8 (Demo.env.ti t).sizeof

/-- Two values for a set are read in either order. -/
theorem C83_set_order : ∃ z, ∀ bs ∈ [[1, 0, 0, 0, 2, 0, 0, 0], [2, 0, 0, 0, 1, 0, 0, 0]],
    deserializeFromStream (cfg false false) (elem (cfg false false) Demo.env 4 (.oset .set 0 int))
      (framed (.oset .set 0 int) (intBytes .little 8 2 ++ bs)) = .ok (z, []) :=
  ⟨.coll [.raw [1, 0, 0, 0], .raw [2, 0, 0, 0]], by
    intro bs hbs
    simp only [List.mem_cons, List.not_mem_nil, or_false] at hbs
    rcases hbs with rfl | rfl <;> rfl⟩

/-- An index that no alternative of a variant has: whatever it is, the variant is left as it is. -/
theorem C83_variant_index : ∃ z, ∀ i ∈ [2, 3],
    deserializeInPlaceFromStream (cfg false false) (elem (cfg false false) Demo.env 4 (.variant [.str, int]))
      (framed (.variant [.str, int]) (intBytes .little 8 i)) z = .ok (z, []) :=
  ⟨.variant 0 (.str ⟨15, [104, 105]⟩), by
    intro i hi
    simp only [List.mem_cons, List.not_mem_nil, or_false] at hi
    rcases hi with rfl | rfl <;> rfl⟩

/-- The capacity of a vector: one that is smaller than that of the vector that is there makes no difference. -/
theorem C83_capacity : ∃ y z, ∀ cap ∈ [1, 2],
    deserializeInPlaceFromStream (cfg false false) (elem (cfg false false) Demo.env 4 (.vec int))
      (framed (.vec int) (intBytes .little 8 cap ++ intBytes .little 8 1 ++ [7, 0, 0, 0])) y = .ok (z, []) :=
  ⟨.vec 4 [], .vec 4 [.raw [7, 0, 0, 0]], by
    intro i hi
    simp only [List.mem_cons, List.not_mem_nil, or_false] at hi
    rcases hi with rfl | rfl <;> rfl⟩

/-- A queue: what is read is added to what is there. -/
theorem C83_queue : ∃ z, ∀ p ∈ [(Val.coll [], intBytes .little 8 2 ++ [1, 0, 0, 0, 2, 0, 0, 0]),
      (Val.coll [.raw [1, 0, 0, 0]], intBytes .little 8 1 ++ [2, 0, 0, 0])],
    deserializeInPlaceFromStream (cfg false false) (elem (cfg false false) Demo.env 4 (.queue int))
      (framed (.queue int) p.2) p.1 = .ok (z, []) :=
  ⟨.coll [.raw [1, 0, 0, 0], .raw [2, 0, 0, 0]], by
    intro p hp
    simp only [List.mem_cons, List.not_mem_nil, or_false] at hp
    rcases hp with rfl | rfl <;> rfl⟩

set_option maxRecDepth 8000 in
/-- Without assertions the number of a class is ignored where an object is there. -/
theorem C83_class_ignored : ∃ z, ∀ i ∈ [0, 1],
    deserializeInPlaceFromStream (cfg false true) (elem (cfg false true) Demo.env 4 (.uptr (.cls 1)))
      (framed (.uptr (.cls 1)) ([0] ++ intBytes .little 4 i ++ intBytes .little 8 0 ++ List.replicate 8 5))
      (.ptr (some (fresh (.cls 2)))) = .ok (z, []) :=
  ⟨.ptr (some (.obj 2 [[.str ⟨15, []⟩], [.raw (List.replicate 8 5)]])), by
    intro i hi
    simp only [List.mem_cons, List.not_mem_nil, or_false] at hi
    rcases hi with rfl | rfl <;> rfl⟩

end Demo

end Ckpt
