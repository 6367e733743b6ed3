import Verif.Proofs.File
import Verif.Proofs.Headers
/-!
Lemmas about writing and reading objects through files.
-/

set_option autoImplicit false

namespace Ckpt

/-! ## Descriptors and addresses stay fresh -/

section
variable {F : Faults} {w : World} {p size : Nat}

theorem World.Ok.of_eq {w' : World} (h : w.Ok) (h1 : w'.fds = w.fds) (h2 : w'.nextFd = w.nextFd)
    (h3 : w'.maps = w.maps) (h4 : w'.nextMap = w.nextMap) : w'.Ok :=
  ⟨by rw [h1, h2]; exact h.fds, by rw [h3, h4]; exact h.maps⟩

theorem World.Ok.opened {w' : World} {q : Nat} (h : w.Ok) (h1 : w'.fds = (w.nextFd, q) :: w.fds)
    (h2 : w'.nextFd = w.nextFd + 1) (h3 : w'.maps = w.maps) (h4 : w'.nextMap = w.nextMap) : w'.Ok := by
  refine ⟨?_, by rw [h3, h4]; exact h.maps⟩
  rw [h1, h2]
  intro x hx
  rcases List.mem_cons.1 hx with rfl | hx
  · exact Nat.lt_succ_self _
  · exact Nat.lt_succ_of_lt (h.fds x hx)

theorem World.Ok.openRead (h : w.Ok) : (w.openRead F p).2.Ok := by
  unfold World.openRead
  split
  · exact h.of_eq rfl rfl rfl rfl
  · exact h.opened rfl rfl rfl rfl

theorem World.Ok.openTrunc (h : w.Ok) : (w.openTrunc F p).2.Ok := by
  unfold World.openTrunc
  split
  · exact h.of_eq rfl rfl rfl rfl
  · exact h.opened rfl rfl rfl rfl

theorem World.Ok.fstat (h : w.Ok) : (w.fstat F p).2.Ok := by
  unfold World.fstat
  split <;> exact h.of_eq rfl rfl rfl rfl

theorem World.Ok.fallocate (h : w.Ok) : (w.fallocate F p size).2.Ok := by
  unfold World.fallocate
  split <;> exact h.of_eq rfl rfl rfl rfl

theorem World.Ok.ftruncate (h : w.Ok) : (w.ftruncate F p size).2.Ok := by
  unfold World.ftruncate
  split <;> exact h.of_eq rfl rfl rfl rfl

theorem World.Ok.fsync (h : w.Ok) : (w.fsync F p).2.Ok := by
  unfold World.fsync
  split <;> exact h.of_eq rfl rfl rfl rfl

theorem World.Ok.mmap (h : w.Ok) : (w.mmap F p size).2.Ok := by
  unfold World.mmap
  split
  · exact h.of_eq rfl rfl rfl rfl
  · refine ⟨h.fds, fun x hx => ?_⟩
    rcases List.mem_cons.1 hx with rfl | hx
    · exact Nat.lt_succ_self _
    · exact Nat.lt_succ_of_lt (h.maps x hx)

theorem World.Ok.msync (h : w.Ok) : (w.msync F p).2.Ok := by
  unfold World.msync
  repeat' split
  all_goals exact h.of_eq rfl rfl rfl rfl

theorem World.Ok.munmap (h : w.Ok) : (w.munmap F p).2.Ok := by
  unfold World.munmap
  split
  · exact h.of_eq rfl rfl rfl rfl
  · exact ⟨h.fds, fun x hx => h.maps x (List.mem_of_mem_filter hx)⟩

theorem World.Ok.close (h : w.Ok) : (w.close F p).2.Ok := by
  unfold World.close
  split
  · exact h.of_eq rfl rfl rfl rfl
  · exact ⟨fun x hx => h.fds x (List.mem_of_mem_filter hx), h.maps⟩

theorem World.Ok.stored (h : w.Ok) (bs : Bytes) : (w.stored p bs).Ok := h.of_eq rfl rfl rfl rfl

theorem setupForRead_ok (h : w.Ok) : (setupForRead F w p).2.Ok := by
  unfold setupForRead
  have h1 := h.openRead (F := F) (p := p)
  generalize w.openRead F p = r at h1
  obtain ⟨_ | fd, w1⟩ := r
  · exact h1
  · have h2 := h1.fstat (F := F) (p := p)
    simp only
    generalize World.fstat F w1 p = r at h2
    obtain ⟨_ | n, w2⟩ := r
    · exact h2
    · have h3 := h2.mmap (F := F) (p := p) (size := n)
      simp only
      generalize World.mmap F w2 p n = r at h3
      obtain ⟨_ | a, w3⟩ := r <;> exact h3

theorem setupForWrite_ok (h : w.Ok) : (setupForWrite F w p size).2.Ok := by
  unfold setupForWrite
  have h1 := h.openTrunc (F := F) (p := p)
  generalize w.openTrunc F p = r at h1
  obtain ⟨_ | fd, w1⟩ := r
  · exact h1
  · have h2 := h1.fallocate (F := F) (p := p) (size := size)
    simp only
    generalize World.fallocate F w1 p size = r at h2
    obtain ⟨o, w2⟩ := r
    have h3 := World.Ok.ftruncate (F := F) (p := p) (size := size) h2
    simp only at h2 h3 ⊢
    split
    · rename_i heq; cases heq; exact h2
    · rename_i heq
      cases heq
      generalize World.ftruncate F w2 p size = r at h3
      obtain ⟨_ | _, w3⟩ := r
      · exact h3
      · have h4 := World.Ok.fsync (F := F) (p := p) h3
        simp only
        generalize World.fsync F w3 p = r at h4
        obtain ⟨_ | _, w4⟩ := r
        · exact h4
        · have h5 := World.Ok.mmap (F := F) (p := p) (size := size) h4
          simp only
          generalize World.mmap F w4 p size = r at h5
          obtain ⟨_ | a, w5⟩ := r <;> exact h5

theorem closeFile_ok (h : w.Ok) (b : IOBuffer) : (closeFile F w b).2.Ok := by
  unfold closeFile
  cases b.fd with
  | none => exact h
  | some fd =>
    have h1 : (if b.write = true then w.msync F b.buffer else (true, w)).2.Ok := by
      split
      · exact h.msync
      · exact h
    simp only
    generalize (if b.write = true then w.msync F b.buffer else (true, w)) = r at h1
    obtain ⟨_ | _, w1⟩ := r
    · exact h1
    · have h2 := World.Ok.munmap (F := F) (p := b.buffer) h1
      simp only
      generalize World.munmap F w1 b.buffer = r at h2
      obtain ⟨_ | _, w2⟩ := r
      · exact h2
      · exact World.Ok.close h2

theorem leave_ok {α : Type} (h : w.Ok) (b : IOBuffer) (o : Out α) : (leave F w b o).2.Ok := by
  have h1 := closeFile_ok (F := F) h b
  unfold leave
  split
  all_goals first | exact h | (generalize closeFile F w b = r at h1; obtain ⟨_ | _, w1⟩ := r <;> exact h1)

theorem serializeToFile_ok {T : Type} {cfg : Cfg} {e : Elem T} {torn : Bytes → Bytes} (h : w.Ok) (x : T) :
    (serializeToFile cfg e F torn w p x).2.Ok := by
  unfold serializeToFile
  split
  any_goals exact h
  have h1 := setupForWrite_ok (F := F) (p := p) (size := by assumption) h
  split
  · rename_i heq; rw [heq] at h1; exact h1
  · rename_i heq
    rw [heq] at h1
    simp only
    split
    · exact leave_ok (World.Ok.stored h1 _) _ _
    · exact leave_ok (World.Ok.stored h1 _) _ _
    · exact World.Ok.stored h1 _
    · exact World.Ok.stored h1 _
    · exact h1

theorem inPlaceFromFile_ok {T : Type} {cfg : Cfg} {e : Elem T} (h : w.Ok) (y : T) :
    (deserializeInPlaceFromFile cfg e F w p y).2.Ok := by
  unfold deserializeInPlaceFromFile
  have h1 := setupForRead_ok (F := F) (p := p) h
  generalize setupForRead F w p = r at h1
  obtain ⟨_ | b, w1⟩ := r
  · exact h1
  · exact leave_ok h1 _ _

end

/-! ## Objects -/

theorem unpackIO_le {fl : Failure} {T : Type} {cfg : Cfg} {e e' : Elem T} (h : Elem.Or fl e e') (mem : Bytes) (y : T) :
    Out.Or fl (unpackIO cfg e mem y) (unpackIO cfg e' mem y) :=
  (traverseTop_le h _ _).bind fun _ => Out.Or.refl _

theorem unpackIO_reject {T : Type} {cfg : Cfg} {e : Elem T} {b rest : Bytes} (hb : b.length = 4)
    (hbad : validateIndex (intVal cfg.endian b) = false ∨ e.ti.idx ≠ intVal cfg.endian b) (y : T) :
    unpackIO cfg e (b ++ rest) y =
      .throw (.ser (.wrongType e.ti.idx (intVal cfg.endian b)) 0 [e.ti.name]) := by
  unfold unpackIO
  rw [top_reject (s := { core := .unpacker (b ++ rest) 0 0, kind := .unpackerIO })
    ⟨rfl, trivial, by simp⟩ hb (rest := rest) (by simp [Ser.remaining]) hbad]
  rfl

section
variable {R : RelMode} {K : Kind → Prop} {cfg : Cfg} {env : Env} {t : Ty} {x : Val} {bs : Bytes}
variable (hv : env.Valid R K cfg) (hK : ∀ k, k ∈ builtinKinds → K k) (h : IsEnc R cfg env t x bs)
include hv hK h

theorem IsEnc.packIO : Yields (fun n => packMem cfg (elem cfg env n t) .packerIO (zeros bs.length) x)
    (.ok (bs, bs.length, x)) :=
  h.yields fun n hp he => by
    have he' : topEnc cfg (elem cfg env n t).ti (codec R cfg env n t) x = bs := he
    rw [packMem_law (K := Scope.quiet K) hK (law hv n t) hp (by decide), he']
    simp [zeros]

theorem IsEnc.unpackIO {y : Val} (hp : ∀ n, (codec R cfg env n t).P x → (codec R cfg env n t).prior x y)
    (rest : Bytes) : ∃ z, Rel R env t x z ∧
      Yields (fun n => Ckpt.unpackIO cfg (elem cfg env n t) (bs ++ rest) y) (.ok z) := by
  obtain ⟨n0, h0⟩ := h
  obtain ⟨hP, he⟩ := h0 n0 (Nat.le_refl _)
  have hr : Ser.Reader (Scope.quiet K) { core := .unpacker (bs ++ rest) 0 0, kind := .unpackerIO } :=
    ⟨rfl, hK .unpackerIO (by decide), by simp⟩
  have he' : topEnc cfg (elem cfg env n0 t).ti (codec R cfg env n0 t) x = bs := he
  obtain ⟨z, hz, hd⟩ := ((top_rd (law hv n0 t) hP (hp n0 hP)).ok (fun _ h => h) hr).1 rest
    (by simp [Ser.remaining, he'])
  obtain ⟨r, hz', hy⟩ := Yields.of_mono (n0 := n0)
    (f := fun n => Ckpt.unpackIO cfg (elem cfg env n t) (bs ++ rest) y)
    (fun hnm => unpackIO_le (elem_le cfg env hnm t) _ _)
    (Q := fun r => Rel R env t x r)
    ⟨z, codec_rel _ _ _ _ hz, by unfold Ckpt.unpackIO; rw [hd]; rfl⟩
  exact ⟨r, hz', hy⟩

end

end Ckpt
