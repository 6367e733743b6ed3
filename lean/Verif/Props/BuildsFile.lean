import Verif.Props.Media
/-!
# C79, files: checkpoints of builds with and without error checking
-/

set_option autoImplicit false

namespace Ckpt

/-- Reading the file ends in this way, unless a system call fails, which is an exception or the end of the program. -/
def FileEnds (cfg : Cfg) (env : Env) (t : Ty) (w : World) (file : Nat) (y : Val) (o : Out Val) : Prop :=
  ∃ n0, ∀ n, n0 ≤ n →
    (w.Ok → (deserializeInPlaceFromFile cfg (elem cfg env n t) noFaults w file y).1 = .out o) ∧
    ∀ F, (deserializeInPlaceFromFile cfg (elem cfg env n t) F w file y).1 ∈ [.out (.throw .io), .terminate, .out o]

section
variable {R : RelMode} {cfg cfg' : Cfg} {env env' : Env} {t : Ty} {x y : Val} {w : World} {file : Nat} {bytes : Bytes}

theorem FileEnds.of_memory (hE : env.Sound cfg) (hf : w.files file = some bytes) (hb : bytes ≠ []) {o : Out (Val × Nat)}
    (h : Yields (fun n => deserializeInPlace cfg (elem cfg env n t) bytes y) o) :
    FileEnds cfg env t w file y (o >>= fun r => .ok r.1) := by
  obtain ⟨n0, h⟩ := h
  have h : ∀ n, n0 ≤ n → deserializeInPlace cfg (elem cfg env n t) bytes y = o := h
  refine ⟨n0, fun n hn => ⟨fun hw => ?_, fun F => ?_⟩⟩
  · rw [C82_file hE n hw hf hb y, h n hn]
  · rcases C82_file_faults (t := t) hE n F w file y with h' | h' | ⟨bytes', hf', h'⟩
    · simp [h']
    · simp [h']
    · rw [hf] at hf'
      cases hf'
      rw [h', h n hn]
      simp

theorem StreamForm.ne_nil (hv : env.Valid R (· ∈ builtinKinds) cfg) (hx : WT R env t x) {bs : Bytes}
    (hs : StreamForm cfg env t x bs) : bs ≠ [] := by
  obtain ⟨n0, h0⟩ := isEnc_of_stream hv hx hs
  obtain ⟨-, h⟩ := h0 n0 (Nat.le_refl _)
  rintro rfl
  have := congrArg List.length h
  simp [topEnc, node] at this

/-- **C79**, files: what a build without error checking wrote is rejected by a build with it. -/
theorem C79_file_rejected (hc : cfg.check = true) (hE : env.Sound cfg) (ho : env.opens t = true)
    (hc' : cfg'.check = false) (hv' : env'.Valid R (· ∈ builtinKinds) cfg') (hend : cfg'.endian = cfg.endian)
    (hidx : (env'.ti t).idx = (env.ti t).idx) (hx : WT R env' t x) (hk : BeginsCounted cfg' env' t x) {bs : Bytes}
    (hs : StreamForm cfg' env' t x bs) (rest : Bytes) (hf : w.files file = some (bs ++ rest)) (hy : Formed env t y)
    (hyb : ByVal t y) : ∃ err, InnerHeader cfg env t err ∧ FileEnds cfg env t w file y (.throw err) := by
  obtain ⟨err, he, h⟩ := (C79_unchecked_rejected hc hE ho hc' hv' hend hidx hx hk hs rest).memoryInPlace y hy hyb
  exact ⟨err, he, FileEnds.of_memory hE hf (by simp [hs.ne_nil hv' hx]) h⟩

/-- **C79**, files: what a build with error checking wrote of an optional or a pointer is undefined behaviour without. -/
theorem C79_file_flags (hc : cfg.check = false) (hE : env.Sound cfg) (hc' : cfg'.check = true)
    (hv' : env'.Valid R (· ∈ builtinKinds) cfg') (hend : cfg'.endian = cfg.endian)
    (hidx : (env'.ti t).idx = (env.ti t).idx) (ht : (∃ u, t = .opt u) ∨ ∃ u, t = .uptr u) (hx : WT R env' t x)
    {bs : Bytes} (hs : StreamForm cfg' env' t x bs) (rest : Bytes) (hf : w.files file = some (bs ++ rest))
    (hy : Formed env t y) : FileEnds cfg env t w file y (.ub .badBool) :=
  FileEnds.of_memory hE hf (by simp [hs.ne_nil hv' hx])
    ((C79_checked_flags hc hE hc' hv' hend hidx ht hx hs rest).memoryInPlace y hy)

/-- **C79**, files: of a string, a read behind the end of the file. -/
theorem C79_file_strings (hc : cfg.check = false) (hv : env.Valid .contents (· ∈ builtinKinds) cfg) (hE : env.Sound cfg)
    (hc' : cfg'.check = true) (hv' : env'.Valid R (· ∈ builtinKinds) cfg') (hend : cfg'.endian = cfg.endian)
    (hidx : (env'.ti .str).idx = (env.ti .str).idx) (hx : WT R env' .str x) {bs : Bytes}
    (hs : StreamForm cfg' env' .str x bs) (hlen : bs.length < 2 ^ 31) (hf : w.files file = some bs)
    (hy : Clean .contents cfg env .str y) : FileEnds cfg env .str w file y (.ub .readOverflow) :=
  FileEnds.of_memory hE hf (hs.ne_nil hv' hx) (C79_checked_strings hc hv hc' hv' hend hidx hx hs hlen hy).2.2.1

end

/-! ## The hypotheses can be met -/

namespace Demo

/-- A label saved without error checking, in some file, read with it; the file can be there. -/
example : ∃ bs, StreamForm (cfg false false) Demo.env (.cls 6) named bs ∧ ∀ (w : World) (file : Nat),
    w.files file = some bs → ∃ err, InnerHeader (cfg true false) Demo.env (.cls 6) err ∧
      FileEnds (cfg true false) Demo.env (.cls 6) w file (fresh (.cls 6)) (.throw err) := by
  obtain ⟨bs, hs⟩ := StreamForm.exists (valid_contents (check := false) (ndebug := false)) named_wt
  refine ⟨bs, hs, fun w file hf => ?_⟩
  exact C79_file_rejected (cfg' := cfg false false) rfl sound (by decide) rfl valid_contents rfl rfl named_wt
    (.obj (k := 6) (ks := []) rfl rfl (.str (by decide))) hs [] (by simpa using hf) ((sound (check := true) (ndebug := false)).fresh (.cls 6)).1
    ((sound (check := true) (ndebug := false)).fresh (.cls 6)).2

example : (∃ w : World, w.Ok ∧ w.files 3 = some [1, 2]) ∧ WT .contents Demo.env (.opt int) (.opt none) ∧
    WT .contents Demo.env .str (.str ⟨15, [65, 66]⟩) :=
  ⟨⟨{ files := fun f => if f = 3 then some [1, 2] else none, disk := fun _ => none }, by constructor <;> simp, rfl⟩, .optNone,
    .str (by decide)⟩

end Demo

end Ckpt
