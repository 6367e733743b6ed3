import Verif.Proofs.FileEnc
import Verif.Proofs.UserFn
import Verif.Props.Headers
/-!
# Files (C10, C11, C37, C39, C40)

`w` and `w'` are states of the operating system; `w.Ok` says that descriptors and addresses it hands out
next are not in use.  `F` says which system calls fail.
-/

set_option autoImplicit false

namespace Ckpt

section
variable {R : RelMode} {cfg : Cfg} {env : Env} {t : Ty} {x : Val} {w : World} {bs : Bytes}

/-! ## C05 -/

/-- C05, files: whatever the state of the file system and whichever system calls fail, if `serializeToFile` returns,
the object is the one it was given. -/
theorem C05_file (hv : env.Valid R (· ∈ builtinKinds) cfg) (hx : WT R env t x) :
    ∃ n0, ∀ n, n0 ≤ n → ∀ (F : Faults) (torn : Bytes → Bytes) (w : World) (file : Nat) (x' : Val) (w' : World),
      serializeToFile cfg (elem cfg env n t) F torn w file x = (.out (.ok x'), w') → x' = x := by
  obtain ⟨bs, he⟩ := exists_enc hv (fun _ h => h) hx
  obtain ⟨n1, h1⟩ := he.getSize hv (fun _ h => h)
  obtain ⟨n2, h2⟩ := he
  refine ⟨max n1 n2, fun n hn F torn w file x' w' h => ?_⟩
  have g1 := h1 n (by omega)
  simp only at g1
  unfold serializeToFile at h
  rw [g1] at h
  simp only at h
  split at h
  · cases h
  · rename_i b w1 _
    rw [packMem_law (fun _ h => h) (law hv _ t) (h2 n (by omega)).1 (by simp [builtinKinds])] at h
    split at h
    · rename_i hp
      split at hp
      · cases hp
        simp only [leave] at h
        split at h
        · cases h; rfl
        · cases h
      · cases hp
    · simp only [leave] at h
      split at h <;> cases h
    all_goals cases h

example : ∃ x', serializeToFile (Demo.cfg true false) (elem (Demo.cfg true false) Demo.env 1 Demo.int) noFaults id
    ⟨⟨fun _ => none, fun _ => none⟩, [], 3, [], 1, [], []⟩ 0 (.raw [5, 0, 0, 0]) = (.out (.ok x'),
      (serializeToFile (Demo.cfg true false) (elem (Demo.cfg true false) Demo.env 1 Demo.int) noFaults id
        ⟨⟨fun _ => none, fun _ => none⟩, [], 3, [], 1, [], []⟩ 0 (.raw [5, 0, 0, 0])).2) :=
  ⟨.raw [5, 0, 0, 0], Prod.ext rfl rfl⟩

/-! ## C10 -/

/-- C10, writing: the file holds exactly the bytes of the object, whatever it held before; other files are
untouched; no descriptor and no mapping is left; the bytes have reached the disk. -/
theorem C10_write (hv : env.Valid R (· ∈ builtinKinds) cfg) (hx : WT R env t x) (hs : StreamForm cfg env t x bs)
    (hfit : bs.length < 2 ^ 64) (hw : w.Ok) (file : Nat) (torn : Bytes → Bytes) :
    ∃ n0, ∀ n, n0 ≤ n → ∃ w', serializeToFile cfg (elem cfg env n t) noFaults torn w file x = (.out (.ok x), w') ∧
      w'.files file = some bs ∧ (∀ q, q ≠ file → w'.files q = w.files q) ∧ w'.fds = w.fds ∧ w'.maps = w.maps ∧
      w'.disk file = some bs := by
  have he := isEnc_of_stream hv hx hs
  have hlen := streamForm_length hv hx hs
  obtain ⟨n1, h1⟩ := he.getSize hv (fun _ h => h)
  obtain ⟨n2, h2⟩ := he.packIO hv (fun _ h => h)
  refine ⟨max n1 n2, fun n hn => ?_⟩
  have g1 := h1 n (by omega)
  rw [Nat.mod_eq_of_lt hfit] at g1
  obtain ⟨w', e1, e2, e3, e4, e5⟩ := serializeToFile_noFaults torn hw g1 (by omega) (h2 n (by omega)) file
  exact ⟨w', e1, by simp [e2], fun q hq => by simp [e2, hq], e3, e4, e5⟩

/-- C10, reading over an object `y`: for a file with the bytes of `x` in it. -/
theorem C10_read (hv : env.Valid .contents (· ∈ builtinKinds) cfg) (hx : WT .contents env t x) (hb : ByVal t x)
    (hs : StreamForm cfg env t x bs) (hw : w.Ok) {file : Nat} (hf : w.files file = some bs) {y : Val}
    (hy : Clean .contents cfg env t y) (hyb : ByVal t y) :
    ∃ z, Rel .contents env t x z ∧ ∃ n0, ∀ n, n0 ≤ n → ∃ w',
      deserializeInPlaceFromFile cfg (elem cfg env n t) noFaults w file y = (.out (.ok z), w') ∧
      w'.files = w.files ∧ w'.disk = w.disk ∧ w'.fds = w.fds ∧ w'.maps = w.maps := by
  have hlen := streamForm_length hv hx hs
  obtain ⟨z, hz, n0, h0⟩ := (isEnc_of_stream hv hx hs).unpackIO hv (fun _ h => h) (prior_of_clean hv hb hyb hy) []
  simp only [List.append_nil] at h0
  refine ⟨z, hz, n0, fun n hn => ?_⟩
  exact inPlaceFromFile_noFaults hw hf (by rintro rfl; simp at hlen) (h0 n hn) (.inl ⟨_, rfl⟩)

/-- C10: what `serializeToFile` wrote, `deserializeFromFile` and `deserializeInPlaceFromFile` read. -/
theorem C10_file_roundtrip (hv : env.Valid .contents (· ∈ builtinKinds) cfg) (hx : WT .contents env t x)
    (hb : ByVal t x) (hs : StreamForm cfg env t x bs) (hfit : bs.length < 2 ^ 64) (hw : w.Ok) (file : Nat)
    (torn : Bytes → Bytes) :
    ∃ n0, ∀ n, n0 ≤ n → ∃ w', serializeToFile cfg (elem cfg env n t) noFaults torn w file x = (.out (.ok x), w') ∧
      (∃ z, Rel .contents env t x z ∧ ∃ m0, ∀ m, m0 ≤ m → ∃ w'',
        deserializeFromFile cfg (elem cfg env m t) noFaults w' file = (.out (.ok z), w'') ∧
        w''.files file = some bs ∧ w''.fds = w.fds ∧ w''.maps = w.maps) ∧
      (∀ y, Clean .contents cfg env t y → ByVal t y → ∃ z, Rel .contents env t x z ∧ ∃ m0, ∀ m, m0 ≤ m → ∃ w'',
        deserializeInPlaceFromFile cfg (elem cfg env m t) noFaults w' file y = (.out (.ok z), w'') ∧
        w''.files file = some bs ∧ w''.fds = w.fds ∧ w''.maps = w.maps) := by
  obtain ⟨n0, h0⟩ := C10_write hv hx hs hfit hw file torn
  refine ⟨n0, fun n hn => ?_⟩
  obtain ⟨w', e1, e2, -, e3, e4, -⟩ := h0 n hn
  have hw' : w'.Ok := by
    have := serializeToFile_ok (F := noFaults) (p := file) (cfg := cfg) (e := elem cfg env n t) (torn := torn) hw x
    rwa [e1] at this
  have key : ∀ y, Clean .contents cfg env t y → ByVal t y → ∃ z, Rel .contents env t x z ∧ ∃ m0, ∀ m, m0 ≤ m →
      ∃ w'', deserializeInPlaceFromFile cfg (elem cfg env m t) noFaults w' file y = (.out (.ok z), w'') ∧
        w''.files file = some bs ∧ w''.fds = w.fds ∧ w''.maps = w.maps := by
    intro y hy hyb
    obtain ⟨z, hz, m0, h1⟩ := C10_read hv hx hb hs hw' e2 hy hyb
    refine ⟨z, hz, m0, fun m hm => ?_⟩
    obtain ⟨w'', g1, g2, -, g3, g4⟩ := h1 m hm
    exact ⟨w'', g1, by rw [g2, e2], by rw [g3, e3], by rw [g4, e4]⟩
  exact ⟨w', e1, key _ (hv.fresh t).1 (hv.fresh t).2, key⟩

/-- A file system with two files, one of them longer than what is written. -/
def Demo.world : World where
  files := fun q => if q = 0 then some (List.replicate 5000 7) else if q = 1 then some [1, 2] else none
  disk := fun q => if q = 0 then some (List.replicate 5000 7) else if q = 1 then some [1, 2] else none
  fds := [(0, 100), (1, 101), (2, 102)]

theorem Demo.world_ok : Demo.world.Ok := ⟨by decide, by decide⟩

example : WT .contents Demo.env Demo.sampleTy Demo.sample ∧ ByVal Demo.sampleTy Demo.sample ∧
    Demo.env.Valid .contents (· ∈ builtinKinds) (Demo.cfg true true) ∧ Demo.world.Ok ∧
    ∃ bs, StreamForm (Demo.cfg true true) Demo.env Demo.sampleTy Demo.sample bs :=
  ⟨Demo.sample_wt, Demo.sample_byVal, Demo.valid_contents, Demo.world_ok,
    StreamForm.exists Demo.valid_contents Demo.sample_wt⟩

/-! ## C11 -/

/-- C11: memory, stream and file get the same bytes. -/
theorem C11_one_format (hv : env.Valid R (· ∈ builtinKinds) cfg) (hx : WT R env t x) (hs : StreamForm cfg env t x bs)
    (hfit : bs.length < 2 ^ 64) (hw : w.Ok) (file : Nat) (torn : Bytes → Bytes) (data : Bytes) :
    Yields (fun n => serialize cfg (elem cfg env n t) none x)
      (.ok ({ mem := bs, size := bs.length, managed := true, calls := [] }, x)) ∧
    Yields (fun n => serializeToStream cfg (elem cfg env n t) x { data := data }) (.ok (x, { data := data ++ bs })) ∧
    ∃ n0, ∀ n, n0 ≤ n → (serializeToFile cfg (elem cfg env n t) noFaults torn w file x).2.files file = some bs := by
  have he := isEnc_of_stream hv hx hs
  refine ⟨he.serialize hv (fun _ h => h) hfit none, he.toStream hv (fun _ h => h) { data := data } (by simp), ?_⟩
  obtain ⟨n0, h0⟩ := C10_write hv hx hs hfit hw file torn
  refine ⟨n0, fun n hn => ?_⟩
  obtain ⟨w', e1, e2, -⟩ := h0 n hn
  rw [e1, e2]

/-- C11: the same bytes can be read from memory, from a stream and from a file. -/
theorem C11_read_anywhere (hv : env.Valid .contents (· ∈ builtinKinds) cfg) (hx : WT .contents env t x)
    (hb : ByVal t x) (hs : StreamForm cfg env t x bs) (hw : w.Ok) {file : Nat} (hf : w.files file = some bs)
    (rest : Bytes) :
    (∃ y, Rel .contents env t x y ∧ Yields (fun n => deserialize cfg (elem cfg env n t) bs) (.ok (y, bs.length))) ∧
    (∃ y, Rel .contents env t x y ∧
      Yields (fun n => deserializeFromStream cfg (elem cfg env n t) (bs ++ rest)) (.ok (y, rest))) ∧
    (∃ y, Rel .contents env t x y ∧ ∃ n0, ∀ n, n0 ≤ n →
      (deserializeFromFile cfg (elem cfg env n t) noFaults w file).1 = .out (.ok y)) := by
  have he := isEnc_of_stream hv hx hs
  have hp := prior_of_clean hv hb (hv.fresh t).2 (hv.fresh t).1
  refine ⟨?_, ?_, ?_⟩
  · obtain ⟨y, hy, h⟩ := he.inPlace hv (fun _ h => h) hp []
    simp only [List.append_nil, ← deserialize_elem] at h
    exact ⟨y, hy, h⟩
  · obtain ⟨y, hy, h⟩ := he.inStream hv (fun _ h => h) hp rest
    exact ⟨y, hy, h⟩
  · obtain ⟨y, hy, n0, h⟩ := C10_read hv hx hb hs hw hf (hv.fresh t).1 (hv.fresh t).2
    refine ⟨y, hy, n0, fun n hn => ?_⟩
    obtain ⟨w', e1, -⟩ := h n hn
    exact congrArg Prod.fst e1

/-! ## C12: files -/

/-- Reading an object of type `e` from `file`, over any object, throws a `serialization_error`. -/
def FileReadThrows {T : Type} (cfg : Cfg) (e : Elem T) (w : World) (file : Nat) : Prop :=
  ∀ y, ∃ k d tr, (deserializeInPlaceFromFile cfg e noFaults w file y).1 = .out (.throw (.ser k d tr))

theorem fileReadThrows {T : Type} {e : Elem T} {b rest : Bytes} (hw : w.Ok) {file : Nat}
    (hf : w.files file = some (b ++ rest)) (hb : b.length = 4)
    (hbad : validateIndex (intVal cfg.endian b) = false ∨ e.ti.idx ≠ intVal cfg.endian b) :
    FileReadThrows cfg e w file := by
  intro y
  obtain ⟨w', h, -⟩ := inPlaceFromFile_noFaults (cfg := cfg) (e := e) (y := y) hw hf
    (by rintro h; rw [List.append_eq_nil_iff] at h; rw [h.1] at hb; cases hb) (unpackIO_reject hb hbad y) (.inr ⟨_, rfl⟩)
  exact ⟨_, _, _, congrArg Prod.fst h⟩

/-- C12: a file with an object of another type is rejected. -/
theorem C12_file (hv : env.Valid R (· ∈ builtinKinds) cfg) (hx : WT R env t x) (hs : StreamForm cfg env t x bs)
    {T : Type} (e : Elem T) (hne : e.ti.idx ≠ (env.ti t).idx) (hw : w.Ok) {file : Nat} {rest : Bytes}
    (hf : w.files file = some (bs ++ rest)) : FileReadThrows cfg e w file := by
  obtain ⟨tl, rfl⟩ := streamForm_head hv hx hs
  rw [List.append_assoc] at hf
  refine fileReadThrows hw hf (by simp) (.inr ?_)
  rw [intVal_intBytes_of_lt _ (show _ < 256 ^ 4 from (hv.ti t).1)]
  exact hne

/-! ## C14: files -/

/-- C14: a file that starts with four zero bytes is rejected. -/
theorem C14_file_zero {T : Type} (e : Elem T) (hw : w.Ok) {file : Nat} {rest : Bytes}
    (hf : w.files file = some ([0, 0, 0, 0] ++ rest)) : FileReadThrows cfg e w file := by
  refine fileReadThrows hw hf rfl (.inl ?_)
  cases cfg.endian <;> decide

/-- C14: so is a file written on a machine of the opposite byte order. -/
theorem C14_file_swapped {T : Type} (e : Elem T) (hw : w.Ok) {file i : Nat} (hi : i < 2 ^ 16) {rest : Bytes}
    (hf : w.files file = some (intBytes cfg.endian.other 4 (encodeIndex i) ++ rest)) : FileReadThrows cfg e w file :=
  fileReadThrows hw hf (by simp) (.inl (validate_swapped cfg.endian hi))

/-- The example file system with a file of zeros, and one from a machine of the opposite byte order. -/
example : ∃ w : World, w.Ok ∧ (∃ rest, w.files 0 = some ([0, 0, 0, 0] ++ rest)) ∧
    ∃ rest, w.files 1 = some (intBytes (Demo.cfg true true).endian.other 4 (encodeIndex 3) ++ rest) :=
  ⟨{ Demo.world with files := fun q => if q = 0 then some (List.replicate 4096 0)
                                       else some (intBytes (Demo.cfg true true).endian.other 4 (encodeIndex 3)) },
    ⟨by decide, by decide⟩, ⟨List.replicate 4092 0, rfl⟩, [], by simp⟩

/-! ## C15: files -/

/-- C15: with error checking, a file with an object of which some class unpacks other members than it packs is
rejected. -/
theorem C15_file (hc : cfg.check = true) (hv : env.Usable R (· ∈ builtinKinds) cfg)
    (hd : env.Distinguishable) (hx : WT R env t x) (hb : ByVal t x) {k : Nat} (hk : Visits env t x k)
    (hne : (env.cls k).rfields ≠ (env.cls k).fields) {bs : Bytes} (hs : StreamForm cfg env t x bs)
    {y : Val} (hy : Clean R cfg env t y) (hyb : ByVal t y) (hw : w.Ok) {file : Nat} {rest : Bytes}
    (hf : w.files file = some (bs ++ rest)) :
    (∃ k d tr n0, ∀ n, n0 ≤ n →
      (deserializeInPlaceFromFile cfg (elem cfg env n t) noFaults w file y).1 = .out (.throw (.ser k d tr))) ∧
    (∃ k d tr n0, ∀ n, n0 ≤ n →
      (deserializeFromFile cfg (elem cfg env n t) noFaults w file).1 = .out (.throw (.ser k d tr))) := by
  have key : ∀ y, Clean R cfg env t y → ByVal t y → ∃ k d tr n0, ∀ n, n0 ≤ n →
      (deserializeInPlaceFromFile cfg (elem cfg env n t) noFaults w file y).1 = .out (.throw (.ser k d tr)) := by
    intro y hy hyb
    obtain ⟨h0, n0, k, d, tr, h⟩ := asym_fails hc hv hd hx hb hk hne hs hy hyb (rest := rest)
      (s := { core := .unpacker (bs ++ rest) 0 0, kind := .unpackerIO })
      ⟨rfl, by simp [checkedScope, builtinKinds], by simp⟩ (by simp [Ser.remaining])
    obtain ⟨n1, h1⟩ := Yields.throw_of_mono (n0 := n0) (fun h => unpackIO_le (elem_le cfg env h t) (bs ++ rest) y)
      (f := fun n => unpackIO cfg (elem cfg env n t) (bs ++ rest) y) (e := .ser k d tr) (by
        simp only [unpackIO, h]; rfl)
    refine ⟨k, d, tr, n1, fun n hn => ?_⟩
    obtain ⟨w', h, -⟩ := inPlaceFromFile_noFaults (cfg := cfg) (y := y) hw hf (by simp [h0]) (h1 n hn) (.inr ⟨_, rfl⟩)
    exact congrArg Prod.fst h
  obtain ⟨k, d, tr, n0, h⟩ := key _ (hv.fresh t).1 (hv.fresh t).2
  refine ⟨key y hy hyb, k, d, tr, n0, fun n hn => ?_⟩
  exact h n hn

example (ndebug : Bool) : ∃ bs rest, StreamForm (Demo.cfg true ndebug) Demo.asymEnv Demo.labelsTy Demo.labels bs ∧
    ∃ w : World, w.Ok ∧ w.files 0 = some (bs ++ rest) := by
  obtain ⟨bs, h⟩ := StreamForm.exists_checked (cfg := Demo.cfg true ndebug) rfl
    (Demo.asym_usable (R := .contents) (fun _ _ => trivial)) Demo.asym_distinguishable Demo.labels_wt
  exact ⟨bs, [], h, { Demo.world with files := fun _ => some (bs ++ []) }, ⟨Demo.world_ok.fds, Demo.world_ok.maps⟩, rfl⟩

/-! ## C39 -/

theorem writeStory (hv : env.Valid R (· ∈ builtinKinds) cfg) (hx : WT R env t x) (hs : StreamForm cfg env t x bs)
    (hfit : bs.length < 2 ^ 64) (hp : w.past = []) {file : Nat} (hd : w.disk file = w.files file) (F : Faults)
    (torn : Bytes → Bytes) :
    ∃ n0, ∀ n, n0 ≤ n → ∃ k, Story file (w.files file) (zeros bs.length) bs k
      (serializeToFile cfg (elem cfg env n t) F torn w file x).2.history ∧ (F w.log.length = none → 1 ≤ k) := by
  have he := isEnc_of_stream hv hx hs
  obtain ⟨n1, h1⟩ := he.getSize hv (fun _ h => h)
  obtain ⟨n2, h2⟩ := he.packIO hv (fun _ h => h)
  refine ⟨max n1 n2, fun n hn => ?_⟩
  have g1 := h1 n (by omega)
  rw [Nat.mod_eq_of_lt hfit] at g1
  have hstart : Story file (w.files file) (zeros bs.length) bs 0 w.history := by
    unfold World.history
    rw [hp]
    exact .start rfl hd
  exact serializeToFile_story F torn g1 (h2 n (by omega)) hstart

/-- C39, what a crash can leave: at any moment of `serializeToFile`, whatever system calls fail, the file
then holds what it held before, or nothing, or bytes of which each is either that of the object or zero. -/
theorem C39_states (hv : env.Valid R (· ∈ builtinKinds) cfg) (hx : WT R env t x) (hs : StreamForm cfg env t x bs)
    (hfit : bs.length < 2 ^ 64) (hp : w.past = []) {file : Nat} (hd : w.disk file = w.files file) (F : Faults)
    (torn : Bytes → Bytes) :
    ∃ n0, ∀ n, n0 ≤ n → ∀ d,
      AfterCrash file (serializeToFile cfg (elem cfg env n t) F torn w file x).2.history d →
      d = w.files file ∨ d = some [] ∨ ∃ b, d = some b ∧ Torn (List.replicate bs.length 0) bs b := by
  obtain ⟨n0, h0⟩ := writeStory hv hx hs hfit hp hd F torn
  refine ⟨n0, fun n hn d hc => ?_⟩
  obtain ⟨k, hk, -⟩ := h0 n hn
  exact hk.crash (by simp [zeros]) hc

/-- C39: once the file has been opened, a crash can leave it empty; what it held before is gone. -/
theorem C39_old_contents_lost (hv : env.Valid R (· ∈ builtinKinds) cfg) (hx : WT R env t x)
    (hs : StreamForm cfg env t x bs)
    (hfit : bs.length < 2 ^ 64) (hp : w.past = []) {file : Nat} (hd : w.disk file = w.files file) (F : Faults)
    (torn : Bytes → Bytes) (hopen : F w.log.length = none) :
    ∃ n0, ∀ n, n0 ≤ n →
      AfterCrash file (serializeToFile cfg (elem cfg env n t) F torn w file x).2.history (some []) := by
  obtain ⟨n0, h0⟩ := writeStory hv hx hs hfit hp hd F torn
  refine ⟨n0, fun n hn => ?_⟩
  obtain ⟨k, hk, h1⟩ := h0 n hn
  obtain ⟨s, hs, hf⟩ := hk.emptied (h1 hopen)
  have := AfterCrash.files (p := file) hs
  rwa [hf] at this

/-- Whatever system calls fail, reading the file does not return an object. -/
def NotRead {T : Type} (cfg : Cfg) (e : Elem T) (w : World) (file : Nat) : Prop :=
  ∀ (F : Faults) (y : T), (∃ err, (deserializeInPlaceFromFile cfg e F w file y).1 = .out (.throw err)) ∨
    (deserializeInPlaceFromFile cfg e F w file y).1 = .terminate

/-- A file that is missing, empty, or does not start with the index of the type. -/
theorem notRead_of_head {T : Type} {e : Elem T} {tl : Bytes} (hbs : bs = intBytes cfg.endian 4 e.ti.idx ++ tl)
    {d : Option Bytes} {file : Nat}
    (hd : d = none ∨ d = some [] ∨ ∃ b, d = some b ∧ Torn (List.replicate bs.length 0) bs b ∧ b.take 4 ≠ bs.take 4)
    {w' : World} (hw' : w'.files file = d) : NotRead cfg e w' file := by
  intro F y
  have hne : d = none ∨ d = some [] → ∀ b, w'.files file = some b → b = [] := by
    rintro (rfl | rfl) b hb <;> rw [hw'] at hb <;> simp_all
  unfold deserializeInPlaceFromFile
  have h := setupForRead_cases F w' file
  generalize setupForRead F w' file = r at h
  cases h with
  | closed => exact .inl ⟨_, rfl⟩
  | leaked => exact .inl ⟨_, rfl⟩
  | @done w'' b h0 h1 h2 h3 h4 h5 h6 =>
    rcases hd with hd | hd | ⟨b', rfl, ht, hb⟩
    · exact absurd (hne (.inl hd) b h0) h1
    · exact absurd (hne (.inr hd) b h0) h1
    · rw [hw', Option.some_inj] at h0
      subst h0
      have hm : (w''.files file).getD [] = b' := by simp [h5, hw']
      have hlen : 4 ≤ bs.length := by rw [hbs]; simp
      have hl : (b'.take 4).length = 4 := by
        have := ht.2.1
        simp only [List.length_take]
        omega
      have hu : Ckpt.unpackIO cfg e b' y = .throw (.ser (.wrongType e.ti.idx
          (intVal cfg.endian (b'.take 4))) 0 [e.ti.name]) := by
        have := unpackIO_reject (cfg := cfg) (e := e) (b := b'.take 4) (rest := b'.drop 4) hl
          (.inr ?_) y
        · rwa [List.take_append_drop] at this
        · intro he
          apply hb
          rw [hbs, List.take_left' (by simp), he]
          have := intBytes_intVal cfg.endian (b'.take 4)
          rw [hl] at this
          exact this.symm
      simp only [hm, hu, leave]
      split
      · exact .inl ⟨_, rfl⟩
      · exact .inr rfl

/-- C39: if the first four bytes of the data did not reach the file completely, or the file is empty or
missing, reading it later does not return an object, and throws unless closing the file fails. -/
theorem C39_detected (hv : env.Valid R (· ∈ builtinKinds) cfg) (hx : WT R env t x) (hs : StreamForm cfg env t x bs)
    {d : Option Bytes} {file n : Nat}
    (hd : d = none ∨ d = some [] ∨ ∃ b, d = some b ∧ Torn (List.replicate bs.length 0) bs b ∧ b.take 4 ≠ bs.take 4)
    {w' : World} (hw' : w'.files file = d) :
    NotRead cfg (elem cfg env n t) w' file := by
  obtain ⟨tl, hbs⟩ := streamForm_head hv hx hs
  exact notRead_of_head (e := elem cfg env n t) hbs hd hw'

/-- C39, the same for blocks: the first bytes are still zero. -/
theorem C39_first_block_lost (hv : env.Valid R (· ∈ builtinKinds) cfg) (hx : WT R env t x)
    (hs : StreamForm cfg env t x bs) {b : Bytes} (ht : Torn (List.replicate bs.length 0) bs b)
    (h0 : ∃ tl, b = 0 :: 0 :: 0 :: 0 :: tl) {file n : Nat} {w' : World} (hw' : w'.files file = some b) :
    NotRead cfg (elem cfg env n t) w' file := by
  refine C39_detected hv hx hs (.inr (.inr ⟨b, rfl, ht, ?_⟩)) hw'
  obtain ⟨tl, rfl⟩ := h0
  obtain ⟨tl', rfl⟩ := streamForm_head hv hx hs
  intro he
  rw [List.take_left' (l₁ := intBytes cfg.endian 4 (env.ti t).idx) (by simp)] at he
  have := congrArg (intVal cfg.endian) he
  rw [intVal_intBytes_of_lt _ (show _ < 256 ^ 4 from (hv.ti t).1)] at this
  have hz : intVal cfg.endian (List.take 4 (0 :: 0 :: 0 :: 0 :: tl)) = 0 := by
    cases cfg.endian <;> rfl
  rw [hz] at this
  have hval := (hv.ti t).2
  rw [← this] at hval
  exact absurd hval (by decide)

/-- C39: losses elsewhere are not always detected: for the integer 5, a crash can leave a file that is
read as the integer 0, in both builds. -/
theorem C39_not_always_detected (check : Bool) :
    ∃ (bs d : Bytes) (w w' : World),
      StreamForm (Demo.cfg check false) Demo.env Demo.int (.raw [5, 0, 0, 0]) bs ∧
      serializeToFile (Demo.cfg check false) (elem (Demo.cfg check false) Demo.env 1 Demo.int) noFaults id w 0
        (.raw [5, 0, 0, 0]) = (.out (.ok (.raw [5, 0, 0, 0])), w') ∧
      AfterCrash 0 w'.history (some d) ∧
      ∀ w'' : World, w''.Ok → w''.files 0 = some d →
        (deserializeFromFile (Demo.cfg check false) (elem (Demo.cfg check false) Demo.env 1 Demo.int) noFaults
          w'' 0).1 = .out (.ok (.raw [0, 0, 0, 0])) := by
  refine ⟨[173, 21, 0, 222, 5, 0, 0, 0, 29, 0, 0, 0, 0, 0, 0, 0], [173, 21, 0, 222, 0, 0, 0, 0, 29, 0, 0, 0, 0, 0, 0, 0],
    ⟨⟨fun _ => none, fun _ => none⟩, [], 3, [], 1, [], []⟩,
    (serializeToFile (Demo.cfg check false) (elem (Demo.cfg check false) Demo.env 1 Demo.int) noFaults id
      ⟨⟨fun _ => none, fun _ => none⟩, [], 3, [], 1, [], []⟩ 0 (.raw [5, 0, 0, 0])).2, ?_,
    Prod.ext (by cases check <;> rfl) rfl, ?_, ?_⟩
  · refine ⟨1, fun n hn => ?_⟩
    have h1 : serializeToStream (Demo.cfg check false) (elem (Demo.cfg check false) Demo.env 1 Demo.int)
        (.raw [5, 0, 0, 0]) { data := [] } =
        .ok (.raw [5, 0, 0, 0], { data := [173, 21, 0, 222, 5, 0, 0, 0, 29, 0, 0, 0, 0, 0, 0, 0] }) := by
      cases check <;> rfl
    have h2 := (toStream_le (cfg := Demo.cfg check false) (elem_le (Demo.cfg check false) Demo.env hn Demo.int)
      (.raw [5, 0, 0, 0]) { data := [] }).eq_of_ne (by rw [h1]; simp)
    exact h2.trans h1
  · have : ∃ l l' s s', (serializeToFile (Demo.cfg check false) (elem (Demo.cfg check false) Demo.env 1 Demo.int) noFaults id
        ⟨⟨fun _ => none, fun _ => none⟩, [], 3, [], 1, [], []⟩ 0 (.raw [5, 0, 0, 0])).2.history = l ++ s' :: s :: l' ∧
        s.files 0 = some (zeros 16) ∧ s.disk 0 = some (zeros 16) ∧
        s'.files 0 = some [173, 21, 0, 222, 5, 0, 0, 0, 29, 0, 0, 0, 0, 0, 0, 0] := by
      cases check <;> exact ⟨[_, _, _], _, _, _, rfl, rfl, rfl, rfl⟩
    obtain ⟨l, l', s, s', h1, h2, h3, h4⟩ := this
    refine .torn h1 h2 h3 h4 ⟨rfl, rfl, fun i => ?_⟩
    by_cases hi : i < 16
    · revert i; decide
    · left
      rw [List.getElem?_eq_none (by simp; omega), List.getElem?_eq_none (by simp [zeros]; omega)]
  · intro w'' hw hf
    obtain ⟨v, h, -⟩ := inPlaceFromFile_noFaults (cfg := Demo.cfg check false)
      (e := elem (Demo.cfg check false) Demo.env 1 Demo.int) (y := (elem (Demo.cfg check false) Demo.env 1 Demo.int).fresh)
      (o := .ok (.raw [0, 0, 0, 0])) hw hf (by simp) (by cases check <;> rfl) (.inl ⟨_, rfl⟩)
    exact congrArg Prod.fst h

/-! ## C40 -/

/-- C40, writing, for arbitrary element code and arbitrary failures: see `Ending`.  If the object cannot
even be sized, no file is touched. -/
theorem C40_write {T : Type} (cfg : Cfg) (e : Elem T) (F : Faults) (torn : Bytes → Bytes) (hw : w.Ok) (file : Nat)
    (x : T) :
    match getSize cfg e x with
    | .ok _ => Ending [.fallocate, .ftruncate, .fsync] [.close, .munmap, .msync] w
        (serializeToFile cfg e F torn w file x).2 file (serializeToFile cfg e F torn w file x).1
    | _ => (serializeToFile cfg e F torn w file x).2 = w := by
  cases hk : getSize cfg e x with
  | ok r => exact serializeToFile_ending cfg e F torn hw file x r.2 hk
  | _ => simp [serializeToFile, hk]

/-- C40, reading. -/
theorem C40_read {T : Type} (cfg : Cfg) (e : Elem T) (F : Faults) (hw : w.Ok) (file : Nat) (y : T) :
    Ending [.fstat] [.close, .munmap] w (deserializeInPlaceFromFile cfg e F w file y).2 file
        (deserializeInPlaceFromFile cfg e F w file y).1 ∧
    Ending [.fstat] [.close, .munmap] w (deserializeFromFile cfg e F w file).2 file
        (deserializeFromFile cfg e F w file).1 :=
  ⟨inPlaceFromFile_ending cfg e F hw file y, inPlaceFromFile_ending cfg e F hw file e.fresh⟩

/-- C40: the hypothesis holds again after every call. -/
theorem C40_again {T : Type} (cfg : Cfg) (e : Elem T) (F : Faults) (torn : Bytes → Bytes) (hw : w.Ok) (file : Nat)
    (x : T) : (serializeToFile cfg e F torn w file x).2.Ok ∧ (deserializeInPlaceFromFile cfg e F w file x).2.Ok ∧
      (deserializeFromFile cfg e F w file).2.Ok :=
  ⟨serializeToFile_ok hw x, inPlaceFromFile_ok hw x, inPlaceFromFile_ok hw _⟩

/-! What can happen, for the integer 5: everything works; there is no space; the file cannot be closed;
an empty file is read. -/

/-- Everything works. -/
example : (serializeToFile (Demo.cfg true false) (elem (Demo.cfg true false) Demo.env 1 Demo.int) noFaults id
    Demo.world 0 (.raw [5, 0, 0, 0])).2.log =
    [(.close, false), (.munmap, false), (.msync, false), (.mmap, false), (.fsync, false), (.ftruncate, false),
     (.fallocate, false), (.open_, false)] := by decide

/-- No space: an exception, and descriptor 3 is never closed. -/
example : (serializeToFile (Demo.cfg true false) (elem (Demo.cfg true false) Demo.env 1 Demo.int)
      (fun i => if i = 1 then some .nospc else none) id Demo.world 0 (.raw [5, 0, 0, 0])).1 = .out (.throw .io) ∧
    (3, 0) ∈ (serializeToFile (Demo.cfg true false) (elem (Demo.cfg true false) Demo.env 1 Demo.int)
      (fun i => if i = 1 then some .nospc else none) id Demo.world 0 (.raw [5, 0, 0, 0])).2.fds := by
  exact ⟨rfl, by decide⟩

/-- `fallocate` is not supported by the file system: ignored. -/
example : (serializeToFile (Demo.cfg true false) (elem (Demo.cfg true false) Demo.env 1 Demo.int)
      (fun i => if i = 1 then some .other else none) id Demo.world 0 (.raw [5, 0, 0, 0])).1 =
    .out (.ok (.raw [5, 0, 0, 0])) := rfl

/-- The mapping cannot be written back: the program ends. -/
example : (serializeToFile (Demo.cfg true false) (elem (Demo.cfg true false) Demo.env 1 Demo.int)
      (fun i => if i = 5 then some .other else none) id Demo.world 0 (.raw [5, 0, 0, 0])).1 = .terminate :=
  rfl

/-- Reading an empty file: an exception, and descriptor 3 is never closed. -/
example : (deserializeFromFile (Demo.cfg true false) (elem (Demo.cfg true false) Demo.env 1 Demo.int) noFaults
      { Demo.world with files := fun _ => some [] } 0).1 = .out (.throw .io) ∧
    (3, 0) ∈ (deserializeFromFile (Demo.cfg true false) (elem (Demo.cfg true false) Demo.env 1 Demo.int) noFaults
      { Demo.world with files := fun _ => some [] } 0).2.fds := by
  exact ⟨rfl, by decide⟩

/-! ## C37: files -/

/-- C37, `serializeToFile`: a serialize function that packs fewer bytes than it sized leaves zeros at the
end of the file, one that packs more writes past the mapped memory; nothing is reported. -/
theorem C37_file_unchecked (f : Script) {ti : TI} (hti : ti.Valid) (hfit : f.total .sizer + 12 < 2 ^ 64)
    (hw : w.Ok) (file : Nat) (torn : Bytes → Bytes) :
    (f.total .packerIO ≤ f.total .sizer →
      ∃ w', serializeToFile cfg (f.elem ti) noFaults torn w file () = (.out (.ok ()), w') ∧
        w'.files file = some (node cfg true ti 1 (f .packerIO).flatten ++
          List.replicate (f.total .sizer - f.total .packerIO) 0)) ∧
    (f.total .sizer < f.total .packerIO →
      (serializeToFile cfg (f.elem ti) noFaults torn w file ()).1 = .out (.ub .packOverflow)) := by
  have hk := f.getSize (cfg := cfg) hti hfit
  have hp := f.packMem (cfg := cfg) hti .packerIO (zeros (f.total .sizer + 12))
  constructor
  · intro h
    rw [if_pos (by simp [zeros]; omega)] at hp
    obtain ⟨w', e1, e2, -⟩ := serializeToFile_noFaults torn hw hk (by omega) hp file
    refine ⟨w', e1, ?_⟩
    rw [e2]
    simp only [if_true, Script.written, zeros, List.drop_replicate, Option.some_inj, List.append_cancel_left_eq]
    congr 1
    omega
  · intro h
    rw [if_neg (by simp [zeros]; omega)] at hp
    obtain ⟨w1, hs, h1, h2, h3⟩ := setupForWrite_noFaults w file (size := f.total .sizer + 12) (by omega)
    have hm : (w1.files file).getD [] = zeros (f.total .sizer + 12) := by simp [h3]
    simp [serializeToFile, hk, hs, hm, hp]

end

end Ckpt
