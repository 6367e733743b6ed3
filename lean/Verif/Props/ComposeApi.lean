import Verif.Proofs.ComposeApi
import Verif.Props.File
import Verif.Props.Compose
/-!
# C67: all calls of the library, for types nested in any way
-/

set_option autoImplicit false

namespace Ckpt

/-- The bytes `serializeToStream` writes for the object. -/
def BytesOf {T : Type} (cfg : Cfg) (t : CppType T) (x : T) (bs : Bytes) : Prop :=
  Yields (fun n => serializeToStream cfg (t.elem n) x { data := [] }) (.ok (x, { data := bs }))

section
variable {R : RelMode} {cfg : Cfg} {env : Env} {T : Type} {t : CppType T} {u : Usage T} {x : T} {bs : Bytes} {w : World}
variable (hv : env.Valid R (· ∈ builtinKinds) cfg) (h : Composed R cfg env t u) (hx : u.ok x)
include hv h hx

/-- **C67**: every object has exactly one serialized form, whenever and however often it is written. -/
theorem C67_bytes : (∃ bs, BytesOf cfg t x bs) ∧ ∀ bs bs', BytesOf cfg t x bs → BytesOf cfg t x bs' → bs = bs' := by
  obtain ⟨bs, h1, -⟩ := C65_composed_roundtrip hv h hx
  refine ⟨⟨bs, h1⟩, fun b b' hb hb' => ?_⟩
  have := Yields.unique hb hb'
  simpa using this

variable (hs : BytesOf cfg t x bs)
include hs

/-- **C67**: streams get these bytes behind what they hold, as far as there is room; memory chosen by the user gets
them at its start and keeps the rest, and the function that provides it is called once, with the size. -/
theorem C67_writing (hfit : bs.length < 2 ^ 64) :
    (∀ old, Yields (fun n => serializeToStream cfg (t.elem n) x { data := old }) (.ok (x, { data := old ++ bs }))) ∧
    (∀ old l, old.length ≤ l → Yields (fun n => serializeToStream cfg (t.elem n) x ⟨old, some l⟩)
      (.ok (x, ⟨(old ++ bs).take l, some l⟩))) ∧
    Yields (fun n => getSize cfg (t.elem n) x) (.ok (bs.length, x)) ∧
    Yields (fun n => serialize cfg (t.elem n) none x)
      (.ok ({ mem := bs, size := bs.length, managed := true, calls := [] }, x)) ∧
    ∀ fn mem, fn bs.length = some mem → bs.length ≤ mem.length → Yields (fun n => serialize cfg (t.elem n) (some fn) x)
      (.ok ({ mem := bs ++ mem.drop bs.length, size := bs.length, managed := false, calls := [bs.length] }, x)) := by
  obtain ⟨C, hC⟩ := h.composes hv
  have he := hC.encOf hx hs
  refine ⟨fun old => he.toStream hC { data := old } (by simp), fun old l hl => he.toStream hC ⟨old, some l⟩ (by simpa using hl),
    ?_, he.serialize hC hfit none, fun fn mem hf hle => ?_⟩
  · have := he.getSize hC
    rwa [Nat.mod_eq_of_lt hfit] at this
  · have := he.serialize hC hfit (some fn)
    simp only [serResult, hf, if_pos hle] at this
    exact this

/-- **C67**: a file holds exactly these bytes afterwards, whatever it held before; other files are untouched, no
descriptor and no mapping is left, and the bytes have reached the disk. -/
theorem C67_file_write (hfit : bs.length < 2 ^ 64) (hw : w.Ok) (file : Nat) (torn : Bytes → Bytes) :
    ∃ n0, ∀ n, n0 ≤ n → ∃ w', serializeToFile cfg (t.elem n) noFaults torn w file x = (.out (.ok x), w') ∧
      w'.files file = some bs ∧ (∀ q, q ≠ file → w'.files q = w.files q) ∧ w'.fds = w.fds ∧ w'.maps = w.maps ∧
      w'.disk file = some bs := by
  obtain ⟨C, hC⟩ := h.composes hv
  have he := hC.encOf hx hs
  have hlen := he.ne_nil
  obtain ⟨n1, h1⟩ := he.getSize hC
  obtain ⟨n2, h2⟩ := he.packIO hC
  refine ⟨max n1 n2, fun n hn => ?_⟩
  have g1 := h1 n (by omega)
  rw [Nat.mod_eq_of_lt hfit] at g1
  obtain ⟨w', e1, e2, e3, e4, e5⟩ := serializeToFile_noFaults torn hw g1 (by omega) (h2 n (by omega)) file
  exact ⟨w', e1, by simp [e2], fun q hq => by simp [e2, hq], e3, e4, e5⟩

/-- **C67**: such a file, whatever follows in it, is read over an object or as a new one. -/
theorem C67_file_read (hw : w.Ok) {file : Nat} {rest : Bytes} (hf : w.files file = some (bs ++ rest)) :
    (∀ y, u.clean y → ∃ z, u.same x z ∧ ∃ n0, ∀ n, n0 ≤ n → ∃ w',
      deserializeInPlaceFromFile cfg (t.elem n) noFaults w file y = (.out (.ok z), w') ∧
      w'.files = w.files ∧ w'.disk = w.disk ∧ w'.fds = w.fds ∧ w'.maps = w.maps) ∧
    (∃ z, u.same x z ∧ ∃ n0, ∀ n, n0 ≤ n → ∃ w', deserializeFromFile cfg (t.elem n) noFaults w file = (.out (.ok z), w') ∧
      w'.files = w.files ∧ w'.disk = w.disk ∧ w'.fds = w.fds ∧ w'.maps = w.maps) := by
  obtain ⟨C, hC⟩ := h.composes hv
  have he := hC.encOf hx hs
  have hlen := he.ne_nil
  have key : ∀ y, u.clean y → ∃ z, u.same x z ∧ ∃ n0, ∀ n, n0 ≤ n → ∃ w',
      deserializeInPlaceFromFile cfg (t.elem n) noFaults w file y = (.out (.ok z), w') ∧
      w'.files = w.files ∧ w'.disk = w.disk ∧ w'.fds = w.fds ∧ w'.maps = w.maps := by
    intro y hy
    obtain ⟨z, hz, n0, h0⟩ := he.unpackIO hC hy rest
    refine ⟨z, hz, n0, fun n hn => ?_⟩
    exact inPlaceFromFile_noFaults hw hf (by rw [ne_eq, List.append_eq_nil_iff]; rintro ⟨rfl, -⟩; simp at hlen)
      (h0 n hn) (.inl ⟨_, rfl⟩)
  exact ⟨key, key _ hC.fresh⟩

/-- **C67**: a read as any other type is rejected in every build, before any code of that type runs. -/
theorem C67_wrong_type {S : Type} (e : Elem S) (hne : e.ti.idx ≠ t.ti.idx) (rest : Bytes) :
    AllReadsThrow cfg e (bs ++ rest) ∧
    ∀ (w : World) (file : Nat), w.Ok → w.files file = some (bs ++ rest) → FileReadThrows cfg e w file := by
  obtain ⟨C, hC⟩ := h.composes hv
  obtain ⟨tl, rfl⟩ := (hC.encOf hx hs).head
  rw [List.append_assoc]
  have hbad : e.ti.idx ≠ intVal cfg.endian (intBytes cfg.endian 4 t.ti.idx) := by
    rw [intVal_intBytes_of_lt _ (show _ < 256 ^ 4 from (hC.law 0).ti_valid.1)]
    exact hne
  exact ⟨allReadsThrow (by simp) (.inr hbad) _, fun w file hw hf => fileReadThrows hw hf (by simp) (.inr hbad)⟩

/-- **C67**: if the medium behind the stream could not hold all of the object, reading it from its place throws. -/
theorem C67_full_medium {old new : Bytes} {l : Nat} {x1 : T} (hl : old.length ≤ l) (hfull : l < old.length + bs.length)
    (hw : Yields (fun n => serializeToStream cfg (t.elem n) x ⟨old, some l⟩) (.ok (x1, ⟨new, some l⟩)))
    {y : T} (hy : u.clean y) : new.take old.length = old ∧
    Yields (fun n => deserializeInPlaceFromStream cfg (t.elem n) (new.drop old.length) y) (.throw .streamShort) := by
  obtain ⟨C, hC⟩ := h.composes hv
  have he := hC.encOf hx hs
  have h1 := hw.unique (he.toStream hC ⟨old, some l⟩ (by simpa using hl))
  simp only [Out.ok.injEq, Prod.mk.injEq, OStream.mk.injEq, and_true] at h1
  obtain ⟨-, rfl⟩ := h1
  have hd : ((old ++ bs).take l).drop old.length = bs.take (l - old.length) := by
    rw [List.drop_take, List.drop_left]
  refine ⟨by rw [List.take_take, Nat.min_eq_left hl, List.take_left], ?_⟩
  rw [hd]
  refine he.inStream_short hC hy (tl := bs.drop (l - old.length)) ?_ (List.take_append_drop _ _).symm
  rw [ne_eq, List.drop_eq_nil_iff]
  omega

/-- **C67**: the footprint is at least the size of the object; an offset is added to it; the object is not changed. -/
theorem C67_footprint (hsz : t.ti.sizeof < 2 ^ 64) : ∃ f, t.ti.sizeof ≤ f ∧ f < 2 ^ 64 ∧
    ∀ off, Yields (fun n => getMemoryFootprint cfg (t.elem n) x off) (.ok ((off + f) % 2 ^ 64, x)) := by
  obtain ⟨C, hC⟩ := h.composes hv
  exact (hC.encOf hx hs).footprint hC hsz

/-- **C67**: objects with the same serialized form are restored as the same object; no serialized form is a proper
prefix of another one. -/
theorem C67_injective {x' : T} (hx' : u.ok x') {bs' : Bytes} (hs' : BytesOf cfg t x' bs') (hp : bs <+: bs') :
    bs = bs' ∧ ∃ z, u.same x z ∧ u.same x' z := by
  obtain ⟨C, hC⟩ := h.composes hv
  obtain ⟨tl, rfl⟩ := hp
  obtain ⟨z, hz, hr⟩ := (hC.encOf hx hs).inPlace hC hC.fresh tl
  obtain ⟨z', hz', hr'⟩ := (hC.encOf hx' hs').inPlace hC hC.fresh []
  rw [List.append_nil] at hr'
  have := hr.unique hr'
  simp only [Out.ok.injEq, Prod.mk.injEq, List.length_append] at this
  obtain ⟨rfl, hlen⟩ := this
  obtain rfl : tl = [] := List.length_eq_zero_iff.1 (by omega)
  exact ⟨by simp, z, hz, hz'⟩

/-- **C67**, crashes: at any moment of `serializeToFile`, whatever system calls fail, the file then holds what it held
before, or nothing, or bytes of which each is that of the object or zero. -/
theorem C67_crash (hfit : bs.length < 2 ^ 64) (hp : w.past = []) {file : Nat} (hd : w.disk file = w.files file)
    (F : Faults) (torn : Bytes → Bytes) :
    ∃ n0, ∀ n, n0 ≤ n → ∀ d, AfterCrash file (serializeToFile cfg (t.elem n) F torn w file x).2.history d →
      d = w.files file ∨ d = some [] ∨ ∃ b, d = some b ∧ Torn (List.replicate bs.length 0) bs b := by
  obtain ⟨C, hC⟩ := h.composes hv
  have he := hC.encOf hx hs
  obtain ⟨n1, h1⟩ := he.getSize hC
  obtain ⟨n2, h2⟩ := he.packIO hC
  refine ⟨max n1 n2, fun n hn d hc => ?_⟩
  have g1 := h1 n (by omega)
  rw [Nat.mod_eq_of_lt hfit] at g1
  have hstart : Story file (w.files file) (zeros bs.length) bs 0 w.history := by
    unfold World.history
    rw [hp]
    exact .start rfl hd
  obtain ⟨k, hk, -⟩ := serializeToFile_story F torn g1 (h2 n (by omega)) hstart
  exact hk.crash (by simp [zeros]) hc

/-- **C67**, crashes: if the first four bytes did not reach the file, or the file is empty or missing, reading it does
not return an object. -/
theorem C67_crash_detected {d : Option Bytes} {file n : Nat}
    (hd : d = none ∨ d = some [] ∨ ∃ b, d = some b ∧ Torn (List.replicate bs.length 0) bs b ∧ b.take 4 ≠ bs.take 4)
    {w' : World} (hw' : w'.files file = d) : NotRead cfg (t.elem n) w' file := by
  obtain ⟨C, hC⟩ := h.composes hv
  obtain ⟨tl, hbs⟩ := (hC.encOf hx hs).head
  exact notRead_of_head (e := t.elem n) hbs hd hw'

end

/-- The hypotheses are met by the class and the object of `Verif.Props.Compose`, written to a file that is longer. -/
example : ∃ bs, BytesOf (Demo.cfg true false) (Demo.gridType (Demo.cfg true false)) Demo.grid bs ∧ Demo.world.Ok ∧
    Demo.world.past = [] ∧ Demo.world.disk 0 = Demo.world.files 0 ∧
    (Demo.gridType (Demo.cfg true false)).ti.sizeof < 2 ^ 64 := by
  obtain ⟨bs, hbs⟩ := (C67_bytes Demo.valid_contents (Demo.gridComposed (check := true) (ndebug := false))
    (Demo.grid_ok _)).1
  exact ⟨bs, hbs, Demo.world_ok, rfl, rfl, by decide⟩

end Ckpt
