import Verif.Spec.Crash
import Verif.Spec.Ending
import Verif.Spec.World
import Verif.Proofs.Api
/-!
Lemmas about the file model.
-/

set_option autoImplicit false

namespace Ckpt

variable {F : Faults} {w w' : World} {file size : Nat}

/-- The zeros of a new file. -/
def zeros (n : Nat) : Bytes := List.replicate n 0

/-- How `setupForWrite` can end. -/
inductive WriteSetup (w : World) (file size : Nat) : Option IOBuffer × World → Prop
  | closed : WriteSetup w file size (none, w.called .open_ true)
  | leaked {w' : World} {c : Call} {mid : List (Call × Bool)} :
      c ∈ [Call.fallocate, .ftruncate, .fsync, .mmap] →
      (∀ p ∈ mid, p.1 ∈ [Call.fallocate, .ftruncate, .fsync]) →
      w'.log = (c, true) :: (mid ++ (.open_, false) :: w.log) →
      w'.fds = (w.nextFd, file) :: w.fds → w'.maps = w.maps → WriteSetup w file size (none, w')
  | done {w' : World} {fa : Bool} :
      size ≠ 0 →
      w'.log = (.mmap, false) :: (.fsync, false) :: (.ftruncate, false) :: (.fallocate, fa) ::
        (.open_, false) :: w.log →
      w'.fds = (w.nextFd, file) :: w.fds → w'.maps = (w.nextMap, ⟨file, size⟩) :: w.maps →
      w'.files = (fun q => if q = file then some (zeros size) else w.files q) →
      w'.disk = (fun q => if q = file then some (zeros size) else w.disk q) →
      WriteSetup w file size
        (some { write := true, file := file, size := size, buffer := w.nextMap, fd := some w.nextFd }, w')

theorem setupForWrite_cases (F : Faults) (w : World) (file size : Nat) :
    WriteSetup w file size (setupForWrite F w file size) := by
  have hz : ∀ n : Nat, ([] : Bytes).take n ++ List.replicate (n - ([] : Bytes).length) 0 = zeros n := by
    intro n; simp [zeros]
  have hz' : ∀ n : Nat, ([] : Bytes) ++ List.replicate (n - ([] : Bytes).length) 0 = zeros n := by
    intro n; simp [zeros]
  have hz2 : ∀ n : Nat, (zeros n).take n ++ List.replicate (n - (zeros n).length) 0 = zeros n := by
    intro n; simp [zeros]
  have hF : ∀ k, F k = none ∨ ∃ e, F k = some e := fun k => by cases F k <;> simp
  unfold setupForWrite
  rcases hF w.log.length with h0 | ⟨e, h0⟩
  · simp only [World.openTrunc, World.fault, h0, Option.isSome_none, Bool.false_eq_true, if_false,
      World.fallocate, World.called, World.setFile, List.length_cons, if_true, Option.getD_some, hz']
    rcases hF (w.log.length + 1) with h1 | ⟨e, h1⟩
    · simp only [h1]
      simp only [World.ftruncate, World.fault, World.called, World.setFile, List.length_cons, if_true,
        Option.getD_some, hz2]
      rcases hF (w.log.length + 1 + 1) with h2 | ⟨e, h2⟩
      · simp only [h2, Option.isSome_none, Bool.false_eq_true, if_false, World.fsync, World.fault, World.called,
          List.length_cons]
        rcases hF (w.log.length + 1 + 1 + 1) with h3 | ⟨e, h3⟩
        · simp only [h3, Option.isSome_none, Bool.false_eq_true, if_false, World.sync, World.mmap, World.fault,
            World.called, List.length_cons]
          rcases hF (w.log.length + 1 + 1 + 1 + 1) with h4 | ⟨e, h4⟩
          · by_cases hs : size = 0
            · simp only [h4, Option.isSome_none, Bool.false_or, hs, decide_true, if_true]
              exact .leaked (mid := [(.fsync, false), (.ftruncate, false), (.fallocate, false)]) (by decide) (by simp) rfl rfl rfl
            · simp only [h4, Option.isSome_none, Bool.false_or, hs, decide_false, Bool.false_eq_true, if_false]
              refine .done hs rfl rfl rfl ?_ ?_
              · funext q; by_cases hq : q = file <;> simp [hq]
              · funext q; by_cases hq : q = file <;> simp [hq]
          · simp only [h4, Option.isSome_some, Bool.true_or, if_true]
            exact .leaked (mid := [(.fsync, false), (.ftruncate, false), (.fallocate, false)]) (by decide) (by simp) rfl rfl rfl
        · simp only [h3, Option.isSome_some, if_true]
          exact .leaked (mid := [(.ftruncate, false), (.fallocate, false)]) (by decide) (by simp) rfl rfl rfl
      · simp only [h2, Option.isSome_some, if_true]
        exact .leaked (mid := [(.fallocate, false)]) (by decide) (by simp) rfl rfl rfl
    · cases e with
      | nospc =>
        simp only [h1]
        exact .leaked (mid := []) (by decide) (by simp) rfl rfl rfl
      | other =>
        simp only [h1]
        simp only [World.ftruncate, World.fault, World.called, World.setFile, List.length_cons, if_true,
          Option.getD_some, hz]
        rcases hF (w.log.length + 1 + 1) with h2 | ⟨e, h2⟩
        · simp only [h2, Option.isSome_none, Bool.false_eq_true, if_false, World.fsync, World.fault, World.called,
            List.length_cons]
          rcases hF (w.log.length + 1 + 1 + 1) with h3 | ⟨e, h3⟩
          · simp only [h3, Option.isSome_none, Bool.false_eq_true, if_false, World.sync, World.mmap, World.fault,
              World.called, List.length_cons]
            rcases hF (w.log.length + 1 + 1 + 1 + 1) with h4 | ⟨e, h4⟩
            · by_cases hs : size = 0
              · simp only [h4, Option.isSome_none, Bool.false_or, hs, decide_true, if_true]
                exact .leaked (mid := [(.fsync, false), (.ftruncate, false), (.fallocate, true)]) (by decide) (by simp) rfl rfl rfl
              · simp only [h4, Option.isSome_none, Bool.false_or, hs, decide_false, Bool.false_eq_true, if_false]
                refine .done hs rfl rfl rfl ?_ ?_
                · funext q; by_cases hq : q = file <;> simp [hq]
                · funext q; by_cases hq : q = file <;> simp [hq]
            · simp only [h4, Option.isSome_some, Bool.true_or, if_true]
              exact .leaked (mid := [(.fsync, false), (.ftruncate, false), (.fallocate, true)]) (by decide) (by simp) rfl rfl rfl
          · simp only [h3, Option.isSome_some, if_true]
            exact .leaked (mid := [(.ftruncate, false), (.fallocate, true)]) (by decide) (by simp) rfl rfl rfl
        · simp only [h2, Option.isSome_some, if_true]
          exact .leaked (mid := [(.fallocate, true)]) (by decide) (by simp) rfl rfl rfl
  · simp only [World.openTrunc, World.fault, h0, Option.isSome_some, if_true]
    exact .closed

/-- How `setupForRead` can end. -/
inductive ReadSetup (w : World) (file : Nat) : Option IOBuffer × World → Prop
  | closed : ReadSetup w file (none, w.called .open_ true)
  | leaked {w' : World} {c : Call} {mid : List (Call × Bool)} :
      c ∈ [Call.fstat, .mmap] → (∀ p ∈ mid, p = (.fstat, false)) →
      w'.log = (c, true) :: (mid ++ (.open_, false) :: w.log) →
      w'.fds = (w.nextFd, file) :: w.fds → w'.maps = w.maps → w'.files = w.files → w'.disk = w.disk →
      ReadSetup w file (none, w')
  | done {w' : World} {bs : Bytes} :
      w.files file = some bs → bs ≠ [] →
      w'.log = (.mmap, false) :: (.fstat, false) :: (.open_, false) :: w.log →
      w'.fds = (w.nextFd, file) :: w.fds → w'.maps = (w.nextMap, ⟨file, bs.length⟩) :: w.maps →
      w'.files = w.files → w'.disk = w.disk →
      ReadSetup w file
        (some { write := false, file := file, size := bs.length, buffer := w.nextMap, fd := some w.nextFd }, w')

theorem setupForRead_cases (F : Faults) (w : World) (file : Nat) :
    ReadSetup w file (setupForRead F w file) := by
  have hF : ∀ k, F k = none ∨ ∃ e, F k = some e := fun k => by cases F k <;> simp
  unfold setupForRead
  rcases hF w.log.length with h0 | ⟨e, h0⟩
  · rcases hf : w.files file with _ | bs
    · simp only [World.openRead, World.fault, h0, hf, Option.isNone_none, Bool.or_true, if_true]
      exact .closed
    · simp only [World.openRead, World.fault, h0, hf, Option.isSome_none, Option.isNone_some, Bool.or_false,
        Bool.false_eq_true, if_false, World.fstat, World.called, List.length_cons, Option.getD_some]
      rcases hF (w.log.length + 1) with h1 | ⟨e, h1⟩
      · simp only [h1, Option.isSome_none, Bool.false_eq_true, if_false, World.mmap, World.fault, World.called,
          List.length_cons]
        rcases hF (w.log.length + 1 + 1) with h2 | ⟨e, h2⟩
        · by_cases hs : bs.length = 0
          · simp only [h2, hs, decide_true, Option.isSome_none, Bool.or_true, if_true]
            exact .leaked (mid := [(.fstat, false)]) (by decide) (by simp) rfl rfl rfl rfl rfl
          · simp only [h2, hs, decide_false, Option.isSome_none, Bool.or_false, Bool.false_eq_true, if_false]
            exact .done hf (by simpa using hs) rfl rfl rfl rfl rfl
        · simp only [h2, Option.isSome_some, Bool.true_or, if_true]
          exact .leaked (mid := [(.fstat, false)]) (by decide) (by simp) rfl rfl rfl rfl rfl
      · simp only [h1, Option.isSome_some, if_true]
        exact .leaked (mid := []) (by decide) (by simp) rfl rfl rfl rfl rfl
  · simp only [World.openRead, World.fault, h0, Option.isSome_some, Bool.true_or, if_true]
    exact .closed

/-- The calls of `closeFile`, latest first. -/
def closeCalls (write : Bool) : List (Call × Bool) :=
  [(.close, false), (.munmap, false)] ++ (if write then [(.msync, false)] else [])

/-- How `closeFile` can end, for a file that was mapped. -/
inductive Closing (w : World) (b : IOBuffer) (fds : List (Nat × Nat)) (maps : List (Nat × Mapping)) :
    Bool × World → Prop
  | done {w' : World} : w'.log = closeCalls b.write ++ w.log → w'.fds = fds → w'.maps = maps →
      w'.files = w.files →
      w'.disk = (fun q => if b.write = true ∧ q = b.file then w.files q else w.disk q) → Closing w b fds maps (true, w')
  | failed {w' : World} {c : Call} {mid : List (Call × Bool)} : c ∈ [Call.msync, .munmap, .close] →
      w'.log = (c, true) :: (mid ++ w.log) → mid <:+ (closeCalls b.write).tail → w'.files = w.files →
      (b.write = true ∨ c ≠ .msync) → Closing w b fds maps (false, w')

theorem filter_fresh {β : Type} {l : List (Nat × β)} {n : Nat} (h : ∀ p ∈ l, p.1 < n) (v : β) :
    ((n, v) :: l).filter (·.1 != n) = l := by
  rw [List.filter_cons_of_neg (by simp), List.filter_eq_self]
  intro p hp
  have := h p hp
  simp only [bne_iff_ne, ne_eq]
  omega

theorem closeFile_cases (F : Faults) {w : World} {b : IOBuffer} {fd len : Nat} {fds : List (Nat × Nat)}
    {maps : List (Nat × Mapping)} (hb : b.fd = some fd) (h1 : w.fds = (fd, b.file) :: fds)
    (h2 : w.maps = (b.buffer, ⟨b.file, len⟩) :: maps) (hf : ∀ p ∈ fds, p.1 < fd) (hm : ∀ p ∈ maps, p.1 < b.buffer) :
    Closing w b fds maps (closeFile F w b) := by
  have hF : ∀ k, F k = none ∨ ∃ e, F k = some e := fun k => by cases F k <;> simp
  obtain ⟨wr, file, size, addr, fd'⟩ := b
  simp only at hb h1 h2 hf hm
  subst hb
  unfold closeFile
  cases wr with
  | true =>
    simp only [if_true, World.msync, h2, List.find?_cons, beq_self_eq_true, World.fault, World.called]
    rcases hF w.log.length with g0 | ⟨e, g0⟩
    · simp only [g0, Option.isSome_none, Bool.false_eq_true, if_false, World.sync, World.munmap, World.fault,
        World.called, List.length_cons]
      rcases hF (w.log.length + 1) with g1 | ⟨e, g1⟩
      · simp only [g1, Option.isSome_none, Bool.false_eq_true, if_false, World.close, World.fault, World.called,
          List.length_cons]
        rcases hF (w.log.length + 1 + 1) with g2 | ⟨e, g2⟩
        · simp only [g2, h1, List.any_cons, beq_self_eq_true, Bool.true_or, Bool.not_true, Option.isSome_none,
            Bool.or_false, Bool.false_eq_true, if_false]
          refine .done rfl (filter_fresh hf _) ?_ rfl ?_
          · exact filter_fresh hm _
          · funext q
            by_cases hq : q = file <;> simp [hq]
        · simp only [g2, Option.isSome_some, Bool.true_or, if_true]
          exact .failed (mid := [(.munmap, false), (.msync, false)]) (by decide) rfl (List.suffix_refl _) rfl (by simp)
      · simp only [g1, Option.isSome_some, if_true]
        exact .failed (mid := [(.msync, false)]) (by decide) rfl ⟨[(.munmap, false)], rfl⟩ rfl (by simp)
    · simp only [g0, Option.isSome_some, if_true]
      exact .failed (mid := []) (by decide) rfl (List.nil_suffix) rfl (by simp)
  | false =>
    simp only [Bool.false_eq_true, if_false, World.munmap, World.fault, World.called]
    rcases hF w.log.length with g1 | ⟨e, g1⟩
    · simp only [g1, Option.isSome_none, Bool.false_eq_true, if_false, World.close, World.fault, World.called,
        List.length_cons]
      rcases hF (w.log.length + 1) with g2 | ⟨e, g2⟩
      · simp only [g2, h1, List.any_cons, beq_self_eq_true, Bool.true_or, Bool.not_true, Option.isSome_none,
          Bool.or_false, Bool.false_eq_true, if_false]
        refine .done rfl (filter_fresh hf _) ?_ rfl ?_
        · rw [h2]; exact filter_fresh hm _
        · simp
      · simp only [g2, Option.isSome_some, Bool.true_or, if_true]
        exact .failed (mid := [(.munmap, false)]) (by decide) rfl (List.suffix_refl _) rfl (by simp)
    · simp only [g1, Option.isSome_some, if_true]
      exact .failed (mid := []) (by decide) rfl (List.nil_suffix) rfl (by simp)

theorem World.Ok.free (h : w.Ok) : ∀ p ∈ w.fds, p.1 ≠ w.nextFd := fun p hp => Nat.ne_of_lt (h.fds p hp)

variable {α : Type}

/-- Leaving the scope of the `IOBuffer` of a mapped file. -/
theorem leave_ending {prepare close : List Call} {b : IOBuffer} {mid : List (Call × Bool)} {len : Nat}
    (hw : w.Ok) (hcl : closeCalls b.write = close.map (·, false)) (hmid : ∀ p ∈ mid, p.1 ∈ prepare)
    (hfile : b.file = file) (hfd : b.fd = some w.nextFd) (hbuf : b.buffer = w.nextMap)
    (hlog : w'.log = (.mmap, false) :: (mid ++ (.open_, false) :: w.log))
    (hfds : w'.fds = (w.nextFd, file) :: w.fds) (hmaps : w'.maps = (w.nextMap, ⟨file, len⟩) :: w.maps) (o : Out α)
    (hc : ∀ c ∈ [Call.msync, .munmap, .close], b.write = true ∨ c ≠ .msync → c ∈ close) :
    Ending prepare close w (leave F w' b o).2 file (leave F w' b o).1 := by
  subst hfile
  have key : ∀ o : Out α, ((∃ a, o = .ok a) ∨ ∃ err, o = .throw err) →
      Ending prepare close w
        (match closeFile F w' b with | (true, w) => ((Final.out o : Final α), w) | (false, w) => (.terminate, w)).2 b.file
        (match closeFile F w' b with | (true, w) => ((Final.out o : Final α), w) | (false, w) => (.terminate, w)).1 := by
    intro o ho
    have h := closeFile_cases F hfd hfds (by rw [hmaps, hbuf]) hw.fds (by rw [hbuf]; exact hw.maps)
    generalize closeFile F w' b = r at h
    cases h with
    | done h1 h2 h3 h4 h5 =>
      exact .balanced hmid (by rw [h1, hcl, hlog]) h2 h3 ho
    | failed h1 h2 h3 h4 h5 =>
      exact .terminated hmid (hc _ h1 h5) (by rw [← hcl]; exact h3) (by rw [h2, hlog])
  cases o with
  | ok a => exact key _ (.inl ⟨_, rfl⟩)
  | throw e => exact key _ (.inr ⟨_, rfl⟩)
  | abort => exact .died hmid hlog (.inl rfl)
  | ub u => exact .died hmid hlog (.inr (.inl ⟨_, rfl⟩))
  | fuel => exact .died hmid hlog (.inr (.inr rfl))

theorem serializeToFile_ending {T : Type} (cfg : Cfg) (e : Elem T) (F : Faults) (torn : Bytes → Bytes) (hw : w.Ok)
    (file : Nat) (x x' : T) {k : Nat} (hk : getSize cfg e x = .ok (k, x')) :
    Ending [.fallocate, .ftruncate, .fsync] [.close, .munmap, .msync] w
      (serializeToFile cfg e F torn w file x).2 file (serializeToFile cfg e F torn w file x).1 := by
  unfold serializeToFile
  simp only [hk]
  have h := setupForWrite_cases F w file k
  generalize setupForWrite F w file k = r at h
  cases h with
  | closed => exact .notOpened rfl rfl rfl rfl
  | leaked h1 h2 h3 h4 h5 =>
    exact .leaked (by revert h1; simp only [List.mem_cons]; tauto) h2 h3 hw.free h4 h5
  | @done w' fa h1 h2 h3 h4 h5 h6 =>
    have hmid : ∀ p ∈ [(Call.fsync, false), (.ftruncate, false), (.fallocate, fa)],
        p.1 ∈ [Call.fallocate, .ftruncate, .fsync] := by simp
    have hc : ∀ c ∈ [Call.msync, .munmap, .close], true = true ∨ c ≠ .msync → c ∈ [Call.close, .munmap, .msync] := by
      decide
    have hleave : ∀ (v : World) (o : Out T), v.log = w'.log → v.fds = w'.fds → v.maps = w'.maps →
        Ending [.fallocate, .ftruncate, .fsync] [.close, .munmap, .msync] w
          (leave F v { write := true, file := file, size := k, buffer := w.nextMap, fd := some w.nextFd } o).2 file
          (leave F v { write := true, file := file, size := k, buffer := w.nextMap, fd := some w.nextFd } o).1 := by
      intro v o g1 g2 g3
      refine leave_ending (mid := [(.fsync, false), (.ftruncate, false), (.fallocate, fa)]) (len := k) hw rfl hmid rfl
        rfl rfl (g1.trans h2) (g2.trans h3) (g3.trans h4) o ?_
      exact hc
    simp only
    cases packMem cfg e .packerIO ((w'.files file).getD []) x' with
    | ok r => exact hleave _ _ rfl rfl rfl
    | throw err => exact hleave _ _ rfl rfl rfl
    | abort => exact .died hmid h2 (.inl rfl)
    | ub u => exact .died hmid h2 (.inr (.inl ⟨_, rfl⟩))
    | fuel => exact .died hmid h2 (.inr (.inr rfl))

theorem inPlaceFromFile_ending {T : Type} (cfg : Cfg) (e : Elem T) (F : Faults) (hw : w.Ok)
    (file : Nat) (y : T) :
    Ending [.fstat] [.close, .munmap] w
      (deserializeInPlaceFromFile cfg e F w file y).2 file (deserializeInPlaceFromFile cfg e F w file y).1 := by
  unfold deserializeInPlaceFromFile
  have h := setupForRead_cases F w file
  generalize setupForRead F w file = r at h
  cases h with
  | closed => exact .notOpened rfl rfl rfl rfl
  | leaked h1 h2 h3 h4 h5 =>
    refine .leaked (by revert h1; simp only [List.mem_cons]; tauto) (fun p hp => ?_) h3 hw.free h4 h5
    rw [h2 p hp]; simp
  | done h0 h1 h2 h3 h4 h5 h6 =>
    have hc : ∀ c ∈ [Call.msync, .munmap, .close], false = true ∨ c ≠ .msync → c ∈ [Call.close, .munmap] := by
      decide
    refine leave_ending (mid := [(.fstat, false)]) hw rfl (by simp) rfl rfl rfl h2 h3 h4 _ ?_
    exact hc

/-! ## No faults -/

theorem setupForWrite_noFaults (w : World) (file : Nat) (hs : size ≠ 0) :
    ∃ w', setupForWrite noFaults w file size =
        (some { write := true, file := file, size := size, buffer := w.nextMap, fd := some w.nextFd }, w') ∧
      w'.fds = (w.nextFd, file) :: w.fds ∧ w'.maps = (w.nextMap, ⟨file, size⟩) :: w.maps ∧
      w'.files = (fun q => if q = file then some (zeros size) else w.files q) := by
  have h := setupForWrite_cases noFaults w file size
  have hsome : (setupForWrite noFaults w file size).1.isSome = true := by
    simp [setupForWrite, noFaults, World.openTrunc, World.fault, World.fallocate, World.ftruncate, World.fsync,
      World.mmap, hs]
  generalize hr : setupForWrite noFaults w file size = r at h hsome
  cases h with
  | closed => cases hsome
  | leaked => cases hsome
  | done h1 h2 h3 h4 h5 => exact ⟨_, rfl, h3, h4, h5⟩

theorem closeFile_noFaults {w : World} {b : IOBuffer} {fd len : Nat} {fds : List (Nat × Nat)}
    {maps : List (Nat × Mapping)} (hb : b.fd = some fd) (h1 : w.fds = (fd, b.file) :: fds)
    (h2 : w.maps = (b.buffer, ⟨b.file, len⟩) :: maps) (hf : ∀ p ∈ fds, p.1 < fd) (hm : ∀ p ∈ maps, p.1 < b.buffer) :
    ∃ w', closeFile noFaults w b = (true, w') ∧ w'.fds = fds ∧ w'.maps = maps ∧ w'.files = w.files ∧
      w'.disk = (fun q => if b.write = true ∧ q = b.file then w.files q else w.disk q) := by
  have h := closeFile_cases noFaults hb h1 h2 hf hm
  have hok : (closeFile noFaults w b).1 = true := by
    cases hw : b.write <;>
      simp [closeFile, hb, hw, noFaults, World.fault, World.msync, h2, World.munmap, World.close, h1, World.called,
        World.sync]
  generalize hr : closeFile noFaults w b = r at h hok
  cases h with
  | done h1 h2 h3 h4 h5 => exact ⟨_, rfl, h2, h3, h4, h5⟩
  | failed => cases hok

theorem setupForRead_noFaults {w : World} {file : Nat} {bs : Bytes} (hf : w.files file = some bs) (hb : bs ≠ []) :
    ∃ w', setupForRead noFaults w file =
        (some { write := false, file := file, size := bs.length, buffer := w.nextMap, fd := some w.nextFd }, w') ∧
      w'.fds = (w.nextFd, file) :: w.fds ∧ w'.maps = (w.nextMap, ⟨file, bs.length⟩) :: w.maps ∧
      w'.files = w.files ∧ w'.disk = w.disk := by
  have h := setupForRead_cases noFaults w file
  have hsome : (setupForRead noFaults w file).1.isSome = true := by
    simp [setupForRead, noFaults, World.openRead, World.fault, World.fstat, World.mmap, World.called, hf, hb]
  generalize hr : setupForRead noFaults w file = r at h hsome
  cases h with
  | closed => cases hsome
  | leaked => cases hsome
  | done h0 h1 h2 h3 h4 h5 h6 =>
    rw [hf] at h0
    cases h0
    exact ⟨_, rfl, h3, h4, h5, h6⟩

theorem leave_noFaults {w : World} {b : IOBuffer} {fd len : Nat} {fds : List (Nat × Nat)}
    {maps : List (Nat × Mapping)} (hb : b.fd = some fd) (h1 : w.fds = (fd, b.file) :: fds)
    (h2 : w.maps = (b.buffer, ⟨b.file, len⟩) :: maps) (hf : ∀ p ∈ fds, p.1 < fd) (hm : ∀ p ∈ maps, p.1 < b.buffer)
    {o : Out α} (ho : (∃ a, o = .ok a) ∨ ∃ err, o = .throw err) :
    ∃ w', leave noFaults w b o = (.out o, w') ∧ w'.fds = fds ∧ w'.maps = maps ∧ w'.files = w.files ∧
      w'.disk = (fun q => if b.write = true ∧ q = b.file then w.files q else w.disk q) := by
  obtain ⟨w', hc, hr⟩ := closeFile_noFaults hb h1 h2 hf hm
  refine ⟨w', ?_, hr⟩
  rcases ho with ⟨a, rfl⟩ | ⟨a, rfl⟩ <;> simp [leave, hc]

/-- Writing without faults, for an object that packs into the memory it was sized for. -/
theorem serializeToFile_noFaults {T : Type} {cfg : Cfg} {e : Elem T} (torn : Bytes → Bytes) (hw : w.Ok) {x x' x'' : T}
    {k k' : Nat} {bs : Bytes} (hk : getSize cfg e x = .ok (k, x')) (h0 : k ≠ 0)
    (hp : packMem cfg e .packerIO (zeros k) x' = .ok (bs, k', x'')) (file : Nat) :
    ∃ w', serializeToFile cfg e noFaults torn w file x = (.out (.ok x''), w') ∧
      w'.files = (fun q => if q = file then some bs else w.files q) ∧ w'.fds = w.fds ∧ w'.maps = w.maps ∧
      w'.disk file = some bs := by
  obtain ⟨w1, hs, h1, h2, h3⟩ := setupForWrite_noFaults w file h0
  have hm : (w1.files file).getD [] = zeros k := by simp [h3]
  unfold serializeToFile
  simp only [hk, hs, hm, hp]
  obtain ⟨w2, g1, g2, g3, g4, g5⟩ := leave_noFaults (w := w1.stored file bs) (o := .ok x'')
    (b := { write := true, file := file, size := k, buffer := w.nextMap, fd := some w.nextFd }) rfl h1 h2 hw.fds hw.maps
    (.inl ⟨_, rfl⟩)
  refine ⟨w2, g1, ?_, g2, g3, ?_⟩
  · rw [g4]
    funext q
    by_cases hq : q = file <;> simp [World.stored, World.setFile, hq, h3]
  · rw [g5]
    simp [World.stored, World.setFile]

/-- Reading without faults. -/
theorem inPlaceFromFile_noFaults {T : Type} {cfg : Cfg} {e : Elem T} (hw : w.Ok) {bs : Bytes}
    (hf : w.files file = some bs) (hb : bs ≠ []) {y : T} {o : Out T} (hu : unpackIO cfg e bs y = o)
    (ho : (∃ a, o = .ok a) ∨ ∃ err, o = .throw err) :
    ∃ w', deserializeInPlaceFromFile cfg e noFaults w file y = (.out o, w') ∧
      w'.files = w.files ∧ w'.disk = w.disk ∧ w'.fds = w.fds ∧ w'.maps = w.maps := by
  obtain ⟨w1, hs, h1, h2, h3, h4⟩ := setupForRead_noFaults hf hb
  unfold deserializeInPlaceFromFile
  have hm : (w1.files file).getD [] = bs := by simp [h3, hf]
  simp only [hs, hm, hu]
  obtain ⟨w2, g1, g2, g3, g4, g5⟩ := leave_noFaults (w := w1) (o := o)
    (b := { write := false, file := file, size := bs.length, buffer := w.nextMap, fd := some w.nextFd }) rfl h1 h2
    hw.fds hw.maps ho
  exact ⟨w2, g1, by rw [g4, h3], by simp [g5, h4], g2, g3⟩

/-! ## The steps of writing, as seen in the file -/

/-- The course of `serializeToFile` on file `p` with previous contents `old`, newest state first: cut to
length zero, extended with zeros (`z`), written (`bs`). -/
inductive Story (p : Nat) (old : Option Bytes) (z bs : Bytes) : Nat → List Snap → Prop
  | start {s : Snap} : s.files p = old → s.disk p = old → Story p old z bs 0 [s]
  | stay {k : Nat} {s s' : Snap} {l : List Snap} : Story p old z bs k (s :: l) → s'.files p = s.files p →
      (s'.disk p = s.disk p ∨ s'.disk p = s.files p) → Story p old z bs k (s' :: s :: l)
  | cut {s s' : Snap} {l : List Snap} : Story p old z bs 0 (s :: l) → s'.files p = some [] →
      s'.disk p = s.disk p → Story p old z bs 1 (s' :: s :: l)
  | extend {s s' : Snap} {l : List Snap} : Story p old z bs 1 (s :: l) → s'.files p = some z →
      s'.disk p = s.disk p → Story p old z bs 2 (s' :: s :: l)
  | store {s s' : Snap} {l : List Snap} : Story p old z bs 2 (s :: l) → s'.files p = some bs →
      s'.disk p = s.disk p → Story p old z bs 3 (s' :: s :: l)

section
variable {p : Nat} {old : Option Bytes} {z bs : Bytes}

/-- The contents of the file at each stage. -/
def stage (old : Option Bytes) (z bs : Bytes) : Nat → Option Bytes
  | 0 => old
  | 1 => some []
  | 2 => some z
  | _ => some bs

theorem Story.head {k : Nat} {s : Snap} {l : List Snap} (h : Story p old z bs k (s :: l)) :
    s.files p = stage old z bs k := by
  generalize hl : s :: l = m at h
  induction h generalizing s l with
  | start h1 h2 => cases hl; exact h1
  | stay h1 h2 h3 ih => cases hl; rw [h2]; exact ih rfl
  | cut h1 h2 h3 => cases hl; exact h2
  | extend h1 h2 h3 => cases hl; exact h2
  | store h1 h2 h3 => cases hl; exact h2

theorem Story.le {k : Nat} {l : List Snap} (h : Story p old z bs k l) : k ≤ 3 := by
  induction h <;> omega

theorem Story.states {k : Nat} {l : List Snap} (h : Story p old z bs k l) :
    ∀ s ∈ l, (∃ i ≤ k, s.files p = stage old z bs i) ∧ ∃ i ≤ k, s.disk p = stage old z bs i := by
  induction h with
  | start h1 h2 =>
    intro s hs
    obtain rfl := List.mem_singleton.1 hs
    exact ⟨⟨0, Nat.le_refl _, h1⟩, ⟨0, Nat.le_refl _, h2⟩⟩
  | @stay k s s' l h1 h2 h3 ih =>
    intro s'' hs
    rcases List.mem_cons.1 hs with rfl | hs
    · refine ⟨⟨k, Nat.le_refl _, h2.trans h1.head⟩, ?_⟩
      rcases h3 with h3 | h3
      · rw [h3]; exact (ih s List.mem_cons_self).2
      · exact ⟨k, Nat.le_refl _, h3.trans h1.head⟩
    · exact ih s'' hs
  | @cut s s' l h1 h2 h3 ih | @extend s s' l h1 h2 h3 ih | @store s s' l h1 h2 h3 ih =>
    intro s'' hs
    rcases List.mem_cons.1 hs with rfl | hs
    · refine ⟨⟨_, Nat.le_refl _, h2⟩, ?_⟩
      rw [h3]
      obtain ⟨i, hi, hd⟩ := (ih s List.mem_cons_self).2
      exact ⟨i, by omega, hd⟩
    · obtain ⟨⟨i, hi, hd⟩, j, hj, hd'⟩ := ih s'' hs
      exact ⟨⟨i, by omega, hd⟩, j, by omega, hd'⟩

theorem Story.emptied {k : Nat} {l : List Snap} (h : Story p old z bs k l) (hk : 1 ≤ k) :
    ∃ s ∈ l, s.files p = some [] := by
  induction h with
  | start => omega
  | cut h1 h2 => exact ⟨_, List.mem_cons_self, h2⟩
  | stay _ _ _ ih =>
    obtain ⟨s, hs, h⟩ := ih hk
    exact ⟨s, List.mem_cons_of_mem _ hs, h⟩
  | extend _ _ _ ih | store _ _ _ ih =>
    obtain ⟨s, hs, h⟩ := ih (by omega)
    exact ⟨s, List.mem_cons_of_mem _ hs, h⟩

/-- Between two states in succession the file goes at most one stage further. -/
theorem Story.adjacent {k : Nat} {l : List Snap} (h : Story p old z bs k l) :
    ∀ {l1 l2 : List Snap} {s s' : Snap}, l = l1 ++ s' :: s :: l2 →
      s'.files p = s.files p ∨ ∃ i < k, s.files p = stage old z bs i ∧ s'.files p = stage old z bs (i + 1) := by
  induction h with
  | start h1 h2 =>
    intro l1 l2 s s' hl
    have := congrArg List.length hl
    simp at this
    omega
  | @stay k s s' l h1 h2 h3 ih =>
    intro l1 l2 t t' hl
    cases l1 with
    | nil =>
      simp only [List.nil_append, List.cons.injEq] at hl
      obtain ⟨rfl, rfl, rfl⟩ := hl
      exact .inl h2
    | cons a l1 =>
      simp only [List.cons_append, List.cons.injEq] at hl
      exact ih hl.2
  | @cut s s' l h1 h2 h3 ih | @extend s s' l h1 h2 h3 ih | @store s s' l h1 h2 h3 ih =>
    intro l1 l2 t t' hl
    cases l1 with
    | nil =>
      simp only [List.nil_append, List.cons.injEq] at hl
      obtain ⟨rfl, rfl, rfl⟩ := hl
      exact .inr ⟨_, by omega, h1.head, h2⟩
    | cons a l1 =>
      simp only [List.cons_append, List.cons.injEq] at hl
      rcases ih hl.2 with h | ⟨i, hi, h⟩
      · exact .inl h
      · exact .inr ⟨i, by omega, h⟩

theorem Story.called {k : Nat} (h : Story p old z bs k w.history) (c : Call) (b : Bool) :
    Story p old z bs k (w.called c b).history :=
  .stay h rfl (.inl rfl)

theorem Story.after {k : Nat} (h : Story p old z bs k w.history) (hf : w'.files p = w.files p)
    (hd : w'.disk p = w.disk p ∨ w'.disk p = w.files p) (hp : w'.past = w.toSnap :: w.past) :
    Story p old z bs k w'.history := by
  unfold World.history
  rw [hp]
  exact .stay h hf hd

theorem setupForWrite_story (F : Faults) {n : Nat} (h : Story p old (zeros n) bs 0 w.history) :
    ∃ k ≤ 2, Story p old (zeros n) bs k (setupForWrite F w p n).2.history ∧
      ((setupForWrite F w p n).1.isSome = true → k = 2) ∧ (F w.log.length = none → 1 ≤ k) := by
  -- opening
  have hopen : (F w.log.length ≠ none ∧ (w.openTrunc F p).1 = none ∧ Story p old (zeros n) bs 0 (w.openTrunc F p).2.history) ∨
      ∃ fd, (w.openTrunc F p).1 = some fd ∧ Story p old (zeros n) bs 1 (w.openTrunc F p).2.history := by
    unfold World.openTrunc
    split
    · rename_i hf
      exact .inl ⟨fun he => by simp [World.fault, he] at hf, rfl, h.called _ _⟩
    · exact .inr ⟨_, rfl, .cut h (by simp [World.setFile]) rfl⟩
  have hfall : ∀ w1 : World, Story p old (zeros n) bs 1 w1.history →
      ∃ k, (k = 1 ∨ k = 2) ∧ Story p old (zeros n) bs k (w1.fallocate F p n).2.history := by
    intro w1 h1
    have hc : w1.files p = some [] := h1.head
    unfold World.fallocate
    split
    · exact ⟨1, .inl rfl, h1.called _ _⟩
    · exact ⟨2, .inr rfl, .extend h1 (by simp [World.setFile, hc, zeros]) rfl⟩
  have hftr : ∀ (w1 : World) (k : Nat), (k = 1 ∨ k = 2) → Story p old (zeros n) bs k w1.history →
      ((w1.ftruncate F p n).1 = false ∧ Story p old (zeros n) bs k (w1.ftruncate F p n).2.history) ∨
      ((w1.ftruncate F p n).1 = true ∧ Story p old (zeros n) bs 2 (w1.ftruncate F p n).2.history) := by
    intro w1 k hk h1
    unfold World.ftruncate
    split
    · exact .inl ⟨rfl, h1.called _ _⟩
    · refine .inr ⟨rfl, ?_⟩
      rcases hk with rfl | rfl
      · have hc : w1.files p = some [] := h1.head
        exact .extend h1 (by simp [World.setFile, hc, zeros]) rfl
      · have hc : w1.files p = some (zeros n) := h1.head
        refine .stay h1 ?_ (.inl rfl)
        simp [World.setFile, hc, zeros]
  have hfs : ∀ w1 : World, Story p old (zeros n) bs 2 w1.history →
      Story p old (zeros n) bs 2 (w1.fsync F p).2.history := by
    intro w1 h1
    unfold World.fsync
    split
    · exact h1.called _ _
    · exact h1.after rfl (.inr (by simp [World.sync, World.called])) rfl
  have hmm : ∀ w1 : World, Story p old (zeros n) bs 2 w1.history →
      Story p old (zeros n) bs 2 (w1.mmap F p n).2.history := by
    intro w1 h1
    unfold World.mmap
    split
    · exact h1.called _ _
    · exact h1.after rfl (.inl rfl) rfl
  unfold setupForWrite
  rcases hopen with ⟨hne, h1, h2⟩ | ⟨fd, h1, h2⟩
  · generalize w.openTrunc F p = r at h1 h2
    obtain ⟨r1, r2⟩ := r
    simp only at h1 h2
    subst h1
    exact ⟨0, by omega, h2, by simp, fun h => absurd h hne⟩
  · generalize w.openTrunc F p = r at h1 h2
    obtain ⟨r1, w1⟩ := r
    simp only at h1 h2
    subst h1
    simp only
    obtain ⟨k, hk, h3⟩ := hfall w1 h2
    generalize w1.fallocate F p n = r at h3
    obtain ⟨r2, w2⟩ := r
    simp only at h3
    have rest : ∃ k ≤ 2, Story p old (zeros n) bs k
          (match w2.ftruncate F p n with
            | (false, w) => ((none : Option IOBuffer), w)
            | (true, w) =>
              match w.fsync F p with
              | (false, w) => (none, w)
              | (true, w) =>
                match w.mmap F p n with
                | (none, w) => (none, w)
                | (some addr, w) =>
                  (some { write := true, file := p, size := n, buffer := addr, fd := some fd }, w)).2.history ∧
        ((match w2.ftruncate F p n with
            | (false, w) => ((none : Option IOBuffer), w)
            | (true, w) =>
              match w.fsync F p with
              | (false, w) => (none, w)
              | (true, w) =>
                match w.mmap F p n with
                | (none, w) => (none, w)
                | (some addr, w) =>
                  (some { write := true, file := p, size := n, buffer := addr, fd := some fd }, w)).1.isSome = true →
          k = 2) ∧ (F w.log.length = none → 1 ≤ k) := by
      rcases hftr w2 k hk h3 with ⟨h4, h5⟩ | ⟨h4, h5⟩
      · generalize w2.ftruncate F p n = r at h4 h5
        obtain ⟨r1, w3⟩ := r
        simp only at h4 h5
        subst h4
        exact ⟨k, by omega, h5, by simp, fun _ => by omega⟩
      · generalize w2.ftruncate F p n = r at h4 h5
        obtain ⟨r1, w3⟩ := r
        simp only at h4 h5
        subst h4
        have h6 := hfs w3 h5
        simp only
        generalize w3.fsync F p = r at h6
        obtain ⟨r1, w4⟩ := r
        refine ⟨2, Nat.le_refl _, ?_, fun _ => rfl, fun _ => by omega⟩
        cases r1 with
        | false => exact h6
        | true =>
          have h7 := hmm w4 h6
          simp only
          generalize w4.mmap F p n = r at h7
          obtain ⟨r1, w5⟩ := r
          cases r1 <;> exact h7
    cases r2 with
    | none => exact rest
    | some e =>
      cases e with
      | nospc => exact ⟨k, by omega, h3, by simp, fun _ => by omega⟩
      | other => exact rest

theorem closeFile_story (F : Faults) {b : IOBuffer} {k : Nat} (h : Story p old z bs k w.history) :
    Story p old z bs k (closeFile F w b).2.history := by
  have hms : ∀ (w1 : World) (a : Nat), Story p old z bs k w1.history → Story p old z bs k (w1.msync F a).2.history := by
    intro w1 a h1
    unfold World.msync
    repeat' split
    · exact h1.called _ _
    · exact h1.called _ _
    · refine h1.after rfl ?_ rfl
      simp only [World.sync, World.called]
      split
      · rename_i hq; exact .inr (by rw [hq])
      · exact .inl rfl
  have hmu : ∀ (w1 : World) (a : Nat), Story p old z bs k w1.history → Story p old z bs k (w1.munmap F a).2.history := by
    intro w1 a h1
    unfold World.munmap
    split
    · exact h1.called _ _
    · exact h1.after rfl (.inl rfl) rfl
  have hcl : ∀ (w1 : World) (a : Nat), Story p old z bs k w1.history → Story p old z bs k (w1.close F a).2.history := by
    intro w1 a h1
    unfold World.close
    split
    · exact h1.called _ _
    · exact h1.after rfl (.inl rfl) rfl
  unfold closeFile
  cases b.fd with
  | none => exact h
  | some fd =>
    have h1 : Story p old z bs k (if b.write = true then w.msync F b.buffer else (true, w)).2.history := by
      split
      · exact hms _ _ h
      · exact h
    simp only
    generalize (if b.write = true then w.msync F b.buffer else (true, w)) = r at h1
    obtain ⟨r1, w1⟩ := r
    cases r1 with
    | false => exact h1
    | true =>
      have h2 := hmu w1 b.buffer h1
      simp only
      generalize w1.munmap F b.buffer = r at h2
      obtain ⟨r1, w2⟩ := r
      cases r1 with
      | false => exact h2
      | true => exact hcl w2 fd h2

/-- The course of `serializeToFile` for an object that packs into `bs`, whatever calls fail. -/
theorem serializeToFile_story {T : Type} {cfg : Cfg} {e : Elem T} (F : Faults) (torn : Bytes → Bytes) {x x' x'' : T}
    {n n' : Nat} (hk : getSize cfg e x = .ok (n, x'))
    (hp : packMem cfg e .packerIO (zeros n) x' = .ok (bs, n', x''))
    (h : Story p old (zeros n) bs 0 w.history) :
    ∃ k, Story p old (zeros n) bs k (serializeToFile cfg e F torn w p x).2.history ∧
      (F w.log.length = none → 1 ≤ k) := by
  obtain ⟨k, hk2, h1, h2, hF⟩ := setupForWrite_story F h
  unfold serializeToFile
  simp only [hk]
  generalize setupForWrite F w p n = r at h1 h2
  obtain ⟨r1, w1⟩ := r
  cases r1 with
  | none => exact ⟨k, h1, hF⟩
  | some b =>
    obtain rfl := h2 rfl
    have hm : (w1.files p).getD [] = zeros n := by rw [show w1.files p = some (zeros n) from h1.head]; rfl
    simp only [hm, hp]
    have h3 : Story p old (zeros n) bs 3 (w1.stored p bs).history :=
      .store h1 (by simp [World.stored, World.setFile]) rfl
    have h4 := closeFile_story F (b := b) h3
    simp only [leave]
    generalize closeFile F (w1.stored p bs) b = r at h4
    obtain ⟨r1, w2⟩ := r
    cases r1 <;> exact ⟨3, h4, fun _ => by omega⟩

/-- What a crash can leave. -/
theorem Story.crash {k : Nat} {l : List Snap} {d : Option Bytes} (h : Story p old z bs k l)
    (hz : z.length = bs.length) (hc : AfterCrash p l d) :
    d = old ∨ d = some [] ∨ ∃ b, d = some b ∧ Torn z bs b := by
  have hst : ∀ i, stage old z bs i = old ∨ stage old z bs i = some [] ∨
      ∃ b, stage old z bs i = some b ∧ Torn z bs b := by
    intro i
    match i with
    | 0 => exact .inl rfl
    | 1 => exact .inr (.inl rfl)
    | 2 => exact .inr (.inr ⟨z, rfl, hz, hz, fun _ => .inl rfl⟩)
    | _ + 3 => exact .inr (.inr ⟨bs, rfl, hz, rfl, fun _ => .inr rfl⟩)
  cases hc with
  | files hs =>
    obtain ⟨i, _, hi⟩ := (h.states _ hs).1
    rw [hi]; exact hst i
  | disk hs =>
    obtain ⟨i, _, hi⟩ := (h.states _ hs).2
    rw [hi]; exact hst i
  | @torn l1 l2 s s' a b d hl ha hd hb ht =>
    obtain ⟨hab, hdb, hbytes⟩ := ht
    have hsame : s'.files p = s.files p → some d = s.files p := by
      intro he
      rw [ha, hb, Option.some_inj] at he
      subst he
      rw [ha, Option.some_inj]
      exact List.ext_getElem? fun i => by simpa using hbytes i
    have hmem : s ∈ l := by rw [hl]; simp
    rcases h.adjacent hl with he | ⟨i, hi, h1, h2⟩
    · rw [hsame he]
      obtain ⟨i, _, hi⟩ := (h.states _ hmem).1
      rw [hi]; exact hst i
    · have h3 := h.le
      have hnil : b = [] → some d = some [] := by
        rintro rfl
        rw [List.length_eq_zero_iff.1 hdb]
      match i, hi, h1, h2 with
      | 0, _, h1, h2 =>
        refine .inr (.inl (hnil ?_))
        simpa [stage, hb] using h2
      | 1, _, h1, h2 =>
        refine .inr (.inl ?_)
        simp only [stage, ha, Option.some_inj] at h1
        subst h1
        exact hnil (List.length_eq_zero_iff.1 hab.symm)
      | 2, _, g1, g2 =>
        simp only [stage, ha, hb, Option.some_inj] at g1 g2
        subst g1
        subst g2
        exact .inr (.inr ⟨d, rfl, hab, hdb, hbytes⟩)
      | i + 3, hi, _, _ => omega

end

end Ckpt
