import Verif.Proofs.TornUniverse
import Verif.Props.Unwound
import Verif.Props.InPlace
import Verif.Proofs.Frame
import Verif.Proofs.Delivered
/-!
# C77: what a stream that ends too early leaves in the object

A stream ends within a checkpoint that is being read in place.  The object is left between its old value and the one the
whole checkpoint would have given (`Between`, Spec/Between): what was read before the stream ended is as restored, what
comes after it is as before.
-/

set_option autoImplicit false

namespace Ckpt

section
variable {cfg : Cfg} {env : Env} {t : Ty}

/-- The serializer reads from a stream. -/
def Ser.onStream (s : Ser) : Prop := ∃ inp n, s.core = .streamUnpacker inp n

theorem onStream_moves : Moves (fun s s' => s.onStream → s'.onStream) where
  refl _ := id
  trans h h' := h' ∘ h
  setVdis _ _ h := h
  addBytes s n := by
    rintro ⟨inp, k, h⟩
    obtain ⟨core, kind, vdis⟩ := s
    cases h
    exact ⟨inp, k, rfl⟩
  bytes s size num data r h := by
    rintro ⟨inp, k, h'⟩
    obtain ⟨core, kind, vdis⟩ := s
    cases h'
    simp only [Ser.contiguousBytes] at h
    repeat' split at h
    all_goals first | cases h | skip
    all_goals exact ⟨_, _, rfl⟩

theorem top_onStream (n : Nat) {inp : Bytes} {y w : Val} {s : Ser}
    (h : traverseTop cfg (elem cfg env n t) { core := .streamUnpacker inp 0, kind := .streamUnpacker } y = .ok (w, s)) :
    s.onStream := by
  have := traverseTop_fr (E := fun _ => True) (fun _ _ => trivial) onStream_moves (e := elem cfg env n t)
    (fun _ _ _ => trivial) (fun _ _ _ _ => trivial) 
    (elem_fr ⟨fun _ _ => trivial, fun _ _ _ => trivial, fun _ _ _ _ _ => trivial, fun _ _ => trivial⟩ onStream_moves n t)
    (s := { core := .streamUnpacker inp 0, kind := .streamUnpacker }) rfl y
  rw [h] at this
  exact this.1 ⟨inp, 0, rfl⟩

/-- A call that returned does not depend on what the stream would have delivered later, which is still unread. -/
theorem C77_no_lookahead (hE : env.Sound cfg) (inp more : Bytes) {y : Val} (hy : Formed env t y) {w : Val} {rest : Bytes}
    (h : Yields (fun n => deserializeInPlaceFromStream cfg (elem cfg env n t) inp y) (.ok (w, rest))) :
    Yields (fun n => deserializeInPlaceFromStream cfg (elem cfg env n t) (inp ++ more) y) (.ok (w, rest ++ more)) := by
  obtain ⟨n, h⟩ := h
  refine ⟨n, fun k hk => ?_⟩
  obtain ⟨⟨w', s'⟩, hs, he⟩ := ok_of_bind (h k hk)
  have hc := traverseTop_cut (m := more) (cfg := cfg) (e := elem cfg env k t) (dispatchEnd_tears hE k t)
    (s := { core := .streamUnpacker inp 0, kind := .streamUnpacker }) rfl hy
  rw [hs] at hc
  obtain ⟨h1, -, -⟩ := hc
  obtain ⟨inp', j, hj⟩ := top_onStream k hs
  obtain ⟨core, kind, vdis⟩ := s'
  cases hj
  cases he
  show (traverseTop cfg (elem cfg env k t) (Ser.more more { core := .streamUnpacker inp 0, kind := .streamUnpacker }) y >>=
    fun q => _) = _
  rw [h1]
  rfl

/-- **C77**.  Reading `inp` throws although reading `inp ++ more` would have restored `w`: the object is left between what
it was and `w`. -/
theorem C77_stream (hE : env.Sound cfg) (inp more : Bytes) {y : Val} (hy : Formed env t y) {e : Err}
    (h : Yields (fun n => deserializeInPlaceFromStream cfg (elem cfg env n t) inp y) (.throw e)) {w : Val} {rest : Bytes}
    (hw : Yields (fun n => deserializeInPlaceFromStream cfg (elem cfg env n t) (inp ++ more) y) (.ok (w, rest))) :
    ∃ z, Between env t y w z ∧
      Leaves (fun n => inPlaceFromStreamEnd cfg (elem cfg env n t) (dispatchEnd cfg env n t) inp y) z := by
  obtain ⟨n1, h1⟩ := h
  obtain ⟨n2, h2⟩ := hw
  have h1 := throw_of_bind (h1 (max n1 n2) (Nat.le_max_left _ _))
  obtain ⟨⟨w', s'⟩, h2, he⟩ := ok_of_bind (h2 (max n1 n2) (Nat.le_max_right _ _))
  have hc := traverseTop_cut (m := more) (cfg := cfg) (e := elem cfg env (max n1 n2) t) (dispatchEnd_tears hE _ t)
    (s := { core := .streamUnpacker inp 0, kind := .streamUnpacker }) rfl hy
  rw [h1] at hc
  obtain ⟨z, hz, hb⟩ := hc w' s' h2
  cases he
  exact ⟨z, hb, yields_of (fun n m => ends_le _ y) hz⟩

/-- A checkpoint of `x` that was cut off anywhere, read over a clean object: it throws, and leaves the object between its old
value and one equal to `x`. -/
theorem C77_checkpoint (hE : env.Sound cfg) (hv : env.Valid .contents (· ∈ builtinKinds) cfg) {x : Val}
    (hx : WT .contents env t x) (hb : ByVal t x) {bs inp : Bytes} (hs : StreamForm cfg env t x bs)
    (hpre : inp <+: bs) (hne : inp ≠ bs) {y : Val} (hf : Formed env t y) (hy : Clean .contents cfg env t y)
    (hyb : ByVal t y) :
    Yields (fun n => deserializeInPlaceFromStream cfg (elem cfg env n t) inp y) (.throw .streamShort) ∧
    ∃ w z, Rel .contents env t x w ∧ Between env t y w z ∧
      Leaves (fun n => inPlaceFromStreamEnd cfg (elem cfg env n t) (dispatchEnd cfg env n t) inp y) z := by
  have h := (C08_truncated_stream_throws hv hx hb hs hpre hne hy hyb).1
  obtain ⟨tl, rfl⟩ := hpre
  obtain ⟨w, hw, hr⟩ := (isEnc_of_stream hv hx hs).inStream hv (fun _ h => h) (prior_of_clean hv hb hyb hy) []
  rw [List.append_nil] at hr
  obtain ⟨z, hz, hl⟩ := C77_stream hE inp tl hf h hr
  exact ⟨h, w, z, hw, hz, hl⟩

/-- The bytes that an object takes within another, as its own checkpoint tells: there are no header and no trailer of their
own around it, except when every object is checked. -/
def inner (cfg : Cfg) (f : Bytes) : Nat := if cfg.check then f.length else f.length - 12

theorem form_eq (hv : env.Valid .contents (· ∈ builtinKinds) cfg) {n : Nat} {x : Val}
    (hP : (codec .contents cfg env n t).P x) {f : Bytes} (hs : StreamForm cfg env t x f) :
    topEnc cfg (env.ti t) (codec .contents cfg env n t) x = f := by
  have h1 := toStream_law (K := Scope.quiet (· ∈ builtinKinds)) (fun _ h => h) (law hv n t) hP ⟨[], none⟩ (by simp)
  have h2 : Yields (fun n => serializeToStream cfg (elem cfg env n t) x ⟨[], none⟩) _ :=
    Yields.at (fun {_ _} hnm => toStream_le (elem_le cfg env hnm t) x ⟨[], none⟩) n h1 nofun
  have h3 := h2.unique hs
  simp only [Out.ok.injEq, Prod.mk.injEq, true_and, OStream.mk.injEq, List.nil_append, and_true] at h3
  exact h3

theorem inner_eq (hv : env.Valid .contents (· ∈ builtinKinds) cfg) {n : Nat} {x : Val}
    (hP : (codec .contents cfg env n t).P x) {f : Bytes} (hs : StreamForm cfg env t x f) :
    (nodeEnc cfg cfg.check (env.ti t) (codec .contents cfg env n t) x).length = inner cfg f := by
  rw [← form_eq hv hP hs]
  unfold inner topEnc nodeEnc node
  cases cfg.check <;> simp [intBytes_length]
  omega

theorem firstEnc_length (hv : env.Valid .contents (· ∈ builtinKinds) cfg) {n : Nat} : ∀ {fs : List Bytes} {ts : List Ty}
    {xs : List Val}, All2 (fun t x => ((codec .contents cfg env n t).byVal t).P x) ts xs →
    (∀ (i : Nat) f, fs[i]? = some f → ∃ t x, ts[i]? = some t ∧ xs[i]? = some x ∧ StreamForm cfg env t x f) →
    (firstEnc cfg (elem cfg env n) (fun t => (codec .contents cfg env n t).byVal t) fs.length ts xs).length =
      (fs.map (inner cfg)).sum
  | [], _, _, _, _ => rfl
  | f :: fs, [], _, _, hf => by obtain ⟨_, _, h, _⟩ := hf 0 f rfl; cases h
  | f :: fs, _ :: _, [], h, _ => by simp [All2] at h
  | f :: fs, t :: ts, x :: xs, h, hf => by
    have ih := firstEnc_length hv (fs := fs) h.2 (fun i f' hi => hf (i + 1) f' hi)
    obtain ⟨_, _, ht, hx, hs⟩ := hf 0 f rfl
    cases ht; cases hx
    have := inner_eq hv h.1.1 hs
    simp only [firstEnc, List.length_cons, List.length_append, List.map_cons, List.sum_cons]
    rw [ih]
    exact congrArg (· + _) this

/-- What had been delivered completely is there.  A checkpoint of an object of a class without bases ends within a
member or later, the members before it have the checkpoints `fs`: those members are as saved. -/
theorem C77_delivered (hE : env.Sound cfg) (hv : env.Valid .contents (· ∈ builtinKinds) cfg) {c : Nat}
    (hvirt : (env.cls c).virt = false) (hc : env.chain c = [c]) {xs ys : List Val}
    (hx : WT .contents env (.cls c) (.obj c [xs])) {bs inp : Bytes} (hs : StreamForm cfg env (.cls c) (.obj c [xs]) bs)
    (hpre : inp <+: bs) (hne : inp ≠ bs) (hf : Formed env (.cls c) (.obj c [ys]))
    (hy : Clean .contents cfg env (.cls c) (.obj c [ys])) {fs : List Bytes}
    (hfs : ∀ (i : Nat) f, fs[i]? = some f →
      ∃ t x, (env.cls c).fields[i]? = some t ∧ xs[i]? = some x ∧ StreamForm cfg env t x f)
    (hlen : 4 + (fs.map (inner cfg)).sum ≤ inp.length) :
    ∃ zs, Leaves (fun n => inPlaceFromStreamEnd cfg (elem cfg env n (.cls c)) (dispatchEnd cfg env n (.cls c)) inp
        (.obj c [ys])) (.obj c [zs]) ∧
      ∀ (i : Nat) t x, i < fs.length → (env.cls c).fields[i]? = some t → xs[i]? = some x →
        ∃ z, zs[i]? = some z ∧ Rel .contents env t x z := by
  have hbx : ByVal (.cls c) (.obj c [xs]) := rfl
  have hby : ByVal (.cls c) (.obj c [ys]) := rfl
  obtain ⟨-, w, z, -, -, N, hN⟩ := C77_checkpoint hE hv hx hbx hs hpre hne hf hy hby
  obtain ⟨n0, h0⟩ := isEnc_of_stream hv hx hs
  have hn1 : N ≤ max N n0 + 1 := by omega
  have hn2 : n0 ≤ max N n0 + 1 := by omega
  obtain ⟨hP, henc⟩ := h0 _ hn2
  have hprior := prior_of_clean hv hbx hby hy _ hP
  have hz := hN _ hn1
  generalize max N n0 = n at hP henc hprior hz
  have hsym : (env.cls c).rfields = (env.cls c).fields := hv.sym c
  simp only [codec, hc, All2, All3, partCodec] at hP hprior
  have hpr := hprior.2.1.1 hsym
  have hL : ∀ t ∈ (env.cls c).fields, Law (Scope.quiet (· ∈ builtinKinds)) cfg (elem cfg env n t).ti (elem cfg env n t).apply
      ((codec .contents cfg env n t).byVal t) := fun t _ => law_byVal hv n t
  have hfirst := firstEnc_length hv hP.2.2.1 hfs
  have hpfx : intBytes cfg.endian 4 (env.ti (.cls c)).idx ++
      firstEnc cfg (elem cfg env n) (fun t => (codec .contents cfg env n t).byVal t) fs.length (env.cls c).fields xs <+: bs := by
    rw [← henc]
    simp only [topEnc, node, if_true, codec, hvirt, Bool.false_eq_true, if_false, List.flatMap_cons, List.flatMap_nil,
      List.append_nil, List.append_assoc]
    exact (List.prefix_append_right_inj _).2 ((firstEnc_prefix _ _ _).trans (List.prefix_append _ _))
  obtain ⟨rest, hrest⟩ := List.prefix_of_prefix_length_le hpfx hpre (by
    simp only [List.length_append, intBytes_length]
    omega)
  let s : Ser := { core := .streamUnpacker inp 0, kind := .streamUnpacker }
  have hsR : s.Reader (Scope.quiet (· ∈ builtinKinds)) := ⟨rfl, (by decide : Kind.streamUnpacker ∈ builtinKinds), trivial⟩
  have hrem : s.remaining = intBytes cfg.endian 4 (env.ti (.cls c)).idx ++
      (firstEnc cfg (elem cfg env n) (fun t => (codec .contents cfg env n t).byVal t) fs.length (env.cls c).fields xs ++ rest) := by
    rw [← List.append_assoc, hrest]; rfl
  rcases (withTypeIdx_rd (cfg := cfg) (law hv n (.cls c)).ti_valid s hsR).1 _ hrem with ⟨_, -, h1⟩ | ⟨_, hfail, _⟩
  case inr => exact hfail.elim
  have h1' : withTypeIdx cfg (elem cfg env (n + 1) (.cls c)).ti s = .ok (s.advance 4) := by
    unfold withTypeIdx' at h1
    obtain ⟨b, hb, hb'⟩ := ok_of_bind h1
    rw [intBytes_length] at hb'
    cases hb'
    exact hb
  have hs4 : (s.advance 4).Reader (Scope.quiet (· ∈ builtinKinds)) :=
    hsR.advance (by rw [hrem]; simp [intBytes_length])
  obtain ⟨zs, rfl, hm⟩ := class_cases (n := n) hE hvirt hc (s := s.advance 4) rfl (topEnd_cases h1' hz)
  refine ⟨zs, ⟨N, hN⟩, fun i t x hi ht hx => ?_⟩
  obtain ⟨z, hz1, hz2⟩ := members_delivered (k := fs.length) hL hP.2.2.1 hpr hs4 rest (by
    rw [Ser.remaining_advance, hrem]
    exact List.drop_left' (intBytes_length _ _ _)) hm i t x hi ht hx
  exact ⟨z, hz1, codec_rel n t x z hz2⟩

/-- A checkpoint of which only the trailer, or a part of it, is missing, in a build without error checking: reading it
throws, and yet the object is as saved. -/
theorem C77_trailer (hc : cfg.check = false) (hE : env.Sound cfg) (hv : env.Valid .contents (· ∈ builtinKinds) cfg) {x : Val}
    (hx : WT .contents env t x) (hb : ByVal t x) {bs inp : Bytes} (hs : StreamForm cfg env t x bs)
    (hpre : inp <+: bs) (hne : inp ≠ bs) (hlen : bs.length ≤ inp.length + 8) {y : Val} (hf : Formed env t y)
    (hy : Clean .contents cfg env t y) (hyb : ByVal t y) :
    Yields (fun n => deserializeInPlaceFromStream cfg (elem cfg env n t) inp y) (.throw .streamShort) ∧
    ∃ z, Rel .contents env t x z ∧
      Leaves (fun n => inPlaceFromStreamEnd cfg (elem cfg env n t) (dispatchEnd cfg env n t) inp y) z := by
  obtain ⟨hthrow, w, z, -, -, N, hN⟩ := C77_checkpoint hE hv hx hb hs hpre hne hf hy hyb
  refine ⟨hthrow, z, ?_, N, hN⟩
  obtain ⟨n0, h0⟩ := isEnc_of_stream hv hx hs
  have hz := hN (max N n0) (Nat.le_max_left _ _)
  obtain ⟨hP, henc⟩ := h0 (max N n0) (Nat.le_max_right _ _)
  have hprior := prior_of_clean hv hb hyb hy _ hP
  generalize max N n0 = n at hP henc hprior hz
  let s : Ser := { core := .streamUnpacker inp 0, kind := .streamUnpacker }
  have hsR : s.Reader (Scope.quiet (· ∈ builtinKinds)) := ⟨rfl, (by decide : Kind.streamUnpacker ∈ builtinKinds), trivial⟩
  have hpfx : intBytes cfg.endian 4 (env.ti t).idx ++ (codec .contents cfg env n t).enc cfg.check x <+: bs := by
    rw [← henc]
    exact List.prefix_append _ _
  have hl : bs.length = (intBytes cfg.endian 4 (env.ti t).idx ++ (codec .contents cfg env n t).enc cfg.check x).length + 8 := by
    rw [← henc]
    simp only [topEnc, node, if_true, List.length_append, intBytes_length]
  obtain ⟨rest, hrest⟩ := List.prefix_of_prefix_length_le hpfx hpre (by omega)
  have hrem : s.remaining = intBytes cfg.endian 4 (env.ti t).idx ++ ((codec .contents cfg env n t).enc cfg.check x ++ rest) := by
    rw [← List.append_assoc, hrest]; rfl
  rcases (withTypeIdx_rd (cfg := cfg) (law hv n t).ti_valid s hsR).1 _ hrem with ⟨_, -, h1⟩ | ⟨_, hfail, _⟩
  case inr => exact hfail.elim
  have h1' : withTypeIdx cfg (elem cfg env n t).ti s = .ok (s.advance 4) := by
    unfold withTypeIdx' at h1
    obtain ⟨b, hb, hb'⟩ := ok_of_bind h1
    rw [intBytes_length] at hb'
    cases hb'
    exact hb
  have hs4 : (s.advance 4).Reader (Scope.quiet (· ∈ builtinKinds)) :=
    hsR.advance (by rw [hrem]; simp [intBytes_length])
  have hL := law hv n t
  rcases (hL.rd [x] [y] (by simpa using hP) (by simpa using hprior) Nat.one_pos hL.one (s.advance 4) hs4).1 rest (by
      rw [Ser.remaining_advance, hrem]
      simp only [node, hc, Bool.false_eq_true, if_false, List.flatMap_cons, List.flatMap_nil, List.append_nil]
      exact List.drop_left' (intBytes_length _ _ _)) with ⟨ws, hws, h2⟩ | ⟨_, hfail, _⟩
  case inr => exact hfail.elim
  cases hws with
  | cons hw ht =>
    cases ht
    simp only [traverse, hc, Bool.false_eq_true, if_false] at h2
    rw [topEnd_done h1' h2 hz]
    exact codec_rel n t x _ hw

/-! ## What `Between` says, type by type -/

/-- Objects in a row: those before the `k`-th are as restored, those after it as before. -/
theorem PartRead.split {I T : Type} {B : I → T → T → T → Prop} {is : List I} {ys ws zs : List T} (h : PartRead B is ys ws zs)
    (hl : ws.length = ys.length) : zs.length = ys.length ∧ ∃ k : Nat, (∀ j, j < k → zs[j]? = ws[j]?) ∧
      (∀ j, k < j → zs[j]? = ys[j]?) ∧
      (zs[k]? = ys[k]? ∨ zs[k]? = ws[k]? ∨ ∃ i y w z, is[k]? = some i ∧ ys[k]? = some y ∧ ws[k]? = some w ∧
        zs[k]? = some z ∧ B i y w z) := by
  induction h with
  | kept => exact ⟨rfl, 0, fun j h => by omega, fun _ _ => rfl, .inl rfl⟩
  | @done is ys ws =>
    exact ⟨hl, ys.length, fun _ _ => rfl, fun j h => by
      rw [List.getElem?_eq_none (by omega), List.getElem?_eq_none (by omega)], .inr (.inl rfl)⟩
  | part h =>
    refine ⟨by simp, 0, fun j h => by omega, fun j h => ?_, .inr (.inr ⟨_, _, _, _, rfl, rfl, rfl, rfl, h⟩)⟩
    cases j with
    | zero => omega
    | succ j => rfl
  | next _ ih =>
    obtain ⟨h0, k, h1, h2, h3⟩ := ih (by simpa using hl)
    refine ⟨by simpa using h0, k + 1, fun j h => ?_, fun j h => ?_, by simpa using h3⟩
    · cases j with
      | zero => rfl
      | succ j => exact h1 j (by omega)
    · cases j with
      | zero => omega
      | succ j => exact h2 j (by omega)

/-- Optionals, variants, durations and enumerations are as before or as restored. -/
def Whole : Ty → Prop
  | .opt _ => True
  | .variant ts => Ty.allOnlyBytes ts = false
  | .enm _ _ _ => True
  | .chrono _ _ _ => True
  | _ => False

theorem C77_whole (ht : Whole t) {y w z : Val} (h : Between env t y w z) : z = y ∨ z = w := by
  cases h <;> first | exact .inl rfl | exact .inr rfl | exact ht.elim | skip
  rename_i h
  simp only [Whole] at ht
  rw [ht] at h
  cases h

/-- The members of an object of a class without bases. -/
theorem C77_members {c : Nat} (hc : env.chain c = [c]) {ys ws : List Val} {z : Val}
    (hl : ws.length = ys.length) (h : Between env (.cls c) (.obj c [ys]) (.obj c [ws]) z) :
    ∃ zs, z = .obj c [zs] ∧ zs.length = ys.length ∧ ∃ k : Nat, (∀ j, j < k → zs[j]? = ws[j]?) ∧ (∀ j, k < j → zs[j]? = ys[j]?) ∧
      (zs[k]? = ys[k]? ∨ zs[k]? = ws[k]? ∨ ∃ t y w z, (env.cls c).fields[k]? = some t ∧ ys[k]? = some y ∧
        ws[k]? = some w ∧ zs[k]? = some z ∧ Between env t y w z) := by
  have key : ∀ {zs}, PartRead (Between env) (env.cls c).fields ys ws zs → _ := fun h => PartRead.split h hl
  cases h with
  | kept => exact ⟨ys, rfl, key .kept⟩
  | done => exact ⟨ws, rfl, key .done⟩
  | @obj _ _ j k _ _ p q m h1 h2 h3 h4 =>
    rw [hc] at h1
    cases j with
    | succ j => cases h1
    | zero =>
      cases h1; cases h2; cases h3
      exact ⟨m, rfl, key h4⟩

/-- The elements of a vector: as they were, or as many as there are to be, the first of them as restored and the last
as the vector had them, or newly constructed. -/
theorem C77_vector {cap cap' : Nat} {ys ws : List Val} {z : Val}
    (h : Between env (.vec t) (.vec cap ys) (.vec cap' ws) z) :
    ∃ cap'' zs, z = .vec cap'' zs ∧ (zs = ys ∨ zs.length = ws.length ∧ ∃ k : Nat, (∀ j, j < k → zs[j]? = ws[j]?) ∧
      (∀ j, k < j → j < ws.length → zs[j]? = ys[j]? ∨ ys.length ≤ j ∧ (zs[j]? = some (env.fresh t) ∨ zs[j]? = env.dflt t))) := by
  cases h with
  | kept => exact ⟨cap, ys, rfl, .inl rfl⟩
  | done => exact ⟨cap', ws, rfl, .inr ⟨rfl, ws.length, fun _ _ => rfl, fun j h h' => by omega⟩⟩
  | @vecCap _ _ cap'' => exact ⟨cap'', ys, rfl, .inl rfl⟩
  | @vec _ _ _ cap'' _ rs _ zs h1 h2 =>
    refine ⟨cap'', zs, rfl, .inr ?_⟩
    obtain ⟨c, hc, rfl⟩ := h1
    have hlen : ws.length = (ys.take ws.length ++ List.replicate (ws.length - ys.length) c).length := by
      simp only [List.length_append, List.length_take, List.length_replicate]; omega
    obtain ⟨h3, k, h4, h5, -⟩ := h2.split hlen
    refine ⟨h3.trans hlen.symm, k, h4, fun j hj hj' => ?_⟩
    rw [h5 j hj]
    by_cases hy : j < ys.length
    · left
      rw [List.getElem?_append_left (by simp; omega), List.getElem?_take_of_lt hj']
    · right
      refine ⟨by omega, ?_⟩
      rw [List.getElem?_append_right (by simp; omega), List.getElem?_replicate_of_lt (by simp; omega)]
      rcases hc with rfl | hc
      · exact .inl rfl
      · exact .inr hc.symm

end

/-! ## Examples -/

namespace Demo

/-- `struct { std::string s; int i; }`, holding `"AB"` and 7. -/
def named : Val := .obj 6 [[.str ⟨15, [65, 66]⟩, .raw [7, 0, 0, 0]]]

theorem named_wt : WT .contents env (.cls 6) named := by
  refine .obj (by decide) (fun _ => rfl) rfl ?_ ?_ ?_
  all_goals
    intro j k p hk hp
    match j with
    | j + 1 => cases hk
    | 0 =>
      cases hk; cases hp
      first
        | rfl
        | (intro i t x ht hx
           match i with
           | 0 => cases ht; cases hx; first | trivial | exact .str (by decide)
           | 1 => cases ht; cases hx; first | trivial | exact .prim rfl
           | i + 2 => cases ht)

/-- What comes before the last member in its checkpoint. -/
def namedStart : Bytes := intBytes .little 4 (env.ti (.cls 6)).idx ++ intBytes .little 8 2 ++ [65, 66]

/-- The rest of it. -/
def namedEnd : Bytes := [7, 0, 0, 0] ++ intBytes .little 8 (env.ti (.cls 6)).sizeof

theorem named_form : StreamForm (cfg false false) env (.cls 6) named (namedStart ++ namedEnd) :=
  Yields.at (fun {_ _} hnm => toStream_le (elem_le (cfg false false) env hnm (.cls 6)) named _) 3 rfl nofun

theorem name_form : StreamForm (cfg false false) env .str (.str ⟨15, [65, 66]⟩)
    (intBytes .little 4 (env.ti .str).idx ++ intBytes .little 8 2 ++ [65, 66] ++ intBytes .little 8 (env.ti .str).sizeof) :=
  Yields.at (fun {_ _} hnm => toStream_le (elem_le (cfg false false) env hnm .str) (.str ⟨15, [65, 66]⟩) _) 3 rfl nofun

end Demo

/-- A checkpoint of `{"AB", 7}` that ends in the second member, read into `{"", 0}`: the assumptions of `C77_checkpoint` and
`C77_delivered` hold, and what is left is `{"AB", 7}` with the two last bytes of the number as they were. -/
example :
    let cfg := Demo.cfg false false
    Demo.env.Sound cfg ∧ Demo.env.Valid .contents (· ∈ builtinKinds) cfg ∧
    WT .contents Demo.env (.cls 6) Demo.named ∧
    StreamForm cfg Demo.env (.cls 6) Demo.named (Demo.namedStart ++ Demo.namedEnd) ∧
    Demo.namedStart ++ [7, 0] <+: Demo.namedStart ++ Demo.namedEnd ∧
    Formed Demo.env (.cls 6) (Demo.fresh (.cls 6)) ∧ Clean .contents cfg Demo.env (.cls 6) (Demo.fresh (.cls 6)) ∧
    (Demo.env.cls 6).virt = false ∧ Demo.env.chain 6 = [6] ∧
    (∃ f, StreamForm cfg Demo.env .str (.str ⟨15, [65, 66]⟩) f ∧ 4 + inner cfg f ≤ (Demo.namedStart ++ [7, 0]).length) ∧
    Leaves (fun n => inPlaceFromStreamEnd cfg (elem cfg Demo.env n (.cls 6)) (dispatchEnd cfg Demo.env n (.cls 6))
      (Demo.namedStart ++ [7, 0]) (.obj 6 [[.str ⟨15, [67]⟩, .raw [9, 9, 9, 9]]]))
      (.obj 6 [[.str ⟨15, [65, 66]⟩, .raw [7, 0, 9, 9]]]) :=
  ⟨Demo.sound, Demo.valid_contents, Demo.named_wt, Demo.named_form, ⟨_, rfl⟩, Demo.fresh_formed _,
    Demo.fresh_clean (fun _ _ => trivial) _, rfl, by decide +kernel, ⟨_, Demo.name_form, by decide⟩,
    yields_of (fun _ _ => ends_le _ _) (n := 3) rfl⟩

/-- Reading to the end of what is needed, with more of the stream to come. -/
example : Yields (fun n => deserializeInPlaceFromStream (Demo.cfg false false)
    (elem (Demo.cfg false false) Demo.env n (.cls 6)) (Demo.namedStart ++ Demo.namedEnd) (Demo.fresh (.cls 6)))
    (.ok (Demo.named, [])) :=
  Yields.at (fun {_ _} hnm => inStream_le (elem_le (Demo.cfg false false) Demo.env hnm (.cls 6)) _ _) 3 rfl nofun

/-- The case of `C77_trailer`: seven of the eight bytes of the trailer are missing. -/
example : Demo.namedStart ++ Demo.namedEnd.take 5 <+: Demo.namedStart ++ Demo.namedEnd ∧
    Demo.namedStart ++ Demo.namedEnd.take 5 ≠ Demo.namedStart ++ Demo.namedEnd ∧
    (Demo.namedStart ++ Demo.namedEnd).length = (Demo.namedStart ++ Demo.namedEnd.take 5).length + 7 ∧
    Leaves (fun n => inPlaceFromStreamEnd (Demo.cfg false false) (elem (Demo.cfg false false) Demo.env n (.cls 6))
      (dispatchEnd (Demo.cfg false false) Demo.env n (.cls 6)) (Demo.namedStart ++ Demo.namedEnd.take 5)
      (.obj 6 [[.str ⟨15, [67]⟩, .raw [9, 9, 9, 9]]])) Demo.named :=
  ⟨⟨_, rfl⟩, by decide, rfl, yields_of (fun _ _ => ends_le _ _) (n := 3) rfl⟩

/-- An optional and a vector between their old and their new value. -/
example : Whole (.opt Demo.int) ∧
    Between Demo.env (.opt Demo.int) (.opt none) (.opt (some (.raw [1, 0, 0, 0]))) (.opt none) ∧
    Between Demo.env (.vec Demo.int) (.vec 3 [.raw [9, 0, 0, 0], .raw [9, 1, 1, 1], .raw [9, 0, 0, 0]])
      (.vec 3 [.raw [1, 0, 0, 0], .raw [2, 0, 0, 0]]) (.vec 3 [.raw [1, 0, 0, 0], .raw [2, 0, 1, 1]]) ∧
    ¬ Between Demo.env (.opt Demo.int) (.opt (some (.raw [5, 0, 0, 0]))) (.opt (some (.raw [1, 0, 0, 0]))) (.opt none) :=
  ⟨trivial, .kept, .vec ⟨_, .inl rfl, rfl⟩ (.next (.part (.prim 2))), fun h => by
    rcases C77_whole (t := .opt Demo.int) trivial h with h | h <;> cases h⟩

end Ckpt
