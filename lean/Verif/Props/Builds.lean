import Verif.Props.Headers
import Verif.Props.Torn
import Verif.Proofs.Builds
import Verif.Proofs.Top
import Verif.Spec.DemoFormed
import Verif.Spec.Portable
/-!
# C79: checkpoints of builds with and without error checking
-/

set_option autoImplicit false

namespace Ckpt

variable {R : RelMode} {cfg cfg' : Cfg} {env env' : Env} {t : Ty} {x : Val}

/-- A `serialization_error` about the header of something that is traversed directly inside an object of type `t`: it
should have been a certain type index, and what was found is not the index of any type. -/
def InnerHeader (cfg : Cfg) (env : Env) (t : Ty) (err : Err) : Prop :=
  ∃ a found, Inside env (.obj t) a ∧ validateIndex found = false ∧
    err = .ser (.wrongType (a.info cfg env).idx found) 1 [(a.info cfg env).name, (env.ti t).name]

/-- Every call that reads an object of type `t` from memory or from a stream throws such an error for `inp`, whatever
the object read over. -/
structure RejectsInside (cfg : Cfg) (env : Env) (t : Ty) (inp : Bytes) : Prop where
  memoryInPlace : ∀ y, Formed env t y → ByVal t y → ∃ err, InnerHeader cfg env t err ∧
    Yields (fun n => deserializeInPlace cfg (elem cfg env n t) inp y) (.throw err)
  memory : ∃ err, InnerHeader cfg env t err ∧ Yields (fun n => deserialize cfg (elem cfg env n t) inp) (.throw err)
  streamInPlace : ∀ y, Formed env t y → ByVal t y → ∃ err, InnerHeader cfg env t err ∧
    Yields (fun n => deserializeInPlaceFromStream cfg (elem cfg env n t) inp y) (.throw err)
  stream : ∃ err, InnerHeader cfg env t err ∧
    Yields (fun n => deserializeFromStream cfg (elem cfg env n t) inp) (.throw err)

theorem header_read (hti : (env.ti t).Valid) {s : Ser} (hs : s.Reader (Scope.quiet (· ∈ builtinKinds))) {rest : Bytes}
    (hr : s.remaining = intBytes cfg.endian 4 (env.ti t).idx ++ rest) :
    withTypeIdx cfg (env.ti t) s = .ok (s.advance 4) ∧ (s.advance 4).Reader (Scope.quiet (· ∈ builtinKinds)) ∧
      (s.advance 4).remaining = rest := by
  refine ⟨?_, hs.advance (by rw [hr]; simp), by
    rw [Ser.remaining_advance, hr]; exact List.drop_left' (intBytes_length _ _ _)⟩
  obtain ⟨_, -, h⟩ := ((withTypeIdx_rd (K := Scope.quiet (· ∈ builtinKinds)) (cfg := cfg) hti).ok (fun _ h => h) hs).1 _ hr
  rw [intBytes_length] at h
  unfold withTypeIdx' at h
  cases hw : withTypeIdx cfg (env.ti t) s with
  | ok s' => rw [hw] at h; simp only [Out.bind_eq, Out.bind_ok, Out.ok.injEq, Prod.mk.injEq] at h; rw [h.2]
  | throw e => rw [hw] at h; cases h
  | abort => rw [hw] at h; cases h
  | ub u => rw [hw] at h; cases h
  | fuel => rw [hw] at h; cases h

theorem top_opens (hc : cfg.check = true) (hE : env.Sound cfg) (hti : (env.ti t).Valid) (ho : env.opens t = true)
    {y : Val} (hf : Formed env t y) (hyb : ByVal t y) {s : Ser} (hs : s.Reader (Scope.quiet (· ∈ builtinKinds)))
    {b rest : Bytes} (hb : b.length = 4) (hr : s.remaining = intBytes cfg.endian 4 (env.ti t).idx ++ (b ++ rest))
    (hbad : validateIndex (intVal cfg.endian b) = false) : ∃ err, InnerHeader cfg env t err ∧
      traverseTop cfg (elem cfg env 1 t) s y = .throw err := by
  obtain ⟨h1, hs4, hr4⟩ := header_read hti hs hr
  obtain ⟨a, ha, hd⟩ := dispatch_opens hc hE ho hf hyb hs4 hb hr4 hbad 0
  refine ⟨_, ⟨a, _, ha, hbad, rfl⟩, ?_⟩
  have h2 : withTypeIdx cfg (elem cfg env 1 t).ti s = .ok (s.advance 4) := h1
  have h3 : (elem cfg env 1 t).apply (s.advance 4) [y] = .throw (badHeader (a.info cfg env) (intVal cfg.endian b)) := hd
  simp only [traverseTop, pipe, traverse, hc, if_true, h2, h3, Out.bind_eq, Out.bind_ok, badHeader, catchDepth]
  rfl

/-- C79: in a build with error checking the data of an object that has something inside must have a second header
behind the first one.  If the four bytes there do not even carry the mark of type indices, every call that reads the
object throws; the error says that it was raised one level down, what was expected and what was found. -/
theorem C79_inner_header (hc : cfg.check = true) (hE : env.Sound cfg) (hti : (env.ti t).Valid)
    (ho : env.opens t = true) {b : Bytes} (hb : b.length = 4) (hbad : validateIndex (intVal cfg.endian b) = false)
    (rest : Bytes) : RejectsInside cfg env t (intBytes cfg.endian 4 (env.ti t).idx ++ (b ++ rest)) := by
  have hmem : ∀ y, Formed env t y → ByVal t y → ∃ err, InnerHeader cfg env t err ∧
      Yields (fun n => deserializeInPlace cfg (elem cfg env n t) (intBytes cfg.endian 4 (env.ti t).idx ++ (b ++ rest)) y)
        (.throw err) := by
    intro y hf hyb
    obtain ⟨err, he, h⟩ := top_opens hc hE hti ho hf hyb
      (s := { core := .unpacker (intBytes cfg.endian 4 (env.ti t).idx ++ (b ++ rest)) 0 0, kind := .unpacker })
      ⟨rfl, (by decide : Kind.unpacker ∈ builtinKinds), by simp⟩ hb rfl hbad
    refine ⟨err, he, Yields.at (fun {_ _} hnm => inPlace_le (elem_le cfg env hnm t) _ _) 1 ?_ nofun⟩
    unfold deserializeInPlace
    rw [h]
    rfl
  have hstr : ∀ y, Formed env t y → ByVal t y → ∃ err, InnerHeader cfg env t err ∧
      Yields (fun n => deserializeInPlaceFromStream cfg (elem cfg env n t)
        (intBytes cfg.endian 4 (env.ti t).idx ++ (b ++ rest)) y) (.throw err) := by
    intro y hf hyb
    obtain ⟨err, he, h⟩ := top_opens hc hE hti ho hf hyb
      (s := { core := .streamUnpacker (intBytes cfg.endian 4 (env.ti t).idx ++ (b ++ rest)) 0, kind := .streamUnpacker })
      ⟨rfl, (by decide : Kind.streamUnpacker ∈ builtinKinds), trivial⟩ hb rfl hbad
    refine ⟨err, he, Yields.at (fun {_ _} hnm => inStream_le (elem_le cfg env hnm t) _ _) 1 ?_ nofun⟩
    unfold deserializeInPlaceFromStream
    rw [h]
    rfl
  refine ⟨hmem, ?_, hstr, hstr _ (hE.fresh t).1 (hE.fresh t).2⟩
  simp only [deserialize_elem]
  exact hmem _ (hE.fresh t).1 (hE.fresh t).2

/-- C79: what a build without error checking wrote of an object that begins with a number of elements, a capacity, the
number of an alternative or a flag is rejected by every reading call of a build with error checking.  The two programs
need not be the same; they have the byte order and the index of the type in common. -/
theorem C79_unchecked_rejected (hc : cfg.check = true) (hE : env.Sound cfg) (ho : env.opens t = true)
    (hc' : cfg'.check = false) (hv' : env'.Valid R (· ∈ builtinKinds) cfg') (hend : cfg'.endian = cfg.endian)
    (hidx : (env'.ti t).idx = (env.ti t).idx) (hx : WT R env' t x) (hk : BeginsCounted cfg' env' t x) {bs : Bytes}
    (hs : StreamForm cfg' env' t x bs) (rest : Bytes) : RejectsInside cfg env t (bs ++ rest) := by
  obtain ⟨n0, h0⟩ := isEnc_of_stream hv' hx hs
  obtain ⟨hP, h⟩ := h0 n0 (Nat.le_refl _)
  have hsm := counted_small hv'.plain hk hP
  simp only [topEnc, node, if_true, hc', hend, hidx] at h
  rw [hend] at hsm
  obtain ⟨a, b, hab, hl, hbad⟩ := (hsm.append
    (intBytes cfg.endian 8 ((env'.ti t).sizeof * 1 % 2 ^ 64) ++ rest)).head (by
      simp only [List.length_append, intBytes_length]; omega)
  have : bs ++ rest = intBytes cfg.endian 4 (env.ti t).idx ++ (a ++ b) := by
    rw [← h, ← hab]; simp only [List.append_assoc]
  rw [this]
  exact C79_inner_header hc hE (by
    have := hv'.ti t
    unfold TI.Valid at this ⊢
    rwa [← hidx]) ho hl hbad b

/-- C79: objects that are handled as their bytes look the same in both builds. -/
theorem C79_bytes (ht : t.onlyBytes = true) (hv : env.Valid R (· ∈ builtinKinds) cfg)
    (hv' : env'.Valid R (· ∈ builtinKinds) cfg') (hend : cfg'.endian = cfg.endian)
    (hsame : (env.ti t).Same (env'.ti t)) (hx : WT R env t x) (hx' : WT R env' t x) {bs : Bytes}
    (hs : StreamForm cfg env t x bs) : StreamForm cfg' env' t x bs := by
  obtain ⟨bs', hs'⟩ := StreamForm.exists hv' hx'
  obtain ⟨n, h⟩ := isEnc_of_stream hv hx hs
  obtain ⟨n', h'⟩ := isEnc_of_stream hv' hx' hs'
  have h1 := h (max n n' + 1) (by omega)
  have h2 := h' (max n n' + 1) (by omega)
  have key : topEnc cfg' (env'.ti t) (codec R cfg' env' (max n n' + 1) t) x =
      topEnc cfg (env.ti t) (codec R cfg env (max n n' + 1) t) x := by
    simp only [topEnc, node, if_true, hend, hsame.1, hsame.2]
    cases t with
    | prim _ _ => rfl
    | variant ts =>
      have ho : Ty.allOnlyBytes ts = true := by simpa [Ty.onlyBytes] using ht
      simp only [codec_variantBytes ho, rawCodec]
    | _ => cases ht
  rw [← h1.2, ← key, h2.2]
  exact hs'

/-- The first byte of a type index in memory. -/
theorem index_head {i : Nat} (h : i < 2 ^ 32) (hv : validateIndex i = true) (e : Endian) :
    ∃ (b : Byte) (bs : Bytes), intBytes e 4 i = b :: bs ∧ 1 < b.toNat ∧ bs.length = 3 := by
  have h1 := (validateIndex_iff h).1 hv
  cases e
  · refine ⟨UInt8.ofNat (i % 256), leBytes 3 (i / 256), rfl, ?_, by simp⟩
    rw [h1.1]; decide
  · refine ⟨UInt8.ofNat (i / 256 / 256 / 256 % 256), (leBytes 3 i).reverse, ?_, ?_, by simp⟩
    · rw [intBytes, show (4 : Nat) = 3 + 1 from rfl, leBytes_append 3 1 i]
      simp [leBytes, Nat.div_div_eq_div_mul]
    · rw [show i / 256 / 256 / 256 = 0xDE by omega]; decide

theorem pipeBool_bad {K : Scope} (hc : cfg.check = false) {s : Ser} (hs : s.Reader K) {b : Byte} {rest : Bytes}
    (hr : s.remaining = b :: rest) (hb : 1 < b.toNat) (v : Bool) : pipeBool cfg s v = .ub .badBool := by
  have hp : pipe cfg (boolElem cfg) s v.toNat = rawInt cfg 1 s v.toNat := by
    rw [pipe_eq, rawInt_eq]
    simp [traverse, hc, boolElem]
  have hi : intBytes cfg.endian 1 b.toNat = [b] := by
    cases cfg.endian <;> simp [intBytes, leBytes]
  obtain ⟨w, hw, h⟩ := ((rawInt_rd (K := Scope.quiet K.kinds) (cfg := cfg) (n := 1) (v := b.toNat) (v0 := v.toNat)
    (by simpa using b.toNat_lt)).ok (fun _ h => h) (s := s) hs).1 rest (by rw [hi]; exact hr)
  subst hw
  unfold pipeBool
  rw [hp, h]
  simp only [Out.bind_eq, Out.bind_ok]
  rw [if_neg (by omega), if_neg (by omega)]

/-- The program behaves in an undefined way in every call that reads an object of type `t` from `inp`. -/
structure ReadsBadBool (cfg : Cfg) (env : Env) (t : Ty) (inp : Bytes) : Prop where
  memoryInPlace : ∀ y, Formed env t y →
    Yields (fun n => deserializeInPlace cfg (elem cfg env n t) inp y) (.ub .badBool)
  memory : Yields (fun n => deserialize cfg (elem cfg env n t) inp) (.ub .badBool)
  streamInPlace : ∀ y, Formed env t y →
    Yields (fun n => deserializeInPlaceFromStream cfg (elem cfg env n t) inp y) (.ub .badBool)
  stream : Yields (fun n => deserializeFromStream cfg (elem cfg env n t) inp) (.ub .badBool)

theorem readsBadBool (hc : cfg.check = false) (hti : (env.ti t).Valid) (hfr : Formed env t (env.fresh t))
    {b : Byte} {rest : Bytes} (hstep : ∀ y, Formed env t y → ∀ s : Ser, s.Reader (Scope.quiet (· ∈ builtinKinds)) → s.remaining = b :: rest →
      dispatch cfg env 1 t s [y] = .ub .badBool) :
    ReadsBadBool cfg env t (intBytes cfg.endian 4 (env.ti t).idx ++ b :: rest) := by
  have htop : ∀ y, Formed env t y → ∀ s : Ser, s.Reader (Scope.quiet (· ∈ builtinKinds)) →
      s.remaining = intBytes cfg.endian 4 (env.ti t).idx ++ b :: rest →
      traverseTop cfg (elem cfg env 1 t) s y = .ub .badBool := by
    intro y hf s hs hr
    obtain ⟨h1, hs4, hr4⟩ := header_read hti hs hr
    have h2 : withTypeIdx cfg (elem cfg env 1 t).ti s = .ok (s.advance 4) := h1
    have h3 : (elem cfg env 1 t).apply (s.advance 4) [y] = .ub .badBool := hstep y hf _ hs4 hr4
    simp only [traverseTop, pipe, traverse, hc, Bool.false_eq_true, if_false, h2, h3, Out.bind_eq, Out.bind_ok]
    rfl
  have hmem : ∀ y, Formed env t y → Yields (fun n => deserializeInPlace cfg (elem cfg env n t)
      (intBytes cfg.endian 4 (env.ti t).idx ++ b :: rest) y) (.ub .badBool) := by
    intro y hf
    refine Yields.at (fun {_ _} hnm => inPlace_le (elem_le cfg env hnm t) _ _) 1 ?_ nofun
    unfold deserializeInPlace
    rw [htop y hf { core := .unpacker (intBytes cfg.endian 4 (env.ti t).idx ++ b :: rest) 0 0, kind := .unpacker }
      ⟨rfl, (by decide : Kind.unpacker ∈ builtinKinds), by simp⟩ rfl]
    rfl
  have hstr : ∀ y, Formed env t y → Yields (fun n => deserializeInPlaceFromStream cfg (elem cfg env n t)
      (intBytes cfg.endian 4 (env.ti t).idx ++ b :: rest) y) (.ub .badBool) := by
    intro y hf
    refine Yields.at (fun {_ _} hnm => inStream_le (elem_le cfg env hnm t) _ _) 1 ?_ nofun
    unfold deserializeInPlaceFromStream
    rw [htop y hf { core := .streamUnpacker (intBytes cfg.endian 4 (env.ti t).idx ++ b :: rest) 0, kind := .streamUnpacker }
      ⟨rfl, (by decide : Kind.streamUnpacker ∈ builtinKinds), trivial⟩ rfl]
    rfl
  refine ⟨hmem, ?_, hstr, hstr _ hfr⟩
  simp only [deserialize_elem]
  exact hmem _ hfr

/-- C79: the other way round nothing protects the reader.  What a build with error checking wrote of an optional or
of an owning pointer makes a build without error checking read the header of the flag as the flag: undefined
behaviour, in every call. -/
theorem C79_checked_flags (hc : cfg.check = false) (hE : env.Sound cfg) (hc' : cfg'.check = true)
    (hv' : env'.Valid R (· ∈ builtinKinds) cfg') (hend : cfg'.endian = cfg.endian)
    (hidx : (env'.ti t).idx = (env.ti t).idx) (ht : (∃ u, t = .opt u) ∨ ∃ u, t = .uptr u) (hx : WT R env' t x)
    {bs : Bytes} (hs : StreamForm cfg' env' t x bs) (rest : Bytes) : ReadsBadBool cfg env t (bs ++ rest) := by
  have hti : (env.ti t).Valid := by
    have := hv'.ti t
    unfold TI.Valid at this ⊢
    rwa [← hidx]
  obtain ⟨b, b3, hb, hb1, -⟩ := index_head hv'.cfgOk.bool.1 hv'.cfgOk.bool.2 cfg.endian
  obtain ⟨n0, h0⟩ := isEnc_of_stream hv' hx hs
  obtain ⟨hP, h⟩ := h0 (n0 + 1) (by omega)
  have key : ∃ r, (codec R cfg' env' (n0 + 1) t).enc true x = intBytes cfg.endian 4 cfg'.tiBool.idx ++ r := by
    rcases ht with ⟨u, rfl⟩ | ⟨u, rfl⟩
    · cases hx with
      | optNone => exact ⟨_, by simp only [codec, optEnc, boolNode, node, if_true, hend, List.append_assoc]; rfl⟩
      | optSome _ _ => exact ⟨_, by simp only [codec, optEnc, boolNode, node, if_true, hend, List.append_assoc]; rfl⟩
    · cases hx with
      | ptrNull => exact ⟨_, by simp only [codec, uptrEnc, boolNode, node, if_true, hend, List.append_assoc]; rfl⟩
      | ptr _ _ _ => exact ⟨_, by simp only [codec, uptrEnc, boolNode, node, if_true, hend, List.append_assoc]; rfl⟩
  obtain ⟨r, hr⟩ := key
  simp only [topEnc, node, if_true, hc', hr, hend, hidx, hb] at h
  rw [← h]
  simp only [List.append_assoc, List.cons_append]
  refine readsBadBool hc hti (hE.fresh t).1 ?_
  intro y hf s hsr hrem
  have hbad := fun v => pipeBool_bad hc hsr hrem hb1 v
  rcases ht with ⟨u, rfl⟩ | ⟨u, rfl⟩
  · cases hf <;> simp [dispatch, dispatchStep, dispatchEach, serOptional, hsr.not_footprinting, hsr.unpacking, hbad]
  · cases hf <;> simp [dispatch, dispatchStep, dispatchEach, serUniquePtr, hsr.not_footprinting, hbad]

/-- C79: and what it wrote of a string makes it read more than three thousand million characters: the data end too
early. -/
theorem C79_checked_strings (hc : cfg.check = false) (hv : env.Valid .contents (· ∈ builtinKinds) cfg)
    (hc' : cfg'.check = true) (hv' : env'.Valid R (· ∈ builtinKinds) cfg') (hend : cfg'.endian = cfg.endian)
    (hidx : (env'.ti .str).idx = (env.ti .str).idx) (hx : WT R env' .str x) {bs : Bytes}
    (hs : StreamForm cfg' env' .str x bs) (hlen : bs.length < 2 ^ 31) {y : Val} (hy : Clean .contents cfg env .str y) :
    Yields (fun n => deserializeInPlaceFromStream cfg (elem cfg env n .str) bs y) (.throw .streamShort) ∧
    Yields (fun n => deserializeFromStream cfg (elem cfg env n .str) bs) (.throw .streamShort) ∧
    Yields (fun n => deserializeInPlace cfg (elem cfg env n .str) bs y) (.ub .readOverflow) ∧
    Yields (fun n => deserialize cfg (elem cfg env n .str) bs) (.ub .readOverflow) := by
  obtain ⟨n0, h0⟩ := isEnc_of_stream hv' hx hs
  obtain ⟨hP, h⟩ := h0 (n0 + 1) (by omega)
  cases hx with
  | @str x hxl =>
  obtain ⟨c, r, hcl, hbs, hbig⟩ : ∃ c r : Bytes, c.length = 8 ∧ bs = intBytes cfg.endian 4 (env.ti .str).idx ++ (c ++ r) ∧
      2 ^ 31 ≤ intVal cfg.endian c := by
    obtain ⟨a, b, hab, hal, -⟩ : ∃ a b : Bytes, intBytes cfg.endian 8 x.chars.length = a ++ b ∧ a.length = 4 ∧ True :=
      ⟨_, _, (List.take_append_drop 4 _).symm, by simp, trivial⟩
    simp only [topEnc, node, if_true, hc', codec, strEnc, sizeNode, hend, hidx, hab] at h
    simp only [List.append_assoc] at h
    rw [← List.append_assoc (intBytes cfg.endian 4 cfg'.tiSize.idx) a] at h
    exact ⟨_, _, by simp [hal], h.symm, intVal_header_large hv'.cfgOk.size.1 hv'.cfgOk.size.2 a cfg.endian hal⟩
  have hrl : r.length < 2 ^ 31 := by
    have := congrArg List.length hbs
    simp only [List.length_append, intBytes_length] at this
    omega
  have hc8 := intVal_lt cfg.endian c
  rw [hcl] at hc8
  let chars : Bytes := r ++ List.replicate (intVal cfg.endian c - r.length) 0
  have hcl' : chars.length = intVal cfg.endian c := by simp [chars]; omega
  have hwt : WT .contents env .str (.str ⟨chars.length, chars⟩) := .str (by
    show chars.length < 2 ^ 64
    rw [hcl']; exact hc8)
  obtain ⟨bs', hs'⟩ := StreamForm.exists hv hwt
  have hpre : bs <+: bs' ∧ bs ≠ bs' := by
    obtain ⟨n1, h1⟩ := isEnc_of_stream hv hwt hs'
    have h1 := (h1 (n1 + 1) (by omega)).2
    simp only [topEnc, node, if_true, hc, codec, strEnc, sizeNode, Bool.false_eq_true, if_false, hcl'] at h1
    rw [if_pos (by omega), show intBytes cfg.endian 8 (intVal cfg.endian c) = c by
      rw [← hcl, intBytes_intVal]] at h1
    rw [← h1, hbs]
    simp only [List.append_assoc, chars]
    refine ⟨⟨List.replicate (intVal cfg.endian c - r.length) 0 ++ intBytes cfg.endian 8 ((env.ti .str).sizeof * 1 % 2 ^ 64),
      by simp only [List.append_assoc]⟩, fun he => ?_⟩
    have := congrArg List.length he
    simp only [List.length_append, List.length_replicate, intBytes_length] at this
    omega
  have hyb : ByVal .str y := by cases hy; exact trivial
  obtain ⟨s1, s2⟩ := C08_truncated_stream_throws hv hwt trivial hs' hpre.1 hpre.2 hy hyb
  obtain ⟨m1, m2⟩ := C09_truncated_memory_overread hv hwt trivial hs' hpre.1 hpre.2 hy hyb
  exact ⟨s1, s2, m1, m2⟩

/-! ## Data that mean something in both builds -/

namespace Demo

/-- `std::tuple<std::string, Key, int>` with a byte-copyable `Key` of 16 bytes (this compiler evaluates the arguments of
a call from right to left, so the `int` comes first in the data). -/
def keyed : Ty := .tuple [.str, .prim 4 16, int]

/-- The 48 characters of the string in `keyedPlain`. -/
def keyedChars : Bytes :=
  [9, 9, 9, 9, 9, 9, 9, 9, 32, 0, 0, 0, 0, 0, 0, 0, 173, 1, 0, 222, 173, 3, 0, 222, 0, 0, 0, 0, 0, 0, 0, 0, 8, 0, 0, 0,
    0, 0, 0, 0, 9, 0, 0, 0, 0, 0, 0, 0]

/-- An object. -/
def keyedChecked : Val :=
  .coll [.str ⟨15, []⟩, .raw [48, 0, 0, 0, 0, 0, 0, 0, 9, 9, 9, 9, 9, 9, 9, 9], .raw [5, 0, 0, 0]]

/-- And a very different one. -/
def keyedPlain : Val :=
  .coll [.str ⟨48, keyedChars⟩, .raw [5, 0, 0, 0, 29, 0, 0, 0, 0, 0, 0, 0, 173, 24, 0, 222], .raw [173, 21, 0, 222]]

/-- The data of `keyedPlain` without and of `keyedChecked` with error checking. -/
def keyedBytes : Bytes :=
  [173, 223, 60, 222, 173, 21, 0, 222, 5, 0, 0, 0, 29, 0, 0, 0, 0, 0, 0, 0, 173, 24, 0, 222, 48, 0, 0, 0, 0, 0, 0, 0] ++
    keyedChars ++ intBytes .little 8 (Demo.env.ti keyed).sizeof

theorem keyed_wt {s : Str} {k i : Bytes} (hs : s.chars.length < 2 ^ 64) (hk : k.length = 16) (hi : i.length = 4) :
    WT .contents Demo.env keyed (.coll [.str s, .raw k, .raw i]) := by
  refine .tuple rfl ?_ ?_
  · rintro (_ | _ | _ | j) t x ht hx <;> simp [int] at ht hx <;> subst ht hx <;> simp [ByVal]
  · rintro (_ | _ | _ | j) t x ht hx <;> simp [int] at ht hx <;> subst ht hx
    · exact .str hs
    · exact .prim hk
    · exact .prim hi

end Demo

/-- C79: there are data that both builds accept and understand differently: two objects of a tuple type with different
contents, one saved with and one without error checking, the same bytes.  Either build reads the checkpoint of the other
without complaint, and gets the wrong object. -/
theorem C79_ambiguous : ∃ (env : Env) (cfg cfg' : Cfg) (t : Ty) (x x' : Val) (bs : Bytes),
    cfg.check = true ∧ cfg' = { cfg with check := false } ∧
    env.Valid .contents (· ∈ builtinKinds) cfg ∧ env.Valid .contents (· ∈ builtinKinds) cfg' ∧
    WT .contents env t x ∧ WT .contents env t x' ∧ ¬ Rel .contents env t x x' ∧
    StreamForm cfg env t x bs ∧ StreamForm cfg' env t x' bs ∧
    Yields (fun n => deserializeFromStream cfg' (elem cfg' env n t) bs) (.ok (x', [])) ∧
    Yields (fun n => deserializeFromStream cfg (elem cfg env n t) bs) (.ok (x, [])) := by
  refine ⟨Demo.env, Demo.cfg true false, Demo.cfg false false, Demo.keyed, Demo.keyedChecked, Demo.keyedPlain,
    Demo.keyedBytes, rfl, rfl, Demo.valid_contents, Demo.valid_contents, Demo.keyed_wt (by decide) rfl rfl,
    Demo.keyed_wt (by decide) rfl rfl, ?_, ?_, ?_, ?_, ?_⟩
  · intro h
    cases h with
    | tuple _ _ h =>
      cases h 2 _ _ _ rfl rfl rfl
  · exact Yields.at (fun {_ _} hnm => toStream_le (elem_le _ _ hnm _) _ _) 3 rfl nofun
  · exact Yields.at (fun {_ _} hnm => toStream_le (elem_le _ _ hnm _) _ _) 3 rfl nofun
  · exact Yields.at (fun {_ _} hnm => inStream_le (elem_le _ _ hnm _) _ _) 3 rfl nofun
  · exact Yields.at (fun {_ _} hnm => inStream_le (elem_le _ _ hnm _) _ _) 3 rfl nofun

/-! ## The hypotheses can be met -/

/-- A label and a vector saved without error checking, read with it. -/
example : BeginsCounted (Demo.cfg false false) Demo.env (.cls 6) Demo.named ∧ Demo.env.opens (.cls 6) = true ∧
    Demo.env.Sound (Demo.cfg true false) ∧ Demo.env.Valid .contents (· ∈ builtinKinds) (Demo.cfg false false) ∧
    WT .contents Demo.env (.cls 6) Demo.named ∧
    BeginsCounted (Demo.cfg false false) Demo.env (.vec Demo.int) (.vec 3 [.raw [1, 0, 0, 0]]) :=
  ⟨.obj (k := 6) (ks := []) rfl rfl (.str (by decide)), by decide, Demo.sound, Demo.valid_contents, Demo.named_wt,
    .vec (by decide)⟩

/-- An inner header without the mark. -/
example : validateIndex (intVal .little [2, 0, 0, 0]) = false ∧ Demo.env.opens .str = true ∧ (Demo.env.ti .str).Valid :=
  ⟨by decide, rfl, (Demo.valid_contents (check := true) (ndebug := false)).ti _⟩

/-- Bytes, the same in both builds; flags and a string saved with error checking, read without. -/
example : Demo.int.onlyBytes = true ∧ WT .contents Demo.env Demo.int (.raw [7, 0, 0, 0]) ∧
    (Demo.env.ti Demo.int).Same (Demo.env.ti Demo.int) ∧
    WT .contents Demo.env (.opt Demo.int) (.opt (some (.raw [7, 0, 0, 0]))) ∧
    WT .contents Demo.env .str (.str ⟨15, [65, 66]⟩) ∧ Clean .contents (Demo.cfg false false) Demo.env .str (Demo.fresh .str) ∧
    Demo.env.Sound (Demo.cfg false false) ∧ Demo.env.Valid .contents (· ∈ builtinKinds) (Demo.cfg true false) :=
  ⟨rfl, .prim rfl, ⟨rfl, rfl⟩, .optSome trivial (.prim rfl), .str (by decide), Demo.fresh_clean (fun _ _ => trivial) _, Demo.sound,
    Demo.valid_contents⟩

end Ckpt
