import Verif.Model.Api
import Verif.Spec.Yields
import Verif.Proofs.UniverseLaw
import Verif.Proofs.Mono
/-!
From the law of a type to the entry points.
-/

set_option autoImplicit false

namespace Ckpt

section
variable {T : Type} {K : Scope} {cfg : Cfg} {e : Elem T} {c : Codec T}

/-- Bytes of a top-level object on a serializer that writes headers. -/
def topEnc (cfg : Cfg) (ti : TI) (c : Codec T) (x : T) : Bytes :=
  node cfg true ti 1 (c.enc cfg.check x)

theorem topEnc_length {T : Type} {ti : TI} {c : Codec T} {x y : T}
    (h : (topEnc cfg ti c x).length = (topEnc cfg ti c y).length) :
    (c.enc cfg.check x).length = (c.enc cfg.check y).length := by
  simp only [topEnc, node, if_true, List.length_append] at h
  omega

theorem top_wr (L : Law K cfg e.ti e.apply c) {x : T} (hx : c.P x) {s : Ser} (hs : s.Writer K)
    (hh : s.headers = true) :
    traverseTop cfg e s x = (s.emit (topEnc cfg e.ti c x)).bind fun s' => .ok (x, s') := by
  unfold traverseTop topEnc
  cases hc : cfg.check with
  | true =>
    simp only [if_true]
    rw [show pipe cfg e s x = _ from pipe_wr L hx s hs]
    simp [nodeEnc, hc, hh]
  | false =>
    simp only [Bool.false_eq_true, if_false, Out.bind_eq]
    rw [withTypeIdx_emit L.ti_valid hs, hh]
    simp only [if_true, node]
    rw [Ser.emit_append, Ser.emit_append]
    rcases Ser.emit_cases s (intBytes cfg.endian 4 e.ti.idx) with ⟨s1, h1⟩ | h1
    · obtain ⟨w1, e1, -, -⟩ := Ser.emit_ok hs h1
      simp only [h1, Out.bind_ok]
      rw [show pipe cfg e s1 x = _ from pipe_wr L hx s1 w1]
      simp only [hc, Bool.false_and, nodeEnc, node, Bool.false_eq_true, if_false]
      rcases Ser.emit_cases s1 (c.enc false x) with ⟨s2, h2⟩ | h2
      · obtain ⟨w2, e2, -, -⟩ := Ser.emit_ok w1 h2
        simp only [h2, Out.bind_ok]
        rw [withMemUsed_emit w2, e2, e1, hh]
        simp
      · simp [h2]
    · simp [h1]

theorem top_rd (L : Law K cfg e.ti e.apply c) {x y : T} (hx : c.P x) (hp : c.prior x y) :
    Rd K (fun s => traverseTop cfg e s y) (topEnc cfg e.ti c x) (fun z => c.rel x z) := by
  unfold traverseTop topEnc
  cases hc : cfg.check with
  | true =>
    simp only [if_true]
    have := pipe_rd L hx hp
    rw [hc] at this
    exact this
  | false =>
    simp only [Bool.false_eq_true, if_false, node, if_true]
    have h2 := pipe_rd L hx hp
    rw [hc] at h2
    have h3 : ∀ z, c.rel x z → Rd K (fun s => withMemUsed' cfg e.ti 1 s >>= fun r => .ok (z, r.2))
        (intBytes cfg.endian 8 (e.ti.sizeof * 1 % 2 ^ 64)) (fun z => c.rel x z) := by
      intro z hz
      refine ((withMemUsed_rd (cfg := cfg) (ti := e.ti) (len := 1)).map (fun _ => z)
        (Q' := fun z => c.rel x z) (fun _ _ => hz)).congr (fun s _ => rfl) rfl (fun _ h => h)
    refine ((withTypeIdx_rd (cfg := cfg) L.ti_valid).bind (bs' := nodeEnc cfg false e.ti c x ++
      intBytes cfg.endian 8 (e.ti.sizeof * 1 % 2 ^ 64))
      (k := fun r => pipe cfg e r.2 y >>= fun p => withMemUsed' cfg e.ti 1 p.2 >>= fun q => .ok (p.1, q.2))
      (fun _ _ => h2.bind (fun z hz => h3 z hz))).congr ?_ ?_ (fun _ h => h)
    · intro s _
      simp only [withTypeIdx', withMemUsed', Out.bind_eq, Out.bind_assoc, Out.bind_ok]
    · simp [nodeEnc, node]

theorem top_fp (L : Law K cfg e.ti e.apply c) {x : T} (hx : c.P x) :
    Fp K (fun s => traverseTop cfg e s x) (c.fp x) x := by
  intro s hs
  simp only [traverseTop]
  cases hc : cfg.check with
  | true => simp only [if_true]; exact pipe_fp L hx s hs
  | false =>
    simp only [Bool.false_eq_true, if_false, withTypeIdx_fp hs, Out.bind_eq, Out.bind_ok]
    rw [show pipe cfg e s x = _ from pipe_fp L hx s hs]
    simp only [Out.bind_ok, withMemUsed_fp (hs.addBytes _)]

/-- A traverser sees the payload only. -/
theorem top_custom (L : Law K cfg e.ti e.apply c) {x : T} (hx : c.P x) {s : Ser} (hs : s.Writer K)
    (hh : s.headers = false) :
    traverseTop cfg e s x = (s.emit (c.enc false x)).bind fun s' => .ok (x, s') := by
  unfold traverseTop
  cases hc : cfg.check with
  | true =>
    simp only [if_true]
    rw [show pipe cfg e s x = _ from pipe_wr L hx s hs]
    simp [nodeEnc, hc, hh, node]
  | false =>
    simp only [Bool.false_eq_true, if_false, Out.bind_eq]
    rw [withTypeIdx_emit L.ti_valid hs, hh]
    simp only [Bool.false_eq_true, if_false, Ser.emit_nil hs, Out.bind_ok]
    rw [show pipe cfg e s x = _ from pipe_wr L hx s hs]
    simp only [hc, Bool.false_and, nodeEnc, node, Bool.false_eq_true, if_false]
    rcases Ser.emit_cases s (c.enc false x) with ⟨s2, h2⟩ | h2
    · obtain ⟨w2, e2, -, -⟩ := Ser.emit_ok hs h2
      simp only [h2, Out.bind_ok]
      rw [withMemUsed_emit w2, e2, hh]
      simp [Ser.emit_nil w2]
    · simp [h2]


variable (hK : ∀ k, k ∈ builtinKinds → K.kinds k)
include hK

theorem getSize_law (L : Law K cfg e.ti e.apply c) {x : T} (hx : c.P x) :
    getSize cfg e x = .ok ((topEnc cfg e.ti c x).length % 2 ^ 64, x) := by
  have hw : Ser.Writer K { core := .sizer 0, kind := .sizer } :=
    ⟨rfl, hK _ (by decide), by decide⟩
  unfold getSize
  rw [top_wr L hx hw rfl]
  simp [Ser.emit, Ser.count, sizeMod]

theorem footprint_law (L : Law K cfg e.ti e.apply c) {x : T} (hx : c.P x) (off : Nat) :
    getMemoryFootprint cfg e x off = .ok ((off + max (c.fp x % 2 ^ 64) e.ti.sizeof) % 2 ^ 64, x) := by
  have hw : Ser.Footer K { core := .footprinter 0, kind := .footprinter } :=
    ⟨rfl, hK _ (by decide), by decide⟩
  unfold getMemoryFootprint
  rw [show traverseTop cfg e _ x = _ from top_fp L hx _ hw]
  simp [Ser.addBytes, Ser.count, sizeMod]

theorem packMem_law (L : Law K cfg e.ti e.apply c) {x : T} (hx : c.P x) {kind : Kind}
    (hk : kind ∈ builtinKinds) (mem : Bytes) :
    packMem cfg e kind mem x =
      if (topEnc cfg e.ti c x).length ≤ mem.length then
        .ok (topEnc cfg e.ti c x ++ mem.drop (topEnc cfg e.ti c x).length,
          (topEnc cfg e.ti c x).length, x)
      else .ub .packOverflow := by
  have hw : Ser.Writer K { core := .packer mem 0 0, kind := kind } :=
    ⟨rfl, hK _ hk, by simp⟩
  unfold packMem
  rw [top_wr L hx hw rfl]
  simp only [Ser.emit, Nat.zero_add]
  split <;> simp [Ser.written, Ser.count]

/-- What `serialize` does with an object whose encoding is `bs`. -/
def serResult (bs : Bytes) (fn : Option (Nat → Option Bytes)) (x : T) : Out (Packed × T) :=
  match fn with
  | none => .ok ({ mem := bs, size := bs.length, managed := true, calls := [] }, x)
  | some f =>
    match f bs.length with
    | none => .ok ({ mem := bs, size := bs.length, managed := true, calls := [bs.length] }, x)
    | some ub =>
      if bs.length ≤ ub.length then
        .ok ({ mem := bs ++ ub.drop bs.length, size := bs.length, managed := false,
               calls := [bs.length] }, x)
      else .ub .packOverflow

theorem serialize_law (L : Law K cfg e.ti e.apply c) {x : T} (hx : c.P x)
    (hfit : (topEnc cfg e.ti c x).length < 2 ^ 64) (fn : Option (Nat → Option Bytes)) :
    serialize cfg e fn x = serResult (topEnc cfg e.ti c x) fn x := by
  unfold serialize
  rw [getSize_law hK L hx, Nat.mod_eq_of_lt hfit]
  simp only [Out.bind_eq, Out.bind_ok]
  generalize hbs : topEnc cfg e.ti c x = bs at *
  have hp := fun kind hk mem => packMem_law hK L hx (kind := kind) hk mem
  rw [hbs] at hp
  unfold packBuffer serResult
  cases fn with
  | none =>
    simp [hp .packer (by decide), validatePackerBufferSize, List.drop_of_length_le]
  | some f =>
    simp only
    cases hf : f bs.length with
    | none =>
      simp [hp .packer (by decide), validatePackerBufferSize, List.drop_of_length_le]
    | some ub =>
      simp only [hp .packerUserBuf (by decide)]
      split <;> simp [validatePackerBufferSize]

/-- If the size does not fit in `size_t`, nothing is returned. -/
theorem serialize_overflow (L : Law K cfg e.ti e.apply c) {x : T} (hx : c.P x)
    (hfit : ¬ (topEnc cfg e.ti c x).length < 2 ^ 64) :
    serialize cfg e none x = .ub .packOverflow := by
  unfold serialize
  rw [getSize_law hK L hx]
  simp only [Out.bind_eq, Out.bind_ok, packBuffer]
  rw [packMem_law hK L hx (by decide), if_neg]
  · rfl
  · have := Nat.mod_lt (topEnc cfg e.ti c x).length (show 0 < 2 ^ 64 by decide)
    simp only [List.length_replicate]
    omega

/-- `serialize` returns the object it was given. -/
theorem serialize_same (L : Law K cfg e.ti e.apply c) {x x' : T} (hx : c.P x)
    {fn : Option (Nat → Option Bytes)} {p : Packed} (h : serialize cfg e fn x = .ok (p, x')) :
    x' = x := by
  unfold serialize at h
  rw [getSize_law hK L hx] at h
  simp only [Out.bind_eq, Out.bind_ok] at h
  have hp := fun kind hk mem => packMem_law hK L hx (kind := kind) hk mem
  unfold packBuffer at h
  cases fn with
  | none =>
    simp only [hp .packer (by decide)] at h
    split at h
    · simp only [validatePackerBufferSize, Out.bind_eq, Out.bind_ok] at h
      split at h <;> simp at h
      exact h.2.symm
    · simp at h
  | some f =>
    simp only at h
    split at h
    · simp only [hp .packer (by decide)] at h
      split at h
      · simp only [validatePackerBufferSize, Out.bind_eq, Out.bind_ok] at h
        split at h <;> simp at h
        exact h.2.symm
      · simp at h
    · simp only [hp .packerUserBuf (by decide)] at h
      split at h
      · simp only [validatePackerBufferSize, Out.bind_eq, Out.bind_ok] at h
        split at h <;> simp at h
        exact h.2.symm
      · simp at h

theorem inPlace_law (hE : ∀ e, ¬ K.errs e) (L : Law K cfg e.ti e.apply c) {x y : T} (hx : c.P x) (hp : c.prior x y)
    (rest : Bytes) : ∃ z, c.rel x z ∧
      deserializeInPlace cfg e (topEnc cfg e.ti c x ++ rest) y =
        .ok (z, (topEnc cfg e.ti c x).length) := by
  have hr : Ser.Reader K { core := .unpacker (topEnc cfg e.ti c x ++ rest) 0 0, kind := .unpacker } :=
    ⟨rfl, hK .unpacker (by decide), by simp⟩
  obtain ⟨z, hz, he⟩ := ((top_rd L hx hp).ok hE hr).1 rest (by simp [Ser.remaining])
  refine ⟨z, hz, ?_⟩
  unfold deserializeInPlace
  rw [he]
  simp [Ser.advance, Ser.count]

theorem inPlace_short (hE : ∀ e, ¬ K.errs e) (L : Law K cfg e.ti e.apply c) {x y : T} (hx : c.P x) (hp : c.prior x y)
    {inp t : Bytes} (ht : t ≠ []) (he : topEnc cfg e.ti c x = inp ++ t) :
    deserializeInPlace cfg e inp y = .ub .readOverflow := by
  have hr : Ser.Reader K { core := .unpacker inp 0 0, kind := .unpacker } :=
    ⟨rfl, hK .unpacker (by decide), by simp⟩
  have he := ((top_rd L hx hp).ok hE hr).2 t ht (by simpa [Ser.remaining] using he)
  unfold deserializeInPlace
  rw [he]
  rfl

theorem inStream_law (hE : ∀ e, ¬ K.errs e) (L : Law K cfg e.ti e.apply c) {x y : T} (hx : c.P x) (hp : c.prior x y)
    (rest : Bytes) : ∃ z, c.rel x z ∧
      deserializeInPlaceFromStream cfg e (topEnc cfg e.ti c x ++ rest) y = .ok (z, rest) := by
  have hr : Ser.Reader K
      { core := .streamUnpacker (topEnc cfg e.ti c x ++ rest) 0, kind := .streamUnpacker } := ⟨rfl, hK .streamUnpacker (by decide), trivial⟩
  obtain ⟨z, hz, he⟩ := ((top_rd L hx hp).ok hE hr).1 rest (by simp [Ser.remaining])
  refine ⟨z, hz, ?_⟩
  unfold deserializeInPlaceFromStream
  rw [he]
  simp [Ser.advance, Ser.unread]

theorem inStream_short (hE : ∀ e, ¬ K.errs e) (L : Law K cfg e.ti e.apply c) {x y : T} (hx : c.P x) (hp : c.prior x y)
    {inp t : Bytes} (ht : t ≠ []) (he : topEnc cfg e.ti c x = inp ++ t) :
    deserializeInPlaceFromStream cfg e inp y = .throw .streamShort := by
  have hr : Ser.Reader K { core := .streamUnpacker inp 0, kind := .streamUnpacker } :=
    ⟨rfl, hK .streamUnpacker (by decide), trivial⟩
  have he := ((top_rd L hx hp).ok hE hr).2 t ht (by simpa [Ser.remaining] using he)
  unfold deserializeInPlaceFromStream
  rw [he]
  rfl

theorem toStream_law (L : Law K cfg e.ti e.apply c) {x : T} (hx : c.P x) (o : OStream)
    (ho : ∀ l, o.limit = some l → o.data.length ≤ l) :
    serializeToStream cfg e x o = .ok (x, { o with data :=
      match o.limit with
      | none => o.data ++ topEnc cfg e.ti c x
      | some l => (o.data ++ topEnc cfg e.ti c x).take l }) := by
  have hw : Ser.Writer K { core := .streamPacker o.data o.limit 0, kind := .streamPacker } :=
    ⟨rfl, hK .streamPacker (by decide), ho⟩
  unfold serializeToStream
  rw [getSize_law hK L hx]
  simp only [Out.bind_eq, Out.bind_ok]
  rw [top_wr L hx hw rfl]
  simp only [Ser.emit, Ser.written, Out.bind_ok]
  cases o.limit <;> rfl

omit hK in
theorem custom_law (hk : K.kinds .custom) (L : Law K cfg e.ti e.apply c) {x : T} (hx : c.P x) :
    traverseCustom cfg e x = .ok (c.enc false x, x) := by
  have hw : Ser.Writer K { core := .traverser [], kind := .custom } := ⟨rfl, hk, rfl⟩
  unfold traverseCustom
  rw [top_custom L hx hw rfl]
  simp [Ser.emit, Ser.written]

end

/-! ## Outcomes that do not depend on the nesting bound -/

namespace Yields
variable {α : Type} {f : Nat → Out α}

theorem unique {a b : Out α} (ha : Yields f a) (hb : Yields f b) : a = b := by
  obtain ⟨n, hn⟩ := ha
  obtain ⟨m, hm⟩ := hb
  rw [← hn (max n m) (Nat.le_max_left ..), ← hm (max n m) (Nat.le_max_right ..)]

/-- A monotone computation that eventually returns something with property `Q` yields one. -/
theorem of_mono (hm : ∀ {n m}, n ≤ m → Out.Le (f n) (f m)) {Q : α → Prop} {n0 : Nat}
    (h : ∃ a, Q a ∧ f n0 = .ok a) : ∃ a, Q a ∧ Yields f (.ok a) := by
  obtain ⟨a, hq, ha⟩ := h
  refine ⟨a, hq, n0, fun n hn => ?_⟩
  have := (hm hn).eq_of_ne (by rw [ha]; simp)
  rw [this, ha]

end Yields

theorem inPlace_le {fl : Failure} {T : Type} {cfg : Cfg} {e e' : Elem T} (h : Elem.Or fl e e') (mem : Bytes) (y : T) :
    Out.Or fl (deserializeInPlace cfg e mem y) (deserializeInPlace cfg e' mem y) :=
  (traverseTop_le h _ _).bind fun _ => Out.Or.refl _

theorem inStream_le {fl : Failure} {T : Type} {cfg : Cfg} {e e' : Elem T} (h : Elem.Or fl e e') (inp : Bytes) (y : T) :
    Out.Or fl (deserializeInPlaceFromStream cfg e inp y) (deserializeInPlaceFromStream cfg e' inp y) :=
  (traverseTop_le h _ _).bind fun _ => Out.Or.refl _

theorem toStream_le {fl : Failure} {T : Type} {cfg : Cfg} {e e' : Elem T} (h : Elem.Or fl e e') (x : T) (o : OStream) :
    Out.Or fl (serializeToStream cfg e x o) (serializeToStream cfg e' x o) :=
  ((traverseTop_le h _ _).bind fun _ => Out.Or.refl _).bind fun _ =>
    (traverseTop_le h _ _).bind fun _ => Out.Or.refl _

theorem custom_le {fl : Failure} {T : Type} {cfg : Cfg} {e e' : Elem T} (h : Elem.Or fl e e') (x : T) :
    Out.Or fl (traverseCustom cfg e x) (traverseCustom cfg e' x) :=
  (traverseTop_le h _ _).bind fun _ => Out.Or.refl _

theorem footprint_le {fl : Failure} {T : Type} {cfg : Cfg} {e e' : Elem T} (h : Elem.Or fl e e') (x : T) (off : Nat) :
    Out.Or fl (getMemoryFootprint cfg e x off) (getMemoryFootprint cfg e' x off) := by
  have h1 : e'.ti = e.ti := by rw [h.1]
  unfold getMemoryFootprint
  rw [h1]
  exact (traverseTop_le h _ _).bind fun _ => Out.Or.refl _

/-! ## The universe -/

section
variable {R : RelMode} {K : Kind → Prop} {cfg : Cfg} {env : Env}

/-- Internal: `bs` is the encoding of the value `x` of type `t`. -/
def IsEnc (R : RelMode) (cfg : Cfg) (env : Env) (t : Ty) (x : Val) (bs : Bytes) : Prop :=
  ∃ n0, ∀ n, n0 ≤ n → (codec R cfg env n t).P x ∧
    topEnc cfg (env.ti t) (codec R cfg env n t) x = bs

theorem law (hv : env.Valid R K cfg) (n : Nat) (t : Ty) :
    Law (Scope.quiet K) cfg (elem cfg env n t).ti (elem cfg env n t).apply (codec R cfg env n t) :=
  codec_law hv.toUsable (fun c h => absurd (hv.sym c) h) n t

theorem exists_enc' {K : Scope}
    (law : ∀ n t, Law K cfg (elem cfg env n t).ti (elem cfg env n t).apply (codec R cfg env n t))
    (hK : ∀ k, k ∈ builtinKinds → K.kinds k) {t : Ty} {x : Val}
    (hx : WT R env t x) : ∃ bs, IsEnc R cfg env t x bs := by
  obtain ⟨n0, h0⟩ := codec_P (cfg := cfg) hx
  refine ⟨topEnc cfg (env.ti t) (codec R cfg env n0 t) x, n0, fun n hn => ⟨h0 n hn, ?_⟩⟩
  have h1 := toStream_law hK (law n0 t) (h0 n0 (Nat.le_refl _)) ⟨[], none⟩ (by simp)
  have h2 := toStream_law hK (law n t) (h0 n hn) ⟨[], none⟩ (by simp)
  have h3 := (toStream_le (cfg := cfg) (elem_le cfg env hn t) x ⟨[], none⟩).eq_of_ne (by rw [h1]; simp)
  rw [h1, h2] at h3
  simp only [Out.ok.injEq, Prod.mk.injEq, true_and, OStream.mk.injEq, List.nil_append, and_true] at h3
  exact h3

theorem exists_enc (hv : env.Valid R K cfg) (hK : ∀ k, k ∈ builtinKinds → K k) {t : Ty} {x : Val}
    (hx : WT R env t x) : ∃ bs, IsEnc R cfg env t x bs :=
  exists_enc' (K := Scope.quiet K) (fun n t => law hv n t) hK hx

variable {t : Ty} {x : Val} {bs : Bytes}

theorem IsEnc.yields {α : Type} (h : IsEnc R cfg env t x bs) {f : Nat → Out α} {r : Out α}
    (hf : ∀ n, (codec R cfg env n t).P x → topEnc cfg (env.ti t) (codec R cfg env n t) x = bs →
      f n = r) : Yields f r := by
  obtain ⟨n0, h0⟩ := h
  exact ⟨n0, fun n hn => hf n (h0 n hn).1 (h0 n hn).2⟩

variable (hv : env.Valid R K cfg) (hK : ∀ k, k ∈ builtinKinds → K k) (h : IsEnc R cfg env t x bs)
include hv hK h

theorem IsEnc.getSize : Yields (fun n => getSize cfg (elem cfg env n t) x)
    (.ok (bs.length % 2 ^ 64, x)) :=
  h.yields fun n hp he => by 
    have he' : topEnc cfg (elem cfg env n t).ti (codec R cfg env n t) x = bs := he
    rw [getSize_law (K := Scope.quiet K) hK (law hv n t) hp, he']

theorem IsEnc.serialize (hfit : bs.length < 2 ^ 64) (fn : Option (Nat → Option Bytes)) :
    Yields (fun n => serialize cfg (elem cfg env n t) fn x) (serResult bs fn x) :=
  h.yields fun n hp he => by
    have he' : topEnc cfg (elem cfg env n t).ti (codec R cfg env n t) x = bs := he
    rw [serialize_law (K := Scope.quiet K) hK (law hv n t) hp (by rw [he']; exact hfit), he']

theorem IsEnc.serialize_overflow (hfit : ¬ bs.length < 2 ^ 64) :
    Yields (fun n => Ckpt.serialize cfg (elem cfg env n t) none x) (.ub .packOverflow) :=
  h.yields fun n hp he => by
    have he' : topEnc cfg (elem cfg env n t).ti (codec R cfg env n t) x = bs := he
    exact Ckpt.serialize_overflow (K := Scope.quiet K) hK (law hv n t) hp (by rw [he']; exact hfit)

theorem IsEnc.toStream (o : OStream) (ho : ∀ l, o.limit = some l → o.data.length ≤ l) :
    Yields (fun n => serializeToStream cfg (elem cfg env n t) x o) (.ok (x, { o with data :=
      match o.limit with
      | none => o.data ++ bs
      | some l => (o.data ++ bs).take l })) :=
  h.yields fun n hp he => by
    have he' : topEnc cfg (elem cfg env n t).ti (codec R cfg env n t) x = bs := he
    rw [toStream_law (K := Scope.quiet K) hK (law hv n t) hp o ho, he']

theorem IsEnc.footprint : ∃ f, ∀ off, Yields (fun n => getMemoryFootprint cfg (elem cfg env n t) x off)
    (.ok ((off + max f (env.ti t).sizeof) % 2 ^ 64, x)) := by
  obtain ⟨n0, h0⟩ := h
  refine ⟨(codec R cfg env n0 t).fp x % 2 ^ 64, fun off => ⟨n0, fun n hn => ?_⟩⟩
  have h1 := footprint_law (K := Scope.quiet K) hK (law hv n0 t) (h0 n0 (Nat.le_refl _)).1 off
  have h3 := (footprint_le (cfg := cfg) (elem_le cfg env hn t) x off).eq_of_ne (by rw [h1]; simp)
  exact h3.trans h1

/-- An object over which `x` can be restored. -/
theorem IsEnc.inPlace {y : Val} (hp : ∀ n, (codec R cfg env n t).P x → (codec R cfg env n t).prior x y)
    (rest : Bytes) : ∃ z, Rel R env t x z ∧
      Yields (fun n => deserializeInPlace cfg (elem cfg env n t) (bs ++ rest) y) (.ok (z, bs.length)) := by
  obtain ⟨n0, h0⟩ := h
  obtain ⟨hP, he⟩ := h0 n0 (Nat.le_refl _)
  obtain ⟨z, hz, hr⟩ := inPlace_law (K := Scope.quiet K) hK (fun _ h => h) (law hv n0 t) hP (hp n0 hP) rest
  have he' : topEnc cfg (elem cfg env n0 t).ti (codec R cfg env n0 t) x = bs := he
  rw [he'] at hr
  obtain ⟨r, ⟨z', rfl, hz'⟩, hy⟩ := Yields.of_mono (n0 := n0)
    (f := fun n => deserializeInPlace cfg (elem cfg env n t) (bs ++ rest) y)
    (fun hnm => inPlace_le (elem_le cfg env hnm t) _ _)
    (Q := fun r => ∃ z', r = (z', bs.length) ∧ Rel R env t x z')
    ⟨_, ⟨z, rfl, codec_rel _ _ _ _ hz⟩, hr⟩
  exact ⟨z', hz', hy⟩

theorem IsEnc.inStream {y : Val} (hp : ∀ n, (codec R cfg env n t).P x → (codec R cfg env n t).prior x y)
    (rest : Bytes) : ∃ z, Rel R env t x z ∧
      Yields (fun n => deserializeInPlaceFromStream cfg (elem cfg env n t) (bs ++ rest) y)
        (.ok (z, rest)) := by
  obtain ⟨n0, h0⟩ := h
  obtain ⟨hP, he⟩ := h0 n0 (Nat.le_refl _)
  obtain ⟨z, hz, hr⟩ := inStream_law (K := Scope.quiet K) hK (fun _ h => h) (law hv n0 t) hP (hp n0 hP) rest
  have he' : topEnc cfg (elem cfg env n0 t).ti (codec R cfg env n0 t) x = bs := he
  rw [he'] at hr
  obtain ⟨r, ⟨z', rfl, hz'⟩, hy⟩ := Yields.of_mono (n0 := n0)
    (f := fun n => deserializeInPlaceFromStream cfg (elem cfg env n t) (bs ++ rest) y)
    (fun hnm => inStream_le (elem_le cfg env hnm t) _ _)
    (Q := fun r => ∃ z', r = (z', rest) ∧ Rel R env t x z')
    ⟨_, ⟨z, rfl, codec_rel _ _ _ _ hz⟩, hr⟩
  exact ⟨z', hz', hy⟩

theorem IsEnc.inPlace_short {y : Val}
    (hp : ∀ n, (codec R cfg env n t).P x → (codec R cfg env n t).prior x y)
    {inp tl : Bytes} (ht : tl ≠ []) (hb : bs = inp ++ tl) :
    Yields (fun n => deserializeInPlace cfg (elem cfg env n t) inp y) (.ub .readOverflow) :=
  h.yields fun n hP he => Ckpt.inPlace_short (K := Scope.quiet K) hK (fun _ h => h) (law hv n t) hP (hp n hP) ht
    (show topEnc cfg (env.ti t) _ x = _ by rw [he, hb])

theorem IsEnc.inStream_short {y : Val}
    (hp : ∀ n, (codec R cfg env n t).P x → (codec R cfg env n t).prior x y)
    {inp tl : Bytes} (ht : tl ≠ []) (hb : bs = inp ++ tl) :
    Yields (fun n => deserializeInPlaceFromStream cfg (elem cfg env n t) inp y) (.throw .streamShort) :=
  h.yields fun n hP he => Ckpt.inStream_short (K := Scope.quiet K) hK (fun _ h => h) (law hv n t) hP (hp n hP) ht
    (show topEnc cfg (env.ti t) _ x = _ by rw [he, hb])

end

theorem prior_of_clean {R : RelMode} {K : Kind → Prop} {cfg : Cfg} {env : Env}
    (hv : env.Valid R K cfg) {t : Ty} {x y : Val} (hx : ByVal t x) (hy : ByVal t y)
    (hc : Clean R cfg env t y) (n : Nat) (hp : (codec R cfg env n t).P x) :
    (codec R cfg env n t).prior x y :=
  codec_prior hv.toUsable n t x y hp hc (by rintro c rfl; exact sameDyn_of_byVal hx hy)

theorem deserialize_eq {T : Type} (cfg : Cfg) (e : Elem T) (mem : Bytes) :
    deserialize cfg e mem = deserializeInPlace cfg e mem e.fresh := by
  unfold deserialize deserializeType
  simp only
  cases deserializeInPlace cfg e mem e.fresh <;> rfl

theorem deserializeFromStream_eq {T : Type} (cfg : Cfg) (e : Elem T) (inp : Bytes) :
    deserializeFromStream cfg e inp = deserializeInPlaceFromStream cfg e inp e.fresh := rfl

theorem deserialize_elem (cfg : Cfg) (env : Env) (n : Nat) (t : Ty) (mem : Bytes) :
    deserialize cfg (elem cfg env n t) mem = deserializeInPlace cfg (elem cfg env n t) mem (env.fresh t) :=
  deserialize_eq _ _ _

theorem deserializeFromStream_elem (cfg : Cfg) (env : Env) (n : Nat) (t : Ty) (inp : Bytes) :
    deserializeFromStream cfg (elem cfg env n t) inp =
      deserializeInPlaceFromStream cfg (elem cfg env n t) inp (env.fresh t) := rfl

end Ckpt
