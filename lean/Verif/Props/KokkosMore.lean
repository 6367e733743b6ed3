import Verif.Proofs.ViewMoreTop
import Verif.Props.KokkosConst
/-!
# Further Kokkos classes (C55–C58)
-/

set_option autoImplicit false

namespace Ckpt

variable {R : RelMode} {cfg : Cfg} {env : Env} {t : Ty}

/-! ## C55 -/

theorem copy_rel {ty : ViewTy} {z : Val} {n : Nat} {v w : View Val}
    (h : v.Copy ty z ((codec R cfg env n t).byVal t).rel w) : v.Copy ty z (Rel R env t) w :=
  ⟨h.label, h.extents, h.alloc, h.strides, fun ha idx hi => by
    obtain ⟨x, y, h1, h2, h3⟩ := h.elements ha idx hi
    exact ⟨x, y, h1, h2, codec_rel _ _ _ _ h3⟩, h.fresh,
    fun y hy => (h.memory y hy).imp_right fun ⟨x, hx, hr⟩ => ⟨x, hx, codec_rel _ _ _ _ hr⟩⟩

/-- C55: a `DynRankView` is written and read back over any other: number of dimensions, label, extents, the strides
of a strided layout and the element at every index; a default-constructed one becomes a default-constructed one. -/
theorem C55_dynrank_roundtrip (hv : env.Valid R (· ∈ builtinKinds) cfg) {k : DynTI} (hk : k.Valid) {l : Layout}
    {v : DynRank Val} (ok : v.Ok l) (hx : ∀ x ∈ v.view.data, WT R env t x ∧ ByVal t x)
    (hm : env.ArrOk t v.view.size) :
    RoundTrips cfg (fun n => dynRankElem cfg k l (elem cfg env n t)) v (fun _ => True)
      (fun _ w => v.Copy l ((env.dflt t).getD (env.fresh t)) (Rel R env t) w ∧ w.Ok l) := by
  obtain ⟨n0, h0⟩ := eventually_list (xs := v.view.data) (Q := fun x n => (codec R cfg env n t).P x)
    (fun x hx' => codec_P (hx x hx').1)
  refine roundTrips_of (K := (· ∈ builtinKinds)) (fun _ h => h) (n0 := n0)
    (C := fun _ => dynCodec cfg k l (elem cfg env n0 t) ((codec R cfg env n0 t).byVal t))
    (fun hnm => dynRankElem_le (elem_le cfg env hnm t) k l)
    (fun _ => dynLaw hv.cfgOk hk ((law hv n0 t).byVal t) (prior_zero hv n0))
    (fun _ => ⟨ok, fun x hx' => ⟨h0 n0 (Nat.le_refl _) x hx', (hx x hx').2⟩, fun _ => multi_of hm⟩)
    (fun _ _ => trivial) (fun _ w hw => ⟨?_, hw.2⟩)
  rcases hw.1 with h | ⟨h1, h2, h3⟩
  · exact .inl h
  · exact .inr ⟨h1, h2, copy_rel h3⟩

/-- Type information of `DynRankView`. -/
def Demo.dynTI : DynTI :=
  { str := Demo.env.ti .str, layout := { name := 7, idx := encodeIndex 7, sizeof := 64 },
    uint := { name := 9, idx := encodeIndex 9, sizeof := 4 },
    view := { name := 8, idx := encodeIndex 8, sizeof := 72 } }

theorem Demo.dynTI_valid : Demo.dynTI.Valid :=
  ⟨Demo.ti_valid _, encodeIndex_valid (by decide), encodeIndex_valid (by decide), encodeIndex_valid (by decide)⟩

/-- `DynRankView<int, LayoutStride>` with two dimensions. -/
def Demo.dyn2 : DynRank Val := ⟨Demo.strided, true⟩

example : Demo.env.Valid .contents (· ∈ builtinKinds) (Demo.cfg true true) ∧ Demo.dynTI.Valid ∧ Demo.dyn2.Ok .stride ∧
    Demo.dyn2.view.contig = false ∧
    (∀ x ∈ Demo.dyn2.view.data, WT .contents Demo.env Demo.int x ∧ ByVal Demo.int x) ∧
    Demo.env.ArrOk Demo.int Demo.dyn2.view.size ∧ (DynRank.empty : DynRank Val).Ok .left :=
  ⟨Demo.valid_contents, Demo.dynTI_valid, .inr ⟨rfl, Demo.strided_ok, by decide, by decide⟩, rfl,
    fun _ h => Demo.ints h, Demo.int_arr _, .inl rfl⟩

/-! ## C56 -/

/-- C56: a `DynamicView` is written and read back over any other: label, chunk size and all elements.  The maximum
of the restored view is what the chunks in use hold. -/
theorem C56_dynamic_roundtrip (hv : env.Valid R (· ∈ builtinKinds) cfg) {k : DynamicTI} (hk : k.Valid)
    {v : DynamicView Val} (ok : v.Ok) (hx : ∀ x ∈ v.elems, WT R env t x ∧ ByVal t x) :
    RoundTrips cfg (fun n => dynamicElem cfg k (elem cfg env n t)) v (fun _ => True)
      (fun _ w => v.Copy (Rel R env t) w ∧ w.Ok) := by
  obtain ⟨n0, h0⟩ := eventually_list (xs := v.elems) (Q := fun x n => (codec R cfg env n t).P x)
    (fun x hx' => codec_P (hx x hx').1)
  exact roundTrips_of (K := (· ∈ builtinKinds)) (fun _ h => h) (n0 := n0)
    (C := fun _ => dynamicCodec cfg k (elem cfg env n0 t) ((codec R cfg env n0 t).byVal t))
    (fun hnm => dynamicElem_le (elem_le cfg env hnm t) k)
    (fun _ => dynamicLaw hv.cfgOk hk ((law hv n0 t).byVal t) (prior_zero hv n0))
    (fun _ => ⟨ok, fun x hx' => ⟨h0 n0 (Nat.le_refl _) x hx', (hx x hx').2⟩⟩)
    (fun _ _ => trivial) (fun _ w hw => ⟨⟨hw.1.label, hw.1.shift, hw.1.elems.imp fun a b h => codec_rel _ _ _ _ h,
      hw.1.max_enough, hw.1.max_least⟩, hw.2⟩)

theorem powerThatContains_bound (n : Nat) : ∀ (fuel j : Nat), n ≤ 2 ^ (j + fuel) →
    n ≤ 2 ^ powerThatContains n fuel j ∧ (∀ i, i < powerThatContains n fuel j → j ≤ i → 2 ^ i < n) ∧
      j ≤ powerThatContains n fuel j
  | 0, j, h => ⟨h, fun i h1 h2 => by simp only [powerThatContains] at h1; omega, Nat.le_refl _⟩
  | fuel + 1, j, h => by
    unfold powerThatContains
    split
    · rename_i hj
      exact ⟨hj, fun i h1 h2 => by omega, Nat.le_refl _⟩
    · rename_i hj
      obtain ⟨h1, h2, h3⟩ := powerThatContains_bound n fuel (j + 1) (by rw [Nat.add_right_comm]; exact h)
      refine ⟨h1, fun i hi hji => ?_, by omega⟩
      rcases Nat.eq_or_lt_of_le hji with rfl | h
      · omega
      · exact h2 i hi h

/-- C56: these are the views the constructor makes, with any chunk size from 2 up to half the range of `unsigned`. -/
theorem C56_constructed (label : Bytes) (minChunk maxExtent : Nat) (h2 : 2 ≤ minChunk) (h31 : minChunk ≤ 2 ^ 31)
    (hl : label.length < 2 ^ 64) : (DynamicView.construct label minChunk maxExtent : DynamicView Val).Ok := by
  obtain ⟨h1, h3, _⟩ := powerThatContains_bound minChunk 32 0 (by omega)
  have hs : 1 ≤ powerThatContains minChunk 32 0 := by
    rcases Nat.eq_zero_or_pos (powerThatContains minChunk 32 0) with h | h
    · rw [h] at h1; omega
    · exact h
  have hs' : powerThatContains minChunk 32 0 ≤ 31 := by
    by_contra h
    have := h3 31 (by omega) (by omega)
    omega
  refine ⟨hs, Nat.lt_succ_of_le hs', ?_, hl, Nat.zero_le _⟩
  show (_ % 2 ^ 32 / 2 ^ _) * 2 ^ _ < _
  refine Nat.lt_of_le_of_lt (Nat.div_mul_le_self _ _) (Nat.mod_lt _ (by decide))

/-- C56: … and those resizing makes of them, which keeps the elements that still fit. -/
theorem C56_resized {v w : DynamicView Val} (ok : v.Ok) (z : Val) (n : Nat) (h : v.resize z n = .ok w) :
    w.Ok ∧ w.elems.length = n ∧
      ∀ i < n, w.elems[i]? = if i < v.elems.length then v.elems[i]? else some z := by
  unfold DynamicView.resize at h
  split at h
  · cases h
  · rename_i hn
    have hn := v.chunksFor_le.1 (Nat.le_of_not_lt hn)
    cases h
    have hlen : (v.elems.take n ++ List.replicate (n - v.size) z).length = n := by
      simp [DynamicView.size]; omega
    refine ⟨⟨ok.shift_pos, ok.shift_lt, ok.max_lt, ok.label_lt, by
      show (v.elems.take n ++ List.replicate (n - v.size) z).length ≤ _
      rw [hlen]; exact hn⟩, hlen, fun i hi => ?_⟩
    show (v.elems.take n ++ List.replicate (n - v.size) z)[i]? = _
    split
    · rename_i h'
      rw [List.getElem?_append_left (by simp; omega), List.getElem?_take, if_pos hi]
    · rename_i h'
      rw [List.getElem?_append_right (by simp; omega), List.getElem?_replicate,
        if_pos (by simp only [DynamicView.size, List.length_take]; omega)]

/-- C56: the view could grow up to its maximum; the restored one cannot grow by another chunk, trying ends the
program. -/
theorem C56_maximum_lost {v w : DynamicView Val} {eq : Val → Val → Prop} (hc : v.Copy eq w) (z : Val) (n : Nat) :
    (n ≤ v.maxChunks * 2 ^ v.shift → ∃ v', v.resize z n = .ok v') ∧
    (v.elems.length + 2 ^ v.shift ≤ n → w.resize z n = .abort) := by
  constructor
  · intro h
    have := v.chunksFor_le.2 h
    exact ⟨_, if_neg (by omega)⟩
  · intro h
    refine if_pos ?_
    by_contra hcon
    have h1 : n ≤ w.maxChunks * 2 ^ w.shift := w.chunksFor_le.1 (Nat.le_of_not_lt hcon)
    rw [hc.shift] at h1
    have hp : 0 < 2 ^ v.shift := Nat.pow_pos (by omega)
    obtain ⟨m, hm⟩ : ∃ m, w.maxChunks = m + 1 := by
      cases hw : w.maxChunks with
      | zero => rw [hw] at h1; omega
      | succ m => exact ⟨m, rfl⟩
    have h2 := hc.max_least m (by rw [hm, Nat.add_mul] at h1; omega)
    omega

/-- `DynamicView<int*>("A", 2, 100)` resized to 3 elements. -/
def Demo.dynamic : DynamicView Val :=
  { label := [65], shift := 1, maxChunks := 50, elems := (List.range 3).map fun i => .raw [i.toUInt8, 0, 0, 0] }

def Demo.dynamicTI : DynamicTI :=
  { str := Demo.env.ti .str, view := { name := 8, idx := encodeIndex 8, sizeof := 72 } }

theorem Demo.dynamic_ok : Demo.dynamic.Ok := ⟨by decide, by decide, by decide, by decide, by decide⟩

example : (DynamicView.construct [65] 2 100).resize (Val.raw [0, 0, 0, 0]) 3 =
    .ok { label := [65], shift := 1, maxChunks := 50, elems := List.replicate 3 (Val.raw [0, 0, 0, 0]) } := rfl

example : Demo.dynamicTI.Valid ∧ Demo.dynamic.Ok ∧
    (∀ x ∈ Demo.dynamic.elems, WT .contents Demo.env Demo.int x ∧ ByVal Demo.int x) ∧
    Demo.dynamic.Copy Eq { Demo.dynamic with maxChunks := 2 } ∧ 5 ≤ Demo.dynamic.maxChunks * 2 ^ Demo.dynamic.shift ∧
    Demo.dynamic.elems.length + 2 ^ Demo.dynamic.shift ≤ 5 :=
  ⟨⟨Demo.ti_valid _, encodeIndex_valid (by decide)⟩, Demo.dynamic_ok, fun _ h => Demo.ints h,
    ⟨rfl, rfl, List.forall₂_refl _, by decide, fun m hm => by
      have : 3 ≤ m * 2 := hm
      show 2 ≤ m
      omega⟩, by decide, by decide⟩

/-! ## C57 -/

/-- C57: `serializeContentsOnly`: reading over a view of the same extents copies the elements into its memory; its
label, its strides and the memory between its elements stay. -/
theorem C57_contents_only (hv : env.Valid R (· ∈ builtinKinds) cfg) {ti : TI} (hti : ti.Valid) {k : ViewTI} (hk : k.Valid)
    {ty : ViewTy} (hh : ty.host = true) {v : View Val} (ok : v.Ok ty) (hx : ∀ x ∈ v.data, WT R env t x ∧ ByVal t x)
    (hm : env.ArrOk t v.size) :
    RoundTrips cfg (fun n => contentsElem cfg ti k ty (elem cfg env n t)) v (fun y => v.Target y)
      (fun y w => v.Filled ((env.dflt t).getD (env.fresh t)) (Rel R env t) y w) := by
  obtain ⟨n0, h0⟩ := eventually_list (xs := v.data) (Q := fun x n => (codec R cfg env n t).P x)
    (fun x hx' => codec_P (hx x hx').1)
  exact roundTrips_of (K := (· ∈ builtinKinds)) (fun _ h => h) (n0 := n0)
    (C := fun y => contentsCodec cfg k ty (elem cfg env n0 t) ((codec R cfg env n0 t).byVal t) y)
    (fun hnm => contentsElem_le (elem_le cfg env hnm t) ti k ty)
    (fun y => contentsLaw hv.cfgOk hti hk ((law hv n0 t).byVal t) (prior_zero hv n0) (by simp [hh]) y)
    (fun _ => ⟨ok, fun x hx' => ⟨h0 n0 (Nat.le_refl _) x hx', (hx x hx').2⟩, fun _ => multi_of hm⟩)
    (fun y hy => ⟨rfl, hy⟩) (fun y w hw => ⟨hw.label, hw.extents, hw.strides, hw.span, hw.alloc, hw.length,
      fun ha idx hi => by
        obtain ⟨a, b, h1, h2, h3⟩ := hw.elements ha idx hi
        exact ⟨a, b, h1, h2, codec_rel _ _ _ _ h3⟩, hw.fresh, hw.outside⟩)

/-- C57: over a view of other extents an exception is thrown. -/
theorem C57_other_extents (hv : env.Valid R (· ∈ builtinKinds) cfg) {ti : TI} (hti : ti.Valid) {k : ViewTI} (hk : k.Valid)
    {ty : ViewTy} (hh : ty.host = true) {v y : View Val} (ok : v.Ok ty) (hx : ∀ x ∈ v.data, WT R env t x ∧ ByVal t x)
    (hm : env.ArrOk t v.size) (hne : y.extents ≠ v.extents) {bs : Bytes}
    (hs : Yields (fun n => serializeToStream cfg (contentsElem cfg ti k ty (elem cfg env n t)) v { data := [] })
      (.ok (v, { data := bs }))) (rest : Bytes) :
    Yields (fun n => deserializeInPlace cfg (contentsElem cfg ti k ty (elem cfg env n t)) (bs ++ rest) y)
      (.throw (.user 0)) ∧
    Yields (fun n => deserializeInPlaceFromStream cfg (contentsElem cfg ti k ty (elem cfg env n t)) (bs ++ rest) y)
      (.throw (.user 0)) := by
  obtain ⟨n0, h0⟩ := eventually_list (xs := v.data) (Q := fun x n => (codec R cfg env n t).P x)
    (fun x hx' => codec_P (hx x hx').1)
  have hE : ∀ e, ¬ (Scope.quiet (· ∈ builtinKinds)).errs e := fun _ h => h
  have L := (law hv n0 t).byVal t
  have LC := contentsLaw (K := Scope.quiet (· ∈ builtinKinds)) hv.cfgOk hti hk L (prior_zero hv n0) (ty := ty)
    (by simp [hh]) y
  have hP : ViewP ty ((codec R cfg env n0 t).byVal t) v :=
    ⟨ok, fun x hx' => ⟨h0 n0 (Nat.le_refl _) x hx', (hx x hx').2⟩, fun _ => multi_of hm⟩
  have hle : ∀ {n m : Nat}, n ≤ m → Elem.Le (contentsElem cfg ti k ty (elem cfg env n t))
      (contentsElem cfg ti k ty (elem cfg env m t)) := fun hnm => contentsElem_le (elem_le cfg env hnm t) ti k ty
  have hbs : bs = topEnc cfg ti (contentsCodec cfg k ty (elem cfg env n0 t) ((codec R cfg env n0 t).byVal t) y) v := by
    have h1 := toStream_law (K := Scope.quiet (· ∈ builtinKinds)) (fun _ h => h) LC (x := v) hP ⟨[], none⟩ (by simp)
    have hy : Yields (fun n => serializeToStream cfg (contentsElem cfg ti k ty (elem cfg env n t)) v { data := [] })
        (.ok (v, ⟨topEnc cfg ti
          (contentsCodec cfg k ty (elem cfg env n0 t) ((codec R cfg env n0 t).byVal t) y) v, none⟩)) := by
      refine ⟨n0, fun m hm => ?_⟩
      have := (toStream_le (cfg := cfg) (hle hm) v { data := [] }).eq_of_ne (by rw [h1]; simp)
      dsimp only
      rw [this, h1]
      simp only [List.nil_append]
      rfl
    simpa using hs.unique hy
  have hst := top_stops (cfg := cfg) hE (e := contentsElem cfg ti k ty (elem cfg env n0 t)) hti
    (each_stops (serContents_stops hE hv.cfgOk hk L (prior_zero hv n0) (by simp [hh]) hP hne))
  have hpre : ∃ tail, bs ++ rest = (intBytes cfg.endian 4 ti.idx ++ nodeEnc cfg cfg.check k.view
      (viewCodec cfg k ty (elem cfg env n0 t) ((codec R cfg env n0 t).byVal t)) v) ++ tail := by
    rw [hbs]
    simp only [topEnc, node, if_true, contentsCodec, List.append_assoc]
    exact ⟨_, rfl⟩
  obtain ⟨tail, htail⟩ := hpre
  refine ⟨⟨n0, fun m hm => ?_⟩, ⟨n0, fun m hm => ?_⟩⟩
  · have h1 := hst { core := .unpacker (bs ++ rest) 0 0, kind := .unpacker }
      ⟨rfl, by simp [Scope.quiet, builtinKinds], by simp⟩ tail (by simp only [Ser.remaining, List.drop_zero]; exact htail)
    have h2 : deserializeInPlace cfg (contentsElem cfg ti k ty (elem cfg env n0 t)) (bs ++ rest) y = .throw (.user 0) := by
      unfold deserializeInPlace
      dsimp only at h1
      rw [h1]; rfl
    exact ((inPlace_le (hle hm) _ _).eq_of_ne (by rw [h2]; simp)).trans h2
  · have h1 := hst { core := .streamUnpacker (bs ++ rest) 0, kind := .streamUnpacker }
      ⟨rfl, by simp [Scope.quiet, builtinKinds], trivial⟩ tail (by simp only [Ser.remaining]; exact htail)
    have h2 : deserializeInPlaceFromStream cfg (contentsElem cfg ti k ty (elem cfg env n0 t)) (bs ++ rest) y =
        .throw (.user 0) := by
      unfold deserializeInPlaceFromStream
      dsimp only at h1
      rw [h1]; rfl
    exact ((inStream_le (hle hm) _ _).eq_of_ne (by rw [h2]; simp)).trans h2

/-- C57: `serializeExtentOnly`: reading makes a new view with the extents, the label the reader gives and
value-initialised elements, whatever the type of the elements is. -/
theorem C57_extents_only {T : Type} (hc : cfg.Valid) {ti : TI} (hti : ti.Valid) {ty : ViewTy} (hl : ty.layout ≠ .stride)
    {v : View T} (ok : v.Ok ty) (z : T) (label : Bytes) :
    RoundTrips cfg (fun _ => extentElem cfg ti ty z label) v (fun _ => True) (fun _ w => v.Shaped ty z label w) :=
  roundTrips_of (K := (· ∈ builtinKinds)) (fun _ h => h) (n0 := 0) (C := fun _ => extentCodec cfg ty z label)
    (fun _ => ⟨rfl, fun _ _ => .refl _⟩) (fun _ => extentLaw hc hti) (fun _ => ⟨ok, hl⟩) (fun _ _ => trivial) (fun _ _ hw => hw)

/-- A view of the same extents without padding. -/
def Demo.dense : View Val :=
  { label := [66], extents := [2, 3], strides := [3, 1], span := 6, alloc := true,
    data := List.replicate 6 (.raw [9, 9, 9, 9]) }

theorem Demo.padded_target : Demo.padded.Target Demo.dense where
  extents := rfl
  alloc := rfl
  inside := forall2_two (by decide)
  inj := by
    have : ∀ i, InRange i Demo.padded.extents → ∀ j, InRange j Demo.padded.extents →
        (List.zipWith (· * ·) i [3, 1]).sum = (List.zipWith (· * ·) j [3, 1]).sum → i = j :=
      forall2_two (P := fun i => ∀ j, InRange j Demo.padded.extents →
        (List.zipWith (· * ·) i [3, 1]).sum = (List.zipWith (· * ·) j [3, 1]).sum → i = j) fun a ha b hb =>
        forall2_two (P := fun j => (List.zipWith (· * ·) [a, b] [3, 1]).sum = (List.zipWith (· * ·) j [3, 1]).sum →
          [a, b] = j) fun c hc d hd h => by
          simp at h
          have h1 : a = c := by omega
          have h2 : b = d := by omega
          rw [h1, h2]
    exact fun i j hi hj h => this i hi j hj h

example : Demo.padded.Ok ⟨.right, [none, some 3], true⟩ ∧ Demo.strided.extents ≠ Demo.padded.extents ∧
    (ViewTy.mk .right [none, some 3] true).layout ≠ .stride := ⟨Demo.padded_ok, by decide, by decide⟩

/-! ## C58 -/

/-- All elements of a view are values of type `t`. -/
structure ViewIn (R : RelMode) (env : Env) (t : Ty) (ty : ViewTy) (v : View Val) : Prop where
  ok : v.Ok ty
  elems : ∀ x ∈ v.data, WT R env t x ∧ ByVal t x
  arr : env.ArrOk t v.size

theorem ViewIn.viewP {ty : ViewTy} {v : View Val} (h : ViewIn R env t ty v) {n : Nat}
    (hn : ∀ x ∈ v.data, (codec R cfg env n t).P x) : ViewP ty ((codec R cfg env n t).byVal t) v :=
  ⟨h.ok, fun x hx => ⟨hn x hx, (h.elems x hx).2⟩, fun _ => multi_of h.arr⟩

/-- Codecs of the elements at a depth where all elements of all views are well formed. -/
theorem graph_prepare (hv : env.Valid R (· ∈ builtinKinds) cfg) {g : GraphTy Val Val Val} (hg : g.Valid)
    {tE tR tB : Ty} (hf : FixedSize R cfg env tR)
    (hz : WT R env tR ((env.dflt tR).getD (env.fresh tR)) ∧ ByVal tR ((env.dflt tR).getD (env.fresh tR)))
    {x : CrsGraph Val Val Val} (hE : ViewIn R env tE g.entriesTy x.entries) (hR : ViewIn R env tR g.rowMapTy x.rowMap)
    (hB : ViewIn R env tB g.rowBlocksTy x.rowBlocks) (ha : x.rowMap.alloc = true ∨ x.rowMap.size = 0) :
    ∃ n0, ∀ n, n0 ≤ n → ∃ C : Codec (CrsGraph Val Val Val),
      C = graphCodec cfg g (elem cfg env n tE) (elem cfg env n tR) (elem cfg env n tB) ((codec R cfg env n tE).byVal tE)
        (((codec R cfg env n tR).byVal tR).on (WT R env tR)) ((codec R cfg env n tB).byVal tB) ∧
      C.P x ∧ Law (Scope.quiet (· ∈ builtinKinds)) cfg g.ti
        (graphElem cfg g (elem cfg env n tE) (elem cfg env n tR) (elem cfg env n tB)).apply C ∧
      ∀ y, C.rel x y → x.Copy g ((env.dflt tE).getD (env.fresh tE)) ((env.dflt tR).getD (env.fresh tR))
        ((env.dflt tB).getD (env.fresh tB)) (Rel R env tE) (Rel R env tR) (Rel R env tB) y := by
  obtain ⟨n1, h1⟩ := eventually_list (xs := x.entries.data) (Q := fun x n => (codec R cfg env n tE).P x)
    (fun x hx' => codec_P (hE.elems x hx').1)
  obtain ⟨n2, h2⟩ := eventually_list (xs := (env.dflt tR).getD (env.fresh tR) :: x.rowMap.data)
    (Q := fun x n => (codec R cfg env n tR).P x) (fun x hx' => codec_P (by
      rcases List.mem_cons.1 hx' with rfl | h
      · exact hz.1
      · exact (hR.elems x h).1))
  obtain ⟨n3, h3⟩ := eventually_list (xs := x.rowBlocks.data) (Q := fun x n => (codec R cfg env n tB).P x)
    (fun x hx' => codec_P (hB.elems x hx').1)
  refine ⟨n1 + n2 + n3, fun n hn => ⟨_, rfl, ⟨hE.viewP (h1 n (by omega)), ⟨hR.ok, fun a ha => ⟨⟨h2 n (by omega) a (by simp [ha]),
    (hR.elems a ha).2⟩, (hR.elems a ha).1⟩, multi_of hR.arr, ha⟩, hB.viewP (h3 n (by omega))⟩, ?_, fun y hy => ?_⟩⟩
  · have hzero : (elem cfg env n tR).zero = (env.dflt tR).getD (env.fresh tR) := rfl
    exact graphLaw hv.cfgOk hg ((law hv n tE).byVal tE) (((law hv n tR).byVal tR).on _) ((law hv n tB).byVal tB)
      (prior_zero hv n) (fun x hp => prior_zero hv n x hp.1) (prior_zero hv n)
      (uniform_of_fixed hv hf ⟨⟨by rw [hzero]; exact h2 n (by omega) _ (by simp), by rw [hzero]; exact hz.2⟩,
        by rw [hzero]; exact hz.1⟩)
  · exact ⟨⟨copy_rel hy.entries.1, hy.entries.2⟩, ⟨copy_rel (cfg := cfg) (n := n)
      ⟨hy.rowMap.1.label, hy.rowMap.1.extents, hy.rowMap.1.alloc, hy.rowMap.1.strides, hy.rowMap.1.elements,
        hy.rowMap.1.fresh, hy.rowMap.1.memory⟩, hy.rowMap.2⟩, ⟨copy_rel hy.rowBlocks.1, hy.rowBlocks.2⟩⟩

/-- C58: a sparse graph is written and read back over any other: entries, row map and block offsets. -/
theorem C58_graph_roundtrip (hv : env.Valid R (· ∈ builtinKinds) cfg) {g : GraphTy Val Val Val} (hg : g.Valid)
    {tE tR tB : Ty} (hf : FixedSize R cfg env tR)
    (hz : WT R env tR ((env.dflt tR).getD (env.fresh tR)) ∧ ByVal tR ((env.dflt tR).getD (env.fresh tR)))
    {x : CrsGraph Val Val Val} (hE : ViewIn R env tE g.entriesTy x.entries) (hR : ViewIn R env tR g.rowMapTy x.rowMap)
    (hB : ViewIn R env tB g.rowBlocksTy x.rowBlocks) (ha : x.rowMap.alloc = true ∨ x.rowMap.size = 0) :
    RoundTrips cfg (fun n => graphElem cfg g (elem cfg env n tE) (elem cfg env n tR) (elem cfg env n tB)) x
      (fun _ => True) (fun _ y => x.Copy g ((env.dflt tE).getD (env.fresh tE)) ((env.dflt tR).getD (env.fresh tR))
        ((env.dflt tB).getD (env.fresh tB)) (Rel R env tE) (Rel R env tR) (Rel R env tB) y) := by
  obtain ⟨n0, h0⟩ := graph_prepare hv hg hf hz hE hR hB ha
  obtain ⟨_, rfl, hP, hL, hr⟩ := h0 n0 (Nat.le_refl _)
  exact roundTrips_of (K := (· ∈ builtinKinds)) (fun _ h => h) (n0 := n0) (C := fun _ => graphCodec _ _ _ _ _ _ _ _)
    (fun hnm => graphElem_le (elem_le cfg env hnm tE) (elem_le cfg env hnm tR) (elem_le cfg env hnm tB) g)
    (fun _ => hL) (fun _ => hP) (fun _ _ => trivial) (fun _ y hy => hr y hy)

theorem prim_eq {i s : Nat} {x y : Val} (h : Rel R env (.prim i s) x y) : y = x := by
  cases h; rfl

theorem prim_clean {i s : Nat} {x : Val} (h : WT R env (.prim i s) x) : Clean R cfg env (.prim i s) x := by
  cases h with
  | prim h => exact .prim h

/-- C58: a sparse matrix is written and read back over any other: graph, values and number of columns. -/
theorem C58_matrix_roundtrip (hv : env.Valid R (· ∈ builtinKinds) cfg) {g : GraphTy Val Val Val} (hg : g.Valid)
    {tE tR tB tV : Ty} (hf : FixedSize R cfg env tR)
    (hz : WT R env tR ((env.dflt tR).getD (env.fresh tR)) ∧ ByVal tR ((env.dflt tR).getD (env.fresh tR)))
    {ti : TI} (hti : ti.Valid) {k : ViewTI} (hk : k.Valid) {ty : ViewTy} (hh : ty.host = true) (iO sO : Nat)
    {x : CrsMatrix Val Val Val Val Val} (hO : WT R env (.prim iO sO) x.numCols)
    (hE : ViewIn R env tE g.entriesTy x.graph.entries) (hR : ViewIn R env tR g.rowMapTy x.graph.rowMap)
    (hB : ViewIn R env tB g.rowBlocksTy x.graph.rowBlocks) (ha : x.graph.rowMap.alloc = true ∨ x.graph.rowMap.size = 0)
    (hV : ViewIn R env tV ty x.values) :
    RoundTrips cfg (fun n => matrixElem cfg ti g k ty (elem cfg env n (.prim iO sO)) (elem cfg env n tE)
        (elem cfg env n tR) (elem cfg env n tB) (elem cfg env n tV)) x (fun y => WT R env (.prim iO sO) y.numCols)
      (fun _ y => y.numCols = x.numCols ∧
        x.graph.Copy g ((env.dflt tE).getD (env.fresh tE)) ((env.dflt tR).getD (env.fresh tR))
          ((env.dflt tB).getD (env.fresh tB)) (Rel R env tE) (Rel R env tR) (Rel R env tB) y.graph ∧
        x.values.Copy ty ((env.dflt tV).getD (env.fresh tV)) (Rel R env tV) y.values ∧ y.values.Ok ty) := by
  obtain ⟨n1, h1⟩ := graph_prepare hv hg hf hz hE hR hB ha
  obtain ⟨n2, h2⟩ := eventually_list (xs := x.values.data) (Q := fun x n => (codec R cfg env n tV).P x)
    (fun x hx' => codec_P (hV.elems x hx').1)
  obtain ⟨n3, h3⟩ := codec_P (cfg := cfg) hO
  let n := n1 + n2 + n3
  obtain ⟨_, rfl, hP, hL, hr⟩ := h1 n (by omega)
  exact roundTrips_of (K := (· ∈ builtinKinds)) (fun _ h => h) (n0 := n)
    (C := fun _ => matrixCodec cfg g k ty (elem cfg env n (.prim iO sO)) (elem cfg env n tE) (elem cfg env n tR)
      (elem cfg env n tB) (elem cfg env n tV) ((codec R cfg env n (.prim iO sO)).byVal (.prim iO sO)) ((codec R cfg env n tE).byVal tE)
      (((codec R cfg env n tR).byVal tR).on (WT R env tR)) ((codec R cfg env n tB).byVal tB)
      ((codec R cfg env n tV).byVal tV))
    (fun hnm => matrixElem_le (elem_le cfg env hnm _) (elem_le cfg env hnm tE) (elem_le cfg env hnm tR)
      (elem_le cfg env hnm tB) (elem_le cfg env hnm tV) ti g k ty)
    (fun _ => matrixLaw hv.cfgOk hti hg hk hh ((law hv n _).byVal _) ((law hv n tV).byVal tV) (prior_zero hv n) hL)
    (fun _ => ⟨⟨h3 n (by omega), trivial⟩, hP, hV.viewP (h2 n (by omega))⟩) (fun y hy => (by
      refine codec_prior hv.toUsable n (.prim iO sO) _ _ (h3 n (by omega)) (prim_clean hy) nofun))
    (fun _ y hy => ⟨prim_eq (codec_rel _ _ _ _ hy.1), hr _ hy.2.1, copy_rel hy.2.2.1, hy.2.2.2⟩)

/-- The graph of a matrix of two rows with two and one entries. -/
def Demo.row (n : Nat) : View Val :=
  { label := [], extents := [n], strides := [1], span := n, alloc := true,
    data := (List.range n).map fun i => .raw [i.toUInt8, 0, 0, 0] }

theorem Demo.row_ok (n : Nat) (hn : n < 2 ^ 32) : (Demo.row n).Ok ⟨.left, [none], true⟩ where
  rank_le := by decide
  extents := rfl
  strides := rfl
  static i n h := by
    rcases i with _ | i <;> simp at h
  ext_lt := by simp [Demo.row]; omega
  str_lt _ := by simp [Demo.row]
  size_lt := by simp [Demo.row, View.size]; omega
  label_lt := by simp [Demo.row]
  data _ := by simp [Demo.row]
  inside idx h := by
    cases h with
    | cons h1 h2 => cases h2; simpa [Demo.row, View.offset] using h1
  span h := by cases h
  compact l h _ := by
    simp [Demo.row, Layout.compact] at h ⊢
    exact h
  scalar h := by cases h

theorem Demo.row_in (n : Nat) (hn : n < 2 ^ 32) : ViewIn .contents Demo.env Demo.int ⟨.left, [none], true⟩ (Demo.row n) :=
  ⟨Demo.row_ok n hn, fun _ h => Demo.ints h, Demo.int_arr _⟩

def Demo.graphTy : GraphTy Val Val Val :=
  { ti := { name := 11, idx := encodeIndex 11, sizeof := 96 }, entriesTI := Demo.viewTI, rowMapTI := Demo.viewTI,
    rowBlocksTI := Demo.viewTI, entriesTy := ⟨.left, [none], true⟩, rowMapTy := ⟨.left, [none], true⟩,
    rowBlocksTy := ⟨.left, [none], true⟩ }

example : Demo.graphTy.Valid ∧ FixedSize .contents (Demo.cfg true true) Demo.env Demo.int ∧
    WT .contents Demo.env Demo.int ((Demo.env.dflt Demo.int).getD (Demo.env.fresh Demo.int)) ∧
    ViewIn .contents Demo.env Demo.int Demo.graphTy.entriesTy (Demo.row 3) ∧
    ViewIn .contents Demo.env Demo.int Demo.graphTy.rowMapTy (Demo.row 3) ∧
    ViewIn .contents Demo.env Demo.int Demo.graphTy.rowBlocksTy (Demo.row 0) ∧
    WT .contents Demo.env Demo.int (.raw [3, 0, 0, 0]) :=
  ⟨⟨encodeIndex_valid (by decide), Demo.viewTI_valid, Demo.viewTI_valid, Demo.viewTI_valid, rfl, rfl⟩,
    fixedSize_prim Demo.valid_contents _ _, .prim rfl, Demo.row_in 3 (by decide), Demo.row_in 3 (by decide),
    Demo.row_in 0 (by decide), .prim rfl⟩

end Ckpt
