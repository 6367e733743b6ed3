import Verif.Proofs.ViewMore
import Verif.Proofs.Stops
/-!
Laws of the partial serializers of views and of sparse graphs.
-/

set_option autoImplicit false

namespace Ckpt

section
variable {K : Scope} {cfg : Cfg} {T : Type} {e : Elem T} {c : Codec T}

/-! ### Contents only -/

theorem deepCopy_target {v y w : View T} (tg : View.Target v y) (hx : w.extents = v.extents) (hw : w.alloc = true)
    (hin : ∀ idx, InRange idx v.extents → ∃ a, w.get? idx = some a) :
    ∃ d, y.deepCopyChecked w = .ok { y with data := d } ∧ d.length = y.data.length ∧
      (∀ idx, InRange idx v.extents → d[y.offset idx]? = w.get? idx) ∧
      ∀ k, (∀ idx, InRange idx v.extents → y.offset idx ≠ k) → d[k]? = y.data[k]? := by
  obtain ⟨d, h1, h2, h3, h4, _⟩ := copyAll w y (allIdx v.extents) y.data
    (fun idx hi => ⟨tg.inside _ (mem_allIdx.1 hi), hin _ (mem_allIdx.1 hi)⟩)
    (fun i hi j hj he => by
      have := tg.inj i j (mem_allIdx.1 hi) (mem_allIdx.1 hj) he
      simp only [this])
  refine ⟨d, ?_, h2, fun idx hi => h3 idx (mem_allIdx.2 hi), fun k hk => h4 k fun idx hi => hk idx (mem_allIdx.1 hi)⟩
  unfold View.deepCopyChecked
  rw [if_neg (by rw [tg.extents, hx]; simp), tg.alloc, hw]
  simp only [Bool.and_self, if_true, View.deepCopy, traverseManual_eq, List.nil_append, tg.extents, h1, Out.bind_eq,
    Out.bind_ok]
  rw [tg.alloc]

/-- The class that serializes the contents, for reading over `y`. -/
def contentsCodec (cfg : Cfg) (k : ViewTI) (ty : ViewTy) (e : Elem T) (c : Codec T) (y : View T) : Codec (View T) where
  P := ViewP ty c
  enc w v := nodeEnc cfg w k.view (viewCodec cfg k ty e c) v
  prior v y' := y' = y ∧ View.Target v y
  rel v w := View.Filled e.zero c.rel v y w
  fp v := (viewCodec cfg k ty e c).fp v
  multi _ := True

theorem serContents_wr (hc : cfg.Valid) {k : ViewTI} (hk : k.Valid) (L : Law K cfg e.ti e.apply c)
    (hz : ∀ x, c.P x → c.prior x e.zero) {ty : ViewTy} (hu : ty.host = false → Uniform K cfg e c) {v : View T}
    (h : ViewP ty c v) :
    Wr K cfg (fun s => serContentsOnly cfg k ty e s v)
      (fun w => nodeEnc cfg w k.view (viewCodec cfg k ty e c) v) v := by
  have h1 := pipe_wr (e := viewElem cfg k ty false e) (viewLaw (K := K) hc hk L hz hu) (x := v) h
  refine (h1.bind (k := fun p => v.takeContents p.2 p.1 >>= fun w => .ok (w, p.2)) (c := v) (bs' := fun _ => []) ?_).congr
    (fun _ _ => rfl) (fun _ => by simp; rfl)
  refine (Wr.pure v).congr (fun s hs => ?_) (fun _ => rfl)
  simp [View.takeContents, hs.not_unpacking]

theorem serContents_fp (hc : cfg.Valid) {k : ViewTI} (hk : k.Valid) (L : Law K cfg e.ti e.apply c)
    (hz : ∀ x, c.P x → c.prior x e.zero) {ty : ViewTy} (hu : ty.host = false → Uniform K cfg e c) {v : View T}
    (h : ViewP ty c v) :
    Fp K (fun s => serContentsOnly cfg k ty e s v) ((viewCodec cfg k ty e c).fp v) v := by
  have h1 := pipe_fp (e := viewElem cfg k ty false e) (viewLaw (K := K) hc hk L hz hu) (x := v) h
  refine (h1.bind (k := fun p => v.takeContents p.2 p.1 >>= fun w => .ok (w, p.2)) (c := v) (n' := 0) ?_).congr
    (fun _ _ => rfl) (by simp)
  refine (Fp.pure v).congr (fun s hs => ?_) rfl
  simp [View.takeContents, hs.not_unpacking]

theorem serContents_rd (hc : cfg.Valid) {k : ViewTI} (hk : k.Valid) (L : Law K cfg e.ti e.apply c)
    (hz : ∀ x, c.P x → c.prior x e.zero) {ty : ViewTy} (hu : ty.host = false → Uniform K cfg e c) {v y : View T}
    (h : ViewP ty c v) (tg : View.Target v y) :
    Rd K (fun s => serContentsOnly cfg k ty e s y)
      (nodeEnc cfg cfg.check k.view (viewCodec cfg k ty e c) v) (View.Filled e.zero c.rel v y) := by
  have h1 := pipe_rd (e := viewElem cfg k ty false e) (viewLaw (K := K) hc hk L hz hu) (x := v) (y := y) h trivial
  refine (h1.bind (k := fun p => y.takeContents p.2 p.1 >>= fun w => .ok (w, p.2)) (bs' := [])
    (Q' := View.Filled e.zero c.rel v y) ?_).congr (fun _ _ => rfl) (by simp; rfl) (fun _ h => h)
  rintro w ⟨cp, ok⟩
  have hin : ∀ idx, InRange idx v.extents → ∃ a, w.get? idx = some a := by
    intro idx hi
    rw [← cp.extents] at hi
    have : w.offset idx < w.data.length := by rw [ok.data cp.alloc]; exact ok.inside _ hi
    exact ⟨_, List.getElem?_eq_getElem this⟩
  obtain ⟨d, hd, hl, hget, hout⟩ := deepCopy_target tg cp.extents cp.alloc hin
  refine (Rd.pure (b := { y with data := d }) (Q := View.Filled e.zero c.rel v y) ?_).congr (fun s hs => ?_) rfl
    (fun _ h => h)
  · refine ⟨rfl, rfl, rfl, rfl, rfl, hl, fun ha idx hi => ?_, fun ha idx hi => ?_, hout⟩
    · obtain ⟨a, b, h1, h2, h3⟩ := cp.elements ha idx hi
      exact ⟨a, b, h1, by rw [← h2]; exact hget idx hi, h3⟩
    · rw [← cp.fresh ha idx hi]; exact hget idx hi
  · simp only [View.takeContents, hs.unpacking, if_true, hd, Out.bind_eq, Out.bind_ok]

/-- Other extents. -/
theorem serContents_stops (hE : ∀ e, ¬ K.errs e) (hc : cfg.Valid) {k : ViewTI} (hk : k.Valid)
    (L : Law K cfg e.ti e.apply c)
    (hz : ∀ x, c.P x → c.prior x e.zero) {ty : ViewTy} (hu : ty.host = false → Uniform K cfg e c) {v y : View T}
    (h : ViewP ty c v) (hne : y.extents ≠ v.extents) :
    Stops K (fun s => serContentsOnly cfg k ty e s y)
      (nodeEnc cfg cfg.check k.view (viewCodec cfg k ty e c) v) (.user 0) := by
  have h1 := pipe_rd (e := viewElem cfg k ty false e) (viewLaw (K := K) hc hk L hz hu) (x := v) (y := y) h trivial
  have := h1.stops hE (k := fun p => y.takeContents p.2 p.1 >>= fun w => .ok (w, p.2)) (p := []) (h := .user 0) (by
    rintro w ⟨cp, ok⟩ s hs rest _
    have : y.extents ≠ w.extents := by rw [cp.extents]; exact hne
    simp [View.takeContents, hs.unpacking, View.deepCopyChecked, this, Halt.out])
  rw [List.append_nil] at this
  exact this.congr (fun _ _ => rfl)

theorem contentsLaw (hc : cfg.Valid) {ti : TI} (hti : ti.Valid) {k : ViewTI} (hk : k.Valid)
    (L : Law K cfg e.ti e.apply c)
    (hz : ∀ x, c.P x → c.prior x e.zero) {ty : ViewTy} (hu : ty.host = false → Uniform K cfg e c) (y : View T) :
    Law K cfg (contentsElem cfg ti k ty e).ti (contentsElem cfg ti k ty e).apply (contentsCodec cfg k ty e c y) :=
  Law.ofEach hti trivial (fun _ h => serContents_wr hc hk L hz hu h)
    (fun _ _ h hp => by obtain ⟨rfl, tg⟩ := hp; exact serContents_rd hc hk L hz hu h tg)
    (fun _ h => serContents_fp hc hk L hz hu h)

/-! ### Extents only -/

theorem pipeSizes_wr (hc : cfg.Valid) : ∀ {ns : List Nat}, (∀ n ∈ ns, n < 2 ^ 64) →
    Wr K cfg (fun s => pipeSizes cfg s ns) (fun w => ns.flatMap (sizeNode cfg w)) ns
  | [], _ => Wr.pure []
  | n :: ns, h => by
    have ih := pipeSizes_wr hc (ns := ns) fun m hm => h m (by simp [hm])
    refine ((pipeSize_wr (K := K) hc (h n (by simp))).bind
      (k := fun p => pipeSizes cfg p.2 ns >>= fun q => .ok (p.1 :: q.1, q.2)) (ih.map fun r => n :: r)).congr
      (fun _ _ => rfl) (fun _ => rfl)

theorem pipeSizes_fp (hc : cfg.Valid) : ∀ {ns : List Nat}, (∀ n ∈ ns, n < 2 ^ 64) →
    Fp K (fun s => pipeSizes cfg s ns) (ns.length * 8) ns
  | [], _ => (Fp.pure []).congr (fun _ _ => rfl) (by simp)
  | n :: ns, h => by
    have ih := pipeSizes_fp hc (ns := ns) fun m hm => h m (by simp [hm])
    refine ((pipeSize_fp (K := K) hc (h n (by simp))).bind
      (k := fun p => pipeSizes cfg p.2 ns >>= fun q => .ok (p.1 :: q.1, q.2)) (ih.map fun r => n :: r)).congr
      (fun _ _ => rfl) ?_
    simp only [List.length_cons, Nat.add_mul]; omega

theorem pipeSizes_rd (hc : cfg.Valid) : ∀ {ns ms : List Nat}, (∀ n ∈ ns, n < 2 ^ 64) → ms.length = ns.length →
    Rd K (fun s => pipeSizes cfg s ms) (ns.flatMap (sizeNode cfg cfg.check)) (fun r => r = ns)
  | [], [], _, _ => Rd.pure rfl
  | n :: ns, m :: ms, h, hl => by
    have ih := pipeSizes_rd hc (ns := ns) (ms := ms) (fun m hm => h m (by simp [hm])) (by simpa using hl)
    refine ((pipeSize_rd (K := K) hc (m := m) (h n (by simp))).bind
      (k := fun p => pipeSizes cfg p.2 ms >>= fun q => .ok (p.1 :: q.1, q.2)) (Q' := fun r => r = n :: ns) ?_).congr
      (fun _ _ => rfl) rfl (fun _ h => h)
    rintro _ rfl
    exact ih.map (fun r => _ :: r) (fun r hr => by rw [hr])
  | [], _ :: _, _, h => by simp at h
  | _ :: _, [], _, h => by simp at h

/-- A view made from the extents of another. -/
theorem View.Ok.madeExtents {ty : ViewTy} {v : View T} (ok : v.Ok ty) (hl : ty.layout ≠ .stride) (z : T) (label : Bytes) :
    View.Made ty z v (ty.constructExtents z label v.extents) := by
  have h := ok.made (z := z) (label := label) (lay := v.layoutVal.map fun p => (p.1, 0)) (by
    generalize v.layoutVal = lay
    induction lay with
    | nil => exact .nil
    | cons p lay ih => exact .cons ⟨rfl, fun h => absurd h hl⟩ ih)
  have hs : v.strides.length = v.extents.length := by rw [ok.strides, ok.extents]
  unfold ViewTy.constructExtents
  rw [construct_take (b := v.layoutVal.map fun p => (p.1, 0))]
  · exact h
  · rw [← ok.extents, View.layoutVal, List.map_append, List.take_append]
    have h1 : (v.extents.zip v.strides).map (fun p => (p.1, 0)) = v.extents.map fun n => (n, 0) := by
      rw [show (fun p : Nat × Nat => (p.1, 0)) = (fun n : Nat => (n, 0)) ∘ (·.1) from rfl, ← List.map_map,
        List.map_fst_zip (by omega)]
    rw [h1]
    simp

/-- The class that serializes the extents. -/
def extentCodec (cfg : Cfg) (ty : ViewTy) (z : T) (label : Bytes) : Codec (View T) where
  P v := v.Ok ty ∧ ty.layout ≠ .stride
  enc w v := v.extents.flatMap (sizeNode cfg w)
  prior _ _ := True
  rel v w := View.Shaped ty z label v w
  fp v := v.extents.length * 8
  multi _ := True

theorem serExtent_wr (hc : cfg.Valid) {ty : ViewTy} {z : T} {label : Bytes} {v : View T} (ok : v.Ok ty) :
    Wr K cfg (fun s => serExtentOnly cfg ty z label s v) (fun w => v.extents.flatMap (sizeNode cfg w)) v := by
  have h1 := pipeSizes_wr (K := K) hc ok.ext_lt
  refine (h1.bind (k := fun p => .ok (if p.2.isUnpacking then ty.constructExtents z label p.1 else v, p.2)) (c := v)
    (bs' := fun _ => []) ?_).congr (fun s _ => ?_) (fun _ => by simp)
  · exact (Wr.pure v).congr (fun s hs => by simp [hs.not_unpacking]) (fun _ => rfl)
  · simp only [serExtentOnly, ← ok.extents, extents_range]

theorem serExtent_fp (hc : cfg.Valid) {ty : ViewTy} {z : T} {label : Bytes} {v : View T} (ok : v.Ok ty) :
    Fp K (fun s => serExtentOnly cfg ty z label s v) (v.extents.length * 8) v := by
  have h1 := pipeSizes_fp (K := K) hc ok.ext_lt
  refine (h1.bind (k := fun p => .ok (if p.2.isUnpacking then ty.constructExtents z label p.1 else v, p.2)) (c := v)
    (n' := 0) ?_).congr (fun s _ => ?_) (by simp)
  · exact (Fp.pure v).congr (fun s hs => by simp [hs.not_unpacking]) rfl
  · simp only [serExtentOnly, ← ok.extents, extents_range]

theorem serExtent_rd (hc : cfg.Valid) {ty : ViewTy} {z : T} {label : Bytes} {v y : View T} (ok : v.Ok ty)
    (hl : ty.layout ≠ .stride) :
    Rd K (fun s => serExtentOnly cfg ty z label s y) (v.extents.flatMap (sizeNode cfg cfg.check))
      (View.Shaped ty z label v) := by
  have h1 := pipeSizes_rd (K := K) hc (ms := (List.range ty.rank).map y.extent) ok.ext_lt (by simp [ok.extents])
  refine (h1.bind (k := fun p => .ok (if p.2.isUnpacking then ty.constructExtents z label p.1 else y, p.2))
    (bs' := []) (Q' := View.Shaped ty z label v) ?_).congr (fun s _ => rfl) (by simp) (fun _ h => h)
  rintro _ rfl
  have m := ok.madeExtents hl z label
  refine (Rd.pure (b := ty.constructExtents z label v.extents) (Q := View.Shaped ty z label v) ?_).congr
    (fun s hs => by simp [hs.unpacking]) rfl (fun _ h => h)
  refine ⟨rfl, m.extents, m.alloc, fun idx hi => ?_, fun h => ?_⟩
  · show (ty.constructExtents z label v.extents).data[_]? = _
    rw [m.data, List.getElem?_replicate]
    exact if_pos (m.inside ok hi)
  · exact m.ok ok h (d := (ty.constructExtents z label v.extents).data) (by rw [m.data, List.length_replicate])

theorem extentLaw (hc : cfg.Valid) {ti : TI} (hti : ti.Valid) {ty : ViewTy} {z : T} {label : Bytes} :
    Law K cfg (extentElem cfg ti ty z label).ti (extentElem cfg ti ty z label).apply (extentCodec cfg ty z label) :=
  Law.ofEach hti trivial (fun _ h => serExtent_wr hc h.1) (fun _ _ h _ => serExtent_rd hc h.1 h.2)
    (fun _ h => serExtent_fp hc h.1)

end

/-! ### Sparse graphs -/

section
variable {K : Scope} {cfg : Cfg} {E R B V O : Type} {eE : Elem E} {eR : Elem R} {eB : Elem B} {eV : Elem V} {eO : Elem O}
  {cE : Codec E} {cR : Codec R} {cB : Codec B} {cV : Codec V} {cO : Codec O}

/-- Type information of a program. -/
structure GraphTy.Valid (g : GraphTy E R B) : Prop where
  ti : g.ti.Valid
  entries : g.entriesTI.Valid
  rowMap : g.rowMapTI.Valid
  rowBlocks : g.rowBlocksTI.Valid
  entriesHost : g.entriesTy.host = true
  rowBlocksHost : g.rowBlocksTy.host = true

/-- Graphs. -/
def graphCodec (cfg : Cfg) (g : GraphTy E R B) (eE : Elem E) (eR : Elem R) (eB : Elem B) (cE : Codec E) (cR : Codec R)
    (cB : Codec B) : Codec (CrsGraph E R B) where
  P x := ViewP g.entriesTy cE x.entries ∧ ConstP g.rowMapTy cR x.rowMap ∧ ViewP g.rowBlocksTy cB x.rowBlocks
  enc w x := nodeEnc cfg w g.entriesTI.view (viewCodec cfg g.entriesTI g.entriesTy eE cE) x.entries ++
    (nodeEnc cfg w g.rowMapTI.view (constCodec cfg g.rowMapTI g.rowMapTy eR cR) x.rowMap ++
      nodeEnc cfg w g.rowBlocksTI.view (viewCodec cfg g.rowBlocksTI g.rowBlocksTy eB cB) x.rowBlocks)
  prior _ _ := True
  rel x y := x.Copy g eE.zero eR.zero eB.zero cE.rel cR.rel cB.rel y
  fp x := (viewCodec cfg g.entriesTI g.entriesTy eE cE).fp x.entries +
    ((constCodec cfg g.rowMapTI g.rowMapTy eR cR).fp x.rowMap +
      (viewCodec cfg g.rowBlocksTI g.rowBlocksTy eB cB).fp x.rowBlocks)
  multi _ := True

theorem graphLaw (hc : cfg.Valid) {g : GraphTy E R B} (hg : g.Valid) (LE : Law K cfg eE.ti eE.apply cE)
    (LR : Law K cfg eR.ti eR.apply cR) (LB : Law K cfg eB.ti eB.apply cB) (hE : ∀ x, cE.P x → cE.prior x eE.zero)
    (hR : ∀ x, cR.P x → cR.prior x eR.zero) (hB : ∀ x, cB.P x → cB.prior x eB.zero) (u : Uniform K cfg eR cR) :
    Law K cfg (graphElem cfg g eE eR eB).ti (graphElem cfg g eE eR eB).apply (graphCodec cfg g eE eR eB cE cR cB) := by
  have l1 := viewLaw (K := K) hc hg.entries LE hE (ty := g.entriesTy) (by simp [hg.entriesHost])
  have l2 := constLaw (K := K) hc hg.rowMap LR hR (ty := g.rowMapTy) u
  have l3 := viewLaw (K := K) hc hg.rowBlocks LB hB (ty := g.rowBlocksTy) (by simp [hg.rowBlocksHost])
  refine Law.ofEach hg.ti trivial (fun x h => ?_) (fun x y h _ => ?_) (fun x h => ?_)
  · refine (pipe_wr l1 h.1).bind ?_
    refine (pipe_wr l2 h.2.1).bind ?_
    exact (pipe_wr l3 h.2.2).map fun c => CrsGraph.mk x.entries x.rowMap c
  · refine (pipe_rd l1 (y := y.entries) h.1 trivial).bind fun a ha => ?_
    refine (pipe_rd l2 (y := y.rowMap) h.2.1 trivial).bind fun b hb => ?_
    exact (pipe_rd l3 (y := y.rowBlocks) h.2.2 trivial).map (Q' := (graphCodec cfg g eE eR eB cE cR cB).rel x)
      (fun c => CrsGraph.mk a b c) fun c hc => ⟨ha, hb, hc⟩
  · refine (pipe_fp (cfg := cfg) l1 h.1).bind ?_
    refine (pipe_fp (cfg := cfg) l2 h.2.1).bind ?_
    exact (pipe_fp (cfg := cfg) l3 h.2.2).map fun c => CrsGraph.mk x.entries x.rowMap c

/-- Matrices. -/
def matrixCodec (cfg : Cfg) (g : GraphTy E R B) (k : ViewTI) (ty : ViewTy) (eO : Elem O) (eE : Elem E) (eR : Elem R)
    (eB : Elem B) (eV : Elem V) (cO : Codec O) (cE : Codec E) (cR : Codec R) (cB : Codec B) (cV : Codec V) :
    Codec (CrsMatrix E R B V O) where
  P x := cO.P x.numCols ∧ (graphCodec cfg g eE eR eB cE cR cB).P x.graph ∧ ViewP ty cV x.values
  enc w x := nodeEnc cfg w eO.ti cO x.numCols ++ (nodeEnc cfg w g.ti (graphCodec cfg g eE eR eB cE cR cB) x.graph ++
    nodeEnc cfg w k.view (viewCodec cfg k ty eV cV) x.values)
  prior x y := cO.prior x.numCols y.numCols
  rel x y := cO.rel x.numCols y.numCols ∧ (graphCodec cfg g eE eR eB cE cR cB).rel x.graph y.graph ∧
    viewRel ty eV.zero cV x.values y.values
  fp x := cO.fp x.numCols + ((graphCodec cfg g eE eR eB cE cR cB).fp x.graph + (viewCodec cfg k ty eV cV).fp x.values)
  multi _ := True

theorem matrixLaw (hc : cfg.Valid) {ti : TI} (hti : ti.Valid) {g : GraphTy E R B} (_ : g.Valid) {k : ViewTI}
    (hk : k.Valid) {ty : ViewTy} (hh : ty.host = true)
    (LO : Law K cfg eO.ti eO.apply cO) (LV : Law K cfg eV.ti eV.apply cV) (hV : ∀ x, cV.P x → cV.prior x eV.zero)
    (LG : Law K cfg (graphElem cfg g eE eR eB).ti (graphElem cfg g eE eR eB).apply
      (graphCodec cfg g eE eR eB cE cR cB)) :
    Law K cfg (matrixElem cfg ti g k ty eO eE eR eB eV).ti (matrixElem cfg ti g k ty eO eE eR eB eV).apply
      (matrixCodec cfg g k ty eO eE eR eB eV cO cE cR cB cV) := by
  have l3 := viewLaw (K := K) hc hk LV hV (ty := ty) (by simp [hh])
  refine Law.ofEach hti trivial (fun x h => ?_) (fun x y h hp => ?_) (fun x h => ?_)
  · refine (pipe_wr LO h.1).bind ?_
    refine (pipe_wr LG h.2.1).bind ?_
    refine ((pipe_wr l3 h.2.2).bind (k := fun p => .ok (⟨if p.2.isUnpacking then x.numCols else x.numCols, x.graph, p.1⟩,
      p.2)) (c := x) (bs' := fun _ => []) ?_).congr (fun _ _ => rfl) (fun w => by simp; rfl)
    exact (Wr.pure x).congr (fun s hs => by simp) (fun _ => rfl)
  · refine (pipe_rd LO (y := y.numCols) h.1 hp).bind fun a ha => ?_
    refine (pipe_rd LG (y := y.graph) h.2.1 trivial).bind fun b hb => ?_
    refine ((pipe_rd l3 (y := y.values) h.2.2 trivial).bind (k := fun p => .ok (⟨if p.2.isUnpacking then a else y.numCols, b,
      p.1⟩, p.2)) (bs' := []) (Q' := (matrixCodec cfg g k ty eO eE eR eB eV cO cE cR cB cV).rel x) fun q hq => ?_).congr
      (fun _ _ => rfl) (by simp; rfl) (fun _ h => h)
    refine (Rd.pure (b := CrsMatrix.mk a b q) (Q := (matrixCodec cfg g k ty eO eE eR eB eV cO cE cR cB cV).rel x)
      ⟨ha, hb, hq⟩).congr (fun s hs => by simp [hs.unpacking]) rfl (fun _ h => h)
  · refine (pipe_fp (cfg := cfg) LO h.1).bind ?_
    refine (pipe_fp (cfg := cfg) LG h.2.1).bind ?_
    refine ((pipe_fp (cfg := cfg) l3 h.2.2).bind (k := fun p => .ok (⟨if p.2.isUnpacking then x.numCols else x.numCols,
      x.graph, p.1⟩, p.2)) (c := x) (n' := 0) ?_).congr (fun _ _ => rfl) (by simp)
    exact (Fp.pure x).congr (fun s hs => by simp) rfl

end
end Ckpt
