import Verif.Spec.ViewMore
import Verif.Proofs.ViewTop
/-!
Laws of `DynRankView`, `DynamicView` and partial serializers.
-/

set_option autoImplicit false

namespace Ckpt

section
variable {K : Scope} {cfg : Cfg} {T : Type} {e : Elem T} {c : Codec T}

/-! ### `DynRankView` -/

theorem rankTy_rank (l : Layout) (r : Nat) : (rankTy l r).rank = r := by simp [rankTy, ViewTy.rank]

theorem lastGiven_replicate (n : Nat) (p : Nat × Nat) (h : p.1 = invalidIndex) : lastGiven (List.replicate n p) = 0 := by
  induction n with
  | zero => rfl
  | succ n ih => simp [List.replicate_succ, lastGiven, ih, h]

theorem lastGiven_append : ∀ (xs ys : LayoutVal), (∀ p ∈ xs, p.1 ≠ invalidIndex) → lastGiven ys = 0 →
    lastGiven (xs ++ ys) = xs.length
  | [], _, _, h => h
  | x :: xs, ys, h, h0 => by
    have ih := lastGiven_append xs ys (fun p hp => h p (by simp [hp])) h0
    have := h x (by simp)
    simp [lastGiven, ih, this]

theorem layout_take {l : Layout} : ∀ {a b : LayoutVal}, List.Forall₂ (layoutRel l) a b → a.map (·.1) = b.map (·.1)
  | _, _, .nil => rfl
  | _, _, .cons h t => by simp [h.1, layout_take t]

theorem lastGiven_congr : ∀ {a b : LayoutVal}, a.map (·.1) = b.map (·.1) → lastGiven a = lastGiven b
  | [], [], _ => rfl
  | [], _ :: _, h => by simp at h
  | _ :: _, [], h => by simp at h
  | x :: a, y :: b, h => by
    simp only [List.map_cons, List.cons.injEq] at h
    simp [lastGiven, lastGiven_congr h.2, h.1]

/-- The rank of a view made from a restored layout. -/
theorem lastGiven_restored {l : Layout} {v : View T} (hs : v.strides.length = v.extents.length)
    (h7 : v.extents.length ≤ 7) (hi : ∀ n ∈ v.extents, n ≠ 2 ^ 64 - 1) {lay : LayoutVal}
    (hl : List.Forall₂ (layoutRel l) v.layoutVal lay) : lastGiven (lay.take 7) = v.extents.length := by
  have h1 : lastGiven (lay.take 7) = lastGiven (v.layoutVal.take 7) := by
    refine lastGiven_congr ?_
    rw [List.map_take, List.map_take, layout_take hl]
  rw [h1, View.layoutVal, List.take_append, List.take_of_length_le (by simp; omega), lastGiven_append]
  · simp [hs]
  · intro p hp
    have := (List.of_mem_zip (a := p.1) (b := p.2) hp).1
    exact hi _ this
  · rw [List.take_replicate]
    exact lastGiven_replicate _ _ rfl

theorem construct_take {ty : ViewTy} {z : T} {label : Bytes} {a b : LayoutVal}
    (h : a.take ty.rank = b.take ty.rank) : ty.construct z label a = ty.construct z label b := by
  have hz : ∀ (ds : List (Option Nat)) (a b : LayoutVal), a.take ds.length = b.take ds.length →
      List.zipWith (fun d (p : Nat × Nat) => d.getD p.1) ds a = List.zipWith (fun d (p : Nat × Nat) => d.getD p.1) ds b := by
    intro ds
    induction ds with
    | nil => intros; rfl
    | cons d ds ih =>
      intro a b h
      cases a with
      | nil => cases b with
        | nil => rfl
        | cons y b => simp at h
      | cons x a => cases b with
        | nil => simp at h
        | cons y b =>
          simp only [List.length_cons, List.take_succ_cons, List.cons.injEq] at h
          simp [h.1, ih a b h.2]
  unfold ViewTy.construct
  rw [hz ty.dims a b h, h]

theorem take_fixed {l : Layout} {v : View T} (hs : v.strides.length = v.extents.length)
    (hi : ∀ n ∈ v.extents, n ≠ 2 ^ 64 - 1) {lay : LayoutVal}
    (hl : List.Forall₂ (layoutRel l) v.layoutVal lay) :
    (lay.map fun p => if p.1 = invalidIndex then (1, p.2) else p).take v.extents.length =
      lay.take v.extents.length := by
  rw [← List.map_take]
  conv_rhs => rw [← List.map_id (lay.take v.extents.length)]
  refine List.map_congr_left fun p hp => ?_
  have hm : (lay.take v.extents.length).map (·.1) = v.extents := by
    rw [List.map_take, ← layout_take hl, View.layoutVal, List.map_append, List.take_append]
    have hz : (v.extents.zip v.strides).map (·.1) = v.extents := List.map_fst_zip (by omega)
    rw [hz]
    simp
  have : p.1 ∈ v.extents := by
    rw [← hm]; exact List.mem_map_of_mem hp
  have hne := hi _ this
  rw [if_neg (show p.1 ≠ invalidIndex from hne)]
  rfl

/-- The view made from the restored layout. -/
theorem DynRank.made_restored {l : Layout} {v : View T} (ok : v.Ok (rankTy l v.extents.length))
    (h7 : v.extents.length ≤ 7) (hi : ∀ n ∈ v.extents, n ≠ 2 ^ 64 - 1) {lay : LayoutVal} {z : T} {label : Bytes}
    (hl : List.Forall₂ (layoutRel l) v.layoutVal lay) :
    ∃ w, DynRank.construct l z label lay = ⟨w, true⟩ ∧ w.label = label ∧
      View.Made (rankTy l v.extents.length) z v w := by
  have hs : v.strides.length = v.extents.length := by rw [ok.strides, rankTy_rank]
  refine ⟨_, rfl, rfl, ?_⟩
  have hr := lastGiven_restored hs h7 hi hl
  rw [hr]
  have := construct_take (ty := rankTy l v.extents.length) (z := z) (label := label)
    (a := lay.map fun p => if p.1 = invalidIndex then (1, p.2) else p) (b := lay)
    (by rw [rankTy_rank]; exact take_fixed hs hi hl)
  show View.Made _ z v ((rankTy l v.extents.length).construct z label _)
  rw [this]
  exact ok.made hl

theorem extents_range (v : View T) : (List.range v.extents.length).map v.extent = v.extents := by
  refine List.ext_getElem (by simp) fun i h1 h2 => ?_
  simp [View.extent, List.getD_eq_getElem?_getD, List.getElem?_eq_getElem h2]

/-- With the rank of the view the traversal is the one of views. -/
theorem serDynElems_eq {v : View T} {num : Nat} {contig : Bool} (h7 : v.extents.length ≤ 7)
    (h0 : contig = false → 1 ≤ v.extents.length) (st : List T × Ser) :
    serDynElems cfg e v.extents.length num contig v st = serViewElems cfg e num contig v st := by
  unfold serDynElems serViewElems
  split
  · rfl
  · rename_i h
    rw [if_pos ⟨h0 (by simpa using h), h7⟩, extents_range]

/-- A `DynRankView` as written after the number of elements. -/
def dynBodyEnc (cfg : Cfg) (w : Bool) (e : Elem T) (c : Codec T) (v : View T) : Bytes :=
  boolNode cfg w v.contig ++ (boolNode cfg w v.alloc ++ if v.alloc then dataEnc cfg w e c v v.data else [])

/-- A `DynRankView` as written. -/
def dynEnc (cfg : Cfg) (k : DynTI) (l : Layout) (w : Bool) (e : Elem T) (c : Codec T) (v : DynRank T) : Bytes :=
  nodeEnc cfg w k.str (strCodec cfg k.str.sizeof) ⟨cfg.grow v.view.label.length, v.view.label⟩ ++
    (node cfg w k.uint 1 (intBytes cfg.endian 4 v.rank) ++
      (nodeEnc cfg w k.layout (layoutCodec cfg l) v.view.layoutVal ++ (sizeNode cfg w v.size ++
        if v.made then dynBodyEnc cfg w e c v.view else [])))

/-- The objects considered. -/
structure DynP (l : Layout) (c : Codec T) (v : DynRank T) : Prop where
  ok : v.Ok l
  elems : ∀ x ∈ v.view.data, c.P x
  multi : v.view.contig = true → c.multi v.view.size

/-- Restored objects. -/
def dynRel (l : Layout) (z : T) (c : Codec T) (v w : DynRank T) : Prop := v.Copy l z c.rel w ∧ w.Ok l

/-- `DynRankView`. -/
def dynCodec (cfg : Cfg) (k : DynTI) (l : Layout) (e : Elem T) (c : Codec T) : Codec (DynRank T) where
  P := DynP l c
  enc w v := dynEnc cfg k l w e c v
  prior _ _ := True
  rel v w := dynRel l e.zero c v w
  fp v := (k.str.sizeof + cfg.grow v.view.label.length) + (4 + ((layoutCodec cfg l).fp v.view.layoutVal +
    (8 + if v.made then 1 + (1 + if v.view.alloc then dataFp c e v.view v.view.data else 0) else 0)))
  multi _ := True

theorem Ok.rank_pos {l : Layout} {v : View T} (ok : v.Ok (rankTy l v.extents.length)) (hc : v.contig = false) :
    1 ≤ v.extents.length := by
  rcases Nat.eq_zero_or_pos v.extents.length with h | h
  · have h1 := ok.scalar (by rw [rankTy_rank, h])
    have h2 : v.extents = [] := List.length_eq_zero_iff.1 h
    simp [View.contig, View.size, h1, h2] at hc
  · exact h

theorem serDynBody_wr (hc : cfg.Valid) (L : Law K cfg e.ti e.apply c) {l : Layout} {v : View T}
    (ok : v.Ok (rankTy l v.extents.length)) (h7 : v.extents.length ≤ 7) (hP : ∀ x ∈ v.data, c.P x)
    (hm : v.contig = true → c.multi v.size) :
    Wr K cfg (fun s => serDynBody cfg e v.extents.length v.size s v) (fun w => dynBodyEnc cfg w e c v) v := by
  have ha : Wr K cfg (fun s => pipeBool cfg s (if s.isUnpacking then false else v.alloc))
      (fun w => boolNode cfg w v.alloc) v.alloc :=
    (pipeBool_wr hc).congr (fun s hs => by simp [hs.not_unpacking]) (fun _ => rfl)
  unfold serDynBody dynBodyEnc
  refine (pipeBool_wr hc).bind ?_
  refine ha.bind ?_
  cases hal : v.alloc
  · simp only [Bool.false_eq_true, if_false]; exact Wr.pure v
  · simp only [if_true]
    refine ((serViewElems_wr L ok (ok.data hal) hP hm).map fun d => { v with data := d }).congr ?_ (fun _ => rfl)
    intro s hs
    rw [serDynElems_eq h7 (fun h => Ok.rank_pos ok h)]
    simp only [hal]

theorem serDynBody_fp (hc : cfg.Valid) (L : Law K cfg e.ti e.apply c) {l : Layout} {v : View T}
    (ok : v.Ok (rankTy l v.extents.length)) (h7 : v.extents.length ≤ 7) (hP : ∀ x ∈ v.data, c.P x)
    (hm : v.contig = true → c.multi v.size) :
    Fp K (fun s => serDynBody cfg e v.extents.length v.size s v)
      (1 + (1 + if v.alloc then dataFp c e v v.data else 0)) v := by
  have ha : Fp K (fun s => pipeBool cfg s (if s.isUnpacking then false else v.alloc)) 1 v.alloc :=
    (pipeBool_fp hc).congr (fun s hs => by simp [hs.not_unpacking]) rfl
  unfold serDynBody
  refine (pipeBool_fp hc).bind ?_
  refine ha.bind ?_
  cases hal : v.alloc
  · simp only [Bool.false_eq_true, if_false]; exact Fp.pure v
  · simp only [if_true]
    refine ((serViewElems_fp L ok (ok.data hal) hP hm).map fun d => { v with data := d }).congr ?_ rfl
    intro s hs
    rw [serDynElems_eq h7 (fun h => Ok.rank_pos ok h)]
    simp only [hal]

theorem serDynBody_rd (hc : cfg.Valid) (L : Law K cfg e.ti e.apply c) (hz : ∀ x, c.P x → c.prior x e.zero)
    {l : Layout} {v w : View T} (ok : v.Ok (rankTy l v.extents.length)) (h7 : v.extents.length ≤ 7)
    (hP : ∀ x ∈ v.data, c.P x) (hm : v.contig = true → c.multi v.size)
    (m : View.Made (rankTy l v.extents.length) e.zero v w) :
    Rd K (fun s => serDynBody cfg e v.extents.length v.size s w) (dynBodyEnc cfg cfg.check e c v)
      (fun r => ∃ d, r = { w with data := d } ∧ d.length = w.span ∧
        (v.alloc = true → ∀ idx, InRange idx v.extents →
          ∃ x y, v.get? idx = some x ∧ d[w.offset idx]? = some y ∧ c.rel x y) ∧
        (v.alloc = false → d = w.data) ∧ ∀ y ∈ d, y = e.zero ∨ ∃ x ∈ v.data, c.rel x y) := by
  unfold serDynBody dynBodyEnc
  refine (pipeBool_rd hc).bind ?_
  rintro _ rfl
  have ha : Rd K (fun s => pipeBool cfg s (if s.isUnpacking then false else w.alloc))
      (boolNode cfg cfg.check v.alloc) (fun r => r = v.alloc) :=
    (pipeBool_rd hc (b' := false)).congr (fun s hs => by simp [hs.unpacking]) rfl (fun _ h => h)
  refine ha.bind ?_
  rintro _ rfl
  cases hal : v.alloc
  · simp only [Bool.false_eq_true, if_false]
    exact Rd.pure ⟨w.data, rfl, by rw [m.data, List.length_replicate], fun h => by simp at h, fun _ => rfl,
      fun y hy => by rw [m.data] at hy; exact .inl (List.eq_of_mem_replicate hy)⟩
  · simp only [if_true]
    refine ((serViewElems_rd L hz ok m (ok.data hal) hP hm).map
      (Q' := fun r => ∃ d, r = { w with data := d } ∧ d.length = w.span ∧
        (v.alloc = true → ∀ idx, InRange idx v.extents →
          ∃ x y, v.get? idx = some x ∧ d[w.offset idx]? = some y ∧ c.rel x y) ∧
        (v.alloc = false → d = w.data) ∧ ∀ y ∈ d, y = e.zero ∨ ∃ x ∈ v.data, c.rel x y)
      (fun d => { w with data := d }) ?_).congr ?_ rfl (fun _ h => by simpa only [hal] using h)
    · rintro d ⟨h1, h2, h3⟩
      exact ⟨d, rfl, h1, fun _ => h2, fun h => by simp [hal] at h, h3⟩
    · intro s hs
      have hx := m.extents
      rw [← hx] at h7 ⊢
      rw [serDynElems_eq h7 (fun h => by
        rw [hx]; exact Ok.rank_pos ok h)]

theorem DynP.size_lt {l : Layout} {v : DynRank T} (h : DynP l c v) : v.size < 2 ^ 64 := by
  rcases h.ok with rfl | ⟨h1, h2, _⟩
  · show 0 < 2 ^ 64; decide
  · simp only [DynRank.size, h1, if_true]; exact h2.size_lt

theorem DynP.layout {l : Layout} {v : DynRank T} (h : DynP l c v) : (∀ p ∈ v.view.layoutVal, p.1 < 2 ^ 64 ∧
    (l = .stride → p.2 < 2 ^ 64)) ∧ v.view.layoutVal.length = 8 ∧ v.view.label.length < 2 ^ 64 ∧ v.rank < 2 ^ 32 := by
  rcases h.ok with rfl | ⟨_, h2, h7, _⟩
  · refine ⟨?_, rfl, by show 0 < 2 ^ 64; decide, by show 0 < 2 ^ 32; decide⟩
    intro p hp
    have : p ∈ List.replicate 8 (invalidIndex, invalidIndex) := hp
    rw [List.eq_of_mem_replicate this]
    exact ⟨by decide, fun _ => by decide⟩
  · exact ⟨h2.layout, h2.layout_length, h2.label_lt, by unfold DynRank.rank; omega⟩

/-- Whether the rest is skipped. -/
theorem DynRank.Ok.skip {l : Layout} {v : DynRank T} (h : v.Ok l) : (v.rank = 0 ∧ v.size = 0) ↔ v.made = false := by
  rcases h with rfl | ⟨h1, _⟩
  · exact ⟨fun _ => rfl, fun _ => ⟨rfl, rfl⟩⟩
  · refine ⟨fun ⟨ha, hb⟩ => ?_, fun h => by simp [h1] at h⟩
    have : v.view.extents = [] := List.length_eq_zero_iff.1 ha
    simp [DynRank.size, h1, View.size, this] at hb

theorem DynRank.Ok.empty {l : Layout} {v : DynRank T} (h : v.Ok l) (hm : v.made = false) : v = .empty := by
  rcases h with h | ⟨h, _⟩
  · exact h
  · simp [hm] at h

theorem serDynRest_wr (hc : cfg.Valid) (L : Law K cfg e.ti e.apply c) {l : Layout} {v : DynRank T} (h : DynP l c v)
    (label : Bytes) (lay : LayoutVal) :
    Wr K cfg (fun s => serDynRest cfg l e label v.rank lay v.size s v)
      (fun w => if v.made then dynBodyEnc cfg w e c v.view else []) v := by
  cases hm : v.made
  · have hs := h.ok.skip.2 hm
    refine (Wr.pure v).congr (fun s hs' => ?_) (fun _ => rfl)
    simp [serDynRest, hs, hs'.not_unpacking]
  · have hs : ¬(v.rank = 0 ∧ v.size = 0) := by rw [h.ok.skip, hm]; simp
    rcases h.ok with rfl | ⟨_, ok, h7, _⟩
    · cases hm
    have hw := serDynBody_wr hc L ok h7 h.elems h.multi
    refine (hw.map fun w => { v with view := w }).congr (fun s hs' => ?_) (fun _ => rfl)
    simp only [serDynRest, hs, if_false, hs'.not_unpacking, Bool.false_eq_true]
    simp only [DynRank.rank, DynRank.size, hm, if_true]

theorem serDynRest_fp (hc : cfg.Valid) (L : Law K cfg e.ti e.apply c) {l : Layout} {v : DynRank T} (h : DynP l c v)
    (label : Bytes) (lay : LayoutVal) :
    Fp K (fun s => serDynRest cfg l e label v.rank lay v.size s v)
      (if v.made then 1 + (1 + if v.view.alloc then dataFp c e v.view v.view.data else 0) else 0) v := by
  cases hm : v.made
  · have hs := h.ok.skip.2 hm
    refine (Fp.pure v).congr (fun s hs' => ?_) rfl
    simp [serDynRest, hs, hs'.not_unpacking]
  · have hs : ¬(v.rank = 0 ∧ v.size = 0) := by rw [h.ok.skip, hm]; simp
    rcases h.ok with rfl | ⟨_, ok, h7, _⟩
    · cases hm
    have hw := serDynBody_fp hc L ok h7 h.elems h.multi
    refine (hw.map fun w => { v with view := w }).congr (fun s hs' => ?_) rfl
    simp only [serDynRest, hs, if_false, hs'.not_unpacking, Bool.false_eq_true]
    simp only [DynRank.rank, DynRank.size, hm, if_true]

theorem serDynRest_rd (hc : cfg.Valid) (L : Law K cfg e.ti e.apply c) (hz : ∀ x, c.P x → c.prior x e.zero)
    {l : Layout} {v y : DynRank T} (h : DynP l c v) {lay : LayoutVal}
    (hlay : List.Forall₂ (layoutRel l) v.view.layoutVal lay) :
    Rd K (fun s => serDynRest cfg l e v.view.label v.rank lay v.size s y)
      (if v.made then dynBodyEnc cfg cfg.check e c v.view else []) (dynRel l e.zero c v) := by
  cases hm : v.made
  · have hs := h.ok.skip.2 hm
    have he := h.ok.empty hm
    refine (Rd.pure (b := DynRank.empty) (Q := dynRel l e.zero c v) ?_).congr (fun s hs' => ?_) (by simp) (fun _ h => h)
    · exact ⟨.inl ⟨he, rfl⟩, .inl rfl⟩
    · simp [serDynRest, hs, hs'.unpacking]
  · have hs : ¬(v.rank = 0 ∧ v.size = 0) := by rw [h.ok.skip, hm]; simp
    rcases h.ok with rfl | ⟨_, ok, h7, hi⟩
    · cases hm
    obtain ⟨w, hw, hlab, m⟩ := DynRank.made_restored ok h7 hi (z := e.zero) (label := v.view.label) hlay
    refine ((serDynBody_rd hc L hz ok h7 h.elems h.multi m).map (Q' := dynRel l e.zero c v)
      (fun w => (⟨w, true⟩ : DynRank T)) ?_).congr (fun s hs' => ?_) (by simp) (fun _ h => h)
    · rintro _ ⟨d, rfl, hd, hel, hfr, hmem⟩
      refine ⟨.inr ⟨hm, rfl, hlab, m.extents, m.alloc, m.strides, hel, fun ha idx hi' => ?_, fun y hy =>
        (hmem y hy).imp_right fun ⟨x, hx, hr⟩ => ⟨x, .inr hx, hr⟩⟩, .inr ⟨rfl, ?_, ?_, ?_⟩⟩
      · show d[_]? = _
        rw [hfr ha, m.data, List.getElem?_replicate]
        exact if_pos (m.inside ok hi')
      · have := m.ok ok (by rw [hlab]; exact ok.label_lt) hd
        rw [← m.extents] at this
        exact this
      · show w.extents.length ≤ 7
        rw [m.extents]; exact h7
      · show ∀ n ∈ w.extents, _
        rw [m.extents]; exact hi
    · simp only [serDynRest, hs, if_false, hs'.unpacking, if_true, hw]
      simp only [DynRank.rank, DynRank.size, hm, if_true]

theorem serDynRank_wr (hc : cfg.Valid) {k : DynTI} (hk : k.Valid) (L : Law K cfg e.ti e.apply c) {l : Layout}
    {v : DynRank T} (h : DynP l c v) :
    Wr K cfg (fun s => serDynRank cfg k l e s v) (fun w => dynEnc cfg k l w e c v) v := by
  obtain ⟨hlay, _, hlab, hr⟩ := h.layout
  have h1 : Wr K cfg (fun s => pipe cfg (u32Elem cfg k.uint) s (if s.isUnpacking then 0 else v.rank))
      (fun w => node cfg w k.uint 1 (intBytes cfg.endian 4 v.rank)) v.rank :=
    (pipe_wr (e := u32Elem cfg k.uint) (intLaw (n := 4) hk.uint) (x := v.rank) hr).congr
      (fun s hs => by simp [hs.not_unpacking]) (fun _ => rfl)
  have h2 : Wr K cfg (fun s => pipe cfg (layoutElem cfg k.layout l) s
      (if s.isUnpacking then .default else v.view.layoutVal))
      (fun w => nodeEnc cfg w k.layout (layoutCodec cfg l) v.view.layoutVal) v.view.layoutVal :=
    (pipe_wr (e := layoutElem cfg k.layout l) (layoutLaw hc hk.layout) (x := v.view.layoutVal) hlay).congr
      (fun s hs => by simp [hs.not_unpacking]) (fun _ => rfl)
  unfold serDynRank dynEnc
  refine (pipe_wr (e := strElem cfg k.str) (strLaw hc hk.str) (x := ⟨cfg.grow v.view.label.length, v.view.label⟩)
    hlab).bind ?_
  refine h1.bind ?_
  refine h2.bind ?_
  refine (pipeSize_wr hc h.size_lt).bind ?_
  exact serDynRest_wr hc L h _ _

theorem serDynRank_fp (hc : cfg.Valid) {k : DynTI} (hk : k.Valid) (L : Law K cfg e.ti e.apply c) {l : Layout}
    {v : DynRank T} (h : DynP l c v) :
    Fp K (fun s => serDynRank cfg k l e s v) ((dynCodec cfg k l e c).fp v) v := by
  obtain ⟨hlay, _, hlab, hr⟩ := h.layout
  have h1 : Fp K (fun s => pipe cfg (u32Elem cfg k.uint) s (if s.isUnpacking then 0 else v.rank)) 4 v.rank :=
    (pipe_fp (e := u32Elem cfg k.uint) (intLaw (n := 4) hk.uint) (x := v.rank) hr).congr
      (fun s hs => by simp [hs.not_unpacking]) rfl
  have h2 : Fp K (fun s => pipe cfg (layoutElem cfg k.layout l) s
      (if s.isUnpacking then .default else v.view.layoutVal)) ((layoutCodec cfg l).fp v.view.layoutVal)
      v.view.layoutVal :=
    (pipe_fp (e := layoutElem cfg k.layout l) (layoutLaw hc hk.layout) (x := v.view.layoutVal) hlay).congr
      (fun s hs => by simp [hs.not_unpacking]) rfl
  unfold serDynRank dynCodec
  refine (pipe_fp (e := strElem cfg k.str) (strLaw hc hk.str) (x := ⟨cfg.grow v.view.label.length, v.view.label⟩)
    hlab).bind ?_
  refine h1.bind ?_
  refine h2.bind ?_
  refine (pipeSize_fp hc h.size_lt).bind ?_
  exact serDynRest_fp hc L h _ _

theorem serDynRank_rd (hc : cfg.Valid) {k : DynTI} (hk : k.Valid) (L : Law K cfg e.ti e.apply c)
    (hz : ∀ x, c.P x → c.prior x e.zero) {l : Layout} {v y : DynRank T} (h : DynP l c v) :
    Rd K (fun s => serDynRank cfg k l e s y) (dynEnc cfg k l cfg.check e c v) (dynRel l e.zero c v) := by
  obtain ⟨hlay, hlen, hlab, hr⟩ := h.layout
  have h1 : Rd K (fun s => pipe cfg (u32Elem cfg k.uint) s (if s.isUnpacking then 0 else y.rank))
      (node cfg cfg.check k.uint 1 (intBytes cfg.endian 4 v.rank)) (fun r => r = v.rank) :=
    (pipe_rd (e := u32Elem cfg k.uint) (intLaw (n := 4) hk.uint) (x := v.rank) (y := 0) hr trivial).congr
      (fun s hs => by simp [hs.unpacking]) rfl (fun _ h => h)
  have h2 : Rd K (fun s => pipe cfg (layoutElem cfg k.layout l) s
      (if s.isUnpacking then .default else y.view.layoutVal))
      (nodeEnc cfg cfg.check k.layout (layoutCodec cfg l) v.view.layoutVal)
      (List.Forall₂ (layoutRel l) v.view.layoutVal) :=
    (pipe_rd (e := layoutElem cfg k.layout l) (layoutLaw hc hk.layout) (x := v.view.layoutVal)
      (y := LayoutVal.default) hlay (by
        show LayoutVal.default.length = v.view.layoutVal.length
        rw [hlen]; rfl)).congr
      (fun s hs => by simp [hs.unpacking]) rfl (fun _ h => h)
  unfold serDynRank dynEnc
  refine (pipe_rd (e := strElem cfg k.str) (strLaw hc hk.str) (x := ⟨cfg.grow v.view.label.length, v.view.label⟩)
    (y := ⟨cfg.grow y.view.label.length, y.view.label⟩) hlab trivial).bind ?_
  intro label hl
  have hl : label.chars = v.view.label := hl
  refine h1.bind ?_
  rintro _ rfl
  refine h2.bind fun lay hlay' => ?_
  refine (pipeSize_rd hc h.size_lt).bind ?_
  rintro _ rfl
  simp only [hl]
  exact serDynRest_rd hc L hz h hlay'

theorem dynLaw (hc : cfg.Valid) {k : DynTI} (hk : k.Valid) (L : Law K cfg e.ti e.apply c)
    (hz : ∀ x, c.P x → c.prior x e.zero) {l : Layout} :
    Law K cfg (dynRankElem cfg k l e).ti (dynRankElem cfg k l e).apply (dynCodec cfg k l e c) :=
  Law.ofEach hk.view trivial (fun _ h => serDynRank_wr hc hk L h) (fun _ _ h _ => serDynRank_rd hc hk L hz h)
    (fun _ h => serDynRank_fp hc hk L h)

end
end Ckpt

namespace Ckpt

section
variable {K : Scope} {cfg : Cfg} {T : Type} {e : Elem T} {c : Codec T}

/-! ### `DynamicView` -/

theorem powerThatContains_pow {k : Nat} : ∀ (fuel j : Nat), j ≤ k → k - j ≤ fuel →
    powerThatContains (2 ^ k) fuel j = k
  | 0, j, h1, h2 => by simp only [powerThatContains]; omega
  | fuel + 1, j, h1, h2 => by
    simp only [powerThatContains]
    split
    · rename_i h
      have := (Nat.pow_le_pow_iff_right (a := 2) (by omega)).1 h
      omega
    · rename_i h
      have : j ≠ k := by rintro rfl; exact h (Nat.le_refl _)
      exact powerThatContains_pow fuel (j + 1) (by omega) (by omega)

theorem DynamicView.chunk_pos (v : DynamicView T) : 0 < v.chunk := Nat.pow_pos (by omega)

theorem DynamicView.chunksFor_le (v : DynamicView T) {n m : Nat} : v.chunksFor n ≤ m ↔ n ≤ m * 2 ^ v.shift := by
  have hp := v.chunk_pos
  unfold chunksFor
  rw [Nat.div_le_iff_le_mul_add_pred hp]
  show n + (v.chunk - 1) ≤ v.chunk * m + (v.chunk - 1) ↔ n ≤ m * v.chunk
  rw [Nat.mul_comm m]
  omega

theorem DynamicView.Ok.alloc_lt {v : DynamicView T} (ok : v.Ok) : v.allocExtent < 2 ^ 32 := by
  have h : v.chunksFor v.size ≤ v.maxChunks := v.chunksFor_le.2 ok.room
  calc v.allocExtent ≤ v.maxChunks * 2 ^ v.shift := Nat.mul_le_mul_right _ h
    _ < _ := ok.max_lt

theorem DynamicView.Ok.size_lt {v : DynamicView T} (ok : v.Ok) : v.size < 2 ^ 32 :=
  Nat.lt_of_le_of_lt ok.room ok.max_lt

theorem DynamicView.Ok.chunk_lt {v : DynamicView T} (ok : v.Ok) : v.chunk < 2 ^ 32 :=
  Nat.pow_lt_pow_right (by omega) ok.shift_lt

/-- The reconstructed view. -/
theorem rebuild_ok {v : DynamicView T} (ok : v.Ok) (z : T) (label : Bytes) :
    rebuildDynamic z label v.chunk v.allocExtent v.size =
      .ok { label := label, shift := v.shift, maxChunks := v.chunksFor v.size, elems := List.replicate v.size z } := by
  have hs : powerThatContains v.chunk 32 0 = v.shift :=
    powerThatContains_pow 32 0 (by omega) (by have := ok.shift_lt; omega)
  have hp : 0 < 2 ^ v.shift := Nat.pow_pos (by omega)
  have ha := ok.alloc_lt
  have hsum : v.allocExtent + (2 ^ v.shift - 1) < 2 ^ 32 := by
    obtain ⟨d, hd⟩ : ∃ d, v.shift + d = 32 := ⟨32 - v.shift, by have := ok.shift_lt; omega⟩
    have h32 : 2 ^ 32 = 2 ^ d * 2 ^ v.shift := by rw [← Nat.pow_add, Nat.add_comm d, hd]
    unfold DynamicView.allocExtent DynamicView.chunk at ha ⊢
    rw [h32] at ha ⊢
    have := Nat.lt_of_mul_lt_mul_right ha
    calc _ < (v.chunksFor v.size) * 2 ^ v.shift + 2 ^ v.shift := by omega
      _ = (v.chunksFor v.size + 1) * 2 ^ v.shift := by rw [Nat.add_mul, Nat.one_mul]
      _ ≤ _ := Nat.mul_le_mul_right _ this
  have hmax : (v.allocExtent + (2 ^ v.shift - 1)) / 2 ^ v.shift = v.chunksFor v.size := by
    unfold DynamicView.allocExtent DynamicView.chunk
    rw [Nat.mul_comm, Nat.mul_add_div hp, Nat.div_eq_of_lt (by omega), Nat.add_zero]
  unfold rebuildDynamic DynamicView.construct DynamicView.resize
  simp only [Nat.mod_eq_of_lt ok.chunk_lt, Nat.mod_eq_of_lt ha, hs, Nat.mod_eq_of_lt hsum, hmax]
  rw [if_neg]
  · simp [DynamicView.size]
  · simp [DynamicView.chunksFor, DynamicView.chunk]

/-- The elements as written. -/
def dynamicEnc (cfg : Cfg) (w : Bool) (e : Elem T) (c : Codec T) (xs : List T) : Bytes :=
  xs.flatMap fun x => nodeEnc cfg w e.ti c x

theorem dynamicLoop_wr (L : Law K cfg e.ti e.apply c) : ∀ (xs pre : List T), (∀ x ∈ xs, c.P x) →
    Wr K cfg (fun s => forLoop (dynamicElement cfg e) xs.length pre.length (pre ++ xs, s))
      (fun w => dynamicEnc cfg w e c xs) (pre ++ xs)
  | [], pre, _ => (Wr.pure (pre ++ [])).congr (fun _ _ => rfl) (fun _ => rfl)
  | x :: xs, pre, h => by
    have ih := dynamicLoop_wr L xs (pre ++ [x]) (fun y hy => h y (by simp [hy]))
    have h1 : Wr K cfg (fun s => dynamicElement cfg e pre.length (pre ++ x :: xs, s))
        (fun w => nodeEnc cfg w e.ti c x) (pre ++ x :: xs) := by
      refine ((pipe_wr L (h x (by simp))).map fun _ => pre ++ x :: xs).congr (fun s hs => ?_) (fun _ => rfl)
      simp [dynamicElement, hs.not_unpacking]
    simp only [List.length_append, List.length_singleton, List.append_assoc, List.singleton_append] at ih
    exact (h1.bind (k := fun st => forLoop (dynamicElement cfg e) xs.length (pre.length + 1) st) ih).congr
      (fun _ _ => rfl) (fun _ => rfl)

theorem dynamicLoop_fp (L : Law K cfg e.ti e.apply c) : ∀ (xs pre : List T), (∀ x ∈ xs, c.P x) →
    Fp K (fun s => forLoop (dynamicElement cfg e) xs.length pre.length (pre ++ xs, s))
      ((xs.map c.fp).sum) (pre ++ xs)
  | [], pre, _ => (Fp.pure (pre ++ [])).congr (fun _ _ => rfl) rfl
  | x :: xs, pre, h => by
    have ih := dynamicLoop_fp L xs (pre ++ [x]) (fun y hy => h y (by simp [hy]))
    have h1 : Fp K (fun s => dynamicElement cfg e pre.length (pre ++ x :: xs, s)) (c.fp x) (pre ++ x :: xs) := by
      refine ((pipe_fp (cfg := cfg) L (h x (by simp))).map fun _ => pre ++ x :: xs).congr (fun s hs => ?_) rfl
      simp [dynamicElement, hs.not_unpacking]
    simp only [List.length_append, List.length_singleton, List.append_assoc, List.singleton_append] at ih
    exact (h1.bind (k := fun st => forLoop (dynamicElement cfg e) xs.length (pre.length + 1) st) ih).congr
      (fun _ _ => rfl) (by simp)

theorem dynamicLoop_rd (L : Law K cfg e.ti e.apply c) (hz : ∀ x, c.P x → c.prior x e.zero) :
    ∀ (xs pre : List T) (post : List T), post.length = xs.length → (∀ x ∈ xs, c.P x) →
    Rd K (fun s => forLoop (dynamicElement cfg e) xs.length pre.length (pre ++ post, s))
      (dynamicEnc cfg cfg.check e c xs) (fun r => ∃ ys, r = pre ++ ys ∧ List.Forall₂ c.rel xs ys)
  | [], pre, [], _, _ => (Rd.pure (b := pre ++ []) (Q := fun r => ∃ ys, r = pre ++ ys ∧ List.Forall₂ c.rel [] ys)
      ⟨[], rfl, .nil⟩).congr (fun _ _ => rfl) rfl (fun _ h => h)
  | x :: xs, pre, p :: post, hl, h => by
    have h1 : Rd K (fun s => dynamicElement cfg e pre.length (pre ++ p :: post, s))
        (nodeEnc cfg cfg.check e.ti c x) (fun r => ∃ y, c.rel x y ∧ r = (pre ++ [y]) ++ post) := by
      refine ((pipe_rd L (h x (by simp)) (hz x (h x (by simp)))).map
        (Q' := fun r => ∃ y, c.rel x y ∧ r = (pre ++ [y]) ++ post)
        (fun y => (pre ++ p :: post).set pre.length y) ?_).congr (fun s hs => ?_) rfl (fun _ h => h)
      · intro y hy
        exact ⟨y, hy, by simp⟩
      · simp [dynamicElement, hs.unpacking]
    refine (h1.bind (k := fun st => forLoop (dynamicElement cfg e) xs.length (pre.length + 1) st)
      (bs' := dynamicEnc cfg cfg.check e c xs)
      (Q' := fun r => ∃ ys, r = pre ++ ys ∧ List.Forall₂ c.rel (x :: xs) ys) ?_).congr (fun _ _ => rfl) rfl (fun _ h => h)
    rintro _ ⟨y, hy, rfl⟩
    have ih := dynamicLoop_rd L hz xs (pre ++ [y]) post (by simpa using hl) (fun y hy => h y (by simp [hy]))
    simp only [List.length_append, List.length_singleton] at ih
    refine ih.mono ?_
    rintro _ ⟨ys, rfl, hys⟩
    exact ⟨y :: ys, by simp, .cons hy hys⟩
  | [], _, _ :: _, hl, _ => by simp at hl
  | _ :: _, _, [], hl, _ => by simp at hl

/-- A `DynamicView` as written. -/
def dynamicViewEnc (cfg : Cfg) (k : DynamicTI) (w : Bool) (e : Elem T) (c : Codec T) (v : DynamicView T) : Bytes :=
  nodeEnc cfg w k.str (strCodec cfg k.str.sizeof) ⟨cfg.grow v.label.length, v.label⟩ ++
    (sizeNode cfg w v.chunk ++ (sizeNode cfg w v.allocExtent ++ (sizeNode cfg w v.size ++
      dynamicEnc cfg w e c v.elems)))

/-- `DynamicView`. -/
def dynamicCodec (cfg : Cfg) (k : DynamicTI) (e : Elem T) (c : Codec T) : Codec (DynamicView T) where
  P v := v.Ok ∧ ∀ x ∈ v.elems, c.P x
  enc w v := dynamicViewEnc cfg k w e c v
  prior _ _ := True
  rel v w := v.Copy c.rel w ∧ w.Ok
  fp v := (k.str.sizeof + cfg.grow v.label.length) + (8 + (8 + (8 + (v.elems.map c.fp).sum)))
  multi _ := True

theorem serDynamic_wr (hc : cfg.Valid) {k : DynamicTI} (hk : k.Valid) (L : Law K cfg e.ti e.apply c)
    {v : DynamicView T} (ok : v.Ok) (h : ∀ x ∈ v.elems, c.P x) :
    Wr K cfg (fun s => serDynamic cfg k e s v) (fun w => dynamicViewEnc cfg k w e c v) v := by
  have hsz : ∀ n : Nat, n < 2 ^ 32 → Wr K cfg (fun s => pipeSize cfg s (if s.isUnpacking then 0 else n))
      (fun w => sizeNode cfg w n) n := fun n hn =>
    (pipeSize_wr hc (Nat.lt_trans hn (by decide))).congr (fun s hs => by simp [hs.not_unpacking]) (fun _ => rfl)
  unfold serDynamic dynamicViewEnc
  refine (pipe_wr (e := strElem cfg k.str) (strLaw hc hk.str) (x := ⟨cfg.grow v.label.length, v.label⟩)
    ok.label_lt).bind ?_
  refine (hsz _ ok.chunk_lt).bind ?_
  refine (hsz _ ok.alloc_lt).bind ?_
  refine (hsz _ ok.size_lt).bind ?_
  refine ((dynamicLoop_wr L v.elems [] h).map fun xs => { v with elems := xs }).congr (fun s hs => ?_) (fun _ => rfl)
  simp only [dynamicTarget, hs.not_unpacking, Bool.false_eq_true, if_false]
  rfl

theorem serDynamic_fp (hc : cfg.Valid) {k : DynamicTI} (hk : k.Valid) (L : Law K cfg e.ti e.apply c)
    {v : DynamicView T} (ok : v.Ok) (h : ∀ x ∈ v.elems, c.P x) :
    Fp K (fun s => serDynamic cfg k e s v) ((dynamicCodec cfg k e c).fp v) v := by
  have hsz : ∀ n : Nat, n < 2 ^ 32 → Fp K (fun s => pipeSize cfg s (if s.isUnpacking then 0 else n)) 8 n := fun n hn =>
    (pipeSize_fp hc (Nat.lt_trans hn (by decide))).congr (fun s hs => by simp [hs.not_unpacking]) rfl
  unfold serDynamic dynamicCodec
  refine (pipe_fp (e := strElem cfg k.str) (strLaw hc hk.str) (x := ⟨cfg.grow v.label.length, v.label⟩)
    ok.label_lt).bind ?_
  refine (hsz _ ok.chunk_lt).bind ?_
  refine (hsz _ ok.alloc_lt).bind ?_
  refine (hsz _ ok.size_lt).bind ?_
  refine ((dynamicLoop_fp L v.elems [] h).map fun xs => { v with elems := xs }).congr (fun s hs => ?_) rfl
  simp only [dynamicTarget, hs.not_unpacking, Bool.false_eq_true, if_false]
  rfl

theorem serDynamic_rd (hc : cfg.Valid) {k : DynamicTI} (hk : k.Valid) (L : Law K cfg e.ti e.apply c)
    (hz : ∀ x, c.P x → c.prior x e.zero) {v y : DynamicView T} (ok : v.Ok) (h : ∀ x ∈ v.elems, c.P x) :
    Rd K (fun s => serDynamic cfg k e s y) (dynamicViewEnc cfg k cfg.check e c v) (fun w => v.Copy c.rel w ∧ w.Ok) := by
  have hsz : ∀ n m : Nat, n < 2 ^ 32 → Rd K (fun s => pipeSize cfg s (if s.isUnpacking then 0 else m))
      (sizeNode cfg cfg.check n) (fun r => r = n) := fun n m hn =>
    (pipeSize_rd hc (m := 0) (Nat.lt_trans hn (by decide))).congr (fun s hs => by simp [hs.unpacking]) rfl (fun _ h => h)
  unfold serDynamic dynamicViewEnc
  refine (pipe_rd (e := strElem cfg k.str) (strLaw hc hk.str) (x := ⟨cfg.grow v.label.length, v.label⟩)
    (y := ⟨cfg.grow y.label.length, y.label⟩) ok.label_lt trivial).bind ?_
  intro label hl
  have hl : label.chars = v.label := hl
  refine (hsz _ _ ok.chunk_lt).bind ?_
  rintro _ rfl
  refine (hsz _ _ ok.alloc_lt).bind ?_
  rintro _ rfl
  refine (hsz _ _ ok.size_lt).bind ?_
  rintro _ rfl
  refine ((dynamicLoop_rd L hz v.elems [] (List.replicate v.size e.zero) (by simp [DynamicView.size]) h).map
    (Q' := fun w => v.Copy c.rel w ∧ w.Ok)
    (fun xs => ({ label := v.label, shift := v.shift, maxChunks := v.chunksFor v.size, elems := xs } : DynamicView T))
    ?_).congr (fun s hs => ?_) rfl (fun _ h => h)
  · rintro r ⟨ys, hr, hys⟩
    have hr : r = ys := hr
    subst hr
    have hlen := hys.length_eq
    have hroom : v.elems.length ≤ v.chunksFor v.size * 2 ^ v.shift := v.chunksFor_le.1 (Nat.le_refl _)
    refine ⟨⟨rfl, rfl, by simpa using hys, hroom, fun m hm => v.chunksFor_le.2 hm⟩,
      ⟨ok.shift_pos, ok.shift_lt, ok.alloc_lt, ok.label_lt, ?_⟩⟩
    show r.length ≤ _
    rw [← hlen]; exact hroom
  · simp only [dynamicTarget, hs.unpacking, if_true, hl, rebuild_ok ok]
    simp only [Out.bind_eq, Out.bind_ok, DynamicView.size, List.length_replicate, List.nil_append, List.length_nil]

theorem dynamicLaw (hc : cfg.Valid) {k : DynamicTI} (hk : k.Valid) (L : Law K cfg e.ti e.apply c)
    (hz : ∀ x, c.P x → c.prior x e.zero) :
    Law K cfg (dynamicElem cfg k e).ti (dynamicElem cfg k e).apply (dynamicCodec cfg k e c) :=
  Law.ofEach hk.view trivial (fun _ h => serDynamic_wr hc hk L h.1 h.2) (fun _ _ h _ => serDynamic_rd hc hk L hz h.1 h.2)
    (fun _ h => serDynamic_fp hc hk L h.1 h.2)

end
end Ckpt
