import Verif.Proofs.SafeUniverse
import Verif.Proofs.View
import Verif.Proofs.KMap
import Verif.Spec.ComposeFormed
import Verif.Proofs.RecursivePoly
/-!
Reading arbitrary bytes into an object of any composed type.
-/

set_option autoImplicit false

namespace Ckpt

section
variable {cfg : Cfg} {env : Env} {U : UB → Prop} {m : Nat} {T A B : Type}

/-! ### Views -/

theorem runAll_ev {α : Type} {J : List T → Prop} {body : Nat → α → List T × Ser → Out (List T × Ser)} :
    ∀ (is : List α) (d : List T) {s : Ser}, (∀ i ∈ is, ∀ d s, Reads U m s → J d → Evtl U m J (fun n => body n i (d, s))) →
    Reads U m s → J d → Evtl U m J (fun n => runAll (body n) is (d, s))
  | [], _, _, _, hs, hd => Evtl.pure hd hs
  | i :: is, d, s, hb, hs, hd => Evtl.bind (hb i (by simp) d s hs hd) (fun r hr hs' =>
      runAll_ev is r.1 (fun j hj => hb j (by simp [hj])) hs' hr)

/-- So many well-formed elements. -/
def Fills (I : T → Prop) (len : Nat) (d : List T) : Prop := d.length = len ∧ ∀ x ∈ d, I x

theorem Fills.set {I : T → Prop} {len : Nat} {d : List T} (h : Fills I len d) (i : Nat) {y : T} (hy : I y) :
    Fills I len (d.set i y) := by
  refine ⟨by simpa using h.1, fun x hx => ?_⟩
  rcases List.mem_or_eq_of_mem_set hx with hx | rfl
  · exact h.2 x hx
  · exact hy

theorem viewElement_ev {I : T → Prop} {h : Nat → Handler T} (hh : HS U m I I h) {e : Elem T} (hz : I e.zero)
    {len : Nat} (v : View T) (idx : List Nat) (hr : U .badRegion ∨ v.offset idx < len) {d : List T} {s : Ser}
    (hs : Reads U m s) (hd : Fills I len d) :
    Evtl U m (Fills I len) (fun n => viewElement cfg (e.via (h n)) v idx (d, s)) := by
  unfold viewElement
  cases hx : d[v.offset idx]? with
  | none =>
    simp only
    rcases hr with hr | hr
    · exact Evtl.const (o := .ub .badRegion) hr
    · rw [← hd.1] at hr
      rw [List.getElem?_eq_getElem hr] at hx; cases hx
  | some x =>
    simp only [hs.unpacking, if_true]
    have hIx := hd.2 x (List.mem_of_getElem? hx)
    split
    · exact Evtl.bind (pipe_ev hh hs hIx) (fun r hr hs' => Evtl.pure (hd.set _ hr) hs')
    · exact Evtl.bind (pipe_ev hh hs (x := e.zero) hz) (fun r hr hs' => Evtl.pure (hd.set _ hr) hs')

theorem viewArray_ev {I : T → Prop} {h : Nat → Handler T} (hh : HS U m I I h) {e : Elem T}
    {len : Nat} {num : Nat} (hr : U .badRegion ∨ num ≤ len) {d : List T} {s : Ser}
    (hs : Reads U m s) (hd : Fills I len d) :
    Evtl U m (Fills I len) (fun n => viewArray cfg (e.via (h n)) num (d, s)) := by
  unfold viewArray
  by_cases hn : num ≤ d.length
  · simp only [hn, if_true]
    refine Evtl.bind (serializeArray_ev hh hs (fun x hx => hd.2 x (List.mem_of_mem_take hx))) (fun r hr hs' =>
      Evtl.pure ⟨?_, fun x hx => ?_⟩ hs')
    · have := hd.1
      simp only [List.length_append, hr.1, List.length_take, List.length_drop]
      omega
    · rcases List.mem_append.1 hx with hx | hx
      · exact hr.2 x hx
      · exact hd.2 x (List.mem_of_mem_drop hx)
  · simp only [hn]
    rcases hr with hr | hr
    · exact Evtl.const (o := .ub .badRegion) hr
    · rw [← hd.1] at hr; exact absurd hr hn

theorem traverse_elements_ev {I : T → Prop} {h : Nat → Handler T} (hh : HS U m I I h) {e : Elem T} (hz : I e.zero)
    {len : Nat} (v : View T) (ext : List Nat) (hr : U .badRegion ∨ ∀ idx, InRange idx ext → v.offset idx < len)
    {d : List T} {s : Ser} (hs : Reads U m s) (hd : Fills I len d) :
    Evtl U m (Fills I len) (fun n => traverseManual (viewElement cfg (e.via (h n)) v) ext [] (d, s)) := by
  simp only [traverseManual_eq, List.nil_append]
  refine runAll_ev _ _ (fun idx hi d s hs hd => viewElement_ev hh hz v idx ?_ hs hd) hs hd
  exact hr.imp id (fun h => h idx (mem_allIdx.1 hi))

/-- Bounds of the elements that are read. -/
def InMemory (num : Nat) (contig : Bool) (v : View T) (ext : List Nat) (len : Nat) : Prop :=
  (contig = true → num ≤ len) ∧ (contig = false → ∀ idx, InRange idx ext → v.offset idx < len)

theorem serViewElems_ev {I : T → Prop} {h : Nat → Handler T} (hh : HS U m I I h) {e : Elem T} (hz : I e.zero)
    {len num : Nat} {contig : Bool} (v : View T) (hr : U .badRegion ∨ InMemory num contig v v.extents len)
    {d : List T} {s : Ser} (hs : Reads U m s) (hd : Fills I len d) :
    Evtl U m (Fills I len) (fun n => serViewElems cfg (e.via (h n)) num contig v (d, s)) := by
  unfold serViewElems
  cases contig with
  | true =>
    simp only [if_true]
    exact viewArray_ev hh (hr.imp id (fun h => h.1 rfl)) hs hd
  | false =>
    simp only [Bool.false_eq_true, if_false]
    exact traverse_elements_ev hh hz v _ (hr.imp id (fun h => h.2 rfl)) hs hd

theorem serViewData_ev {I : T → Prop} {h : Nat → Handler T} (hh : HS U m I I h) {e : Elem T} (hz : I e.zero)
    {ty : ViewTy} {num : Nat} {contig : Bool} {v : View T}
    (hr : U .badRegion ∨ InMemory num contig v v.extents v.data.length) {s : Ser} (hs : Reads U m s)
    (hd : ∀ x ∈ v.data, I x) :
    Evtl U m (fun w => ∃ d, w = { v with data := d } ∧ Fills I v.data.length d)
      (fun n => serViewData cfg ty (e.via (h n)) num contig s v) := by
  unfold serViewData
  refine Evtl.bind (serViewElems_ev hh hz v hr hs (d := if (ty.host || s.isPacking) = true then v.data
    else List.replicate v.data.length e.zero) ?_) (fun r hr hs' => ?_)
  · split
    · exact ⟨rfl, hd⟩
    · refine ⟨by simp, fun x hx => ?_⟩
      rw [List.eq_of_mem_replicate hx]; exact hz
  · simp only [hs'.unpacking, Bool.or_true, if_true]
    exact Evtl.pure ⟨r.1, rfl, hr⟩ hs'

theorem Good.up {α : Type} {Q : α → Prop} {f : Ser → Out (α × Ser)} {s : Ser}
    (h : ∀ {m}, Reads U (m + 1) s → Good U m Q (f s)) (hs : Reads U m s) : Good U m Q (f s) :=
  h (hs.mono (Nat.le_succ m))

theorem serViewBody_ev (hb : U .badBool) {I : T → Prop} {h : Nat → Handler T} (hh : HS U m I I h) {e : Elem T}
    (hz : I e.zero) {ty : ViewTy} {v : View T} (hr : U .badRegion) {s : Ser} (hs : Reads U m s)
    (hd : ∀ x ∈ v.data, I x) :
    Evtl U m (fun w => ∃ d, w = { v with data := d } ∧ Fills I v.data.length d)
      (fun n => serViewBody cfg ty (e.via (h n)) s v) := by
  have up := fun {s : Ser} (hs : Reads U m s) => hs.mono (Nat.le_succ m)
  unfold serViewBody
  refine Evtl.bindC (pipeSize_good (up hs) _) (fun r _ hs1 => ?_)
  refine Evtl.bindC (pipeBool_good hb (up hs1) _) (fun r' _ hs2 => ?_)
  refine Evtl.bindC (pipeBool_good hb (up hs2) _) (fun r'' _ hs3 => ?_)
  obtain ⟨b, s3⟩ := r''
  cases b with
  | true => simp only [if_true]; exact serViewData_ev hh hz (.inl hr) hs3 hd
  | false => exact Evtl.pure ⟨v.data, rfl, rfl, hd⟩ hs3

theorem serLayout_good (l : Layout) : ∀ (lay : LayoutVal) {s : Ser}, Reads U m s →
    Good U m (fun lay' => lay'.length = lay.length) (serLayout cfg l s lay)
  | [], _, hs => ⟨rfl, hs⟩
  | (d, st) :: rest, s, hs => by
    have up := fun {s : Ser} (hs : Reads U m s) => hs.mono (Nat.le_succ m)
    refine Good.bind (pipeSize_good (up hs) _) (fun r _ hs1 => ?_)
    refine Good.bind (P := fun _ => True) (m := m) ?_ (fun r' _ hs2 => ?_)
    · unfold serStride
      split
      · exact pipeSize_good (up hs1) _
      · exact ⟨trivial, hs1⟩
    · exact Good.bind (serLayout_good l rest hs2) (fun r'' h hs3 => ⟨by simp [h], hs3⟩)

theorem pipeStr_good (hg : ∀ n, n ≤ cfg.grow n) (ti : TI) {s : Ser} (hs : Reads U m s) {x : Str}
    (hx : x.chars.length ≤ x.cap) :
    Good U m (fun y : Str => y.chars.length ≤ y.cap) (pipe cfg (strElem cfg ti) s x) :=
  Evtl.of_const (pipe_ev (e := strElem cfg ti) (P := fun y : Str => y.chars.length ≤ y.cap)
    (P' := fun y => y.chars.length ≤ y.cap) (h := fun _ => dispatchEach (serString cfg ti.sizeof))
    (dispatchEach_hs (fun _ _ hs hx => .const (serString_good hg _ (hs.mono (Nat.le_succ m)) hx))) hs hx)

theorem pipeLayout_good (ti : TI) (l : Layout) {s : Ser} (hs : Reads U m s) {x : LayoutVal} (hx : x.length = 8) :
    Good U m (fun y : LayoutVal => y.length = 8) (pipe cfg (layoutElem cfg ti l) s x) :=
  Evtl.of_const (pipe_ev (e := layoutElem cfg ti l) (P := fun y : LayoutVal => y.length = 8)
    (P' := fun y => y.length = 8) (h := fun _ => dispatchEach (serLayout cfg l))
    (dispatchEach_hs (fun _ _ hs hx => .const ((serLayout_good l _ hs).imp (Nat.le_refl _) (fun _ h => h.trans hx)))) hs hx)

theorem strides_length (ty : ViewTy) {ext : List Nat} {lay : LayoutVal} (h1 : ext.length = ty.rank)
    (h2 : ty.rank ≤ lay.length) : (match ty.layout with
      | .left => leftStrides 1 ext
      | .right => rightStrides ext
      | .stride => (lay.take ty.rank).map (fun p : Nat × Nat => p.2) : List Nat).length = ty.rank := by
  have hl : ∀ (ns : List Nat) acc, (leftStrides acc ns).length = ns.length := by
    intro ns
    induction ns with
    | nil => intro _; rfl
    | cons n ns ih => intro acc; simp [leftStrides, ih]
  have hr : ∀ ns : List Nat, (rightStrides ns).length = ns.length := by
    intro ns
    induction ns with
    | nil => rfl
    | cons n ns ih => simp [rightStrides, ih]
  cases ty.layout <;> simp [hl, hr, h1] <;> omega

/-- What is made from any layout object. -/
theorem construct_formed {ty : ViewTy} (hr : ty.rank ≤ 8) {I : T → Prop} {z : T} (hz : I z) (label : Bytes)
    {lay : LayoutVal} (hl : lay.length = 8) : (ty.construct z label lay).Formed ty I := by
  have he : (ty.construct z label lay).extents.length = ty.rank := by
    simp only [ViewTy.construct, List.length_zipWith, hl, ViewTy.rank] at hr ⊢
    omega
  refine ⟨he, strides_length ty (lay := lay) he (by omega), fun i n hi => ?_, fun _ => by simp [ViewTy.construct],
    fun x hx => ?_, fun hns _ idx hidx => ?_⟩
  · have hi' : i < ty.rank := by
      have := (List.getElem?_eq_some_iff.1 hi).1
      exact this
    have : lay[i]? = some lay[i] := List.getElem?_eq_getElem (by omega)
    simp [ViewTy.construct, List.getElem?_zipWith, hi, this]
  · rw [List.eq_of_mem_replicate hx]; exact hz
  · have hlt : (ty.construct z label lay).offset idx < (ty.construct z label lay).extents.prod := by
      rw [offset_eq]
      cases hlay : ty.layout with
      | stride => exact absurd hlay hns
      | left =>
        obtain ⟨k, hk, he⟩ := left_offset hidx 1
        have : (ty.construct z label lay).strides = leftStrides 1 (ty.construct z label lay).extents := by
          simp [ViewTy.construct, hlay]
        rw [this, he]; omega
      | right =>
        have : (ty.construct z label lay).strides = rightStrides (ty.construct z label lay).extents := by
          simp [ViewTy.construct, hlay]
        rw [this]
        exact right_offset hidx
    have hsp : (ty.construct z label lay).data.length = (ty.construct z label lay).extents.prod := by
      cases hlay : ty.layout with
      | stride => exact absurd hlay hns
      | left => simp [ViewTy.construct, hlay]
      | right => simp [ViewTy.construct, hlay]
    exact ⟨_, List.getElem?_eq_getElem (by omega)⟩

theorem View.Formed.refill {ty : ViewTy} {I : T → Prop} {v : View T} (h : v.Formed ty I) {d : List T}
    (hd : Fills I v.data.length d) : View.Formed ty I { v with data := d } := by
  refine ⟨h.extents, h.strides, h.static, fun ha => hd.1.trans (h.data ha), hd.2, fun hl ha idx hi => ?_⟩
  obtain ⟨x, hx⟩ := h.inside hl ha idx hi
  have := (List.getElem?_eq_some_iff.1 hx).1
  exact ⟨_, List.getElem?_eq_getElem (by rw [hd.1]; exact this)⟩

theorem empty_formed (ty : ViewTy) (I : T → Prop) : (ty.empty : View T).Formed ty I := by
  have he : (ty.empty : View T).extents.length = ty.rank := by simp [ViewTy.empty, ViewTy.rank]
  refine ⟨he, ?_, fun i n hi => by simp [ViewTy.empty, hi], (fun h => by cases h), (fun x hx => by cases hx),
    (fun _ h => by cases h)⟩
  have := strides_length ty he (lay := (ty.empty : View T).extents.map (fun _ => (0, 0))) (by simp [he])
  unfold ViewTy.empty at this ⊢
  revert this
  cases ty.layout with
  | stride => intro _; simp [ViewTy.rank]
  | _ => exact id

theorem serView_ev (hg : ∀ n, n ≤ cfg.grow n) (hb : U .badBool) (hr : U .badRegion) {I : T → Prop}
    {h : Nat → Handler T} (hh : HS U m I I h) {e : Elem T} (hz : I e.zero) {k : ViewTI} {ty : ViewTy}
    (hrank : ty.rank ≤ 8) {s : Ser} (hs : Reads U m s) (v : View T) :
    Evtl U m (View.Formed ty I) (fun n => serView cfg k ty (e.via (h n)) s v) := by
  unfold serView
  refine Evtl.bindC (pipeStr_good hg k.str hs (hg _)) (fun r _ hs1 => ?_)
  refine Evtl.bindC (pipeInt_good (k := 4) (by omega) (e := intElem cfg) rfl (hs1.mono (Nat.le_succ m)) _)
    (fun _ _ hs2 => ?_)
  simp only [hs2.unpacking, if_true]
  refine Evtl.bindC (pipeLayout_good k.layout ty.layout hs2 (by rfl)) (fun r' hlay hs3 => ?_)
  simp only [hs3.unpacking, if_true]
  have hf := construct_formed (I := I) hrank hz r.1.chars hlay
  refine (serViewBody_ev hb hh hz hr hs3 hf.elems).imp (Nat.le_refl _) ?_
  rintro _ ⟨d, rfl, hd⟩
  exact hf.refill hd

/-! ### Views whose number of dimensions is not part of the type -/

theorem lastGiven_le : ∀ lay : LayoutVal, lastGiven lay ≤ lay.length
  | [] => Nat.le_refl _
  | p :: rest => by
    have := lastGiven_le rest
    unfold lastGiven
    split
    · simp
    · simpa using this

theorem dynConstruct_formed {l : Layout} {I : T → Prop} {z : T} (hz : I z) (label : Bytes) {lay : LayoutVal}
    (hl : lay.length = 8) : (DynRank.construct l z label lay).Formed l I := by
  have hr : lastGiven (lay.take 7) ≤ 7 := by
    have := lastGiven_le (lay.take 7)
    simp at this
    omega
  have hf := construct_formed (ty := ⟨l, List.replicate (lastGiven (lay.take 7)) none, true⟩)
    (by simp [ViewTy.rank]; omega) hz label (lay := lay.map fun p => if p.1 = invalidIndex then (1, p.2) else p)
    (by simpa using hl)
  have he : (DynRank.construct l z label lay).rank = lastGiven (lay.take 7) := by
    have := hf.extents
    simp only [ViewTy.rank, List.length_replicate] at this
    exact this
  refine ⟨by omega, ?_⟩
  rw [he]
  exact hf

theorem DynRank.Formed.refill {l : Layout} {I : T → Prop} {v : DynRank T} (h : v.Formed l I) {d : List T}
    (hd : Fills I v.view.data.length d) : DynRank.Formed l I { v with view := { v.view with data := d } } :=
  ⟨h.1, h.2.refill hd⟩

theorem serDynElems_ev (hr : U .badRegion) {I : T → Prop} {h : Nat → Handler T} (hh : HS U m I I h) {e : Elem T}
    (hz : I e.zero) {len dims num : Nat} {contig : Bool} (v : View T) {d : List T} {s : Ser} (hs : Reads U m s)
    (hd : Fills I len d) :
    Evtl U m (Fills I len) (fun n => serDynElems cfg (e.via (h n)) dims num contig v (d, s)) := by
  unfold serDynElems
  cases contig with
  | true =>
    simp only [if_true]
    exact viewArray_ev hh (.inl hr) hs hd
  | false =>
    simp only [Bool.false_eq_true, if_false]
    split
    · exact traverse_elements_ev hh hz v _ (.inl hr) hs hd
    · split
      · exact Evtl.pure hd hs
      · exact Evtl.const (o := .abort) trivial

theorem via_zero (e : Elem T) (h : Handler T) : (e.via h).zero = e.zero := rfl

theorem serDynBody_ev (hb : U .badBool) (hr : U .badRegion) {I : T → Prop} {h : Nat → Handler T} (hh : HS U m I I h)
    {e : Elem T} (hz : I e.zero) {dims num : Nat} (v : View T) {s : Ser} (hs : Reads U m s) (hd : ∀ x ∈ v.data, I x) :
    Evtl U m (fun w => ∃ d, w = { v with data := d } ∧ Fills I v.data.length d)
      (fun n => serDynBody cfg (e.via (h n)) dims num s v) := by
  have up := fun {s : Ser} (hs : Reads U m s) => hs.mono (Nat.le_succ m)
  unfold serDynBody
  refine Evtl.bindC (pipeBool_good hb (up hs) _) (fun c _ hs5 => ?_)
  refine Evtl.bindC (pipeBool_good hb (up hs5) _) (fun i _ hs6 => ?_)
  obtain ⟨i, s6⟩ := i
  cases i with
  | false => exact Evtl.pure ⟨_, rfl, rfl, hd⟩ hs6
  | true =>
    simp only [if_true]
    exact Evtl.bind (serDynElems_ev hr hh hz _ hs6 ⟨rfl, hd⟩) (fun q hq hs7 => Evtl.pure ⟨q.1, rfl, hq⟩ hs7)

theorem serDynRank_ev (hg : ∀ n, n ≤ cfg.grow n) (hb : U .badBool) (hr : U .badRegion) {I : T → Prop}
    {h : Nat → Handler T} (hh : HS U m I I h) {e : Elem T} (hz : I e.zero) {k : DynTI} {l : Layout}
    {s : Ser} (hs : Reads U m s) (v : DynRank T) :
    Evtl U m (DynRank.Formed l I) (fun n => serDynRank cfg k l (e.via (h n)) s v) := by
  have up := fun {s : Ser} (hs : Reads U m s) => hs.mono (Nat.le_succ m)
  unfold serDynRank
  refine Evtl.bindC (pipeStr_good hg k.str hs (hg _)) (fun r _ hs1 => ?_)
  refine Evtl.bindC (pipeInt_good (k := 4) (by omega) (e := u32Elem cfg k.uint) rfl (up hs1) _)
    (fun dims _ hs2 => ?_)
  simp only [hs2.unpacking, if_true]
  refine Evtl.bindC (pipeLayout_good k.layout l hs2 (by rfl)) (fun r' hlay hs3 => ?_)
  refine Evtl.bindC (pipeSize_good (up hs3) _) (fun num _ hs4 => ?_)
  unfold serDynRest
  simp only [hs4.unpacking, if_true]
  split
  · refine Evtl.pure ⟨by simp [DynRank.empty, DynRank.rank], ?_⟩ hs4
    refine ⟨rfl, rfl, (fun i n hi => by simp [DynRank.empty, DynRank.rank] at hi), (fun ha => by cases ha),
      (fun x hx => by cases hx), (fun _ ha => by cases ha)⟩
  · have hf := dynConstruct_formed (l := l) (I := I) hz r.1.chars hlay
    simp only [via_zero]
    revert hf
    generalize DynRank.construct l e.zero r.1.chars r'.1 = w
    intro hf
    refine Evtl.bind (serDynBody_ev hb hr hh hz w.view hs4 hf.2.elems) ?_
    rintro ⟨_, s'⟩ ⟨d, rfl, hd⟩ hs'
    exact Evtl.pure (hf.refill hd) hs'

/-! ### Views of chunks -/

theorem dynamicLoop_ev {I : T → Prop} {h : Nat → Handler T} (hh : HS U m I I h) {e : Elem T} (hz : I e.zero)
    {len : Nat} : ∀ (n i : Nat) {d : List T} {s : Ser}, i + n ≤ len → Reads U m s → Fills I len d →
    Evtl U m (Fills I len) (fun k => forLoop (dynamicElement cfg (e.via (h k))) n i (d, s))
  | 0, _, _, _, _, hs, hd => Evtl.pure hd hs
  | n + 1, i, d, s, hi, hs, hd => by
    unfold forLoop
    refine Evtl.bind (P := Fills I len) (m := m) ?_ (fun r hr hs' => dynamicLoop_ev hh hz n (i + 1) (by omega) hs' hr)
    have hx : d[i]? = some (d[i]'(by have := hd.1; omega)) := List.getElem?_eq_getElem _
    unfold dynamicElement
    simp only [hx, hs.unpacking, if_true]
    exact Evtl.bind (pipe_ev hh hs (x := e.zero) hz) (fun r hr hs' => Evtl.pure (hd.set _ hr) hs')

theorem rebuild_formed {I : T → Prop} {z : T} (hz : I z) (label : Bytes) (chunk maxExtent size : Nat) :
    rebuildDynamic z label chunk maxExtent size = .abort ∨
      ∃ w, rebuildDynamic z label chunk maxExtent size = .ok w ∧ w.Formed I := by
  unfold rebuildDynamic DynamicView.resize
  split
  · exact .inl rfl
  · next hle =>
    refine .inr ⟨_, rfl, ?_, fun x hx => ?_⟩
    · have : size - (0 : Nat) = size := Nat.sub_zero _
      simp only [Nat.not_lt] at hle
      simp only [DynamicView.size, DynamicView.construct, List.take_nil, List.nil_append, List.length_replicate,
        List.length_nil, this]
      exact hle
    · simp only [DynamicView.construct, List.take_nil, List.nil_append] at hx
      rw [List.eq_of_mem_replicate hx]; exact hz

theorem serDynamic_ev (hg : ∀ n, n ≤ cfg.grow n) {I : T → Prop} {h : Nat → Handler T} (hh : HS U m I I h)
    {e : Elem T} (hz : I e.zero) {k : DynamicTI} {s : Ser} (hs : Reads U m s) (v : DynamicView T) :
    Evtl U m (DynamicView.Formed I) (fun n => serDynamic cfg k (e.via (h n)) s v) := by
  have up := fun {s : Ser} (hs : Reads U m s) => hs.mono (Nat.le_succ m)
  unfold serDynamic
  refine Evtl.bindC (pipeStr_good hg k.str hs (hg _)) (fun r _ hs1 => ?_)
  refine Evtl.bindC (pipeSize_good (up hs1) _) (fun chunk _ hs2 => ?_)
  refine Evtl.bindC (pipeSize_good (up hs2) _) (fun maxE _ hs3 => ?_)
  refine Evtl.bindC (pipeSize_good (up hs3) _) (fun size _ hs4 => ?_)
  simp only [dynamicTarget, hs4.unpacking, if_true, via_zero]
  rcases rebuild_formed (I := I) hz r.1.chars chunk.1 maxE.1 size.1 with h0 | ⟨w, h0, hf⟩
  · simp only [h0]
    exact Evtl.const (o := .abort) trivial
  · simp only [h0, Out.bind_eq, Out.bind_ok]
    refine Evtl.bind (dynamicLoop_ev hh hz (len := w.elems.length) w.size 0 (by simp [DynamicView.size]) hs4
      ⟨rfl, hf.2⟩) (fun q hq hs5 => ?_)
    refine Evtl.pure ⟨?_, hq.2⟩ hs5
    have h1 := hf.1
    simp only [DynamicView.size] at h1 ⊢
    rw [hq.1]
    exact h1

/-! ### Composed types -/

/-- Reading into well-formed objects of the type ends well, if fewer than `m` bytes are left. -/
structure SafeAt (U : UB → Prop) (m : Nat) (t : CppType T) (I : T → Prop) : Prop where
  hs : HS U m I I t.apply
  makes : Makes I (t.elem 0)

/-- Reading into well-formed objects of the type ends well. -/
structure Safe (U : UB → Prop) (t : CppType T) (I : T → Prop) : Prop where
  hs : ∀ m, HS U m I I t.apply
  makes : Makes I (t.elem 0)

/-- The types end well if fewer than `m` bytes are left. -/
def EndsAt (U : UB → Prop) (m : Nat) (D : TypeSet) : Prop := ∀ q, D q → HS U m q.2.2 q.2.2 q.2.1.apply

/-- It ends well if the types of `D` do, and those of `L` with less bytes left. -/
structure SafeIn (U : UB → Prop) (D L : TypeSet) (t : CppType T) (I : T → Prop) : Prop where
  hs : ∀ m, (∀ m' ≤ m, EndsAt U m' D) → (∀ m' < m, EndsAt U m' L) → HS U m I I t.apply
  makes : Makes I (t.elem 0)

theorem SafeIn.at {D L : TypeSet} {t : CppType T} {I : T → Prop} (h : SafeIn U D L t I) (hD : ∀ m' ≤ m, EndsAt U m' D)
    (hL : ∀ m' < m, EndsAt U m' L) : SafeAt U m t I := ⟨h.hs m hD hL, h.makes⟩

/-- Once a byte was read. -/
theorem SafeIn.later {L : TypeSet} {t : CppType T} {I : T → Prop} (h : SafeIn U L L t I)
    (hL : ∀ m' < m + 1, EndsAt U m' L) : SafeAt U m t I :=
  ⟨h.hs m (fun m' hm => hL m' (by omega)) (fun m' hm => hL m' (by omega)), h.makes⟩

theorem Makes.zero {I : T → Prop} {e : Elem T} (h : Makes I e) : I e.zero := by
  unfold Elem.zero
  cases hd : e.dflt with
  | none => exact h.fresh
  | some d => exact h.dflt d hd

/-- The first thing read is a number. -/
theorem hs_of_up {I : T → Prop} {f : Nat → Ser → T → Out (T × Ser)}
    (hf : ∀ k s x, m = k + 1 → Reads U (k + 1) s → I x → Evtl U k I (fun n => f n s x)) :
    HS U m I I (fun n => dispatchEach (f n)) := by
  cases m with
  | zero => exact fun s xs hs _ _ => hs.zero.elim
  | succ m => exact dispatchEach_hs (fun s x hs hx => (hf m s x rfl hs hx).imp (Nat.le_succ m) (fun _ => id))

theorem emplaceOrdered_keeps {lt : T → T → Bool} (hasymm : ∀ x y, lt x y = true → lt y x = false)
    (htrans : ∀ x y z, lt x y = true → lt y z = true → lt x z = true)
    (hweak : ∀ x y z, lt y x = false → lt z y = false → lt z x = false) (a : Assoc) {I : T → Prop} (acc : List T) (y : T)
    (ha : (∀ x ∈ acc, I x) ∧
      if a.repeats then acc.Pairwise (fun x y => lt y x = false) else acc.Pairwise (fun x y => lt x y = true)) (hy : I y) :
    (∀ x ∈ (if a.multi then emplaceMulti lt else emplaceUnique lt) acc y, I x) ∧
      if a.repeats then ((if a.multi then emplaceMulti lt else emplaceUnique lt) acc y).Pairwise (fun x y => lt y x = false)
      else ((if a.multi then emplaceMulti lt else emplaceUnique lt) acc y).Pairwise (fun x y => lt x y = true) := by
  obtain ⟨ha, hs⟩ := ha
  rw [multi_eq]
  by_cases hm : a.repeats = true
  · simp only [hm, if_true] at hs ⊢
    refine ⟨fun x hx => ?_, emplaceMulti_sorted hasymm hweak hs y⟩
    rcases List.mem_append.1 ((emplaceMulti_perm acc y).subset hx) with h | h
    · exact ha x h
    · rw [List.mem_singleton.1 h]; exact hy
  · simp only [hm] at hs ⊢
    exact ⟨emplaceUnique_sub hy acc ha, emplaceUnique_sorted htrans hs y⟩

theorem emplaceUnordered_keeps {eq : T → T → Bool} (hsymm : ∀ x y, eq x y = eq y x) {arrange : List T → List T}
    (harr : ∀ xs, (arrange xs).Perm xs) (a : Assoc) {I : T → Prop} (acc : List T) (y : T)
    (ha : (∀ x ∈ acc, I x) ∧ (a.repeats = false → acc.Pairwise (fun x y => eq x y = false))) (hy : I y) :
    (∀ x ∈ emplaceUnordered a.multi eq arrange acc y, I x) ∧
      (a.repeats = false → (emplaceUnordered a.multi eq arrange acc y).Pairwise (fun x y => eq x y = false)) := by
  unfold emplaceUnordered
  rw [multi_eq]
  split
  · exact ha
  · next hc =>
    refine ⟨fun x hx => ?_, fun hm => ?_⟩
    · rcases List.mem_cons.1 ((harr (y :: acc)).subset hx) with rfl | h
      · exact hy
      · exact ha.1 x h
    · refine ((harr (y :: acc)).pairwise_iff (fun {a b} (h : eq a b = false) => by rw [hsymm]; exact h)).2 ?_
      refine List.pairwise_cons.2 ⟨fun z hz => ?_, ha.2 hm⟩
      rw [hm] at hc
      rw [hsymm]
      cases hzy : eq z y with
      | false => rfl
      | true => exact absurd (by simpa using ⟨z, hz, hzy⟩) hc

theorem visit_ev : ∀ {O : Type} {ms : MemberTypes O} {is : MemberShapes O} {ps : List TypeShape}, ms.Shaped is ps →
    (∀ p ∈ ps, SafeAt U m p.2.1 p.2.2) → ∀ {s : Ser} {o : O}, Reads U m s → is.All o →
    Evtl U m is.All (fun n => ms.visit cfg n s o)
  | _, _, _, _, .nil, _, _, _, hs, _ => Evtl.pure trivial hs
  | _, _, _, _, .cons t I hm, hp, _, _, hs, ho => by
    have ht := hp _ (List.mem_cons_self ..)
    unfold MemberTypes.visit
    exact Evtl.bind (pipe_ev (e := t.elem 0) ht.hs hs ho.1) (fun r hr hs' =>
      Evtl.bind (visit_ev hm (fun p h => hp p (List.mem_cons_of_mem _ h)) hs' ho.2) (fun q hq hs'' =>
        Evtl.pure ⟨hr, hq⟩ hs''))

/-! ### Tuples -/

theorem visitAt_ev : ∀ {O : Type} {ms : MemberTypes O} {is : MemberShapes O} {ps : List TypeShape}, ms.Shaped is ps →
    (∀ p ∈ ps, SafeAt U m p.2.1 p.2.2) → ∀ (i : Nat) {s : Ser} {o : O}, i < ms.length → Reads U m s → is.All o →
    Evtl U m is.All (fun n => ms.visitAt cfg n i s o)
  | _, _, _, _, .nil, _, _, _, _, hi, _, _ => by simp [MemberTypes.length] at hi
  | _, _, _, _, .cons t I hm, hp, 0, _, _, _, hs, ho => by
    have ht := hp _ (List.mem_cons_self ..)
    unfold MemberTypes.visitAt
    exact Evtl.bind (pipe_ev (e := t.elem 0) ht.hs hs ho.1) (fun r hr hs' => Evtl.pure ⟨hr, ho.2⟩ hs')
  | _, _, _, _, .cons t I hm, hp, i + 1, _, _, hi, hs, ho => by
    unfold MemberTypes.visitAt
    exact Evtl.bind (visitAt_ev hm (fun p h => hp p (List.mem_cons_of_mem _ h)) i (Nat.lt_of_succ_lt_succ hi) hs ho.2)
      (fun r hr hs' => Evtl.pure ⟨ho.1, hr⟩ hs')

theorem visitOrder_ev {O : Type} {ms : MemberTypes O} {is : MemberShapes O} {ps : List TypeShape} (hm : ms.Shaped is ps)
    (hp : ∀ p ∈ ps, SafeAt U m p.2.1 p.2.2) : ∀ (js : List Nat) {s : Ser} {o : O}, (∀ j ∈ js, j < ms.length) →
    Reads U m s → is.All o → Evtl U m is.All (fun n => ms.visitOrder cfg n js s o)
  | [], _, _, _, hs, ho => Evtl.pure ho hs
  | j :: js, _, _, hj, hs, ho => by
    unfold MemberTypes.visitOrder
    exact Evtl.bind (visitAt_ev hm hp j (hj j (by simp)) hs ho) (fun r hr hs' =>
      visitOrder_ev hm hp js (fun i hi => hj i (by simp [hi])) hs' hr)

theorem tuple_makes : ∀ {O : Type} {ms : MemberTypes O} {is : MemberShapes O} {ps : List TypeShape}, ms.Shaped is ps →
    (∀ p ∈ ps, Makes p.2.2 (p.2.1.elem 0)) → is.All ms.fresh ∧ ∀ d, ms.dflt = some d → is.All d
  | _, _, _, _, .nil, _ => ⟨trivial, fun _ _ => trivial⟩
  | _, _, _, _, .cons t I hm, hp => by
    have ht := hp _ (List.mem_cons_self ..)
    obtain ⟨h1, h2⟩ := tuple_makes hm (fun p h => hp p (List.mem_cons_of_mem _ h))
    refine ⟨⟨ht.fresh, h1⟩, fun d hd => ?_⟩
    simp only [MemberTypes.dflt] at hd
    split at hd
    · rename_i a b ha hb
      cases hd
      exact ⟨ht.dflt _ ha, h2 _ hb⟩
    · cases hd

/-! ### Variants -/

theorem entryOf_ev : ∀ {V : Type} {as : AltTypes V} {is : AltShapes V} {ps : List TypeShape}, as.Shaped is ps →
    (∀ p ∈ ps, SafeAt U m p.2.1 p.2.2) → ∀ (e : Nat) {s : Ser} {v : Option V}, Reads U m s → (∀ x, v = some x → is.Holds x) →
    Evtl U m (fun v => ∀ x, v = some x → is.Holds x) (fun n => as.entry cfg n s v e)
  | _, _, _, _, .nil, _, _, _, _, hs, hv => Evtl.pure hv hs
  | _, _, _, _, .cons t I hm, hp, 0, _, v, hs, hv => by
    have ht := hp _ (List.mem_cons_self ..)
    unfold AltTypes.entry
    simp only [hs.unpacking, if_true]
    refine Evtl.bind (pipe_ev (e := t.elem 0) ht.hs hs ht.makes.fresh) (fun r hr hs' => Evtl.pure ?_ hs')
    rintro _ ⟨⟩
    exact hr
  | _, _, _, _, .cons t I hm, hp, e + 1, _, v, hs, hv => by
    unfold AltTypes.entry
    refine Evtl.bind (entryOf_ev hm (fun p h => hp p (List.mem_cons_of_mem _ h)) e hs (v := beyondFirst v) ?_)
      (fun r hr hs' => ?_)
    · intro x hx
      match v, hx with
      | some (.inr y), hx =>
        simp only [beyondFirst, Option.some.injEq] at hx
        subst hx
        exact hv _ rfl
    · obtain ⟨w, s'⟩ := r
      cases w with
      | none => exact Evtl.pure hv hs'
      | some q =>
        refine Evtl.pure ?_ hs'
        rintro _ ⟨⟩
        exact hr q rfl

theorem variant_makes {V : Type} {as : AltTypes V} {is : AltShapes V} {ps : List TypeShape} (hm : as.Shaped is ps)
    (hp : ∀ p ∈ ps, Makes p.2.2 (p.2.1.elem 0)) : (∀ x, as.fresh = some x → is.Holds x) ∧
      ∀ d, as.dflt = some d → ∀ x, d = some x → is.Holds x := by
  cases hm with
  | nil => exact ⟨fun x => x.elim, fun _ _ x => x.elim⟩
  | cons t I hm =>
    have ht := hp _ (List.mem_cons_self ..)
    refine ⟨?_, fun d hd => ?_⟩
    · rintro _ ⟨⟩
      exact ht.fresh
    · simp only [AltTypes.dflt, Option.map_eq_some_iff] at hd
      obtain ⟨y, hy, rfl⟩ := hd
      rintro _ ⟨⟩
      exact ht.dflt _ hy

/-! ### Kokkos maps -/

/-- A well-formed map. -/
def KMapFormed (h : KHash A B) (I : A → Prop) (J : B → Prop) (x : KMap A B) : Prop :=
  x.Distinct h ∧ ∀ p ∈ occupied x.slots, I p.1 ∧ J p.2

theorem insert_formed {h : KHash A B} (hl : h.Lawful) {I : A → Prop} {J : B → Prop} {x : KMap A B}
    (hx : KMapFormed h I J x) {a : A} {b : B} (ha : I a) (hb : J b) : KMapFormed h I J (x.insert h a b) := by
  cases hf : x.find h a with
  | some _ => simp only [KMap.insert, hf]; exact hx
  | none =>
    cases hp : h.place x.slots a with
    | none => simp only [KMap.insert, hf, hp]; exact hx
    | some i =>
      have hperm := (insert_new hl (v := b) hf (by rw [hp]; rfl)).1
      refine ⟨?_, fun p hm => ?_⟩
      · refine distinct_perm hl hperm (List.pairwise_cons.2 ⟨fun p hm => ?_, hx.1⟩)
        have := find_none.1 hf p hm
        cases he : h.eq a p.1 with
        | false => rfl
        | true => rw [hl.symm _ _ he] at this; cases this
      · rcases List.mem_cons.1 (hperm.mem_iff.1 hm) with rfl | hm
        · exact ⟨ha, hb⟩
        · exact hx.2 p hm

theorem make_formed {h : KHash A B} {I : A → Prop} {J : B → Prop} (cap : Nat) : KMapFormed h I J (.make h cap) :=
  ⟨by unfold KMap.Distinct; rw [occupied_make]; exact .nil, by rw [occupied_make]; simp⟩

theorem rehash_formed {h : KHash A B} (hl : h.Lawful) {I : A → Prop} {J : B → Prop} {x : KMap A B}
    (hx : ∀ p ∈ occupied x.slots, I p.1 ∧ J p.2) (cap : Nat) : KMapFormed h I J (x.rehash h cap) := by
  have key : ∀ (l : List (A × B)) (y : KMap A B), (∀ p ∈ l, I p.1 ∧ J p.2) → KMapFormed h I J y →
      KMapFormed h I J (l.foldl (fun m p => m.insert h p.1 p.2) y) := by
    intro l
    induction l with
    | nil => exact fun y _ hy => hy
    | cons p l ih =>
      exact fun y hp hy => ih _ (fun q hq => hp q (by simp [hq]))
        (insert_formed hl hy (hp p (by simp)).1 (hp p (by simp)).2)
  exact key _ _ hx (make_formed _)

theorem insertPairs_ev {h : KHash A B} (hl : h.Lawful) {I : A → Prop} {J : B → Prop} {f : Nat → Handler A}
    {g : Nat → Handler B} (hf : HS U m I I f) (hg : HS U m J J g) {eK : Elem A} {eV : Elem B} (hK : I eK.fresh)
    (hV : J eV.fresh) : ∀ (k : Nat) {s : Ser} {x : KMap A B}, Reads U m s → KMapFormed h I J x →
    Evtl U m (KMapFormed h I J) (fun n => insertPairs cfg h (eK.via (f n)) (eV.via (g n)) k s x)
  | 0, _, _, hs, hx => Evtl.pure hx hs
  | k + 1, _, _, hs, hx => by
    unfold insertPairs
    exact Evtl.bind (pipe_ev hf hs hK) (fun r hr hs' => Evtl.bind (pipe_ev hg hs' hV) (fun r' hr' hs'' =>
      insertPairs_ev hl hf hg hK hV k hs'' (insert_formed hl hx hr hr')))

theorem serKMap_ev {h : KHash A B} (hl : h.Lawful) {I : A → Prop} {J : B → Prop} {f : Nat → Handler A}
    {g : Nat → Handler B} (hf : HS U m I I f) (hg : HS U m J J g) {eK : Elem A} {eV : Elem B} (hK : I eK.fresh)
    (hV : J eV.fresh) {k : KMapTI} {s : Ser} {x : KMap A B} (hs : Reads U (m + 1) s) (hx : KMapFormed h I J x) :
    Evtl U m (KMapFormed h I J) (fun n => serKMap cfg k h (eK.via (f n)) (eV.via (g n)) s x) := by
  have up := fun {s : Ser} (hs : Reads U m s) => hs.mono (Nat.le_succ m)
  unfold serKMap
  simp only [hs.modes.1, Bool.false_eq_true, if_false]
  refine Evtl.bindC (pipeInt_good (k := 4) (by omega) (e := u32Elem cfg k.u32) rfl hs _) (fun size _ hs1 => ?_)
  refine Evtl.bindC (pipeInt_good (k := 4) (by omega) (e := u32Elem cfg k.u32) rfl (up hs1) _) (fun cap _ hs2 => ?_)
  simp only [hs2.unpacking, if_true]
  exact insertPairs_ev hl hf hg hK hV _ hs2 (rehash_formed hl hx.2 _)

/-! ### Views of `const` elements -/

theorem serConstView_ev (hg : ∀ n, n ≤ cfg.grow n) (hb : U .badBool) (hr : U .badRegion) {I : T → Prop}
    {h : Nat → Handler T} (hh : HS U m I I h) {e : Elem T} (hz : I e.zero) {k : ViewTI} {ty : ViewTy}
    (hrank : ty.rank ≤ 8) {s : Ser} (hs : Reads U m s) (v : View T) :
    Evtl U m (View.Formed ty I) (fun n => serConstView cfg k ty (e.via (h n)) s v) := by
  unfold serConstView
  simp only [View.fillFrom, hs.modes.2.1, Bool.false_eq_true, if_false, Out.bind_eq, Out.bind_ok, via_zero]
  refine Evtl.bind (serView_ev hg hb hr hh hz hrank hs _) (fun r hr hs' => ?_)
  simp only [hs'.unpacking, if_true]
  exact Evtl.pure hr hs'

/-! ### Classes with virtual serialization -/

theorem chain_ev {reg : SerReg} {root : Nat} : ∀ {O : Type} {ms : MemberTypes O} {is : MemberShapes O}
    {ps : List TypeShape}, ms.Shaped is ps → (∀ p ∈ ps, SafeAt U m p.2.1 p.2.2) → ∀ (ks : List Nat) {s : Ser} {o : O},
    ms.length = ks.length → (∀ k ∈ ks, ∀ kd ∈ builtinKinds, reg.lookup cfg.ndebug k root kd = .ok kd) →
    Reads U m s → is.All o → Evtl U m is.All (fun n => ms.chain cfg reg root n ks s o)
  | _, _, _, _, .nil, _, [], _, _, _, _, hs, _ => Evtl.pure trivial hs
  | _, _, _, _, .nil, _, _ :: _, _, _, hl, _, _, _ => by simp [MemberTypes.length] at hl
  | _, _, _, _, .cons _ _ _, _, [], _, _, hl, _, _, _ => by simp [MemberTypes.length] at hl
  | _, _, _, _, .cons t I hm, hp, k :: ks, s, _, hl, hk, hs, ho => by
    have ht := hp _ (List.mem_cons_self ..)
    unfold MemberTypes.chain
    simp only [hk k (.head _) _ hs.kind, Out.bind_eq, Out.bind_ok, ne_eq, not_true_eq_false, if_false]
    exact Evtl.bind (pipe_ev (e := t.part 0) (h := fun n => (t.part n).apply)
        (fun s' xs hs' hne hx => ht.hs (s'.setVdis false) xs (hs'.setVdis false) hne hx) (hs.setVdis true) ho.1)
      (fun r hr hs' => Evtl.bind (chain_ev hm (fun p h => hp p (List.mem_cons_of_mem _ h)) ks
        (by simpa [MemberTypes.length] using hl) (fun k h => hk k (List.mem_cons_of_mem _ h)) hs' ho.2)
        (fun q hq hs'' => Evtl.pure ⟨hr, hq⟩ hs''))

theorem first_hs {I : T → Prop} {f : Nat → Ser → T → Out (T × Ser)}
    (hf : ∀ s x, Reads U m s → I x → Evtl U m I (fun n => f n s x)) : HS U m I I (fun n => dispatchFirst (f n)) := by
  intro s xs hs hne hx
  cases xs with
  | nil => exact absurd rfl hne
  | cons x rest =>
    refine Evtl.bind (hf s x hs (hx x (by simp))) (fun r hr hs' => Evtl.pure ⟨by simp, fun y hy => ?_⟩ hs')
    rcases List.mem_cons.1 hy with rfl | hy
    · exact hr
    · exact hx y (by simp [hy])

theorem sound_lookup (hE : env.Sound cfg) (d : Nat) :
    ∀ k ∈ env.chain d, ∀ kd ∈ builtinKinds, env.serReg.lookup cfg.ndebug k (env.root d) kd = .ok kd := by
  intro k hk kd hkd
  rw [← hE.hier d k hk]
  exact SerReg.lookup_eq hE.serRegOk cfg.ndebug k hkd

theorem dyn_ev (hE : env.Sound cfg) : ∀ {V : Type} {ds : DynTypes V} {is : AltShapes V} {ps : List TypeShape},
    ds.Shaped is ps → (∀ p ∈ ps, SafeAt U m p.2.1 p.2.2) → ds.Fits env → ∀ {s : Ser} {v : V}, Reads U m s → is.Holds v →
    Evtl U m is.Holds (fun n => ds.serialize cfg env n s v)
  | _, _, _, _, .cons d hms _ hm, hp, hfit, _, .inl o, hs, ho => by
    unfold DynTypes.serialize
    exact Evtl.bind (chain_ev hms (fun p h => hp p (List.mem_append_left _ h)) _ hfit.1 (sound_lookup hE d) hs ho)
      (fun r hr hs' => Evtl.pure hr hs')
  | _, _, _, _, .cons d hms _ hm, hp, hfit, _, .inr v, hs, hv => by
    unfold DynTypes.serialize
    exact Evtl.bind (dyn_ev hE hm (fun p h => hp p (List.mem_append_right _ h)) hfit.2 hs hv)
      (fun r hr hs' => Evtl.pure hr hs')

theorem make_holds : ∀ {V : Type} {ds : DynTypes V} {is : AltShapes V} {ps : List TypeShape}, ds.Shaped is ps →
    ∀ (d : Nat), d ∈ ds.classes → ∃ x, ds.make d = some x ∧ is.Holds x
  | _, _, _, _, .nil, d, h => by simp [DynTypes.classes] at h
  | _, _, _, _, .cons d' _ hf hm, d, h => by
    by_cases he : d' = d
    · exact ⟨.inl _, by simp [DynTypes.make, he], hf⟩
    · have hd : d ∈ DynTypes.classes _ := (List.mem_cons.1 h).resolve_left fun h => he h.symm
      obtain ⟨x, h1, h2⟩ := make_holds hm d hd
      exact ⟨.inr x, by simp [DynTypes.make, he, h1], h2⟩

theorem make_mem {V : Type} : ∀ {ds : DynTypes V} {d : Nat} {x : V}, ds.make d = some x → d ∉ ds.classes → False
  | .nil, _, x, _, _ => x.elim
  | .cons d' _ _ ds, d, x, h, hn => by
    have he : d' ≠ d := fun he => hn (he ▸ List.mem_cons_self ..)
    simp only [DynTypes.make, he, if_false, Option.map_eq_some_iff] at h
    obtain ⟨y, hy, _⟩ := h
    exact make_mem hy fun hd => hn (List.mem_cons_of_mem _ hd)

theorem dynConstruct_good {V : Type} {ds : DynTypes V} {is : AltShapes V} {ps : List TypeShape} (hm : ds.Shaped is ps)
    {c : Nat} (ha : ∀ d ∈ env.objReg (env.root c), (env.cls d).abstract = true → cfg.ndebug = true → U .nullDeref)
    (hd : ∀ d ∈ env.objReg (env.root c), (env.cls d).abstract = false → d ∉ ds.classes → U .typeConfusion) (i : Nat) :
    MadeOk U is.Holds (ds.construct cfg env c i) := by
  unfold DynTypes.construct
  cases hi : (env.objReg (env.root c))[i]? with
  | none => trivial
  | some d =>
    have hmem := List.mem_of_getElem? hi
    simp only
    by_cases hab : (env.cls d).abstract = true
    · by_cases hn : cfg.ndebug = true
      · simp only [hab, hn, if_true]; exact ha d hmem hab hn
      · simp only [hab, hn, if_true]; trivial
    · simp only [hab, Bool.false_eq_true, if_false]
      by_cases hc : d ∈ ds.classes
      · obtain ⟨x, h1, h2⟩ := make_holds hm d hc
        simp only [h1]; exact h2
      · cases hmk : ds.make d with
        | none => exact hd d hmem (by simpa using hab) hc
        | some x => exact (make_mem hmk hc).elim

/-! ### Serialize functions with control flow -/

theorem prog_ev (hb : U .badBool) {O : Type} {Q : O → Prop} :
    ∀ (p : Prog O) {ps qs : TypeSet} {m : Nat} {s : Ser} {o : O}, EndsAt U m ps → (∀ m' < m, EndsAt U m' qs) →
    Reads U m s → p.Careful U ps qs Q o → Evtl U m Q (fun n => p.run cfg n s o)
  | .done, _, _, _, _, _, _, _, hs, hp => Evtl.pure hp hs
  | .visit t get set k, _, _, m, s, o, h, h', hs, hp => by
    unfold Prog.Careful at hp
    simp only [Prog.run]
    cases hg : get o with
    | none => rw [hg] at hp; exact .const hp
    | some b =>
      rw [hg] at hp
      obtain ⟨I, hI, hb', hk⟩ := hp
      exact Evtl.bind (pipe_ev (e := t.elem 0) (h _ hI) hs hb') (fun r hr hs' => prog_ev hb k h h' hs' (hk _ hr))
  | .block t get set k, _, _, m, s, o, h, h', hs, hp => by
    unfold Prog.Careful at hp
    simp only [Prog.run]
    cases hg : get o with
    | none => rw [hg] at hp; exact .const hp
    | some b =>
      rw [hg] at hp
      obtain ⟨I, hI, hb', hk⟩ := hp
      exact Evtl.bind (serializeArray_ev (e := t.elem 0) (h _ hI) hs hb')
        (fun r hr hs' => prog_ev hb k h h' hs' (hk _ hr.1 hr.2))
  | .value t f k, _, _, m, s, o, h, h', hs, hp => by
    obtain ⟨I, hI, hb', hk⟩ := hp
    exact Evtl.bind (pipe_ev (e := t.elem 0) (h _ hI) hs hb') (fun r hr hs' => prog_ev hb (k r.1) h h' hs' (hk _ hr))
  | .count f k, _, _, m, s, o, h, h', hs, hp => by
    cases m with
    | zero => exact hs.zero.elim
    | succ m =>
      refine Evtl.imp ?_ (Nat.le_succ m) fun _ => id
      exact Evtl.bindC (pipeSize_good hs (f o)) (fun r _ hs' =>
        prog_ev hb (k r.1) (h' m (Nat.lt_succ_self m)) (fun m' hm => h' m' (by omega)) hs' (hp _))
  | .flag f k, _, _, m, s, o, h, h', hs, hp => by
    cases m with
    | zero => exact hs.zero.elim
    | succ m =>
      refine Evtl.imp ?_ (Nat.le_succ m) fun _ => id
      exact Evtl.bindC (pipeBool_good hb hs (f o)) (fun r _ hs' =>
        prog_ev hb (k r.1) (h' m (Nat.lt_succ_self m)) (fun m' hm => h' m' (by omega)) hs' (hp _))
  | .update g k, _, _, _, _, _, h, h', hs, hp => prog_ev hb k h h' hs hp
  | .mode r w, _, _, _, _, _, h, h', hs, hp => by
    simp only [Prog.run, hs.unpacking, if_true]
    exact prog_ev hb r h h' hs hp
  | .addBytes f k, _, _, _, _, _, h, h', hs, hp => by
    simp only [Prog.run, hs.addBytes]
    exact prog_ev hb k h h' hs hp
  | .look k, _, _, _, _, o, h, h', hs, hp => prog_ev hb (k o) h h' hs hp

/-! ### Recursive classes -/

/-- The class, with objects within each other `d` less deep than the bound. -/
def CppType.behind {O : Type} (cfg : Cfg) (ti : TI) (fresh : O) (dflt : Option O) (c : Bool) (p : CppType O → Prog O)
    (d : Nat) : CppType O :=
  { CppType.declared ti fresh dflt c with apply := fun n => (CppType.unfold cfg ti fresh dflt c p (n - d)).apply n }

theorem run_behind {O : Type} {ti : TI} {fresh : O} {dflt : Option O} {c : Bool} {p : CppType O → Prog O}
    (hp : Prog.Grows cfg p) {n d : Nat} (s : Ser) (o : O) :
    (p (.unfold cfg ti fresh dflt c p (n - d))).run cfg n s o = (p (.behind cfg ti fresh dflt c p d)).run cfg n s o := by
  have h1 : (CppType.unfold cfg ti fresh dflt c p (n - d)).Below n (.behind cfg ti fresh dflt c p d) :=
    ⟨by conv => rhs; rw [unfold_head]
        rfl, fun _ _ => .inr rfl⟩
  have h2 : (CppType.behind cfg ti fresh dflt c p d).Below n (.unfold cfg ti fresh dflt c p (n - d)) :=
    ⟨by conv => lhs; rw [unfold_head]
        rfl, fun _ _ => .inr rfl⟩
  rcases hp n _ _ h1 s o with h | h
  · rcases hp n _ _ h2 s o with h' | h'
    · rw [h, h']
    · exact h'.symm
  · exact h

theorem HS.eventually {I : T → Prop} {f g : Nat → Handler T} (h : HS U m I I f) (n0 : Nat)
    (he : ∀ n ≥ n0, g n = f n) : HS U m I I g := by
  intro s xs hs hne hx
  obtain ⟨r, hr, n1, h1⟩ := h s xs hs hne hx
  exact ⟨r, hr, max n0 n1, fun n hn => by
    have := h1 n (by omega)
    rw [← this]
    show g n s xs = f n s xs
    rw [he n (by omega)]⟩

theorem behind_hs (hb : U .badBool) {D L : TypeSet} {O : Type} {ti : TI} {fresh : O} {dflt : Option O} {c : Bool}
    {p : CppType O → Prog O} {I : O → Prop} {ps qs : CppType O → TypeSet} (hp : Prog.Grows cfg p)
    (h1 : ∀ t, (CppType.declared ti fresh dflt c).Like t → ∀ q, ps t q →
      SafeIn U D (fun r => L r ∨ r = ⟨O, t, I⟩) q.2.1 q.2.2)
    (h2 : ∀ t, (CppType.declared ti fresh dflt c).Like t → ∀ q, qs t q →
      SafeIn U (fun r => L r ∨ r = ⟨O, t, I⟩) (fun r => L r ∨ r = ⟨O, t, I⟩) q.2.1 q.2.2)
    (h3 : ∀ t, (CppType.declared ti fresh dflt c).Like t → ∀ y, I y → (p t).Careful U (ps t) (qs t) I y) (m : Nat) :
    (∀ m' ≤ m, EndsAt U m' D) → (∀ m' < m, EndsAt U m' L) →
    ∀ d, HS U m I I (CppType.behind cfg ti fresh dflt c p d).apply := by
  induction m using Nat.strongRecOn with
  | ind m ih =>
    intro hD hL d
    let t := CppType.behind cfg ti fresh dflt c p (d + 1)
    have ht : (CppType.declared ti fresh dflt c).Like t := rfl
    have hL' : ∀ m' < m, EndsAt U m' (fun r => L r ∨ r = ⟨O, t, I⟩) := by
      rintro m' hm _ (h | rfl)
      · exact hL m' hm _ h
      · exact ih m' hm (fun k hk => hD k (by omega)) (fun k hk => hL k (by omega)) (d + 1)
    have key : HS U m I I (fun n => dispatchEach ((p t).run cfg n)) := dispatchEach_hs fun s x hs hx =>
      prog_ev hb (p t) (fun q hq => (h1 t ht q hq).hs m hD hL')
        (fun k hk q hq => (h2 t ht q hq).hs k (fun j hj => hL' j (by omega)) (fun j hj => hL' j (by omega))) hs (h3 t ht x hx)
    refine key.eventually (d + 1) fun n hn => ?_
    show (CppType.unfold cfg ti fresh dflt c p (n - d)).apply n = _
    obtain ⟨j, hj⟩ : ∃ j, n - d = j + 1 := ⟨n - d - 1, by omega⟩
    have hj' : n - (d + 1) = j := by omega
    rw [hj, unfold_apply]
    congr 1
    funext s o
    rw [← run_behind hp, hj']
    rfl

/-! ### Pointers to hierarchies -/

/-- A pointer to an object of one of the classes. -/
theorem polyPtr_hs (hE : env.Sound cfg) (hb : U .badBool) {L : TypeSet} {V : Type} {ds : DynTypes V} {is : AltShapes V}
    {ps : List TypeShape} {ti cti : TI} {c : Nat} {any : V} (hm : ds.Shaped is ps)
    (h : ∀ p ∈ ps, SafeIn U L L p.2.1 p.2.2) (hfit : ds.Fits env)
    (ha : ∀ d ∈ env.objReg (env.root c), (env.cls d).abstract = true → cfg.ndebug = true → U .nullDeref)
    (hd : ∀ d ∈ env.objReg (env.root c), (env.cls d).abstract = false → d ∉ ds.classes → U .typeConfusion) (m : Nat)
    (hL : ∀ m' < m, EndsAt U m' L) :
    HS U m (fun x => ∀ v, x = some v → is.Holds v) (fun x => ∀ v, x = some v → is.Holds v)
      (CppType.polyPtr cfg env ti c cti any ds).apply :=
  hs_of_up (fun k s x hk hs hx =>
    serUniquePtr_ev (h := fun n => dispatchFirst (ds.serialize cfg env n))
      (first_hs fun s x hs hx => dyn_ev hE hm (fun p hp => (h p hp).later (hk ▸ hL)) hfit hs hx)
      (e := ds.elem cfg env cti any 0) (fun h => by cases h)
      (fun v hv i => by cases hv; exact dynConstruct_good hm ha hd i) hb _ hs hx)

/-- The type, with objects within each other `d` less deep than the bound. -/
def CppType.hierarchyBehind {V : Type} (cfg : Cfg) (env : Env) (ti : TI) (c : Nat) (cti : TI) (any : V)
    (ds : CppType (Option V) → DynTypes V) (d : Nat) : CppType (Option V) :=
  { CppType.declared ti none (some none) false with
    apply := fun n => (CppType.hierarchyTo cfg env ti c cti any ds (n - d)).apply n }

theorem hierarchyBehind_hs (hE : env.Sound cfg) (hb : U .badBool) {L : TypeSet} {V : Type}
    {ds : CppType (Option V) → DynTypes V} {is : AltShapes V} {ps : CppType (Option V) → List TypeShape} {ti cti : TI}
    {c : Nat} {any : V} (hg : CppType.Grows fun t => .polyPtr cfg env ti c cti any (ds t))
    (hm : ∀ t, (CppType.declared ti none (some none) false).Like t → (ds t).Shaped is (ps t))
    (h : ∀ t, (CppType.declared ti none (some none) false).Like t → ∀ p ∈ ps t,
      SafeIn U (fun r => L r ∨ r = ⟨Option V, t, fun x => ∀ v, x = some v → is.Holds v⟩)
        (fun r => L r ∨ r = ⟨Option V, t, fun x => ∀ v, x = some v → is.Holds v⟩) p.2.1 p.2.2)
    (hfit : ∀ t, (CppType.declared ti none (some none) false).Like t → (ds t).Fits env)
    (ha : ∀ d ∈ env.objReg (env.root c), (env.cls d).abstract = true → cfg.ndebug = true → U .nullDeref)
    (hd : ∀ t, (CppType.declared ti none (some none) false).Like t →
      ∀ d ∈ env.objReg (env.root c), (env.cls d).abstract = false → d ∉ (ds t).classes → U .typeConfusion) (m : Nat) :
    (∀ m' < m, EndsAt U m' L) → ∀ d, HS U m (fun x => ∀ v, x = some v → is.Holds v)
      (fun x => ∀ v, x = some v → is.Holds v) (CppType.hierarchyBehind cfg env ti c cti any ds d).apply := by
  induction m using Nat.strongRecOn with
  | ind m ih =>
    intro hL d
    let t := CppType.hierarchyBehind cfg env ti c cti any ds (d + 1)
    have ht : (CppType.declared ti none (some none) false).Like t := rfl
    have hL' : ∀ m' < m, EndsAt U m' (fun r => L r ∨ r = ⟨Option V, t, fun x => ∀ v, x = some v → is.Holds v⟩) := by
      rintro m' hm _ (h | rfl)
      · exact hL m' hm _ h
      · exact ih m' hm (fun k hk => hL k (by omega)) (d + 1)
    have key := polyPtr_hs (ti := ti) (cti := cti) (any := any) hE hb (hm t ht) (h t ht) (hfit t ht) ha (hd t ht) m hL'
    refine key.eventually (d + 1) fun n hn => ?_
    show (CppType.hierarchyTo cfg env ti c cti any ds (n - d)).apply n = _
    obtain ⟨j, hj⟩ : ∃ j, n - d = j + 1 := ⟨n - d - 1, by omega⟩
    have hj' : n - (d + 1) = j := by omega
    have h1 : (CppType.hierarchyTo cfg env ti c cti any ds j).Below n t :=
      ⟨by conv => rhs; rw [hierarchyTo_head]
          rfl, fun _ _ => .inr (by rw [← hj']; rfl)⟩
    have h2 : t.Below n (CppType.hierarchyTo cfg env ti c cti any ds j) :=
      ⟨by conv => lhs; rw [hierarchyTo_head]
          rfl, fun _ _ => .inr (by rw [← hj']; rfl)⟩
    rw [hj]
    funext s xs
    rcases (hg n _ _ h1).2 s xs with h | h
    · rcases (hg n _ _ h2).2 s xs with h' | h'
      · exact h.trans h'.symm
      · exact h'.symm
    · exact h

theorem GuardedIn.safeIn (hE : env.Sound cfg) (hU : ∀ u, Hazard cfg env u → U u) {D L : TypeSet} {t : CppType T}
    {I : T → Prop} (h : GuardedIn U cfg env D L t I) : (∀ q, D q → Makes q.2.2 (q.2.1.elem 0)) →
    (∀ q, L q → Makes q.2.2 (q.2.1.elem 0)) → SafeIn U D L t I := by
  have hg := hE.grow
  have hb : U .badBool := hU _ .bool
  induction h with
  | known h => exact fun hD _ => ⟨fun m hD' _ => hD' m (Nat.le_refl m) _ h, hD _ h⟩
  | base t =>
    intro hMD hML
    refine ⟨fun m _ _ s xs hs hne hx => ?_, ⟨hE.fresh t, hE.dflt t⟩⟩
    exact (dispatch_ev hE hU m (sizeOf xs) t (exact t) s xs hs hne
      (fun x h => ⟨(inv_exact t x).2 (hx x h), List.sizeOf_lt_of_mem h⟩)).imp (Nat.le_refl _)
      (fun ys h => ⟨h.1, fun y hy => (inv_exact t y).1 (h.2 y hy)⟩)
  | @vector D L T t I ti c _ ih =>
    intro hMD hML
    have ih := ih hML hML
    refine ⟨fun m _ hL => hs_of_up (fun k s x hk hs hx => ?_), ⟨⟨Nat.le_refl _, by simp [CppType.vector, CppType.elem]⟩, fun d hd => ?_⟩⟩
    · exact serVector_ev hg (ih.later (hk ▸ hL)).hs ih.makes _ hs hx.2
    · cases hd; exact ⟨Nat.le_refl _, by simp⟩
  | @list D L T t I ti c _ ih =>
    intro hMD hML
    have ih := ih hML hML
    refine ⟨fun m _ hL => hs_of_up (fun k s x hk hs hx => ?_), ⟨by simp [CppType.list, CppType.elem], fun d hd => ?_⟩⟩
    · exact serList_ev (ih.later (hk ▸ hL)).hs (e := t.elem 0) ih.makes.fresh _ hs hx
    · cases hd; simp
  | @queue D L T t I ti c _ ih =>
    intro hMD hML
    have ih := ih hML hML
    refine ⟨fun m _ hL => hs_of_up (fun k s x hk hs hx => ?_), ⟨by simp [CppType.queue, CppType.elem], fun d hd => ?_⟩⟩
    · exact serQueue_ev (ih.later (hk ▸ hL)).hs (e := t.elem 0) ih.makes.fresh _ hs hx
    · cases hd; simp
  | @ordered D L T t I ti c a lt _ h1 h2 h3 ih =>
    intro hMD hML
    have ih := ih hML hML
    refine ⟨fun m _ hL => hs_of_up (fun k s x hk hs hx => ?_), ⟨by simp [CppType.ordered, CppType.elem], fun d hd => ?_⟩⟩
    · exact serMapLike_ev (ih.later (hk ▸ hL)).hs (e := t.elem 0) ih.makes.fresh (emplaceOrdered_keeps h1 h2 h3 a) _ hs hx
    · cases hd; simp
  | @unordered D L T t I ti c a eq arr _ h1 h2 ih =>
    intro hMD hML
    have ih := ih hML hML
    refine ⟨fun m _ hL => hs_of_up (fun k s x hk hs hx => ?_), ⟨by simp [CppType.unordered, CppType.elem], fun d hd => ?_⟩⟩
    · exact serMapLike_ev (ih.later (hk ▸ hL)).hs (e := t.elem 0) ih.makes.fresh (emplaceUnordered_keeps h1 h2 a) _ hs hx
    · cases hd; simp
  | @pair D L A B a b I J ti _ _ iha ihb =>
    intro hMD hML
    have iha := iha hMD hML
    have ihb := ihb hMD hML
    refine ⟨fun m hD hL => dispatchEach_hs (fun s x hs hx => ?_), ⟨⟨iha.makes.fresh, ihb.makes.fresh⟩, fun d hd => ?_⟩⟩
    · simp only [serPair, hs.addBytes]
      exact Evtl.bind (pipe_ev (e := a.elem 0) (iha.hs m hD hL) hs hx.1) (fun r hr hs' =>
        Evtl.bind (pipe_ev (e := b.elem 0) (ihb.hs m hD hL) hs' hx.2) (fun r' hr' hs'' => Evtl.pure ⟨hr, hr'⟩ hs''))
    · have ha := iha.makes.dflt
      have hb := ihb.makes.dflt
      simp only [CppType.pair, CppType.elem] at hd ha hb
      cases h1 : a.dflt <;> cases h2 : b.dflt <;> simp only [h1, h2] at hd <;> cases hd
      exact ⟨ha _ h1, hb _ h2⟩
  | @optional D L T t I ti _ ih =>
    intro hMD hML
    have ih := ih hML hML
    refine ⟨fun m _ hL => hs_of_up (fun k s x hk hs hx => ?_), ⟨(fun v hv => by cases hv), fun d hd => ?_⟩⟩
    · exact serOptional_ev (ih.later (hk ▸ hL)).hs (e := t.elem 0) ih.makes.fresh hb _ hs x
    · cases hd; exact fun v hv => by cases hv
  | @uniquePtr D L T t I ti _ _ ih =>
    intro hMD hML
    have ih := ih hML hML
    refine ⟨fun m _ hL => hs_of_up (fun k s x hk hs hx => ?_), ⟨(fun v hv => by cases hv), fun d hd => ?_⟩⟩
    · exact serUniquePtr_ev (ih.later (hk ▸ hL)).hs (e := t.elem 0) (fun _ => ih.makes.fresh) (fun v hv => by cases hv) hb _ hs hx
    · cases hd; exact fun v hv => by cases hv
  | @array D L T t I ti k _ ih =>
    intro hMD hML
    have ih := ih hMD hML
    refine ⟨fun m hD hL => dispatchEach_hs (fun s x hs hx => ?_), ⟨⟨by simp [CppType.array, CppType.elem], fun x hx => ?_⟩,
      fun d hd => ?_⟩⟩
    · simp only [hx.1, if_true]
      exact (serializeArray_ev (e := t.elem 0) (ih.hs m hD hL) hs hx.2).imp (Nat.le_refl _)
        (fun ys h => ⟨h.1.trans hx.1, h.2⟩)
    · rw [List.eq_of_mem_replicate hx]; exact ih.makes.fresh
    · have ht := ih.makes.dflt
      simp only [CppType.array, CppType.elem, Option.map_eq_some_iff] at hd ht
      obtain ⟨d', h1, rfl⟩ := hd
      refine ⟨by simp, fun x hx => ?_⟩
      rw [List.eq_of_mem_replicate hx]; exact ht d' h1
  | @view D L T t I k ty hr hrank _ ih =>
    intro hMD hML
    have ih := ih hMD hML
    refine ⟨fun m hD hL => dispatchEach_hs (fun s x hs hx => ?_), ⟨empty_formed ty I, fun d hd => ?_⟩⟩
    · exact serView_ev hg hb hr (ih.hs m hD hL) (e := t.elem 0) ih.makes.zero hrank hs x
    · cases hd; exact empty_formed ty I
  | @dynRank D L T t I k l hr _ ih =>
    intro hMD hML
    have ih := ih hMD hML
    have he : DynRank.Formed l I (DynRank.empty : DynRank T) :=
      ⟨by simp [DynRank.empty, DynRank.rank], rfl, rfl, (fun i n hi => by simp [DynRank.empty, DynRank.rank] at hi),
        (fun ha => by cases ha), (fun x hx => by cases hx), (fun _ ha => by cases ha)⟩
    refine ⟨fun m hD hL => dispatchEach_hs (fun s x hs hx => ?_), ⟨he, fun d hd => ?_⟩⟩
    · exact serDynRank_ev hg hb hr (ih.hs m hD hL) (e := t.elem 0) ih.makes.zero hs x
    · cases hd; exact he
  | @dynamic D L T t I k _ ih =>
    intro hMD hML
    have ih := ih hMD hML
    have he : DynamicView.Formed I (⟨[], 0, 0, []⟩ : DynamicView T) :=
      ⟨by simp [DynamicView.chunksFor, DynamicView.size, DynamicView.chunk], fun x hx => by cases hx⟩
    refine ⟨fun m hD hL => dispatchEach_hs (fun s x hs hx => ?_), ⟨he, fun d hd => ?_⟩⟩
    · exact serDynamic_ev hg (ih.hs m hD hL) (e := t.elem 0) ih.makes.zero hs x
    · cases hd; exact he
  | @cls D L O ms is fresh dflt ps ti c hm _ hf hd ih =>
    intro hMD hML
    have ih := fun p hp => ih p hp hMD hML
    exact ⟨fun m hD hL => dispatchEach_hs (fun s x hs hx => visit_ev hm (fun p hp => (ih p hp).at hD hL) hs hx), ⟨hf, hd⟩⟩
  | @constView D L T t I k ty hr hrank _ ih =>
    intro hMD hML
    have ih := ih hMD hML
    refine ⟨fun m hD hL => dispatchEach_hs (fun s x hs hx => ?_), ⟨empty_formed ty I, fun d hd => ?_⟩⟩
    · exact serConstView_ev hg hb hr (ih.hs m hD hL) (e := t.elem 0) ih.makes.zero hrank hs x
    · cases hd; exact empty_formed ty I
  | @kmap D L A B a b I J k h hl _ _ iha ihb =>
    intro hMD hML
    have iha := iha hML hML
    have ihb := ihb hML hML
    refine ⟨fun m _ hL => hs_of_up (fun k s x hk hs hx => ?_), ⟨make_formed 0, fun d hd => ?_⟩⟩
    · exact serKMap_ev hl (iha.later (hk ▸ hL)).hs (ihb.later (hk ▸ hL)).hs (eK := a.elem 0) (eV := b.elem 0) iha.makes.fresh ihb.makes.fresh hs hx
    · cases hd; exact make_formed 0
  | @tuple D L O ms is ps ti hm _ ih =>
    intro hMD hML
    have ih := fun p hp => ih p hp hMD hML
    obtain ⟨h1, h2⟩ := tuple_makes hm fun p hp => (ih p hp).makes
    refine ⟨fun m hD hL => dispatchEach_hs (fun s x hs hx => visitOrder_ev hm (fun p hp => (ih p hp).at hD hL) _ (fun j hj => ?_) hs hx), ⟨h1, h2⟩⟩
    exact List.mem_range.1 ((hE.order _).mem_iff.1 hj)
  | @variant D L V as is ps ti _ hm _ ih =>
    intro hMD hML
    have ih := fun p hp => ih p hp hML hML
    obtain ⟨h1, h2⟩ := variant_makes hm fun p hp => (ih p hp).makes
    refine ⟨fun m _ hL => hs_of_up (fun k s x hk hs hx => ?_), ⟨h1, h2⟩⟩
    unfold AltTypes.serialize
    exact Evtl.bindC (pipeSize_good hs _) (fun r _ hs' => entryOf_ev hm (fun p hp => (ih p hp).later (hk ▸ hL)) _ hs' hx)
  | @object D L O ms is fresh dflt ps ti c d hm _ hl hf hd ih =>
    intro hMD hML
    have ih := fun p hp => ih p hp hMD hML
    exact ⟨fun m hD hL => first_hs (fun s x hs hx => chain_ev hm (fun p hp => (ih p hp).at hD hL) _ hl (sound_lookup hE d) hs hx), ⟨hf, hd⟩⟩
  | @polyPtr D L V ds is ps ti c cti any hm _ hfit ha hd ih =>
    intro hMD hML
    have ih := fun p hp => ih p hp hML hML
    exact ⟨fun m _ hL => polyPtr_hs hE hb hm ih hfit ha hd m hL, ⟨(fun v hv => by cases hv), by rintro _ ⟨⟩ v ⟨⟩⟩⟩
  | @program D L O p I fresh dflt ps qs ti c _ _ hp hf hd ih1 ih2 =>
    intro hMD hML
    refine ⟨fun m hD hL => dispatchEach_hs (fun s x hs hx => prog_ev hb p (fun q hq => (ih1 q hq hMD hML).hs m hD hL)
      (fun k hk q hq => (ih2 q hq hML hML).hs k (fun j hj => hL j (by omega)) (fun j hj => hL j (by omega))) hs (hp x hx)),
      ⟨hf, hd⟩⟩
  | @recursive D L O p I fresh dflt ps qs ti c hp _ _ hc hf hd ih1 ih2 =>
    intro hMD hML
    have hM : ∀ t, (CppType.declared ti fresh dflt c).Like t → Makes I (t.elem 0) := by
      intro t ht
      rw [ht]
      exact ⟨hf, hd⟩
    have hML' : ∀ t, (CppType.declared ti fresh dflt c).Like t → ∀ q : TypeShape, (L q ∨ q = ⟨O, t, I⟩) →
        Makes q.2.2 (q.2.1.elem 0) := by
      rintro t ht _ (h | rfl)
      · exact hML _ h
      · exact hM t ht
    refine ⟨fun m hD hL => ?_, ⟨hf, hd⟩⟩
    exact behind_hs hb hp (fun t ht q hq => ih1 t ht q hq hMD (hML' t ht))
      (fun t ht q hq => ih2 t ht q hq (hML' t ht) (hML' t ht)) hc m hD hL 0
  | @hierarchyPtr D L V ds is ps ti c cti any hg hm _ hfit ha hd ih =>
    intro hMD hML
    have hn : ∀ v, (none : Option V) = some v → is.Holds v := fun v hv => by cases hv
    have hML' : ∀ t, (CppType.declared ti none (some none) false).Like t → ∀ q : TypeShape,
        (L q ∨ q = ⟨Option V, t, fun x => ∀ v, x = some v → is.Holds v⟩) → Makes q.2.2 (q.2.1.elem 0) := by
      rintro t ht _ (h | rfl)
      · exact hML _ h
      · show Makes _ (t.elem 0)
        rw [ht]
        exact ⟨hn, by rintro _ ⟨⟩; exact hn⟩
    exact ⟨fun m _ hL => hierarchyBehind_hs hE hb hg hm (fun t ht p hp => ih t ht p hp (hML' t ht) (hML' t ht)) hfit ha
      hd m hL 0, ⟨hn, by rintro _ ⟨⟩; exact hn⟩⟩

/-- More types can be used. -/
theorem GuardedIn.mono {D L : TypeSet} {t : CppType T} {I : T → Prop} (h : GuardedIn U cfg env D L t I) :
    ∀ {D' L' : TypeSet}, (∀ q, D q → D' q) → (∀ q, L q → L' q) → GuardedIn U cfg env D' L' t I := by
  induction h with
  | known h => exact fun hD _ => .known (hD _ h)
  | base t => exact fun _ _ => .base t
  | vector ti c _ ih => exact fun _ hL => .vector ti c (ih hL hL)
  | list ti c _ ih => exact fun _ hL => .list ti c (ih hL hL)
  | queue ti c _ ih => exact fun _ hL => .queue ti c (ih hL hL)
  | ordered ti c a _ h1 h2 h3 ih => exact fun _ hL => .ordered ti c a (ih hL hL) h1 h2 h3
  | unordered ti c a _ h1 h2 ih => exact fun _ hL => .unordered ti c a (ih hL hL) h1 h2
  | pair ti _ _ iha ihb => exact fun hD hL => .pair ti (iha hD hL) (ihb hD hL)
  | optional ti _ ih => exact fun _ hL => .optional ti (ih hL hL)
  | uniquePtr ti hp _ ih => exact fun _ hL => .uniquePtr ti hp (ih hL hL)
  | array ti k _ ih => exact fun hD hL => .array ti k (ih hD hL)
  | view k h1 h2 _ ih => exact fun hD hL => .view k h1 h2 (ih hD hL)
  | dynRank k l h1 _ ih => exact fun hD hL => .dynRank k l h1 (ih hD hL)
  | dynamic k _ ih => exact fun hD hL => .dynamic k (ih hD hL)
  | cls ti c h1 _ h2 h3 ih => exact fun hD hL => .cls ti c h1 (fun p hp => ih p hp hD hL) h2 h3
  | constView k h1 h2 _ ih => exact fun hD hL => .constView k h1 h2 (ih hD hL)
  | kmap k h1 _ _ iha ihb => exact fun _ hL => .kmap k h1 (iha hL hL) (ihb hL hL)
  | tuple ti h1 _ ih => exact fun hD hL => .tuple ti h1 (fun p hp => ih p hp hD hL)
  | variant ti h1 h2 _ ih => exact fun _ hL => .variant ti h1 h2 (fun p hp => ih p hp hL hL)
  | object ti c d h1 _ h2 h3 h4 ih => exact fun hD hL => .object ti c d h1 (fun p hp => ih p hp hD hL) h2 h3 h4
  | polyPtr ti c cti any h1 _ h2 h3 h4 ih =>
    exact fun _ hL => .polyPtr ti c cti any h1 (fun p hp => ih p hp hL hL) h2 h3 h4
  | program ti c _ _ h1 h2 h3 ih1 ih2 =>
    exact fun hD hL => .program ti c (fun q hq => ih1 q hq hD hL) (fun q hq => ih2 q hq hL hL) h1 h2 h3
  | recursive ti c h0 _ _ h1 h2 h3 ih1 ih2 =>
    refine fun hD hL => .recursive ti c h0 (fun t ht q hq => ih1 t ht q hq hD ?_) (fun t ht q hq => ih2 t ht q hq ?_ ?_)
      h1 h2 h3 <;> exact fun q => .imp_left (hL q)
  | hierarchyPtr ti c cti any h0 h1 _ h2 h3 h4 ih =>
    refine fun _ hL => .hierarchyPtr ti c cti any h0 h1 (fun t ht p hp => ih t ht p hp ?_ ?_) h2 h3 h4 <;>
      exact fun q => .imp_left (hL q)

theorem Guarded.safe (hE : env.Sound cfg) (hU : ∀ u, Hazard cfg env u → U u) {t : CppType T} {I : T → Prop}
    (h : Guarded U cfg env t I) : Safe U t I := by
  have hs := GuardedIn.safeIn hE hU h (fun _ h => h.elim) (fun _ h => h.elim)
  exact ⟨fun m => hs.hs m (fun _ _ _ h => h.elim) (fun _ _ _ h => h.elim), hs.makes⟩

/-- At top level. -/
theorem traverseTop_safe {t : CppType T} {I : T → Prop} (h : Safe U t I) {s : Ser} (hs : Reads U m s) {x : T} (hx : I x) :
    Evtl U m I (fun n => traverseTop cfg (t.elem n) s x) := by
  have hp : ∀ s, Reads U m s → Evtl U m I (fun n => pipe cfg (t.elem n) s x) := fun s hs =>
    pipe_ev (e := t.elem 0) (h.hs m) hs hx
  unfold traverseTop
  by_cases hc : cfg.check = true
  · simp only [hc, if_true]
    exact hp s hs
  · simp only [hc]
    refine Evtl.bindS (withTypeIdx_good hs _) (fun s' hs' => ?_)
    refine Evtl.bind (hp s' hs') (fun r hr hs'' => ?_)
    exact Evtl.bindS (withMemUsed_good hs'' _ _) (fun s3 hs3 => Evtl.pure hr hs3)

end
end Ckpt
