import Verif.Proofs.SafeCompose
import Verif.Proofs.Ends
/-!
Reading arbitrary bytes after the first bytes of a view.
-/

set_option autoImplicit false

namespace Ckpt

/-- On every unpacker whose input starts with `p`, the computation ends well. -/
def EvP (K : Scope) (U : UB → Prop) {α : Type} (Q : α → Prop) (f : Nat → Ser → Out (α × Ser)) (p : Bytes) : Prop :=
  ∀ m s, s.Reader K → Reads U m s → ∀ rest, s.remaining = p ++ rest → Evtl U m Q (fun n => f n s)

section
variable {K : Scope} {U : UB → Prop} {cfg : Cfg} {α β T : Type} {Q : α → Prop}

theorem Reads.advance {m : Nat} {s : Ser} (h : Reads U m s) (n : Nat) : Reads U m (s.advance n) := by
  obtain ⟨core, kind, vdis⟩ := s
  obtain ⟨h1, h2, h3⟩ := h
  cases core with
  | unpacker mem cur used =>
    refine ⟨?_, h2, h3⟩
    simp only [Core.Left, Ser.advance] at h1 ⊢
    omega
  | streamUnpacker inp k =>
    refine ⟨?_, h2, h3⟩
    simp only [Core.Left, Ser.advance, List.length_drop] at h1 ⊢
    omega
  | _ => exact h1.elim

theorem EvP.of {f : Nat → Ser → Out (α × Ser)} (h : ∀ m s, Reads U m s → Evtl U m Q (fun n => f n s)) :
    EvP K U Q f [] := fun m s _ hs _ _ => h m s hs

theorem EvP.bindRd (hE : ∀ e, ¬ K.errs e) {o : Ser → Out (β × Ser)} {k : Nat → β × Ser → Out (α × Ser)} {bs p : Bytes}
    {P : β → Prop} (h1 : Rd K o bs P) (h2 : ∀ b, P b → EvP K U Q (fun n s => k n (b, s)) p) :
    EvP K U Q (fun n s => o s >>= k n) (bs ++ p) := by
  intro m s hs hr rest hrest
  rw [List.append_assoc] at hrest
  obtain ⟨b, hb, he⟩ := (h1.ok hE hs).1 _ hrest
  simp only [Out.bind_eq, he, Out.bind_ok]
  refine h2 b hb m _ (hs.advance (by rw [hrest]; simp)) (hr.advance _) rest ?_
  rw [Ser.remaining_advance, hrest, List.drop_left]

theorem EvP.congr {f g : Nat → Ser → Out (α × Ser)} {p : Bytes} (h : EvP K U Q f p)
    (hg : ∀ n s, s.Reader K → g n s = f n s) : EvP K U Q g p := by
  intro m s hs hr rest hrest
  simp only [hg _ s hs]
  exact h m s hs hr rest hrest

theorem EvP.bind {f : Nat → Ser → Out (β × Ser)} {k : Nat → β × Ser → Out (α × Ser)} {p : Bytes} {P : β → Prop}
    (h : EvP K U P f p) (hk : ∀ m r, P r.1 → Reads U m r.2 → Evtl U m Q (fun n => k n r)) :
    EvP K U Q (fun n s => f n s >>= k n) p :=
  fun m s hs hr rest hrest => (h m s hs hr rest hrest).bind (fun r hp hr' => hk m r hp hr')

theorem traverse_evP (hE : ∀ e, ¬ K.errs e) {ti : TI} (hti : ti.Valid) {h : Nat → Handler T} {ys : List T} {p : Bytes}
    {Q : List T → Prop} (hh : EvP K U Q (fun n s => h n s ys) p) :
    EvP K U Q (fun n s => traverse cfg ti (h n) s ys) ((if cfg.check then intBytes cfg.endian 4 ti.idx else []) ++ p) := by
  by_cases hc : cfg.check = true
  · simp only [hc, if_true]
    refine (EvP.bindRd hE (withTypeIdx_rd (K := K) (cfg := cfg) hti) (k := fun n r => catchDepth ti (h n r.2 ys) >>= fun q =>
      withMemUsed cfg ti q.2 ys.length >>= fun s => .ok (q.1, s)) (p := p) (fun _ _ => ?_)).congr ?_
    · refine EvP.bind (P := Q) ?_ (fun m r hq hr => Evtl.bindS (withMemUsed_good hr ti _) (fun s hs => Evtl.pure hq hs))
      exact fun m s hs hr rest hrest => catchDepth_ev ti (hh m s hs hr rest hrest)
    · intro n s _
      simp only [traverse, hc, if_true, withTypeIdx', Out.bind_eq, Out.bind_assoc, Out.bind_ok]
  · simp only [hc]
    exact hh.congr (fun n s _ => by simp [traverse, hc])

theorem top_evP (hE : ∀ e, ¬ K.errs e) {e : Nat → Elem T} {ti : TI} (hti : ti.Valid) (he : ∀ n, (e n).ti = ti) {y : T}
    {p : Bytes} {Q : T → Prop}
    (hh : EvP K U (fun ys => ys.length = 1 ∧ ∀ y ∈ ys, Q y) (fun n s => (e n).apply s [y]) p) :
    EvP K U Q (fun n s => traverseTop cfg (e n) s y) (intBytes cfg.endian 4 ti.idx ++ p) := by
  have hp : EvP K U Q (fun n s => pipe cfg (e n) s y) ((if cfg.check then intBytes cfg.endian 4 ti.idx else []) ++ p) := by
    refine ((traverse_evP (cfg := cfg) hE hti hh).bind (k := fun _ r => only r) (fun m r hr hs => ?_)).congr ?_
    · obtain ⟨ys, s'⟩ := r
      match ys, hr with
      | [y], hr => exact Evtl.pure (hr.2 y (by simp)) hs
    · intro n s _
      rw [pipe_eq, he n]
  by_cases hc : cfg.check = true
  · simp only [hc, if_true] at hp
    exact hp.congr (fun n s _ => by simp [traverseTop, hc])
  · simp only [hc, Bool.false_eq_true, if_false, List.nil_append] at hp
    refine (EvP.bindRd hE (withTypeIdx_rd (K := K) (cfg := cfg) hti) (k := fun n r => pipe cfg (e n) r.2 y >>= fun q =>
      withMemUsed cfg (e n).ti q.2 1 >>= fun s => .ok (q.1, s)) (p := p) (fun _ _ => ?_)).congr ?_
    · exact hp.bind (fun m r hq hr => by
        simp only [he]
        exact Evtl.bindS (withMemUsed_good hr ti _) (fun s hs => Evtl.pure hq hs))
    · intro n s _
      simp only [traverseTop, hc, Bool.false_eq_true, if_false, withTypeIdx', Out.bind_eq, Out.bind_assoc, Out.bind_ok, he]

theorem each_evP {g : Nat → Ser → T → Out (T × Ser)} {y : T} {p : Bytes} {Q : T → Prop}
    (h : EvP K U Q (fun n s => g n s y) p) :
    EvP K U (fun ys => ys.length = 1 ∧ ∀ y ∈ ys, Q y) (fun n s => dispatchEach (g n) s [y]) p :=
  (h.bind (k := fun n r => dispatchEach (g n) r.2 [] >>= fun q => .ok (r.1 :: q.1, q.2))
    (fun _ r hq hr => Evtl.pure (a := [r.1]) ⟨rfl, by simpa using hq⟩ hr)).congr (fun _ _ _ => rfl)

/-! ### The first bytes of a view -/

/-- The first part of `serView`, as a computation of its own. -/
def serViewStart (cfg : Cfg) (k : ViewTI) (ty : ViewTy) (e : Elem T) (v : View T) (s : Ser) :
    Out ((View T × Nat × Bool × Bool) × Ser) := do
  let (label, s) ← pipe cfg (strElem cfg k.str) s ⟨cfg.grow v.label.length, v.label⟩
  let (_, s) ← pipe cfg (intElem cfg) s (if s.isUnpacking then 0 else ty.rank)
  let (lay, s) ← pipe cfg (layoutElem cfg k.layout ty.layout) s (if s.isUnpacking then .default else v.layoutVal)
  let w := if s.isUnpacking then ty.construct e.zero label.chars lay else v
  let (num, s) ← pipeSize cfg s w.size
  let (contig, s) ← pipeBool cfg s w.contig
  let (init, s) ← pipeBool cfg s (if s.isUnpacking then false else w.alloc)
  .ok ((w, num, contig, init), s)

/-- The rest of it. -/
def serViewEnd (cfg : Cfg) (ty : ViewTy) (e : Elem T) (r : (View T × Nat × Bool × Bool) × Ser) : Out (View T × Ser) :=
  if r.1.2.2.2 then serViewData cfg ty e r.1.2.1 r.1.2.2.1 r.2 r.1.1 else .ok (r.1.1, r.2)

theorem serView_split (k : ViewTI) (ty : ViewTy) (e : Elem T) (v : View T) (s : Ser) :
    serView cfg k ty e s v = serViewStart cfg k ty e v s >>= serViewEnd cfg ty e := by
  simp only [serView, serViewStart, serViewBody, Out.bind_eq, Out.bind_assoc, Out.bind_ok]
  rfl

theorem serViewStart_rd (hc : cfg.Valid) {k : ViewTI} (hk : k.Valid) {ty : ViewTy} {e : Elem T} {h : ViewHeader}
    (hh : h.Ok ty.layout) (y : View T) :
    Rd K (serViewStart cfg k ty e y) (h.bytes cfg k ty.layout)
      (fun r => r.2 = (h.num, h.contig, true) ∧ ∃ lay : LayoutVal, lay.length = 8 ∧
        List.Forall₂ (layoutRel ty.layout) h.layout lay ∧ r.1 = ty.construct e.zero h.label lay) := by
  have h1 : Rd K (fun s => pipe cfg (intElem cfg) s (if s.isUnpacking then 0 else ty.rank))
      (node cfg cfg.check cfg.tiInt 1 (intBytes cfg.endian 4 h.rank)) (fun r => r = h.rank) :=
    (intPipe_rd hc (m := 0) hh.rank).congr (fun s hs => by simp [hs.unpacking]) rfl (fun _ h => h)
  have h2 : Rd K (fun s => pipe cfg (layoutElem cfg k.layout ty.layout) s
      (if s.isUnpacking then .default else y.layoutVal))
      (nodeEnc cfg cfg.check k.layout (layoutCodec cfg ty.layout) h.layout)
      (List.Forall₂ (layoutRel ty.layout) h.layout) :=
    (pipe_rd (e := layoutElem cfg k.layout ty.layout) (layoutLaw hc hk.layout) (x := h.layout)
      (y := LayoutVal.default) hh.layout (by
        show LayoutVal.default.length = h.layout.length
        rw [hh.entries]; rfl)).congr
      (fun s hs => by simp [hs.unpacking]) rfl (fun _ h => h)
  unfold serViewStart ViewHeader.bytes
  refine (pipe_rd (e := strElem cfg k.str) (strLaw hc hk.str) (x := ⟨0, h.label⟩)
    (y := ⟨cfg.grow y.label.length, y.label⟩) hh.label trivial).bind ?_
  intro label hlab
  have hlab : label.chars = h.label := hlab
  refine h1.bind fun _ _ => ?_
  refine h2.bind fun lay hlay => ?_
  have h3 : Rd K (fun s => do
      let (num, s) ← pipeSize cfg s (ty.construct e.zero h.label lay).size
      let (contig, s) ← pipeBool cfg s (ty.construct e.zero h.label lay).contig
      let (init, s) ← pipeBool cfg s (if s.isUnpacking then false else (ty.construct e.zero h.label lay).alloc)
      .ok ((ty.construct e.zero h.label lay, num, contig, init), s))
      (sizeNode cfg cfg.check h.num ++ (boolNode cfg cfg.check h.contig ++ boolNode cfg cfg.check true))
      (fun r => r.2 = (h.num, h.contig, true) ∧ ∃ lay : LayoutVal, lay.length = 8 ∧
        List.Forall₂ (layoutRel ty.layout) h.layout lay ∧ r.1 = ty.construct e.zero h.label lay) := by
    refine (pipeSize_rd hc hh.num).bind ?_
    rintro _ rfl
    refine (pipeBool_rd hc).bind ?_
    rintro _ rfl
    have ha : Rd K (fun s => pipeBool cfg s (if s.isUnpacking then false else (ty.construct e.zero h.label lay).alloc))
        (boolNode cfg cfg.check true) (fun r => r = true) :=
      (pipeBool_rd hc (b' := false)).congr (fun s hs => by simp [hs.unpacking]) rfl (fun _ h => h)
    refine ha.map (fun i => (ty.construct e.zero h.label lay, h.num, h.contig, i)) ?_
    rintro _ rfl
    exact ⟨rfl, lay, hlay.length_eq.symm.trans hh.entries, hlay, rfl⟩
  refine h3.congr (fun s hs => ?_) rfl (fun _ h => h)
  simp only [hs.unpacking, if_true, hlab]

theorem extents_rel {ty : ViewTy} {l : Layout} {z : T} {label : Bytes} {lay lay' : LayoutVal}
    (h : List.Forall₂ (layoutRel l) lay lay') : (ty.construct z label lay').extents = ty.extentsOf lay := by
  have : ∀ (ds : List (Option Nat)) {lay lay' : LayoutVal}, List.Forall₂ (layoutRel l) lay lay' →
      List.zipWith (fun d (p : Nat × Nat) => d.getD p.1) ds lay' = List.zipWith (fun d (p : Nat × Nat) => d.getD p.1) ds lay := by
    intro ds
    induction ds with
    | nil => intros; simp
    | cons d ds ih =>
      intro lay lay' h
      cases h with
      | nil => rfl
      | cons h1 h2 => simp only [List.zipWith_cons_cons, ih h2, h1.1]
  exact this ty.dims h

theorem construct_data {ty : ViewTy} (hl : ty.layout ≠ .stride) (z : T) (label : Bytes) (lay : LayoutVal) :
    (ty.construct z label lay).data.length = (ty.construct z label lay).extents.prod := by
  cases hlay : ty.layout with
  | stride => exact absurd hlay hl
  | left => simp [ViewTy.construct, hlay]
  | right => simp [ViewTy.construct, hlay]

/-- More elements than the view has. -/
theorem serView_over (hE : ∀ e, ¬ K.errs e) (hc : cfg.Valid) {k : ViewTI} (hk : k.Valid) {ty : ViewTy}
    (hl : ty.layout ≠ .stride) {e : Elem T} {h : ViewHeader} (hh : h.Ok ty.layout) (hcont : h.contig = true)
    (hn : (ty.extentsOf h.layout).prod < h.num) (y : View T) :
    Ends K (fun s => serView cfg k ty e s y) (h.bytes cfg k ty.layout) (.ub .badRegion) := by
  have := (serViewStart_rd (K := K) (e := e) hc hk hh y).ends hE (k := serViewEnd cfg ty e) (p := [])
    (f := .ub .badRegion) ?_
  · rw [List.append_nil] at this
    exact this.congr (fun s _ => serView_split k ty e y s)
  · rintro ⟨w, q⟩ ⟨hq, lay, h1, h2, hw⟩
    simp only at hq hw
    subst hq hw
    refine Ends.of (fun s hs => ?_)
    have hlen := construct_data hl e.zero h.label lay
    rw [extents_rel h2] at hlen
    have : ¬ h.num ≤ (if (ty.host || s.isPacking) = true then (ty.construct e.zero h.label lay).data
        else List.replicate (ty.construct e.zero h.label lay).data.length e.zero).length := by
      split
      · omega
      · simp only [List.length_replicate]; omega
    simp only [serViewEnd, serViewData, serViewElems, hcont, if_true, viewArray, if_neg this]
    rfl

/-- Otherwise. -/
theorem serView_within (hE : ∀ e, ¬ K.errs e) (hc : cfg.Valid) {k : ViewTI} (hk : k.Valid) {ty : ViewTy}
    (hl : ty.layout ≠ .stride) (hrank : ty.rank ≤ 8) {t : CppType T} {I : T → Prop} (ht : Safe U t I) {h : ViewHeader}
    (hh : h.Ok ty.layout) (hn : h.contig = true → h.num ≤ (ty.extentsOf h.layout).prod) (y : View T) :
    EvP K U (View.Formed ty I) (fun n s => serView cfg k ty (t.elem n) s y) (h.bytes cfg k ty.layout) := by
  have := EvP.bindRd (U := U) (Q := View.Formed ty I) hE (serViewStart_rd (K := K) (e := t.elem 0) hc hk hh y)
    (k := fun n r => serViewEnd cfg ty (t.elem n) r) (p := []) ?_
  · rw [List.append_nil] at this
    exact this.congr (fun n s _ => serView_split k ty (t.elem n) y s)
  · rintro ⟨w, q⟩ ⟨hq, lay, h1, h2, hw⟩
    simp only at hq hw
    subst hq hw
    have hf := construct_formed (I := I) hrank ht.makes.zero h.label h1
    have hlen := construct_data hl (t.elem 0).zero h.label lay
    have hext := extents_rel (ty := ty) (z := (t.elem 0).zero) (label := h.label) h2
    have hal : (ty.construct (t.elem 0).zero h.label lay).alloc = true := rfl
    refine EvP.of (fun m s hs => ?_)
    simp only [serViewEnd, if_true]
    have hin : InMemory h.num h.contig (ty.construct (t.elem 0).zero h.label lay)
        (ty.construct (t.elem 0).zero h.label lay).extents (ty.construct (t.elem 0).zero h.label lay).data.length := by
      refine ⟨fun hct => ?_, fun _ idx hi => ?_⟩
      · rw [hlen, hext]; exact hn hct
      · obtain ⟨x, hx⟩ := hf.inside hl hal idx hi
        exact (List.getElem?_eq_some_iff.1 hx).1
    refine (serViewData_ev (ht.hs m) (e := t.elem 0) ht.makes.zero (.inr hin) hs hf.elems).imp (Nat.le_refl _) ?_
    rintro _ ⟨d, rfl, hd⟩
    exact hf.refill hd

end
end Ckpt
