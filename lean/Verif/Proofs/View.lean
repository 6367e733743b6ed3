import Verif.Spec.View
import Verif.Proofs.ViewTraverse
import Verif.Proofs.ContainerLaws
/-!
Laws of view serialization.
-/

set_option autoImplicit false

namespace Ckpt

/-! ### Offsets of views without padding -/

/-- Offset of an index. -/
def offsetOf (idx strides : List Nat) : Nat := (List.zipWith (· * ·) idx strides).sum

theorem offsetOf_cons (i s : Nat) (idx ss : List Nat) : offsetOf (i :: idx) (s :: ss) = i * s + offsetOf idx ss := by
  simp [offsetOf]

theorem left_offset : ∀ {idx ns : List Nat}, InRange idx ns → ∀ acc : Nat,
    ∃ m, m < ns.prod ∧ offsetOf idx (leftStrides acc ns) = acc * m
  | _, _, .nil, acc => ⟨0, by simp [offsetOf]⟩
  | _, _, .cons (a := i) (b := n) (l₁ := is) (l₂ := ns) hi h, acc => by
    obtain ⟨m, hm, he⟩ := left_offset h (acc * n)
    refine ⟨i + n * m, ?_, ?_⟩
    · rw [List.prod_cons]
      calc i + n * m < n + n * m := by omega
        _ = n * (m + 1) := by rw [Nat.mul_add, Nat.mul_one, Nat.add_comm]
        _ ≤ n * ns.prod := Nat.mul_le_mul_left _ hm
    · rw [leftStrides, offsetOf_cons, he, Nat.mul_add, Nat.mul_assoc, Nat.mul_comm i]

theorem left_inj : ∀ {idx idx' ns : List Nat}, InRange idx ns → InRange idx' ns → ∀ {acc : Nat}, 0 < acc →
    offsetOf idx (leftStrides acc ns) = offsetOf idx' (leftStrides acc ns) → idx = idx'
  | _, _, _, .nil, .nil, _, _, _ => rfl
  | _, _, _, .cons (a := i) (b := n) (l₁ := is) (l₂ := ns) hi h, .cons (a := j) (l₁ := js) hj h', acc, ha, he => by
    rw [leftStrides, offsetOf_cons, offsetOf_cons] at he
    obtain ⟨m, _, hm⟩ := left_offset h (acc * n)
    obtain ⟨m', _, hm'⟩ := left_offset h' (acc * n)
    rw [hm, hm', Nat.mul_comm i, Nat.mul_comm j, Nat.mul_assoc, Nat.mul_assoc, ← Nat.mul_add, ← Nat.mul_add] at he
    have he := Nat.eq_of_mul_eq_mul_left ha he
    have hn : 0 < n := by omega
    have h1 : i = j := by
      have := congrArg (· % n) he
      simpa [Nat.add_mul_mod_self_left, Nat.mod_eq_of_lt hi, Nat.mod_eq_of_lt hj] using this
    subst h1
    have h2 : m = m' := Nat.eq_of_mul_eq_mul_left hn (by omega)
    subst h2
    rw [left_inj h h' (Nat.mul_pos ha hn) (by rw [hm, hm'])]

theorem right_offset : ∀ {idx ns : List Nat}, InRange idx ns → offsetOf idx (rightStrides ns) < ns.prod
  | _, _, .nil => by simp [offsetOf]
  | _, _, .cons (a := i) (b := n) (l₁ := is) (l₂ := ns) hi h => by
    have := right_offset h
    rw [rightStrides, offsetOf_cons, List.prod_cons]
    calc i * ns.prod + _ < i * ns.prod + ns.prod := by omega
      _ = (i + 1) * ns.prod := by rw [Nat.add_mul, Nat.one_mul]
      _ ≤ n * ns.prod := Nat.mul_le_mul_right _ hi

theorem right_inj : ∀ {idx idx' ns : List Nat}, InRange idx ns → InRange idx' ns →
    offsetOf idx (rightStrides ns) = offsetOf idx' (rightStrides ns) → idx = idx'
  | _, _, _, .nil, .nil, _ => rfl
  | _, _, _, .cons (a := i) (b := n) (l₁ := is) (l₂ := ns) hi h, .cons (a := j) (l₁ := js) hj h', he => by
    rw [rightStrides, offsetOf_cons, offsetOf_cons] at he
    have h1 := right_offset h
    have h2 := right_offset h'
    have hp : 0 < ns.prod := by omega
    have hij : i = j := by
      have := congrArg (· / ns.prod) he
      simpa [Nat.mul_comm _ ns.prod, Nat.mul_add_div hp, Nat.div_eq_of_lt h1, Nat.div_eq_of_lt h2] using this
    subst hij
    rw [right_inj h h' (by omega)]

section
variable {K : Scope} {cfg : Cfg} {T : Type} {e : Elem T} {c : Codec T}

/-! ### Strings and layouts -/

/-- `std::string`. -/
def strCodec (cfg : Cfg) (sz : Nat) : Codec Str where
  P x := x.chars.length < 2 ^ 64
  enc w x := strEnc cfg w x.chars
  prior _ _ := True
  rel x y := y.chars = x.chars
  fp x := sz + x.cap
  multi _ := True

theorem strLaw (hc : cfg.Valid) {ti : TI} (hti : ti.Valid) :
    Law K cfg (strElem cfg ti).ti (strElem cfg ti).apply (strCodec cfg ti.sizeof) :=
  Law.ofEach hti trivial (fun _ h => string_wr hc h)
    (fun _ _ h _ => (string_rd hc h).mono fun _ h => h.1) (fun _ _ => string_fp hc)

/-- A layout object. -/
def layoutEnc (cfg : Cfg) (w : Bool) (l : Layout) (lay : LayoutVal) : Bytes :=
  lay.flatMap fun p => sizeNode cfg w p.1 ++ if l = .stride then sizeNode cfg w p.2 else []

/-- What is restored of a layout object. -/
def layoutRel (l : Layout) (a b : Nat × Nat) : Prop := b.1 = a.1 ∧ (l = .stride → b.2 = a.2)

def layoutCodec (cfg : Cfg) (l : Layout) : Codec LayoutVal where
  P lay := ∀ p ∈ lay, p.1 < 2 ^ 64 ∧ (l = .stride → p.2 < 2 ^ 64)
  enc w lay := layoutEnc cfg w l lay
  prior a b := b.length = a.length
  rel a b := List.Forall₂ (layoutRel l) a b
  fp lay := lay.length * (8 + if l = .stride then 8 else 0)
  multi _ := True

theorem layout_wr (hc : cfg.Valid) {l : Layout} : ∀ {lay : LayoutVal}, (∀ p ∈ lay, p.1 < 2 ^ 64 ∧ (l = .stride → p.2 < 2 ^ 64)) →
    Wr K cfg (fun s => serLayout cfg l s lay) (fun w => layoutEnc cfg w l lay) lay
  | [], _ => Wr.pure []
  | (d, st) :: rest, h => by
    have ih := layout_wr hc (l := l) (lay := rest) (fun p hp => h p (by simp [hp]))
    obtain ⟨h1, h2⟩ := h (d, st) (by simp)
    have hs : Wr K cfg (fun s => serStride cfg l s st)
        (fun w => if l = .stride then sizeNode cfg w st else []) st := by
      by_cases hl : l = .stride
      · simp only [serStride, hl, if_true]; exact pipeSize_wr hc (h2 hl)
      · simp only [serStride, hl, if_false]; exact Wr.pure st
    have : Wr K cfg (fun s => serLayout cfg l s ((d, st) :: rest))
        (fun w => sizeNode cfg w d ++ ((if l = .stride then sizeNode cfg w st else []) ++ layoutEnc cfg w l rest))
        ((d, st) :: rest) := by
      simp only [serLayout]
      refine (pipeSize_wr (K := K) hc h1).bind ?_
      dsimp only
      refine hs.bind ?_
      exact ih.map fun r => (d, st) :: r
    refine this.congr (fun s _ => rfl) ?_
    intro w
    simp [layoutEnc, List.append_assoc]

theorem layout_rd (hc : cfg.Valid) {l : Layout} : ∀ {lay lay' : LayoutVal}, (∀ p ∈ lay, p.1 < 2 ^ 64 ∧ (l = .stride → p.2 < 2 ^ 64)) →
    lay'.length = lay.length →
    Rd K (fun s => serLayout cfg l s lay') (layoutEnc cfg cfg.check l lay) (List.Forall₂ (layoutRel l) lay)
  | [], [], _, _ => Rd.pure .nil
  | (d, st) :: rest, (d', st') :: rest', h, hl => by
    have ih := layout_rd hc (l := l) (lay := rest) (lay' := rest') (fun p hp => h p (by simp [hp])) (by simpa using hl)
    obtain ⟨h1, h2⟩ := h (d, st) (by simp)
    have hs : Rd K (fun s => serStride cfg l s st')
        (if l = .stride then sizeNode cfg cfg.check st else []) (fun r => l = .stride → r = st) := by
      by_cases hl : l = .stride
      · simp only [serStride, hl, if_true]; exact (pipeSize_rd hc (h2 hl)).mono fun _ h _ => h
      · simp only [serStride, hl, if_false]; exact Rd.pure fun h => h.elim
    have : Rd K (fun s => serLayout cfg l s ((d', st') :: rest'))
        (sizeNode cfg cfg.check d ++ ((if l = .stride then sizeNode cfg cfg.check st else []) ++
          layoutEnc cfg cfg.check l rest))
        (List.Forall₂ (layoutRel l) ((d, st) :: rest)) := by
      simp only [serLayout]
      refine (pipeSize_rd (K := K) hc (m := d') h1).bind fun b hb => ?_
      dsimp only
      refine hs.bind fun b' hb' => ?_
      exact ih.map (fun r => (b, b') :: r) (fun r hr => .cons ⟨hb, hb'⟩ hr)
    refine this.congr (fun s _ => rfl) ?_ (fun _ h => h)
    simp [layoutEnc, List.append_assoc]
  | [], _ :: _, _, h => by simp at h
  | _ :: _, [], _, h => by simp at h

theorem layout_fp (hc : cfg.Valid) {l : Layout} : ∀ {lay : LayoutVal}, (∀ p ∈ lay, p.1 < 2 ^ 64 ∧ (l = .stride → p.2 < 2 ^ 64)) →
    Fp K (fun s => serLayout cfg l s lay) (lay.length * (8 + if l = .stride then 8 else 0)) lay
  | [], _ => (Fp.pure []).congr (fun _ _ => rfl) (by simp)
  | (d, st) :: rest, h => by
    have ih := layout_fp hc (l := l) (lay := rest) (fun p hp => h p (by simp [hp]))
    obtain ⟨h1, h2⟩ := h (d, st) (by simp)
    have hs : Fp K (fun s => serStride cfg l s st)
        (if l = .stride then 8 else 0) st := by
      by_cases hl : l = .stride
      · simp only [serStride, hl, if_true]; exact pipeSize_fp hc (h2 hl)
      · simp only [serStride, hl, if_false]; exact Fp.pure st
    have : Fp K (fun s => serLayout cfg l s ((d, st) :: rest))
        (8 + ((if l = .stride then 8 else 0) + rest.length * (8 + if l = .stride then 8 else 0)))
        ((d, st) :: rest) := by
      simp only [serLayout]
      refine (pipeSize_fp (K := K) hc h1).bind ?_
      dsimp only
      refine hs.bind ?_
      exact ih.map fun r => (d, st) :: r
    refine this.congr (fun s _ => rfl) ?_
    simp only [List.length_cons, Nat.add_mul, Nat.one_mul]; omega

theorem layoutLaw (hc : cfg.Valid) {ti : TI} (hti : ti.Valid) {l : Layout} :
    Law K cfg (layoutElem cfg ti l).ti (layoutElem cfg ti l).apply (layoutCodec cfg l) :=
  Law.ofEach hti trivial (fun _ h => layout_wr hc h) (fun _ _ h hp => layout_rd hc h hp) (fun _ h => layout_fp hc h)

end
end Ckpt

namespace Ckpt
section
variable {K : Scope} {cfg : Cfg} {T : Type} {e : Elem T} {c : Codec T}

/-! ### Elements one after the other -/

theorem elements_wr (L : Law K cfg e.ti e.apply c) (v : View T) (f : List Nat → T) (d : List T) :
    ∀ (l : List (List Nat)), (∀ idx ∈ l, idx ≠ [] ∧ d[v.offset idx]? = some (f idx) ∧ c.P (f idx)) →
    Wr K cfg (fun s => runAll (viewElement cfg e v) l (d, s))
      (fun w => l.flatMap fun idx => nodeEnc cfg w e.ti c (f idx)) d
  | [], _ => Wr.pure d
  | idx :: l, h => by
    obtain ⟨hne, hg, hP⟩ := h idx (by simp)
    have ih := elements_wr L v f d l (fun i hi => h i (by simp [hi]))
    have h1 : Wr K cfg (fun s => viewElement cfg e v idx (d, s)) (fun w => nodeEnc cfg w e.ti c (f idx)) d := by
      refine ((pipe_wr L hP).map fun _ => d).congr ?_ (fun _ => rfl)
      intro s hs
      have : idx.length ≠ 0 := by simpa using hne
      simp [viewElement, hg, this, hs.not_unpacking]
    exact h1.bind (k := runAll (viewElement cfg e v) l) ih

theorem elements_fp (L : Law K cfg e.ti e.apply c) (v : View T) (f : List Nat → T) (d : List T) :
    ∀ (l : List (List Nat)), (∀ idx ∈ l, idx ≠ [] ∧ d[v.offset idx]? = some (f idx) ∧ c.P (f idx)) →
    Fp K (fun s => runAll (viewElement cfg e v) l (d, s)) (l.map fun idx => c.fp (f idx)).sum d
  | [], _ => Fp.pure d
  | idx :: l, h => by
    obtain ⟨hne, hg, hP⟩ := h idx (by simp)
    have ih := elements_fp L v f d l (fun i hi => h i (by simp [hi]))
    have h1 : Fp K (fun s => viewElement cfg e v idx (d, s)) (c.fp (f idx)) d := by
      refine ((pipe_fp L hP).map fun _ => d).congr ?_ rfl
      intro s hs
      have : idx.length ≠ 0 := by simpa using hne
      simp [viewElement, hg, this, hs.not_unpacking]
    simp only [List.map_cons, List.sum_cons]
    exact h1.bind (k := runAll (viewElement cfg e v) l) ih

theorem elements_rd (L : Law K cfg e.ti e.apply c) (hz : ∀ x, c.P x → c.prior x e.zero) (v : View T)
    (f : List Nat → T) : ∀ (l : List (List Nat)) (d : List T),
    (∀ idx ∈ l, idx ≠ [] ∧ v.offset idx < d.length ∧ c.P (f idx)) →
    (∀ idx ∈ l, ∀ idx' ∈ l, v.offset idx = v.offset idx' → f idx = f idx') →
    Rd K (fun s => runAll (viewElement cfg e v) l (d, s))
      (l.flatMap fun idx => nodeEnc cfg cfg.check e.ti c (f idx))
      (fun d' => d'.length = d.length ∧ (∀ idx ∈ l, ∃ y, d'[v.offset idx]? = some y ∧ c.rel (f idx) y) ∧
        (∀ k, (∀ idx ∈ l, v.offset idx ≠ k) → d'[k]? = d[k]?) ∧ ∀ y ∈ d', y ∈ d ∨ ∃ idx ∈ l, c.rel (f idx) y)
  | [], d, _, _ => Rd.pure ⟨rfl, by simp, fun _ _ => rfl, fun _ h => .inl h⟩
  | idx :: l, d, h, hco => by
    obtain ⟨hne, hlt, hP⟩ := h idx (by simp)
    have h1 : Rd K (fun s => viewElement cfg e v idx (d, s)) (nodeEnc cfg cfg.check e.ti c (f idx))
        (fun d' => ∃ y, c.rel (f idx) y ∧ d' = d.set (v.offset idx) y) := by
      refine ((pipe_rd L hP (hz _ hP)).map (fun y => d.set (v.offset idx) y) (fun y hy => ⟨y, hy, rfl⟩)).congr
        ?_ rfl (fun _ h => h)
      intro s hs
      have : idx.length ≠ 0 := by simpa using hne
      simp [viewElement, List.getElem?_eq_getElem hlt, this, hs.unpacking]
    refine h1.bind (k := runAll (viewElement cfg e v) l) ?_
    rintro _ ⟨y, hy, rfl⟩
    refine (elements_rd L hz v f l (d.set (v.offset idx) y) (fun i hi => ?_)
      (fun i hi j hj => hco i (by simp [hi]) j (by simp [hj]))).mono ?_
    · have := h i (by simp [hi])
      simpa using this
    · rintro d' ⟨hl, hset, hkeep, hmem⟩
      refine ⟨by simpa using hl, ?_, ?_, ?_⟩
      · intro i hi
        rcases List.mem_cons.1 hi with rfl | hi
        · by_cases hex : ∃ j ∈ l, v.offset j = v.offset i
          · obtain ⟨j, hj, hoff⟩ := hex
            rw [hco i (by simp) j (by simp [hj]) hoff.symm, ← hoff]
            exact hset j hj
          · refine ⟨y, ?_, hy⟩
            rw [hkeep _ (fun j hj he => hex ⟨j, hj, he⟩)]
            simp [hlt]
        · exact hset i hi
      · intro k hk
        rw [hkeep k (fun i hi => hk i (by simp [hi])), List.getElem?_set]
        have := hk idx (by simp)
        simp [this]
      · intro b hb
        rcases hmem b hb with h | ⟨i, hi, h⟩
        · rcases List.mem_or_eq_of_mem_set h with h | rfl
          · exact .inl h
          · exact .inr ⟨idx, by simp, hy⟩
        · exact .inr ⟨i, by simp [hi], h⟩

/-! ### The memory of a view -/

/-- The elements as written; `d` is the memory. -/
def dataEnc (cfg : Cfg) (w : Bool) (e : Elem T) (c : Codec T) (v : View T) (d : List T) : Bytes :=
  if v.contig then arrEnc cfg w e.ti c d
  else (allIdx v.extents).flatMap fun idx => nodeEnc cfg w e.ti c ((d[v.offset idx]?).getD e.zero)

/-- Their footprint. -/
def dataFp (c : Codec T) (e : Elem T) (v : View T) (d : List T) : Nat :=
  if v.contig then (d.map c.fp).sum
  else ((allIdx v.extents).map fun idx => c.fp ((d[v.offset idx]?).getD e.zero)).sum

theorem View.Ok.idx_ne {ty : ViewTy} {v : View T} (ok : v.Ok ty) (hc : v.contig = false) {idx : List Nat}
    (hi : idx ∈ allIdx v.extents) : idx ≠ [] := by
  rintro rfl
  have h := mem_allIdx.1 hi
  have h0 : v.extents = [] := by cases hv : v.extents <;> simp_all
  have hr : ty.rank = 0 := by rw [← ok.extents, h0]; rfl
  have := ok.scalar hr
  simp [View.contig, View.size, h0, this] at hc

theorem viewArray_eq {v : View T} (hc : v.contig = true) {d : List T}
    (hd : d.length = v.span) (s : Ser) :
    viewArray cfg e v.size (d, s) = serializeArray cfg e s d >>= fun p => .ok (p.1, p.2) := by
  have h : v.span = v.size := by simpa [View.contig] using hc
  have h1 : v.size = d.length := by rw [hd, h]
  simp [viewArray, h1]

theorem serViewElems_wr (L : Law K cfg e.ti e.apply c) {ty : ViewTy} {v : View T} (ok : v.Ok ty) {d : List T}
    (hd : d.length = v.span) (hP : ∀ x ∈ d, c.P x) (hm : v.contig = true → c.multi v.size) :
    Wr K cfg (fun s => serViewElems cfg e v.size v.contig v (d, s)) (fun w => dataEnc cfg w e c v d) d := by
  unfold serViewElems dataEnc
  cases hc : v.contig
  · simp only [Bool.false_eq_true, if_false, traverseManual_eq, List.nil_append]
    refine elements_wr L v (fun idx => (d[v.offset idx]?).getD e.zero) d _ (fun idx hi => ?_)
    have hlt : v.offset idx < d.length := by rw [hd]; exact ok.inside _ (mem_allIdx.1 hi)
    refine ⟨ok.idx_ne hc hi, ?_, ?_⟩
    · simp [List.getElem?_eq_getElem hlt]
    · simp only [List.getElem?_eq_getElem hlt, Option.getD_some]
      exact hP _ (List.getElem_mem hlt)
  · have hl : d.length = v.size := by rw [hd]; simpa [View.contig] using hc
    simp only [if_true, viewArray_eq hc hd]
    exact (serializeArray_wr L hP (by rw [hl]; exact hm hc)).map id

theorem serViewElems_fp (L : Law K cfg e.ti e.apply c) {ty : ViewTy} {v : View T} (ok : v.Ok ty) {d : List T}
    (hd : d.length = v.span) (hP : ∀ x ∈ d, c.P x) (hm : v.contig = true → c.multi v.size) :
    Fp K (fun s => serViewElems cfg e v.size v.contig v (d, s)) (dataFp c e v d) d := by
  unfold serViewElems dataFp
  cases hc : v.contig
  · simp only [Bool.false_eq_true, if_false, traverseManual_eq, List.nil_append]
    refine elements_fp L v (fun idx => (d[v.offset idx]?).getD e.zero) d _ (fun idx hi => ?_)
    have hlt : v.offset idx < d.length := by rw [hd]; exact ok.inside _ (mem_allIdx.1 hi)
    refine ⟨ok.idx_ne hc hi, ?_, ?_⟩
    · simp [List.getElem?_eq_getElem hlt]
    · simp only [List.getElem?_eq_getElem hlt, Option.getD_some]
      exact hP _ (List.getElem_mem hlt)
  · have hl : d.length = v.size := by rw [hd]; simpa [View.contig] using hc
    simp only [if_true, viewArray_eq hc hd]
    exact (serializeArray_fp L hP (by rw [hl]; exact hm hc)).map id

/-- What a new view made from the restored layout looks like. -/
structure View.Made (ty : ViewTy) (z : T) (v w : View T) : Prop where
  extents : w.extents = v.extents
  strides : w.strides = (ty.layout.compact v.extents).getD v.strides
  span : w.span = if ty.layout = .stride then v.span else v.size
  data : w.data = List.replicate w.span z
  alloc : w.alloc = true

theorem View.Ok.made {ty : ViewTy} {v : View T} (ok : v.Ok ty) {lay : LayoutVal} {z : T} {label : Bytes}
    (hl : List.Forall₂ (layoutRel ty.layout) v.layoutVal lay) :
    View.Made ty z v (ty.construct z label lay) := by
  have hvl : v.layoutVal.length = 8 := by
    have := ok.rank_le
    have := ok.extents
    have := ok.strides
    simp [View.layoutVal]; omega
  have hlay : lay.length = 8 := by rw [← hl.length_eq, hvl]
  have hat : ∀ i (h : i < ty.rank), ∃ p, lay[i]? = some p ∧ v.extents[i]? = some p.1 ∧
      (ty.layout = .stride → v.strides[i]? = some p.2) := by
    intro i h
    have he : i < v.extents.length := by rw [ok.extents]; exact h
    have hs : i < v.strides.length := by rw [ok.strides]; exact h
    have h8 : i < lay.length := by have := ok.rank_le; omega
    have hv : i < v.layoutVal.length := by rw [hl.length_eq]; exact h8
    have hr := List.forall₂_iff_get.1 hl |>.2 i hv h8
    refine ⟨lay[i], List.getElem?_eq_getElem h8, ?_⟩
    have hg : v.layoutVal[i] = (v.extents[i], v.strides[i]) := by
      simp only [View.layoutVal]
      rw [List.getElem_append_left (by simp; omega)]
      simp
    simp only [List.get_eq_getElem, hg, layoutRel] at hr
    refine ⟨by rw [List.getElem?_eq_getElem he, hr.1], fun h => by rw [List.getElem?_eq_getElem hs, hr.2 h]⟩
  have hext : (ty.construct z label lay).extents = v.extents := by
    simp only [ViewTy.construct]
    apply List.ext_getElem?
    intro i
    by_cases h : i < ty.rank
    · obtain ⟨p, h1, h2, _⟩ := hat i h
      have hd : i < ty.dims.length := h
      rw [List.getElem?_zipWith, h1, h2, List.getElem?_eq_getElem hd]
      cases hdi : ty.dims[i] with
      | none => rfl
      | some n =>
        have := ok.static i n (by rw [List.getElem?_eq_getElem hd, hdi])
        rw [h2] at this
        simpa using this.symm
    · rw [List.getElem?_eq_none, List.getElem?_eq_none]
      · rw [ok.extents]; omega
      · have : ty.dims.length = ty.rank := rfl
        simp; omega
  have hstr : (ty.construct z label lay).strides = (ty.layout.compact v.extents).getD v.strides := by
    have h0 : (ty.construct z label lay).strides = match ty.layout with
      | .left => leftStrides 1 (ty.construct z label lay).extents
      | .right => rightStrides (ty.construct z label lay).extents
      | .stride => (lay.take ty.rank).map (·.2) := rfl
    rw [h0, hext]
    cases hty : ty.layout
    · rfl
    · rfl
    · simp only [Layout.compact, Option.getD_none]
      apply List.ext_getElem?
      intro i
      by_cases h : i < ty.rank
      · obtain ⟨p, h1, h2, h3⟩ := hat i h
        rw [List.getElem?_map, List.getElem?_take, if_pos h, h1, h3 hty]
        rfl
      · rw [List.getElem?_eq_none, List.getElem?_eq_none]
        · rw [ok.strides]; omega
        · simp; omega
  refine ⟨hext, hstr, ?_, rfl, rfl⟩
  have h0 : (ty.construct z label lay).span = match ty.layout with
    | .left | .right => (ty.construct z label lay).extents.prod
    | .stride => strideSpan (ty.construct z label lay).extents (ty.construct z label lay).strides := by
    simp only [ViewTy.construct]
    cases ty.layout <;> rfl
  rw [h0, hext, hstr]
  cases hty : ty.layout
  · simp [View.size]
  · simp [View.size]
  · simp [Layout.compact, ok.span hty]

theorem offset_eq (v : View T) (idx : List Nat) : v.offset idx = offsetOf idx v.strides := rfl

theorem View.Made.inside {ty : ViewTy} {v w : View T} {z : T} (ok : v.Ok ty) (m : View.Made ty z v w)
    {idx : List Nat} (hi : InRange idx v.extents) : w.offset idx < w.span := by
  rw [offset_eq, m.strides, m.span]
  cases hty : ty.layout
  · simp only [Layout.compact, Option.getD_some, reduceCtorEq, if_false]
    obtain ⟨m, hm, he⟩ := left_offset hi 1
    rw [he, Nat.one_mul]; exact hm
  · simp only [Layout.compact, Option.getD_some, reduceCtorEq, if_false]
    exact right_offset hi
  · simp only [Layout.compact, Option.getD_none, if_true]
    exact ok.inside _ hi

theorem View.Made.inj {ty : ViewTy} {v w : View T} {z : T} (m : View.Made ty z v w)
    {idx idx' : List Nat} (hi : InRange idx v.extents) (hi' : InRange idx' v.extents)
    (he : w.offset idx = w.offset idx') : v.offset idx = v.offset idx' := by
  rw [offset_eq, offset_eq, m.strides] at he
  cases hty : ty.layout <;> simp only [hty, Layout.compact, Option.getD_some, Option.getD_none] at he
  · rw [left_inj hi hi' (by decide) he]
  · rw [right_inj hi hi' he]
  · exact he

theorem View.Made.same {ty : ViewTy} {v w : View T} {z : T} (ok : v.Ok ty) (m : View.Made ty z v w)
    (hc : v.contig = true) : w.strides = v.strides ∧ w.span = v.span := by
  have h : v.span = v.size := by simpa [View.contig] using hc
  rw [m.strides, m.span]
  constructor
  · cases hst : ty.layout.compact v.extents with
    | none => rfl
    | some st => rw [Option.getD_some, ok.compact st hst h]
  · split
    · rfl
    · exact h.symm

theorem prior_replicate {z : T} (hz : ∀ x, c.P x → c.prior x z) : ∀ {xs : List T}, (∀ x ∈ xs, c.P x) →
    List.Forall₂ c.prior xs (List.replicate xs.length z)
  | [], _ => .nil
  | x :: _, h => .cons (hz x (h x (by simp))) (prior_replicate hz fun y hy => h y (by simp [hy]))

theorem serViewElems_rd (L : Law K cfg e.ti e.apply c) (hz : ∀ x, c.P x → c.prior x e.zero) {ty : ViewTy}
    {v w : View T} (ok : v.Ok ty) (m : View.Made ty e.zero v w) (hd : v.data.length = v.span)
    (hP : ∀ x ∈ v.data, c.P x) (hm : v.contig = true → c.multi v.size) :
    Rd K (fun s => serViewElems cfg e v.size v.contig w (w.data, s)) (dataEnc cfg cfg.check e c v v.data)
      (fun d => d.length = w.span ∧ (∀ idx, InRange idx v.extents →
        ∃ x y, v.get? idx = some x ∧ d[w.offset idx]? = some y ∧ c.rel x y) ∧
        ∀ y ∈ d, y = e.zero ∨ ∃ x ∈ v.data, c.rel x y) := by
  have hlen : w.data.length = w.span := by rw [m.data, List.length_replicate]
  unfold serViewElems dataEnc
  cases hc : v.contig
  · simp only [Bool.false_eq_true, if_false, traverseManual_eq, List.nil_append, m.extents]
    have hget : ∀ idx, InRange idx v.extents → ∃ x ∈ v.data, v.data[v.offset idx]? = some x := by
      intro idx hi
      have hlt : v.offset idx < v.data.length := by rw [hd]; exact ok.inside _ hi
      exact ⟨_, List.getElem_mem hlt, List.getElem?_eq_getElem hlt⟩
    refine (elements_rd L hz w (fun idx => (v.data[v.offset idx]?).getD e.zero) _ w.data ?_ ?_).mono ?_
    · intro idx hi
      refine ⟨ok.idx_ne hc hi, ?_, ?_⟩
      · rw [hlen]; exact m.inside ok (mem_allIdx.1 hi)
      · obtain ⟨x, hx, he⟩ := hget idx (mem_allIdx.1 hi)
        simp only [he, Option.getD_some]
        exact hP x hx
    · intro idx hi idx' hi' he
      simp only [m.inj (mem_allIdx.1 hi) (mem_allIdx.1 hi') he]
    · rintro d ⟨h1, h2, _, h4⟩
      refine ⟨by rw [h1, hlen], fun idx hi => ?_, fun y hy => ?_⟩
      · obtain ⟨x, _, he⟩ := hget idx hi
        obtain ⟨y, hy, hr⟩ := h2 idx (mem_allIdx.2 hi)
        simp only [he, Option.getD_some] at hr
        exact ⟨x, y, he, hy, hr⟩
      · rcases h4 y hy with h | ⟨idx, hi, hr⟩
        · rw [m.data] at h; exact .inl (List.eq_of_mem_replicate h)
        · obtain ⟨x, hx, he⟩ := hget idx (mem_allIdx.1 hi)
          simp only [he, Option.getD_some] at hr
          exact .inr ⟨x, hx, hr⟩
  · obtain ⟨hst, hsp⟩ := m.same ok hc
    have hcs : v.span = v.size := by simpa [View.contig] using hc
    have hwc : w.contig = true := by
      simp [View.contig, hsp, View.size, m.extents]
      exact hcs
    have hws : v.size = w.size := by simp [View.size, m.extents]
    simp only [if_true, hws, viewArray_eq hwc hlen]
    have hpr : List.Forall₂ c.prior v.data w.data := by
      rw [m.data, hsp, ← hd]
      exact prior_replicate hz hP
    refine (serializeArray_rd L hP hpr (by rw [hd, hcs]; exact hm hc)).map id ?_
    intro d hf
    refine ⟨by rw [id, ← hf.length_eq, hd, hsp], fun idx hi => ?_, fun y hy => ?_⟩
    swap
    · obtain ⟨i, hi, rfl⟩ := List.getElem_of_mem hy
      have hi' : i < v.data.length := by rw [hf.length_eq]; exact hi
      exact .inr ⟨_, List.getElem_mem hi', (List.forall₂_iff_get.1 hf).2 i hi' hi⟩
    have hlt : v.offset idx < v.data.length := by rw [hd]; exact ok.inside _ hi
    have hlt' : v.offset idx < d.length := by rw [← hf.length_eq]; exact hlt
    have hoff : w.offset idx = v.offset idx := by rw [offset_eq, offset_eq, hst]
    refine ⟨_, _, List.getElem?_eq_getElem hlt, by rw [hoff]; exact List.getElem?_eq_getElem hlt', ?_⟩
    exact (List.forall₂_iff_get.1 hf).2 _ hlt hlt'

end
end Ckpt

namespace Ckpt
section
variable {K : Scope} {cfg : Cfg} {T : Type} {e : Elem T} {c : Codec T}

/-! ### Views -/

/-- All objects have encodings of equal length, and only library serializers are used: then the size does
not depend on the elements being there. -/
structure Uniform (K : Scope) (cfg : Cfg) (e : Elem T) (c : Codec T) : Prop where
  zero : c.P e.zero
  len : ∀ x, c.P x → (c.enc cfg.check x).length = (c.enc cfg.check e.zero).length
  library : ¬ K.kinds .custom

theorem node_length_congr {w : Bool} {ti : TI} {n : Nat} {p q : Bytes} (h : p.length = q.length) :
    (node cfg w ti n p).length = (node cfg w ti n q).length := by
  unfold node; split <;> simp [h]

theorem flatMap_length_congr {α : Type} (f g : α → Bytes) : ∀ (l : List α), (∀ x ∈ l, (f x).length = (g x).length) →
    (l.flatMap f).length = (l.flatMap g).length
  | [], _ => rfl
  | x :: l, h => by
    simp only [List.flatMap_cons, List.length_append, h x (by simp),
      flatMap_length_congr f g l fun y hy => h y (by simp [hy])]

theorem flatMap_replicate_eq {α β : Type} (f : α → Bytes) (z : α) : ∀ (l : List β),
    (List.replicate l.length z).flatMap f = l.flatMap fun _ => f z
  | [] => rfl
  | _ :: l => by simp [List.replicate_succ, flatMap_replicate_eq f z l]

theorem dataEnc_length (u : Uniform K cfg e c) {v : View T} {d : List T} (hP : ∀ x ∈ d, c.P x) :
    (dataEnc cfg cfg.check e c v d).length = (dataEnc cfg cfg.check e c v (List.replicate d.length e.zero)).length := by
  unfold dataEnc
  split
  · unfold arrEnc
    rw [List.length_replicate]
    split
    · apply node_length_congr
      rw [flatMap_replicate_eq]
      exact flatMap_length_congr _ _ _ fun x hx => u.len x (hP x hx)
    · rfl
  · apply flatMap_length_congr
    intro idx _
    unfold nodeEnc
    apply node_length_congr
    rw [List.getElem?_replicate]
    cases h : d[v.offset idx]? with
    | none =>
      have := List.getElem?_eq_none_iff.1 h
      rw [if_neg (by omega)]
    | some x =>
      rw [if_pos (List.getElem?_eq_some_iff.1 h).1]
      exact u.len x (hP x (List.mem_of_getElem? h))

theorem emit_sizer {s : Ser} (hs : s.Writer K) (hp : s.isPacking = false) (hk : ¬ K.kinds .custom)
    {f g : Bool → Bytes} (h : (f cfg.check).length = (g cfg.check).length) :
    s.emit (f (cfg.check && s.headers)) = s.emit (g (cfg.check && s.headers)) := by
  obtain ⟨core, kind, vdis⟩ := s
  obtain ⟨_, h2, h3⟩ := hs
  cases core <;> simp_all [Ser.isPacking, Ser.isSizing, Ser.headers, Ser.mode, Ser.emit]

theorem serViewData_wr (L : Law K cfg e.ti e.apply c) {ty : ViewTy} {v : View T} (ok : v.Ok ty)
    (ha : v.alloc = true) (hP : ∀ x ∈ v.data, c.P x) (hm : v.contig = true → c.multi v.size)
    (hu : ty.host = false → Uniform K cfg e c) :
    Wr K cfg (fun s => serViewData cfg ty e v.size v.contig s v) (fun w => dataEnc cfg w e c v v.data) v := by
  intro s hs
  have hd := ok.data ha
  have hself : ∀ b : Bool, (if b = true then { v with data := v.data } else v) = v := by intro b; cases b <;> rfl
  by_cases hh : (ty.host || s.isPacking) = true
  · have h := serViewElems_wr L ok hd hP hm s hs
    simp only [serViewData, hh, if_true, Out.bind_eq, h, Out.bind_assoc, Out.bind_ok, hself]
  · have hhost : ty.host = false := by cases h : ty.host <;> simp_all
    have hpk : s.isPacking = false := by cases h : s.isPacking <;> simp_all
    have u := hu hhost
    have h := serViewElems_wr L ok (d := List.replicate v.data.length e.zero) (by simpa using hd)
      (by intro x hx; rw [List.eq_of_mem_replicate hx]; exact u.zero) hm s hs
    rw [emit_sizer (cfg := cfg) (f := fun w => dataEnc cfg w e c v v.data)
      (g := fun w => dataEnc cfg w e c v (List.replicate v.data.length e.zero)) hs hpk u.library (dataEnc_length u hP)]
    dsimp only at h
    simp only [serViewData, hhost, hpk, Bool.or_self, Bool.false_eq_true, if_false, Out.bind_eq, Bool.false_or]
    rw [h]
    simp only [Out.bind_assoc, Out.bind_ok]
    rcases Ser.emit_cases s (dataEnc cfg (cfg.check && s.headers) e c v (List.replicate v.data.length e.zero)) with
      ⟨s', he⟩ | he
    · have hs' := (Ser.emit_ok hs he).1
      simp [he, hs'.not_unpacking]
    · simp [he]

/-- The memory that counts for the footprint. -/
def sizedData (ty : ViewTy) (e : Elem T) (v : View T) : List T :=
  if ty.host then v.data else List.replicate v.data.length e.zero

theorem serViewData_fp (L : Law K cfg e.ti e.apply c) {ty : ViewTy} {v : View T} (ok : v.Ok ty)
    (ha : v.alloc = true) (hP : ∀ x ∈ v.data, c.P x) (hm : v.contig = true → c.multi v.size)
    (hu : ty.host = false → Uniform K cfg e c) :
    Fp K (fun s => serViewData cfg ty e v.size v.contig s v) (dataFp c e v (sizedData ty e v)) v := by
  intro s hs
  have hd := ok.data ha
  cases hh : ty.host
  · have u := hu hh
    have h := serViewElems_fp L ok (d := List.replicate v.data.length e.zero) (by simpa using hd)
      (by intro x hx; rw [List.eq_of_mem_replicate hx]; exact u.zero) hm s hs
    have hn := (hs.addBytes (dataFp c e v (List.replicate v.data.length e.zero))).not_unpacking
    simp only [serViewData, sizedData, hh, hs.not_packing, Bool.or_self, Bool.false_eq_true, if_false, Out.bind_eq,
      h, Out.bind_ok, hn]
  · have h := serViewElems_fp L ok hd hP hm s hs
    simp only [serViewData, sizedData, hh, Bool.true_or, if_true, Out.bind_eq, h, Out.bind_ok]

theorem serViewData_rd (L : Law K cfg e.ti e.apply c) (hz : ∀ x, c.P x → c.prior x e.zero) {ty : ViewTy}
    {v w : View T} (ok : v.Ok ty) (m : View.Made ty e.zero v w) (ha : v.alloc = true) (hP : ∀ x ∈ v.data, c.P x)
    (hm : v.contig = true → c.multi v.size) :
    Rd K (fun s => serViewData cfg ty e v.size v.contig s w) (dataEnc cfg cfg.check e c v v.data)
      (fun r => ∃ d, r = { w with data := d } ∧ d.length = w.span ∧ (∀ idx, InRange idx v.extents →
        ∃ x y, v.get? idx = some x ∧ d[w.offset idx]? = some y ∧ c.rel x y) ∧
        ∀ y ∈ d, y = e.zero ∨ ∃ x ∈ v.data, c.rel x y) := by
  have hk : ∀ d : List T, Rd K (fun s => .ok (if (ty.host || s.isUnpacking) = true then { w with data := d } else w, s))
      [] (fun r => r = { w with data := d }) := by
    intro d
    refine (Rd.pure (b := { w with data := d }) (Q := fun r => r = { w with data := d }) rfl).congr ?_ rfl (fun _ h => h)
    intro s hs
    simp [hs.unpacking]
  have h := (serViewElems_rd L hz ok m (ok.data ha) hP hm).bind (bs' := [])
    (k := fun p => .ok (if (ty.host || p.2.isUnpacking) = true then { w with data := p.1 } else w, p.2))
    (fun d hd => (hk d).mono fun r hr => (⟨d, hr, hd⟩ : ∃ d, r = { w with data := d } ∧ d.length = w.span ∧
      (∀ idx, InRange idx v.extents → ∃ x y, v.get? idx = some x ∧ d[w.offset idx]? = some y ∧ c.rel x y) ∧
      ∀ y ∈ d, y = e.zero ∨ ∃ x ∈ v.data, c.rel x y))
  refine h.congr ?_ (by simp) (fun _ h => h)
  intro s hs
  have hhost : (if (ty.host || s.isPacking) = true then w.data else List.replicate w.data.length e.zero) = w.data := by
    rw [m.data]; simp
  simp only [serViewData, hhost]

/-- A view as written after its extents. -/
def bodyEnc (cfg : Cfg) (w : Bool) (e : Elem T) (c : Codec T) (v : View T) : Bytes :=
  sizeNode cfg w v.size ++ (boolNode cfg w v.contig ++ (boolNode cfg w v.alloc ++
    if v.alloc then dataEnc cfg w e c v v.data else []))

/-- The views considered. -/
structure ViewP (ty : ViewTy) (c : Codec T) (v : View T) : Prop where
  ok : v.Ok ty
  elems : ∀ x ∈ v.data, c.P x
  multi : v.contig = true → c.multi v.size

theorem serViewBody_wr (hc : cfg.Valid) (L : Law K cfg e.ti e.apply c) {ty : ViewTy} {v : View T} (h : ViewP ty c v)
    (hu : ty.host = false → Uniform K cfg e c) :
    Wr K cfg (fun s => serViewBody cfg ty e s v) (fun w => bodyEnc cfg w e c v) v := by
  have ha : Wr K cfg (fun s => pipeBool cfg s (if s.isUnpacking then false else v.alloc))
      (fun w => boolNode cfg w v.alloc) v.alloc :=
    (pipeBool_wr hc).congr (fun s hs => by simp [hs.not_unpacking]) (fun _ => rfl)
  unfold serViewBody bodyEnc
  refine (pipeSize_wr hc h.ok.size_lt).bind ?_
  refine (pipeBool_wr hc).bind ?_
  refine ha.bind ?_
  cases hal : v.alloc
  · simp only [Bool.false_eq_true, if_false]; exact Wr.pure v
  · simp only [if_true]; exact serViewData_wr L h.ok hal h.elems h.multi hu

theorem pipeBool_fp (hc : cfg.Valid) {b : Bool} : Fp K (fun s => pipeBool cfg s b) 1 b := by
  refine ((pipe_fp (e := boolElem cfg) (intLaw (n := 1) hc.bool) (x := b.toNat)
    (show b.toNat < 256 ^ 1 by cases b <;> decide)).bind (c := b) (n' := 0)
    (k := fun p => if p.1 = 0 then .ok (false, p.2) else if p.1 = 1 then .ok (true, p.2)
      else .ub .badBool) ?_).congr (fun _ _ => rfl) rfl
  cases b
  · exact Fp.pure _
  · exact Fp.pure _

/-- The footprint of that. -/
def bodyFp (ty : ViewTy) (e : Elem T) (c : Codec T) (v : View T) : Nat :=
  8 + (1 + (1 + if v.alloc then dataFp c e v (sizedData ty e v) else 0))

theorem serViewBody_fp (hc : cfg.Valid) (L : Law K cfg e.ti e.apply c) {ty : ViewTy} {v : View T} (h : ViewP ty c v)
    (hu : ty.host = false → Uniform K cfg e c) :
    Fp K (fun s => serViewBody cfg ty e s v) (bodyFp ty e c v) v := by
  have ha : Fp K (fun s => pipeBool cfg s (if s.isUnpacking then false else v.alloc)) 1 v.alloc :=
    (pipeBool_fp hc).congr (fun s hs => by simp [hs.not_unpacking]) rfl
  unfold serViewBody bodyFp
  refine (pipeSize_fp hc h.ok.size_lt).bind ?_
  refine (pipeBool_fp hc).bind ?_
  refine ha.bind ?_
  cases hal : v.alloc
  · simp only [Bool.false_eq_true, if_false]; exact Fp.pure v
  · simp only [if_true]; exact serViewData_fp L h.ok hal h.elems h.multi hu

theorem serViewBody_rd (hc : cfg.Valid) (L : Law K cfg e.ti e.apply c) (hz : ∀ x, c.P x → c.prior x e.zero)
    {ty : ViewTy} {v w : View T} (h : ViewP ty c v) (m : View.Made ty e.zero v w) :
    Rd K (fun s => serViewBody cfg ty e s w) (bodyEnc cfg cfg.check e c v)
      (fun r => ∃ d, r = { w with data := d } ∧ d.length = w.span ∧
        (v.alloc = true → ∀ idx, InRange idx v.extents →
          ∃ x y, v.get? idx = some x ∧ d[w.offset idx]? = some y ∧ c.rel x y) ∧
        (v.alloc = false → d = w.data) ∧ ∀ y ∈ d, y = e.zero ∨ ∃ x ∈ v.data, c.rel x y) := by
  unfold serViewBody bodyEnc
  refine (pipeSize_rd hc h.ok.size_lt).bind ?_
  rintro _ rfl
  refine (pipeBool_rd hc).bind ?_
  rintro _ rfl
  have ha : Rd K (fun s => pipeBool cfg s (if s.isUnpacking then false else w.alloc))
      (boolNode cfg cfg.check v.alloc) (fun r => r = v.alloc) :=
    (pipeBool_rd hc (b' := false)).congr (fun s hs => by simp [hs.unpacking]) rfl (fun _ h => h)
  refine ha.bind ?_
  rintro _ rfl
  cases hal : v.alloc
  · simp only [Bool.false_eq_true, if_false]
    exact Rd.pure ⟨w.data, rfl, by rw [m.data, List.length_replicate], fun h => by simp at h, fun _ => rfl,
      fun y hy => by rw [m.data] at hy; exact .inl (List.eq_of_mem_replicate hy)⟩
  · simp only [if_true]
    refine (serViewData_rd L hz h.ok m hal h.elems h.multi).mono ?_
    rintro _ ⟨d, rfl, h1, h2, h3⟩
    exact ⟨d, rfl, h1, fun _ => h2, fun h => by simp at h, h3⟩

/-- A view as written. -/
def viewEnc (cfg : Cfg) (k : ViewTI) (ty : ViewTy) (w : Bool) (e : Elem T) (c : Codec T) (v : View T) : Bytes :=
  nodeEnc cfg w k.str (strCodec cfg k.str.sizeof) ⟨cfg.grow v.label.length, v.label⟩ ++
    (node cfg w cfg.tiInt 1 (intBytes cfg.endian 4 ty.rank) ++
      (nodeEnc cfg w k.layout (layoutCodec cfg ty.layout) v.layoutVal ++ bodyEnc cfg w e c v))

/-- Restored views. -/
def viewRel (ty : ViewTy) (z : T) (c : Codec T) (v w : View T) : Prop := v.Copy ty z c.rel w ∧ w.Ok ty

/-- Views. -/
def viewCodec (cfg : Cfg) (k : ViewTI) (ty : ViewTy) (e : Elem T) (c : Codec T) : Codec (View T) where
  P := ViewP ty c
  enc w v := viewEnc cfg k ty w e c v
  prior _ _ := True
  rel v w := viewRel ty e.zero c v w
  fp v := (k.str.sizeof + cfg.grow v.label.length) + (4 + ((layoutCodec cfg ty.layout).fp v.layoutVal +
    bodyFp ty e c v))
  multi _ := True

theorem View.Ok.layout {ty : ViewTy} {v : View T} (ok : v.Ok ty) : ∀ p ∈ v.layoutVal, p.1 < 2 ^ 64 ∧
    (ty.layout = .stride → p.2 < 2 ^ 64) := by
  intro p hp
  rcases List.mem_append.1 hp with h | h
  · obtain ⟨h1, h2⟩ := List.of_mem_zip (a := p.1) (b := p.2) h
    exact ⟨ok.ext_lt _ h1, fun h => ok.str_lt h _ h2⟩
  · rw [List.eq_of_mem_replicate h]
    exact ⟨by decide, fun _ => by decide⟩

theorem View.Ok.layout_length {ty : ViewTy} {v : View T} (ok : v.Ok ty) : v.layoutVal.length = 8 := by
  have := ok.rank_le
  have := ok.extents
  have := ok.strides
  simp [View.layoutVal]; omega

theorem serView_wr (hc : cfg.Valid) {k : ViewTI} (hk : k.Valid) (L : Law K cfg e.ti e.apply c) {ty : ViewTy}
    {v : View T} (h : ViewP ty c v) (hu : ty.host = false → Uniform K cfg e c) :
    Wr K cfg (fun s => serView cfg k ty e s v) (fun w => viewEnc cfg k ty w e c v) v := by
  have hr : ty.rank < 2 ^ 32 := by have := h.ok.rank_le; omega
  have h1 : Wr K cfg (fun s => pipe cfg (intElem cfg) s (if s.isUnpacking then 0 else ty.rank))
      (fun w => node cfg w cfg.tiInt 1 (intBytes cfg.endian 4 ty.rank)) ty.rank :=
    (intPipe_wr hc hr).congr (fun s hs => by simp [hs.not_unpacking]) (fun _ => rfl)
  have h2 : Wr K cfg (fun s => pipe cfg (layoutElem cfg k.layout ty.layout) s
      (if s.isUnpacking then .default else v.layoutVal))
      (fun w => nodeEnc cfg w k.layout (layoutCodec cfg ty.layout) v.layoutVal) v.layoutVal :=
    (pipe_wr (e := layoutElem cfg k.layout ty.layout) (layoutLaw hc hk.layout) (x := v.layoutVal) h.ok.layout).congr
      (fun s hs => by simp [hs.not_unpacking]) (fun _ => rfl)
  unfold serView viewEnc
  refine (pipe_wr (e := strElem cfg k.str) (strLaw hc hk.str) (x := ⟨cfg.grow v.label.length, v.label⟩)
    h.ok.label_lt).bind ?_
  refine h1.bind ?_
  refine h2.bind ?_
  exact (serViewBody_wr hc L h hu).congr (fun s hs => by simp [hs.not_unpacking]) (fun _ => rfl)

theorem serView_fp (hc : cfg.Valid) {k : ViewTI} (hk : k.Valid) (L : Law K cfg e.ti e.apply c) {ty : ViewTy}
    {v : View T} (h : ViewP ty c v) (hu : ty.host = false → Uniform K cfg e c) :
    Fp K (fun s => serView cfg k ty e s v) ((viewCodec cfg k ty e c).fp v) v := by
  have hr : ty.rank < 2 ^ 32 := by have := h.ok.rank_le; omega
  have h1 : Fp K (fun s => pipe cfg (intElem cfg) s (if s.isUnpacking then 0 else ty.rank)) 4 ty.rank :=
    (pipe_fp (e := intElem cfg) (intLaw hc.int) (x := ty.rank) hr).congr (fun s hs => by simp [hs.not_unpacking]) rfl
  have h2 : Fp K (fun s => pipe cfg (layoutElem cfg k.layout ty.layout) s
      (if s.isUnpacking then .default else v.layoutVal)) ((layoutCodec cfg ty.layout).fp v.layoutVal) v.layoutVal :=
    (pipe_fp (e := layoutElem cfg k.layout ty.layout) (layoutLaw hc hk.layout) (x := v.layoutVal) h.ok.layout).congr
      (fun s hs => by simp [hs.not_unpacking]) rfl
  unfold serView viewCodec
  refine (pipe_fp (e := strElem cfg k.str) (strLaw hc hk.str) (x := ⟨cfg.grow v.label.length, v.label⟩)
    h.ok.label_lt).bind ?_
  refine h1.bind ?_
  refine h2.bind ?_
  exact (serViewBody_fp hc L h hu).congr (fun s hs => by simp [hs.not_unpacking]) rfl

theorem View.Made.ok {ty : ViewTy} {v w : View T} {z : T} (ok : v.Ok ty) (m : View.Made ty z v w)
    (hl : w.label.length < 2 ^ 64) {d : List T} (hd : d.length = w.span) :
    View.Ok ty { w with data := d } where
  rank_le := ok.rank_le
  extents := by show w.extents.length = _; rw [m.extents, ok.extents]
  strides := by
    show w.strides.length = _
    rw [m.strides]
    cases hty : ty.layout
    · simp only [Layout.compact, Option.getD_some]
      have : ∀ (l : List Nat) acc, (leftStrides acc l).length = l.length := by
        intro l; induction l <;> simp_all [leftStrides]
      rw [this, ok.extents]
    · simp only [Layout.compact, Option.getD_some]
      have : ∀ (l : List Nat), (rightStrides l).length = l.length := by
        intro l; induction l <;> simp_all [rightStrides]
      rw [this, ok.extents]
    · exact ok.strides
  static := fun i n h => by show w.extents[i]? = _; rw [m.extents]; exact ok.static i n h
  ext_lt := fun n h => ok.ext_lt n (by rw [← m.extents]; exact h)
  str_lt := fun hl n hn => by
    have hn : n ∈ w.strides := hn
    rw [m.strides, hl] at hn
    exact ok.str_lt hl n hn
  size_lt := by
    have := ok.size_lt
    simp only [View.size] at this ⊢
    rw [m.extents]; exact this
  label_lt := hl
  data := fun _ => hd
  inside := fun idx h => m.inside ok (by rw [← m.extents]; exact h)
  span := fun h => by
    show w.span = strideSpan w.extents w.strides
    rw [m.span, if_pos h, m.extents, m.strides, h]
    exact ok.span h
  compact := fun st h _ => by
    show w.strides = st
    have h : ty.layout.compact w.extents = some st := h
    rw [m.extents] at h
    rw [m.strides, h]; rfl
  scalar := fun h => by
    show w.span = 1
    have h0 : v.extents = [] := List.length_eq_zero_iff.1 (by rw [ok.extents, h])
    rw [m.span]
    split
    · exact ok.scalar h
    · simp [View.size, h0]

theorem serView_rd (hc : cfg.Valid) {k : ViewTI} (hk : k.Valid) (L : Law K cfg e.ti e.apply c)
    (hz : ∀ x, c.P x → c.prior x e.zero) {ty : ViewTy} {v y : View T} (h : ViewP ty c v) :
    Rd K (fun s => serView cfg k ty e s y) (viewEnc cfg k ty cfg.check e c v) (viewRel ty e.zero c v) := by
  have hr : ty.rank < 2 ^ 32 := by have := h.ok.rank_le; omega
  have h1 : Rd K (fun s => pipe cfg (intElem cfg) s (if s.isUnpacking then 0 else ty.rank))
      (node cfg cfg.check cfg.tiInt 1 (intBytes cfg.endian 4 ty.rank)) (fun r => r = ty.rank) :=
    (intPipe_rd hc (m := 0) hr).congr (fun s hs => by simp [hs.unpacking]) rfl (fun _ h => h)
  have h2 : Rd K (fun s => pipe cfg (layoutElem cfg k.layout ty.layout) s
      (if s.isUnpacking then .default else y.layoutVal))
      (nodeEnc cfg cfg.check k.layout (layoutCodec cfg ty.layout) v.layoutVal)
      (List.Forall₂ (layoutRel ty.layout) v.layoutVal) :=
    (pipe_rd (e := layoutElem cfg k.layout ty.layout) (layoutLaw hc hk.layout) (x := v.layoutVal)
      (y := LayoutVal.default) h.ok.layout (by
        show LayoutVal.default.length = v.layoutVal.length
        rw [h.ok.layout_length]; rfl)).congr
      (fun s hs => by simp [hs.unpacking]) rfl (fun _ h => h)
  unfold serView viewEnc
  refine (pipe_rd (e := strElem cfg k.str) (strLaw hc hk.str) (x := ⟨cfg.grow v.label.length, v.label⟩)
    (y := ⟨cfg.grow y.label.length, y.label⟩) h.ok.label_lt trivial).bind ?_
  intro label hlab
  have hlab : label.chars = v.label := hlab
  refine h1.bind fun _ _ => ?_
  refine h2.bind fun lay hlay => ?_
  have m := h.ok.made (z := e.zero) (label := label.chars) hlay
  refine (serViewBody_rd hc L hz h m).congr (fun s hs => by simp [hs.unpacking]) rfl ?_
  rintro _ ⟨d, rfl, hd, hel, hfr, hmem⟩
  refine ⟨⟨hlab, m.extents, m.alloc, m.strides, hel, fun ha idx hi => ?_, fun y hy =>
    (hmem y hy).imp_right fun ⟨x, hx, hr⟩ => ⟨x, .inr hx, hr⟩⟩, m.ok h.ok (by
    show label.chars.length < _
    rw [hlab]; exact h.ok.label_lt) hd⟩
  show d[_]? = _
  rw [hfr ha, m.data, List.getElem?_replicate]
  exact if_pos (m.inside h.ok hi)

theorem viewLaw (hc : cfg.Valid) {k : ViewTI} (hk : k.Valid) (L : Law K cfg e.ti e.apply c)
    (hz : ∀ x, c.P x → c.prior x e.zero) {ty : ViewTy} (hu : ty.host = false → Uniform K cfg e c) :
    Law K cfg (viewElem cfg k ty false e).ti (viewElem cfg k ty false e).apply (viewCodec cfg k ty e c) :=
  Law.ofEach hk.view trivial (fun _ h => serView_wr hc hk L h hu) (fun _ _ h _ => serView_rd hc hk L hz h)
    (fun _ h => serView_fp hc hk L h hu)

end
end Ckpt

namespace Ckpt
section
variable {K : Scope} {cfg : Cfg} {T : Type} {e : Elem T} {c : Codec T}

/-! ### Views of `const` elements -/

/-- The temporary view. -/
def constTmp (ty : ViewTy) (z : T) (v : View T) : View T := ty.construct z v.label v.layoutVal

/-- The temporary view with the elements. -/
def constCopy (ty : ViewTy) (z : T) (v : View T) : View T :=
  match (constTmp ty z v).deepCopy v with
  | .ok w => w
  | _ => constTmp ty z v

theorem layoutRel_refl (l : Layout) : ∀ (lay : LayoutVal), List.Forall₂ (layoutRel l) lay lay
  | [] => .nil
  | _ :: lay => .cons ⟨rfl, fun _ => rfl⟩ (layoutRel_refl l lay)

theorem View.Ok.madeTmp {ty : ViewTy} {v : View T} (ok : v.Ok ty) (z : T) : View.Made ty z v (constTmp ty z v) :=
  ok.made (layoutRel_refl _ _)

/-- Copying elements. -/
theorem copyAll (v w : View T) : ∀ (l : List (List Nat)) (d : List T),
    (∀ idx ∈ l, w.offset idx < d.length ∧ ∃ x, v.get? idx = some x) →
    (∀ idx ∈ l, ∀ idx' ∈ l, w.offset idx = w.offset idx' → v.get? idx = v.get? idx') →
    ∃ d', runAll (w.copyElem v) l d = .ok d' ∧ d'.length = d.length ∧
      (∀ idx ∈ l, d'[w.offset idx]? = v.get? idx) ∧ (∀ k, (∀ idx ∈ l, w.offset idx ≠ k) → d'[k]? = d[k]?) ∧
      ∀ x ∈ d', x ∈ d ∨ x ∈ v.data
  | [], d, _, _ => ⟨d, rfl, rfl, by simp, fun _ _ => rfl, fun x hx => .inl hx⟩
  | i :: l, d, h, hco => by
    obtain ⟨hlt, x, hx⟩ := h i (by simp)
    obtain ⟨d', h1, h2, h3, h4, h5⟩ := copyAll v w l (d.set (w.offset i) x)
      (fun j hj => by simpa using h j (by simp [hj])) (fun j hj j' hj' => hco j (by simp [hj]) j' (by simp [hj']))
    refine ⟨d', ?_, by simpa using h2, ?_, ?_, ?_⟩
    · simp only [runAll, View.copyElem, hx, Out.bind_ok]
      exact h1
    · intro j hj
      rcases List.mem_cons.1 hj with rfl | hj
      · by_cases hex : ∃ k ∈ l, w.offset k = w.offset j
        · obtain ⟨k, hk, hoff⟩ := hex
          rw [hco j (by simp) k (by simp [hk]) hoff.symm, ← hoff]
          exact h3 k hk
        · rw [h4 _ (fun k hk he => hex ⟨k, hk, he⟩), hx]
          simp [hlt]
      · exact h3 j hj
    · intro k hk
      rw [h4 k (fun j hj => hk j (by simp [hj])), List.getElem?_set]
      have := hk i (by simp)
      simp [this]
    · intro y hy
      rcases h5 y hy with h | h
      · rcases List.mem_or_eq_of_mem_set h with h | h
        · exact .inl h
        · subst h; exact .inr (List.mem_of_getElem? hx)
      · exact .inr h

theorem deepCopy_tmp {ty : ViewTy} {v : View T} (ok : v.Ok ty) (z : T) (ha : v.alloc = true ∨ v.size = 0) :
    ∃ d, (constTmp ty z v).deepCopy v = .ok { constTmp ty z v with data := d } ∧
      d.length = (constTmp ty z v).span ∧
      (∀ idx, InRange idx v.extents → d[(constTmp ty z v).offset idx]? = v.get? idx) ∧
      ∀ x ∈ d, x = z ∨ x ∈ v.data := by
  have m := ok.madeTmp z
  have hin : ∀ idx ∈ allIdx v.extents, ∃ x, v.get? idx = some x := by
    intro idx hi
    rcases ha with ha | h0
    · have hlt : v.offset idx < v.data.length := by rw [ok.data ha]; exact ok.inside _ (mem_allIdx.1 hi)
      exact ⟨_, List.getElem?_eq_getElem hlt⟩
    · have h1 := allIdx_length v.extents
      rw [show v.extents.prod = 0 from h0] at h1
      rw [List.length_eq_zero_iff.1 h1] at hi
      simp at hi
  obtain ⟨d, h1, h2, h3, _, h5⟩ := copyAll v (constTmp ty z v) (allIdx v.extents) (constTmp ty z v).data
    (fun idx hi => ⟨by rw [m.data, List.length_replicate]; exact m.inside ok (mem_allIdx.1 hi), hin idx hi⟩)
    (fun i hi j hj he => by
      have := m.inj (mem_allIdx.1 hi) (mem_allIdx.1 hj) he
      simp only [View.get?, this])
  refine ⟨d, ?_, by rw [h2, m.data, List.length_replicate], fun idx hi => h3 idx (mem_allIdx.2 hi), ?_⟩
  · simp only [View.deepCopy, traverseManual_eq, List.nil_append, m.extents, h1, Out.bind_eq, Out.bind_ok]
  · intro x hx
    rcases h5 x hx with h | h
    · rw [m.data] at h; exact .inl (List.eq_of_mem_replicate h)
    · exact .inr h

/-- The views of `const` elements considered. -/
structure ConstP (ty : ViewTy) (c : Codec T) (v : View T) : Prop where
  ok : v.Ok ty
  elems : ∀ x ∈ v.data, c.P x
  multi : c.multi v.size
  memory : v.alloc = true ∨ v.size = 0

/-- Views of `const` elements. -/
def constCodec (cfg : Cfg) (k : ViewTI) (ty : ViewTy) (e : Elem T) (c : Codec T) : Codec (View T) where
  P := ConstP ty c
  enc w v := viewEnc cfg k ty w e c (constCopy ty e.zero v)
  prior _ _ := True
  rel v w := viewRel ty e.zero c v w
  fp v := (viewCodec cfg k ty e c).fp (constTmp ty e.zero v)
  multi _ := True

theorem ConstP.copy {ty : ViewTy} {v : View T} (h : ConstP ty c v) (hz0 : c.P e.zero) :
    ∃ d, (constTmp ty e.zero v).deepCopy v = .ok { constTmp ty e.zero v with data := d } ∧
      constCopy ty e.zero v = { constTmp ty e.zero v with data := d } ∧
      d.length = (constTmp ty e.zero v).span ∧ (∀ x ∈ d, c.P x) ∧
      ViewP ty c { constTmp ty e.zero v with data := d } ∧ ViewP ty c (constTmp ty e.zero v) ∧
      (∀ idx, InRange idx v.extents → d[(constTmp ty e.zero v).offset idx]? = v.get? idx) ∧
      ∀ x ∈ d, x = e.zero ∨ x ∈ v.data := by
  obtain ⟨d, h1, h2, h3, h4⟩ := deepCopy_tmp h.ok e.zero h.memory
  have m := h.ok.madeTmp e.zero
  have hlab : (constTmp ty e.zero v).label.length < 2 ^ 64 := h.ok.label_lt
  have hP : ∀ x ∈ d, c.P x := fun x hx => (h4 x hx).elim (fun h => h ▸ hz0) (h.elems x)
  have hm : c.multi (constTmp ty e.zero v).size := by
    simp only [View.size, m.extents]; exact h.multi
  have hlen : (constTmp ty e.zero v).data.length = (constTmp ty e.zero v).span := by
    rw [m.data, List.length_replicate]
  refine ⟨d, h1, by rw [constCopy, h1], h2, hP, ⟨m.ok h.ok hlab h2, hP, fun _ => hm⟩,
    ⟨m.ok h.ok hlab hlen, fun x hx => ?_, fun _ => hm⟩, h3, h4⟩
  rw [m.data] at hx
  rw [List.eq_of_mem_replicate hx]
  exact hz0

theorem viewEnc_length {k : ViewTI} {ty : ViewTy} (u : Uniform K cfg e c) {v : View T} (ha : v.alloc = true)
    {d d' : List T} (hP : ∀ x ∈ d, c.P x) (hP' : ∀ x ∈ d', c.P x) (hl : d.length = d'.length) :
    (viewEnc cfg k ty cfg.check e c { v with data := d }).length =
      (viewEnc cfg k ty cfg.check e c { v with data := d' }).length := by
  have h1 := dataEnc_length (cfg := cfg) u (v := v) hP
  have h2 := dataEnc_length (cfg := cfg) u (v := v) hP'
  rw [hl, ← h2] at h1
  simp only [viewEnc, bodyEnc, List.length_append, ha, if_true]
  exact congrArg _ (congrArg _ (congrArg _ (congrArg _ (congrArg _ (congrArg _ h1)))))

theorem serConstView_wr (hc : cfg.Valid) {k : ViewTI} (hk : k.Valid) (L : Law K cfg e.ti e.apply c) {ty : ViewTy}
    {v : View T} (h : ConstP ty c v) (u : Uniform K cfg e c) :
    Wr K cfg (fun s => serConstView cfg k ty e s v) (fun w => (constCodec cfg k ty e c).enc w v) v := by
  obtain ⟨d, h1, h2, h3, h4, h5, h6, _, _⟩ := h.copy u.zero
  intro s hs
  have m := h.ok.madeTmp e.zero
  have hfill : ∀ b w, ((s.emit b).bind fun s' => Out.ok (w, s')).bind
      (fun p : View T × Ser => .ok (if p.2.isUnpacking then p.1 else v, p.2)) =
      (s.emit b).bind fun s' => .ok (v, s') := by
    intro b w
    rcases Ser.emit_cases s b with ⟨s', he⟩ | he
    · have hs' := (Ser.emit_ok hs he).1
      simp [he, hs'.not_unpacking]
    · simp [he]
  simp only [serConstView, View.fillFrom, constCodec, h2]
  cases hp : s.isPacking
  · have hw := serView_wr hc hk L h6 (fun _ => u) s hs
    have hlen := viewEnc_length (cfg := cfg) (k := k) (ty := ty) u (v := constTmp ty e.zero v) m.alloc
      (d := d) (d' := (constTmp ty e.zero v).data) h4 h6.elems (by rw [h3, m.data, List.length_replicate])
    rw [emit_sizer (cfg := cfg) (f := fun w => viewEnc cfg k ty w e c { constTmp ty e.zero v with data := d })
      (g := fun w => viewEnc cfg k ty w e c (constTmp ty e.zero v)) hs hp u.library hlen]
    dsimp only at hw
    simp only [Bool.false_eq_true, if_false, Out.bind_eq, Out.bind_ok]
    show (serView cfg k ty e s (constTmp ty e.zero v)).bind _ = _
    rw [hw, hfill]
  · have hw := serView_wr hc hk L h5 (fun _ => u) s hs
    dsimp only at hw
    simp only [if_true, Out.bind_eq]
    show ((constTmp ty e.zero v).deepCopy v).bind _ = _
    rw [h1, Out.bind_ok, hw, hfill]

theorem serConstView_fp (hc : cfg.Valid) {k : ViewTI} (hk : k.Valid) (L : Law K cfg e.ti e.apply c) {ty : ViewTy}
    {v : View T} (h : ConstP ty c v) (u : Uniform K cfg e c) :
    Fp K (fun s => serConstView cfg k ty e s v) ((constCodec cfg k ty e c).fp v) v := by
  obtain ⟨d, h1, h2, h3, h4, h5, h6, _, _⟩ := h.copy u.zero
  intro s hs
  have hw := serView_fp hc hk L h6 (fun _ => u) s hs
  dsimp only at hw
  simp only [serConstView, View.fillFrom, constCodec, hs.not_packing, Bool.false_eq_true, if_false, Out.bind_eq,
    Out.bind_ok]
  show (serView cfg k ty e s (constTmp ty e.zero v)).bind _ = _
  rw [hw, Out.bind_ok]
  simp [(hs.addBytes _).not_unpacking]

theorem serConstView_rd (hc : cfg.Valid) {k : ViewTI} (hk : k.Valid) (L : Law K cfg e.ti e.apply c)
    (hz : ∀ x, c.P x → c.prior x e.zero) {ty : ViewTy} {v y : View T} (h : ConstP ty c v) (u : Uniform K cfg e c) :
    Rd K (fun s => serConstView cfg k ty e s y) ((constCodec cfg k ty e c).enc cfg.check v) (viewRel ty e.zero c v) := by
  obtain ⟨d, h1, h2, h3, h4, h5, h6, h7, h8⟩ := h.copy u.zero
  have m := h.ok.madeTmp e.zero
  have hr := serView_rd hc hk L hz (y := constTmp ty e.zero y) h5
  have hk : ∀ r : View T, Rd K (fun s => .ok (if s.isUnpacking then r else y, s)) [] (fun q => q = r) := by
    intro r
    refine (Rd.pure (b := r) (Q := fun q => q = r) rfl).congr ?_ rfl (fun _ h => h)
    intro s hs
    simp [hs.unpacking]
  refine (hr.bind (bs' := []) (k := fun p => .ok (if p.2.isUnpacking then p.1 else y, p.2))
    (Q' := viewRel ty e.zero c v) (fun r hr => (hk r).mono ?_)).congr ?_ (by simp [constCodec, h2]) (fun _ h => h)
  · rintro _ rfl
    obtain ⟨cp, ok⟩ := hr
    refine ⟨⟨cp.label, by rw [cp.extents]; exact m.extents, cp.alloc, ?_, ?_, ?_, fun y hy =>
      (cp.memory y hy).imp_right fun ⟨x, hx, hr⟩ => ⟨x, hx.elim .inl (h8 x), hr⟩⟩, ok⟩
    · rw [cp.strides]
      show (ty.layout.compact (constTmp ty e.zero v).extents).getD (constTmp ty e.zero v).strides = _
      rw [m.extents, m.strides]
      cases ty.layout.compact v.extents <;> rfl
    · intro _ idx hi
      obtain ⟨x, z, hx, hz, hrel⟩ := cp.elements m.alloc idx (by
        show InRange idx (constTmp ty e.zero v).extents
        rw [m.extents]; exact hi)
      refine ⟨x, z, ?_, hz, hrel⟩
      rw [← h7 idx hi]; exact hx
    · intro ha idx hi
      have h0 : v.size = 0 := h.memory.resolve_left (by simp [ha])
      have h1 := allIdx_length v.extents
      rw [show v.extents.prod = 0 from h0] at h1
      have := mem_allIdx.2 hi
      rw [List.length_eq_zero_iff.1 h1] at this
      simp at this
  · intro s hs
    simp only [serConstView, View.fillFrom, hs.not_packing, Bool.false_eq_true, if_false, Out.bind_eq, Out.bind_ok]
    rfl

theorem constLaw (hc : cfg.Valid) {k : ViewTI} (hk : k.Valid) (L : Law K cfg e.ti e.apply c)
    (hz : ∀ x, c.P x → c.prior x e.zero) {ty : ViewTy} (u : Uniform K cfg e c) :
    Law K cfg (viewElem cfg k ty true e).ti (viewElem cfg k ty true e).apply (constCodec cfg k ty e c) :=
  Law.ofEach hk.view trivial (fun _ h => serConstView_wr hc hk L h u) (fun _ _ h _ => serConstView_rd hc hk L hz h u)
    (fun _ h => serConstView_fp hc hk L h u)

/-! ### Restricted codecs -/

/-- Further restriction of the objects of a codec. -/
def Codec.on {T : Type} (c : Codec T) (Q : T → Prop) : Codec T := { c with P := fun v => c.P v ∧ Q v }

theorem Law.on {T : Type} {K : Scope} {ti : TI} {h : Handler T} {c : Codec T} (L : Law K cfg ti h c) (Q : T → Prop) :
    Law K cfg ti h (c.on Q) where
  ti_valid := L.ti_valid
  one := L.one
  wr := fun xs hx hl hm => L.wr xs (fun x hx' => (hx x hx').1) hl hm
  rd := fun xs ys hx hp hl hm => L.rd xs ys (fun x hx' => (hx x hx').1) hp hl hm
  fp := fun xs hx hl hm => L.fp xs (fun x hx' => (hx x hx').1) hl hm

end
end Ckpt
