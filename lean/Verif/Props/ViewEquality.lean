import Verif.Proofs.ViewTraverse
import Verif.Proofs.View
import Verif.Spec.View
/-!
# Comparison of Kokkos views (C49)
-/

set_option autoImplicit false

namespace Ckpt

variable {T : Type}

/-- What the comparison of the elements accepts, `f idx` saying that the elements at `idx` are equal: in each
dimension, that no part is accepted. -/
def Accepts : List Nat → (List Nat → Prop) → Prop
  | [], f => ¬ f []
  | n :: ns, f => ∀ i < n, ¬ Accepts ns fun idx => f (i :: idx)

theorem countLoop_zero {child : Nat → Unit → Out (Nat × Unit)} {g : Nat → Nat} : ∀ (n i neq : Nat),
    (∀ j, i ≤ j → j < i + n → child j () = .ok (g j, ())) → neq + n < sizeMod →
    ∃ r, countLoop child n i neq () = .ok (r, ()) ∧ (r = 0 ↔ neq = 0 ∧ ∀ j, i ≤ j → j < i + n → g j ≠ 0)
  | 0, i, neq, _, _ => ⟨neq, rfl, by simp; intros; omega⟩
  | n + 1, i, neq, h, hlt => by
    simp only [countLoop, h i (Nat.le_refl _) (by omega), Out.bind_eq, Out.bind_ok]
    have hb : (if g i = 0 then 1 else 0) ≤ 1 := by split <;> simp
    rw [Nat.mod_eq_of_lt (by omega)]
    obtain ⟨r, h1, h2⟩ := countLoop_zero n (i + 1) (neq + if g i = 0 then 1 else 0)
      (fun j h1 h2 => h j (by omega) (by omega)) (by omega)
    refine ⟨r, h1, h2.trans ⟨?_, ?_⟩⟩
    · rintro ⟨h3, h4⟩
      have hg : g i ≠ 0 := by intro hg; simp [hg] at h3
      refine ⟨by omega, fun j hj hj' => ?_⟩
      by_cases hji : j = i
      · subst hji; exact hg
      · exact h4 j (by omega) (by omega)
    · rintro ⟨h3, h4⟩
      have hg := h4 i (Nat.le_refl _) (by omega)
      exact ⟨by simp [hg, h3], fun j hj hj' => h4 j (by omega) (by omega)⟩

theorem traverseRecur_accepts (call : List Nat → Unit → Out (Bool × Unit)) : ∀ (ns pre : List Nat),
    (∀ n ∈ ns, n < sizeMod) → (∀ idx, InRange idx ns → ∃ b, call (pre ++ idx) () = .ok (b, ())) →
    ∃ r, traverseRecur call ns pre () = .ok (r, ()) ∧ (r = 0 ↔ Accepts ns fun idx => call (pre ++ idx) () = .ok (true, ()))
  | [], pre, _, h => by
    obtain ⟨b, hb⟩ := h [] .nil
    have hb' := hb
    rw [List.append_nil] at hb'
    refine ⟨b.toNat, by simp [traverseRecur, hb'], ?_⟩
    simp only [Accepts, hb]
    cases b <;> simp
  | n :: ns, pre, hn, h => by
    have ih : ∀ i < n, ∃ r, traverseRecur call ns (pre ++ [i]) () = .ok (r, ()) ∧
        (r = 0 ↔ Accepts ns fun idx => call (pre ++ (i :: idx)) () = .ok (true, ())) := by
      intro i hi
      obtain ⟨r, h1, h2⟩ := traverseRecur_accepts call ns (pre ++ [i]) (fun m hm => hn m (by simp [hm]))
        (fun idx hr => by simpa using h (i :: idx) (.cons hi hr))
      exact ⟨r, h1, by simpa using h2⟩
    classical
    obtain ⟨r, h1, h2⟩ := countLoop_zero (child := fun i st => traverseRecur call ns (pre ++ [i]) st)
      (g := fun i => if h : i < n then (ih i h).choose else 0) n 0 0
      (fun j _ hj => by
        have hj : j < n := by omega
        rw [dif_pos hj]
        exact (ih j hj).choose_spec.1)
      (by have := hn n (by simp); omega)
    refine ⟨r, h1, h2.trans ?_⟩
    simp only [Accepts, true_and, Nat.zero_le, forall_const, Nat.zero_add]
    refine forall_congr' fun i => forall_congr' fun hi => ?_
    rw [dif_pos hi]
    exact not_congr (ih i hi).choose_spec.2

theorem View.Ok.get {ty : ViewTy} {v : View T} (ok : v.Ok ty) (ha : v.alloc = true) {idx : List Nat}
    (hi : InRange idx v.extents) : ∃ x, v.get? idx = some x := by
  have : v.offset idx < v.data.length := by rw [ok.data ha]; exact ok.inside idx hi
  exact ⟨_, List.getElem?_eq_getElem this⟩

theorem compareData_accepts {ty : ViewTy} {v w : View T} (okv : v.Ok ty) (okw : w.Ok ty) (hv : v.alloc = true)
    (hw : w.alloc = true) (he : v.extents = w.extents) (eq : T → T → Bool) :
    ∃ b, compareData eq v w = .ok b ∧
      (b = true ↔ Accepts v.extents fun idx => ∃ x y, v.get? idx = some x ∧ w.get? idx = some y ∧ eq x y = true) := by
  unfold compareData
  generalize hc : compareAt eq v w = call
  have hcall : ∀ idx, InRange idx v.extents → ∃ x y, v.get? idx = some x ∧ w.get? idx = some y ∧
      call idx () = .ok (eq x y, ()) := by
    intro idx hi
    obtain ⟨x, hx⟩ := okv.get hv hi
    obtain ⟨y, hy⟩ := okw.get hw (by rw [← he]; exact hi)
    exact ⟨x, y, hx, hy, by rw [← hc]; simp [compareAt, hx, hy]⟩
  obtain ⟨r, h1, h2⟩ := traverseRecur_accepts call v.extents [] (fun n hn => okv.ext_lt n hn) (fun idx hi => by
    obtain ⟨x, y, _, _, h⟩ := hcall idx hi
    exact ⟨_, h⟩)
  refine ⟨r == 0, by rw [h1]; rfl, ?_⟩
  simp only [beq_iff_eq, h2, List.nil_append]
  have hcongr : ∀ (ns : List Nat) (f g : List Nat → Prop), (∀ idx, InRange idx ns → (f idx ↔ g idx)) →
      (Accepts ns f ↔ Accepts ns g) := by
    intro ns
    induction ns with
    | nil => intro f g h; exact not_congr (h [] .nil)
    | cons n ns ih =>
      intro f g h
      exact forall_congr' fun i => forall_congr' fun hi => not_congr (ih _ _ fun idx hr => h _ (.cons hi hr))
  refine hcongr _ _ _ fun idx hi => ?_
  obtain ⟨x, y, hx, hy, h⟩ := hcall idx hi
  rw [h]
  simp [hx, hy]

/-- The elements of two views are equal at every index. -/
def SameElements (eq : T → T → Bool) (v w : View T) : Prop :=
  ∀ idx, InRange idx v.extents → ∃ x y, v.get? idx = some x ∧ w.get? idx = some y ∧ eq x y = true

theorem meta_iff {v w : View T} : (compareExtents v w && compareMeta v w) = true ↔
    v.label = w.label ∧ v.extents = w.extents ∧ v.span = w.span := by
  simp only [compareExtents, compareMeta, Bool.and_eq_true, beq_iff_eq]
  constructor
  · rintro ⟨h1, ⟨⟨h2, h3⟩, h4⟩, h5⟩; exact ⟨h2, h1, h5⟩
  · rintro ⟨h1, h2, h3⟩
    have : v.size = w.size := by rw [View.size, h2]; rfl
    exact ⟨h2, ⟨⟨h1, this⟩, by rw [View.contig, View.contig, this, h3]⟩, h3⟩

theorem viewCompare_accepts {ty : ViewTy} {v w : View T} (okv : v.Ok ty) (okw : w.Ok ty)
    (hv : v.alloc = true) (hw : w.alloc = true) (eq : T → T → Bool) :
    ∃ b, viewCompare eq ty v w = .ok b ∧
      (b = true ↔ (compareStaticDim ty v = true ∧ compareStaticDim ty w = true) ∧
        (v.label = w.label ∧ v.extents = w.extents ∧ v.span = w.span) ∧
        Accepts v.extents fun idx => ∃ x y, v.get? idx = some x ∧ w.get? idx = some y ∧ eq x y = true) := by
  unfold viewCompare
  split
  · rename_i h
    rw [Bool.and_assoc, Bool.and_eq_true, meta_iff, Bool.and_eq_true] at h
    obtain ⟨b, h1, h2⟩ := compareData_accepts okv okw hv hw h.2.2.1 eq
    exact ⟨b, h1, h2.trans ⟨fun h3 => ⟨h.1, h.2, h3⟩, fun h3 => h3.2.2⟩⟩
  · rename_i h
    rw [Bool.and_assoc, Bool.and_eq_true, meta_iff, Bool.and_eq_true] at h
    exact ⟨false, rfl, by simp; intro h1 h2 h3 h4 h5; exact absurd ⟨⟨h1, h2⟩, h3, h4, h5⟩ h⟩

/-- C49: for views of rank 1 the comparison decides equality of labels, extents, spans and elements. -/
theorem C49_rank1 {ty : ViewTy} (hr : ty.rank = 1) {v w : View T} (okv : v.Ok ty) (okw : w.Ok ty) (hv : v.alloc = true)
    (hw : w.alloc = true) (eq : T → T → Bool) :
    ∃ b, viewCompare eq ty v w = .ok b ∧
      (b = true ↔ v.label = w.label ∧ v.extents = w.extents ∧ v.span = w.span ∧ SameElements eq v w) := by
  obtain ⟨b, h1, h2⟩ := viewCompare_accepts okv okw hv hw eq
  have hst : ∀ u : View T, u.Ok ty → compareStaticDim ty u = true := by
    intro u ok
    obtain ⟨l, dims, host⟩ := ty
    match dims, hr with
    | [none], _ => rfl
    | [some n], _ =>
      have := ok.static 0 n rfl
      simp [compareStaticDim, View.extent, List.getD, this]
  obtain ⟨n, hn⟩ : ∃ n, v.extents = [n] := List.length_eq_one_iff.1 (okv.extents.trans hr)
  refine ⟨b, h1, h2.trans ?_⟩
  simp only [hst v okv, hst w okw, true_and, and_assoc]
  refine and_congr Iff.rfl (and_congr Iff.rfl (and_congr Iff.rfl ?_))
  simp only [SameElements, hn, Accepts, Classical.not_not]
  constructor
  · intro h idx hi
    cases hi with
    | cons h1 h2 => cases h2; exact h _ h1
  · intro h i hi
    exact h [i] (.cons hi .nil)

/-- C49: what the comparison decides at every rank, for types without static extents. -/
theorem C49_accepts {ty : ViewTy} (hs : ∀ d ∈ ty.dims, d = none) {v w : View T} (okv : v.Ok ty) (okw : w.Ok ty)
    (hv : v.alloc = true) (hw : w.alloc = true) (eq : T → T → Bool) :
    ∃ b, viewCompare eq ty v w = .ok b ∧
      (b = true ↔ v.label = w.label ∧ v.extents = w.extents ∧ v.span = w.span ∧
        Accepts v.extents fun idx => ∃ x y, v.get? idx = some x ∧ w.get? idx = some y ∧ eq x y = true) := by
  obtain ⟨b, h1, h2⟩ := viewCompare_accepts okv okw hv hw eq
  have hst : ∀ u : View T, compareStaticDim ty u = true := by
    intro u
    have : ty.dims.filterMap id = [] := by
      rw [List.filterMap_eq_nil_iff]; intro d hd; rw [hs d hd]; rfl
    unfold compareStaticDim
    rw [this]
  refine ⟨b, h1, h2.trans ?_⟩
  simp only [hst, true_and, and_assoc]

/-- On equal parts the answer alternates with the rank. -/
theorem accepts_all : ∀ (ns : List Nat), (∀ n ∈ ns, 0 < n) → ∀ (f : List Nat → Prop), (∀ idx, InRange idx ns → f idx) →
    (Accepts ns f ↔ ns.length % 2 = 1)
  | [], _, f, h => by simp [Accepts, h [] .nil]
  | n :: ns, hn, f, h => by
    have ih : ∀ i < n, (Accepts ns (fun idx => f (i :: idx)) ↔ ns.length % 2 = 1) := fun i hi =>
      accepts_all ns (fun m hm => hn m (by simp [hm])) _ fun idx hr => h _ (.cons hi hr)
    have h0 := hn n (by simp)
    simp only [Accepts, List.length_cons]
    constructor
    · intro h1
      have := mt (ih 0 h0).2 (h1 0 h0)
      omega
    · intro h1 i hi h2
      have := (ih i hi).1 h2
      omega

/-- C49: a view without static extents and with elements equals itself, according to the comparison, iff its
rank is odd. -/
theorem C49_self_iff_odd {ty : ViewTy} (hs : ∀ d ∈ ty.dims, d = none) {v : View T} (ok : v.Ok ty) (ha : v.alloc = true)
    (hpos : ∀ n ∈ v.extents, 0 < n) {eq : T → T → Bool} (heq : ∀ x, eq x x = true) :
    viewCompare eq ty v v = .ok (ty.rank % 2 == 1) := by
  obtain ⟨b, h1, h2⟩ := C49_accepts hs ok ok ha ha eq
  rw [accepts_all _ hpos _ (fun idx hi => by
    obtain ⟨x, hx⟩ := ok.get ha hi
    exact ⟨x, x, hx, hx, heq x⟩), ok.extents] at h2
  rw [h1]
  congr 1
  rw [Bool.eq_iff_iff, h2]
  simp

/-- A view `View<T*..*, LayoutLeft>`. -/
def leftView (ext : List Nat) (data : List T) : View T :=
  { label := [], extents := ext, strides := leftStrides 1 ext, span := ext.prod, alloc := true, data := data }

theorem leftStrides_length : ∀ (ns : List Nat) (acc : Nat), (leftStrides acc ns).length = ns.length
  | [], _ => rfl
  | _ :: ns, acc => by simp [leftStrides, leftStrides_length ns]

theorem leftView_ok {ext : List Nat} {data : List T} (h8 : ext.length ≤ 8) (he : ∀ n ∈ ext, n < 2 ^ 64)
    (hp : ext.prod < 2 ^ 64) (hd : data.length = ext.prod) :
    (leftView ext data).Ok ⟨.left, List.replicate ext.length none, true⟩ where
  rank_le := by simpa [ViewTy.rank] using h8
  extents := by simp [leftView, ViewTy.rank]
  strides := by simp [leftView, ViewTy.rank, leftStrides_length]
  static i n h := by
    rw [List.getElem?_replicate] at h
    split at h <;> simp at h
  ext_lt := he
  str_lt h := by cases h
  size_lt := hp
  label_lt := by simp [leftView]
  data _ := hd
  inside idx hi := by
    obtain ⟨m, hm, ho⟩ := left_offset hi 1
    rw [offset_eq]
    show offsetOf idx (leftStrides 1 ext) < ext.prod
    rw [show offsetOf idx (leftStrides 1 ext) = 1 * m from ho, Nat.one_mul]
    exact hm
  span h := by cases h
  compact st h _ := by simpa [Layout.compact, leftView] using h
  scalar h := by
    have : ext = [] := by simpa [ViewTy.rank] using h
    subst this; rfl

theorem leftStrides_zero : ∀ (m acc : Nat), offsetOf (List.replicate m 0) (leftStrides acc (List.replicate m 1)) = 0
  | 0, _ => rfl
  | m + 1, acc => by
    simp only [List.replicate_succ, leftStrides, offsetOf_cons, leftStrides_zero m]
    simp

theorem accepts_ones : ∀ (m : Nat) (f : List Nat → Prop),
    Accepts (List.replicate m 1) f ↔ if m % 2 = 1 then f (List.replicate m 0) else ¬ f (List.replicate m 0)
  | 0, f => by simp [Accepts]
  | m + 1, f => by
    simp only [List.replicate_succ, Accepts, Nat.lt_one_iff, forall_eq, accepts_ones m]
    rcases Nat.mod_two_eq_zero_or_one m with h | h
    · have h' : (m + 1) % 2 = 1 := by omega
      simp [h, h']
    · have h' : (m + 1) % 2 = 0 := by omega
      simp [h, h']

/-- C49: at every rank from 2 to 8 views that differ in an element only are accepted as equal. -/
theorem C49_accepts_different {r : Nat} (h2 : 2 ≤ r) (h8 : r ≤ 8) {eq : T → T → Bool} {a b c : T} (ha : eq a a = true)
    (hbc : eq b c = false) :
    ∃ v w : View T, v.Ok ⟨.left, List.replicate r none, true⟩ ∧ w.Ok ⟨.left, List.replicate r none, true⟩ ∧
      v.alloc = true ∧ w.alloc = true ∧ v.data = [a, b] ∧ w.data = [a, c] ∧ ¬ SameElements eq v w ∧
      viewCompare eq ⟨.left, List.replicate r none, true⟩ v w = .ok true := by
  obtain ⟨m, rfl⟩ : ∃ m, r = m + 2 := ⟨r - 2, by omega⟩
  have hlen : (1 :: 2 :: List.replicate m 1).length = m + 2 := by simp
  have hprod : (1 :: 2 :: List.replicate m 1).prod = 2 := by simp
  have hext : ∀ n ∈ 1 :: 2 :: List.replicate m 1, n < 2 ^ 64 := by
    intro n hn
    simp only [List.mem_cons, List.mem_replicate] at hn
    rcases hn with rfl | rfl | ⟨_, rfl⟩ <;> decide
  have ok : ∀ x y : T, (leftView (1 :: 2 :: List.replicate m 1) [x, y]).Ok ⟨.left, List.replicate (m + 2) none, true⟩ := by
    intro x y
    have := leftView_ok (data := [x, y]) (ext := 1 :: 2 :: List.replicate m 1) (by omega) hext (by rw [hprod]; decide) (by rw [hprod]; rfl)
    rwa [hlen] at this
  have get : ∀ (x y : T) (j : Nat), (leftView (1 :: 2 :: List.replicate m 1) [x, y]).get? (0 :: j :: List.replicate m 0) = [x, y][j]? := by
    intro x y j
    simp only [View.get?, offset_eq, leftView, leftStrides, offsetOf_cons, leftStrides_zero]
    simp
  have hr : InRange (0 :: 1 :: List.replicate m 0) (1 :: 2 :: List.replicate m 1) := by
    refine .cons (by decide) (.cons (by decide) ?_)
    clear hlen hprod hext ok get h2 h8
    induction m with
    | zero => exact .nil
    | succ m ih => exact .cons (by decide) ih
  refine ⟨_, _, ok a b, ok a c, rfl, rfl, rfl, rfl, ?_, ?_⟩
  · intro h
    obtain ⟨x, y, hx, hy, he⟩ := h _ hr
    rw [get] at hx hy
    simp at hx hy
    subst hx; subst hy
    simp [hbc] at he
  · obtain ⟨bb, h1, h3⟩ := C49_accepts (ty := ⟨.left, List.replicate (m + 2) none, true⟩)
      (fun d hd => (List.mem_replicate.1 hd).2) (ok a b) (ok a c) rfl rfl eq
    rw [h1]
    congr 1
    refine h3.2 ⟨rfl, rfl, rfl, ?_⟩
    show Accepts (1 :: 2 :: List.replicate m 1) _
    simp only [Accepts, accepts_ones]
    intro i hi hall
    obtain rfl : i = 0 := by omega
    have e0 := hall 0 (by decide)
    have e1 := hall 1 (by decide)
    simp only [get] at e0 e1
    by_cases hm : m % 2 = 1
    · simp [hm, ha] at e0
    · simp [hm, hbc] at e1

/-- C49: a view of rank 0 is accepted iff the elements differ. -/
theorem C49_rank0_inverted {ty : ViewTy} (hr : ty.rank = 0) {v w : View T} (okv : v.Ok ty) (okw : w.Ok ty)
    (hv : v.alloc = true) (hw : w.alloc = true) (hl : v.label = w.label) (eq : T → T → Bool) :
    ∃ b, viewCompare eq ty v w = .ok b ∧ (b = true ↔ ¬ SameElements eq v w) := by
  obtain ⟨b, h1, h2⟩ := C49_accepts (ty := ty) (fun d hd => by
    rw [ViewTy.rank, List.length_eq_zero_iff] at hr; rw [hr] at hd; simp at hd) okv okw hv hw eq
  have e1 : v.extents = [] := List.length_eq_zero_iff.1 (okv.extents.trans hr)
  have e2 : w.extents = [] := List.length_eq_zero_iff.1 (okw.extents.trans hr)
  refine ⟨b, h1, h2.trans ?_⟩
  rw [okv.scalar hr, okw.scalar hr, e1, e2]
  simp only [hl, true_and, Accepts, SameElements, e1]
  refine not_congr ⟨fun h idx hi => ?_, fun h => h [] .nil⟩
  cases hi; exact h

/-- C49: views with two dynamic and two static extents are compared with the wrong static extents: unless
these happen to agree, a view is never accepted as equal, not even to itself. -/
theorem C49_static_extents (l : Layout) (host : Bool) (n m : Nat) {v w : View T}
    (hv : v.extent 1 ≠ n ∨ v.extent 2 ≠ m) (eq : T → T → Bool) :
    viewCompare eq ⟨l, [none, none, some n, some m], host⟩ v w = .ok false := by
  have : compareStaticDim ⟨l, [none, none, some n, some m], host⟩ v = false := by
    simp only [compareStaticDim]
    rcases hv with h | h <;> simp [h]
  simp [viewCompare, this]

/-- C49: the same for three dynamic extents and a static one. -/
theorem C49_static_extents' (l : Layout) (host : Bool) (n : Nat) {v w : View T}
    (hv : v.extent 2 ≠ n) (eq : T → T → Bool) :
    viewCompare eq ⟨l, [none, none, none, some n], host⟩ v w = .ok false := by
  have : compareStaticDim ⟨l, [none, none, none, some n], host⟩ v = false := by
    simp only [compareStaticDim]
    simp [hv]
  simp [viewCompare, this]

example : (leftView [2] [1, 2]).Ok ⟨.left, [none], true⟩ ∧
    viewCompare (· == ·) ⟨.left, [none], true⟩ (leftView [2] [1, 2]) (leftView [2] [1, 2]) = .ok true ∧
    viewCompare (· == ·) ⟨.left, [none], true⟩ (leftView [2] [1, 2]) (leftView [2] [1, 3]) = .ok false :=
  ⟨leftView_ok (ext := [2]) (by decide) (by decide) (by decide) rfl, rfl, rfl⟩

/-- `View<int**>` of 2 by 2 elements: not equal to itself, and equal to one that differs in both rows. -/
example : viewCompare (· == ·) ⟨.left, [none, none], true⟩ (leftView [2, 2] [1, 2, 3, 4]) (leftView [2, 2] [1, 2, 3, 4]) = .ok false ∧
    viewCompare (· == ·) ⟨.left, [none, none], true⟩ (leftView [2, 2] [1, 2, 3, 4]) (leftView [2, 2] [1, 2, 8, 9]) = .ok true :=
  ⟨rfl, rfl⟩

example : (leftView [2, 2, 2, 3] (List.replicate 24 0)).extent 1 ≠ 2 ∨
    (leftView [2, 2, 2, 3] (List.replicate 24 0)).extent 2 ≠ 3 := by decide

end Ckpt
