import Verif.Proofs.ViewShared
import Verif.Props.Compose
/-!
# C73: views that share memory
-/

set_option autoImplicit false

namespace Ckpt

section
variable {R : RelMode} {cfg : Cfg} {env : Env} {T : Type}

theorem ViewUse.view {t : CppType T} {u : Usage T} {k : ViewTI} {ty : ViewTy} (hk : k.Valid) (hh : ty.host = true)
    (h : Composed R cfg env t u) : ViewUse R cfg env (.view cfg k ty t) (.view ty t u) where
  composed := .view hk hh h
  over _ := trivial
  memory _ _ h := ⟨h.1.alloc, h.2.data h.1.alloc⟩

theorem ViewUse.constView {t : CppType T} {u : Usage T} {k : ViewTI} {ty : ViewTy} (hk : k.Valid) (hs : t.SameSize cfg u)
    (hz : u.ok t.zero) (h : Composed R cfg env t u) : ViewUse R cfg env (.constView cfg k ty t) (.constView ty t u) where
  composed := .constView hk hs hz h
  over _ := trivial
  memory _ _ h := ⟨h.1.alloc, h.2.data h.1.alloc⟩

theorem ViewUse.deviceView {t : CppType T} {u : Usage T} {k : ViewTI} {ty : ViewTy} (hk : k.Valid) (hs : t.SameSize cfg u)
    (hz : u.ok t.zero) (h : Composed R cfg env t u) : ViewUse R cfg env (.view cfg k ty t) (.view ty t u) where
  composed := .deviceView hk hs hz h
  over _ := trivial
  memory _ _ h := ⟨h.1.alloc, h.2.data h.1.alloc⟩

/-- The laws of all members, at one depth. -/
theorem refItems (hv : env.Valid R (· ∈ builtinKinds) cfg) {m : VMem T} :
    ∀ {tus : List (CppType (View T) × Usage (View T))} {rs : List VRef},
    List.Forall₂ (fun tu r => ViewUse R cfg env tu.1 tu.2 ∧ tu.2.ok (m.load r)) tus rs →
    (∀ {n n' : Nat}, n ≤ n' → List.Forall₂ Elem.Le (tus.map fun tu => tu.1.elem n) (tus.map fun tu => tu.1.elem n')) ∧
    ∃ n0, ∀ n ≥ n0, ∃ qs : List (RefItem T), (∀ q ∈ qs, q.Good (Scope.quiet (· ∈ builtinKinds)) cfg m) ∧
      qs.map (·.elem) = tus.map (fun tu => tu.1.elem n) ∧ qs.map (·.ref) = rs ∧
      List.Forall₂ (fun (q : RefItem T) (p : (CppType (View T) × Usage (View T)) × VRef) => q.ref = p.2 ∧
        ∀ z, q.codec.rel (m.load q.ref) z → p.1.2.same (m.load p.2) z ∧ z.alloc = true ∧ z.data.length = z.span)
        qs (tus.zip rs)
  | _, _, .nil => ⟨fun _ => .nil, 0, fun _ _ => ⟨[], by simp, rfl, rfl, .nil⟩⟩
  | tu :: tus, r :: rs, .cons ⟨h, hok⟩ ht => by
    obtain ⟨hle, n0, h0⟩ := refItems hv ht
    obtain ⟨C, hC⟩ := h.composed.composes hv
    obtain ⟨n1, h1⟩ := hC.ok _ hok
    refine ⟨fun hnn => .cons (hC.elem_le hnn) (hle hnn), max n0 n1, fun n hn => ?_⟩
    obtain ⟨qs, hg, he, hr, hz⟩ := h0 n (by omega)
    refine ⟨⟨tu.1.elem n, C n, r⟩ :: qs, ?_, by simp [he], by simp [hr], .cons ⟨rfl, fun z hz => ?_⟩ hz⟩
    · intro q hq
      rcases List.mem_cons.1 hq with rfl | hq
      · have hP := h1 n (by omega)
        exact ⟨hC.law n, hP, fun y => hC.prior n _ y hP (h.over y)⟩
      · exact hg q hq
    · have := hC.rel n _ _ hz
      exact ⟨this, h.memory _ _ this⟩

/-- **C73**: members that are views, whatever memory they share, are read as equal views; each restored view has an
allocation of its own, that no other view refers to. -/
theorem C73_shared_views (hv : env.Valid R (· ∈ builtinKinds) cfg) {ti : TI} (hti : ti.Valid) {m : VMem T}
    {tus : List (CppType (View T) × Usage (View T))} {rs : List VRef}
    (h : List.Forall₂ (fun tu r => ViewUse R cfg env tu.1 tu.2 ∧ tu.2.ok (m.load r)) tus rs) :
    RoundTrips cfg (fun n => refsElem cfg ti (tus.map fun tu => tu.1.elem n)) (m, rs) (fun y => y.2.length = rs.length)
      (fun y w => VMem.Restored tus m rs y.1 w) := by
  obtain ⟨hle, n0, h0⟩ := refItems hv h
  obtain ⟨qs, hg, he, hr, hz⟩ := h0 n0 (Nat.le_refl _)
  have hlen : qs.length = rs.length := by rw [← hr]; simp
  refine roundTrips_of (K := (· ∈ builtinKinds)) (fun _ h => h) (n0 := n0) (C := fun y => refsCodec cfg m qs y)
    (fun hnm => refsElem_le (hle hnm) ti) (fun y => ?_) (fun y => ?_) (fun y hy => ⟨rfl, by omega⟩) ?_
  · have := refsLaw (K := Scope.quiet (· ∈ builtinKinds)) (cfg := cfg) hti hg y
    rw [he] at this
    exact this
  · show _ = _
    rw [hr]
  · rintro y _ ⟨zs, hzs, rfl⟩
    have hmem : ∀ z ∈ zs, z.alloc = true ∧ z.data.length = z.span := by
      clear hg he hr hlen h0
      intro z hm
      obtain ⟨q, hq, hqz⟩ : ∃ q ∈ qs, q.codec.rel (m.load q.ref) z := by
        clear hz
        induction hzs with
        | nil => cases hm
        | cons h1 _ ih =>
          rcases List.mem_cons.1 hm with rfl | hm
          · exact ⟨_, .head _, h1⟩
          · obtain ⟨q, hq, h⟩ := ih hm
            exact ⟨q, .tail _ hq, h⟩
      clear hzs hle h
      generalize tus.zip rs = ps at hz
      induction hz with
      | nil => cases hq
      | cons h1 _ ih =>
        rcases List.mem_cons.1 hq with rfl | hq
        · exact (h1.2 z hqz).2
        · exact ih hq
    have hloads := makeAll_loads zs y.1 hmem
    refine ⟨?_, makeAll_apart zs y.1, makeAll_new zs y.1, fun r hr => load_append (makeAll_allocs zs y.1) hr⟩
    show List.Forall₂ _ (tus.zip rs) _
    generalize (y.1.makeAll zs).1 = M at hloads ⊢
    generalize (y.1.makeAll zs).2 = L at hloads ⊢
    clear hmem hg he hr hlen h0 h hle
    generalize tus.zip rs = ps at hz ⊢
    clear hv hti
    induction hzs generalizing ps L with
    | nil => cases hz; cases hloads; exact .nil
    | cons h1 _ ih =>
      cases hz with
      | cons hz1 hz2 =>
        cases hloads with
        | cons hl1 hl2 =>
          refine .cons ?_ (ih (L := _) (ps := _) hl2 hz2)
          rw [hl1]
          exact (hz1.2 _ h1).1

/-- **C73**: what is written through one of the restored views is not seen through the others, nor through any view of
the memory that was there. -/
theorem C73_separate {tus : List (CppType (View T) × Usage (View T))} {m m0 : VMem T} {rs : List VRef}
    {w : VMem T × List VRef} (h : VMem.Restored tus m rs m0 w) {i j : Nat} (hij : i ≠ j) {r r' : VRef}
    (hi : w.2[i]? = some r) (hj : w.2[j]? = some r') (idx : List Nat) (x : T) :
    (w.1.write r idx x).load r' = w.1.load r' ∧ ∀ q : VRef, q.In m0 → (w.1.write r idx x).load q = m0.load q := by
  constructor
  · have hap : r.Apart r' := by
      rw [List.getElem?_eq_some_iff] at hi hj
      obtain ⟨hi, rfl⟩ := hi
      obtain ⟨hj, rfl⟩ := hj
      rcases Nat.lt_or_gt_of_ne hij with h1 | h1
      · exact List.pairwise_iff_getElem.1 h.apart i j hi hj h1
      · intro a o a' o' ha ha' he
        exact List.pairwise_iff_getElem.1 h.apart j i hj hi h1 a' o' a o ha' ha he.symm
    exact load_store_apart hap _
  · intro q hq
    rw [← h.rest q hq]
    refine load_store_apart ?_ _
    obtain ⟨a, o, hp, ha⟩ := h.new r (List.mem_of_getElem? hi)
    intro a1 o1 a2 o2 h1 h2
    rw [hp] at h1
    cases h1
    have := hq a2 o2 h2
    omega

theorem load_cell (m : VMem T) {r : VRef} {a o : Nat} (hp : r.place = some (a, o)) (j : Nat) :
    (m.load r).data[j]? = if j < r.span then m.cell a (o + j) else none := by
  unfold VMem.load
  rw [hp]
  simp only [VMem.cell]
  cases m.allocs[a]? with
  | none => simp
  | some p =>
    simp only [Option.getD_some, Option.bind_some]
    split
    · rename_i h
      rw [List.getElem?_take_of_lt h, List.getElem?_drop]
    · rename_i h
      exact List.getElem?_eq_none (by simp; omega)

/-- **C73**: the originals, if they refer to the same memory: what is written through one is seen through the other. -/
theorem C73_originals_share {m : VMem T} {r r' : VRef} {a o o' : Nat} (hp : r.place = some (a, o))
    (hp' : r'.place = some (a, o')) {idx : List Nat} (hi : (m.load r).offset idx < (m.load r).data.length) {j : Nat}
    (hj : o + (m.load r).offset idx = o' + j) (hs : j < r'.span) (x : T) :
    ((m.write r idx x).load r').data[j]? = some x := by
  rw [load_cell _ hp', if_pos hs, ← hj]
  have hl : ((m.load r).data.set ((m.load r).offset idx) x).length = (m.load r).data.length := by simp
  have h0 : (m.load r).data[(m.load r).offset idx]? = m.cell a (o + (m.load r).offset idx) := by
    rw [load_cell m hp, if_pos]
    have : (m.load r).data.length ≤ r.span := by
      unfold VMem.load
      rw [hp]
      simp only [List.length_take]
      omega
    omega
  have h1 := load_store (m := m) (r := r) hl
  have h2 := load_cell (m.store r ((m.load r).data.set ((m.load r).offset idx) x)) hp ((m.load r).offset idx)
  rw [h1, if_pos] at h2
  · rw [VMem.write, ← h2]
    simp [hi]
  · have : (m.load r).data.length ≤ r.span := by
      unfold VMem.load
      rw [hp]
      simp only [List.length_take]
      omega
    omega

/-- **C73**: `serializeContentsOnly` reads into the memory a view refers to: the elements of the view are those that were
written, all other memory is as it was. -/
theorem C73_contents_only (hv : env.Valid R (· ∈ builtinKinds) cfg) {ti : TI} (hti : ti.Valid) {k : ViewTI} (hk : k.Valid)
    {ty : ViewTy} (hh : ty.host = true) {t : CppType T} {u : Usage T} (h : Composed R cfg env t u) {m : VMem T} {r : VRef}
    (hx : (Usage.view ty t u).ok (m.load r)) :
    RoundTrips cfg (fun n => refContentsElem cfg ti k ty (t.elem n)) (m, r) (fun y => (m.load r).Target (y.1.load y.2))
      (fun y w => w.2 = y.2 ∧ VMem.FilledAt t.zero u.same (m.load r) y.2 y.1 w.1) := by
  obtain ⟨C, hC⟩ := h.composes hv
  obtain ⟨ok, hx1, hm⟩ := hx
  obtain ⟨n0, h0⟩ := eventually_list (xs := (m.load r).data) (Q := fun x n => (C n).P x) (fun x hx' => hC.ok x (hx1 x hx'))
  exact roundTrips_of (K := (· ∈ builtinKinds)) (fun _ h => h) (n0 := n0)
    (C := fun y => refContentsCodec cfg k ty (t.elem n0) (C n0) y)
    (fun hnm => refContentsElem_le (hC.elem_le hnm) ti k ty)
    (fun y => refContentsLaw hv.cfgOk hti hk (hC.elaw n0) (hC.zero n0) (by simp [hh]) y)
    (fun _ => ⟨ok, h0 n0 (Nat.le_refl _), fun _ => hC.multi n0 _ hm⟩)
    (fun y hy => ⟨rfl, hy⟩) (fun y w hw => ⟨hw.1, ⟨⟨hw.2.view.label, hw.2.view.extents, hw.2.view.strides, hw.2.view.span,
      hw.2.view.alloc, hw.2.view.length, fun ha idx hi => by
        obtain ⟨a, b, h1, h2, h3⟩ := hw.2.view.elements ha idx hi
        exact ⟨a, b, h1, h2, hC.rel _ _ _ h3⟩, hw.2.view.fresh, hw.2.view.outside⟩, hw.2.allocations, hw.2.labels,
      hw.2.others⟩⟩)

/-- **C73**: so the elements that were read are seen through all views of that memory. -/
theorem C73_contents_seen {z : T} {eq : T → T → Prop} {v : View T} {r r' : VRef} {m0 w : VMem T}
    (h : VMem.FilledAt z eq v r m0 w) (hv : v.alloc = true) {a o o' : Nat} (hp : r.place = some (a, o))
    (hp' : r'.place = some (a, o')) {idx : List Nat} (hi : InRange idx v.extents) {j : Nat}
    (hj : o + (m0.load r).offset idx = o' + j) (hs : j < r'.span) :
    ∃ x y, v.get? idx = some x ∧ (w.load r').data[j]? = some y ∧ eq x y := by
  obtain ⟨x, y, h1, h2, h3⟩ := h.view.elements hv idx hi
  refine ⟨x, y, h1, ?_, h3⟩
  rw [load_cell _ hp', if_pos hs, ← hj]
  have ho : (w.load r).offset idx = (m0.load r).offset idx := by
    unfold View.offset
    rw [h.view.strides]
  have h4 : (w.load r).data[(m0.load r).offset idx]? = some y := by
    rw [← h2, View.get?, ho]
  rw [load_cell _ hp] at h4
  split at h4
  · exact h4
  · cases h4

end

/-! ### A view, a subview of it and a view of `const` elements of the same memory -/

namespace Demo

/-- The elements 0, 1, 2. -/
def pool : VMem Val := ⟨[((row 3).label, (row 3).data)]⟩

def whole : VRef := { place := some (0, 0), extents := [3], strides := [1], span := 3 }
def front : VRef := { place := some (0, 0), extents := [2], strides := [1], span := 2 }
def back : VRef := { place := some (0, 1), extents := [2], strides := [1], span := 2 }

theorem load_whole : pool.load whole = row 3 := rfl
theorem load_front : pool.load front = row 2 := rfl

/-- The hypotheses of the theorems are met by these. -/
theorem pool_uses {check ndebug : Bool} : List.Forall₂
    (fun tu r => ViewUse .contents (cfg check ndebug) Demo.env tu.1 tu.2 ∧ tu.2.ok (pool.load r))
    [(rowType (cfg check ndebug), rowUse (cfg check ndebug)), (rowType (cfg check ndebug), rowUse (cfg check ndebug)),
     (constRowType (cfg check ndebug), constRowUse (cfg check ndebug))] [whole, front, whole] := by
  have h1 : ViewUse .contents (cfg check ndebug) Demo.env (rowType (cfg check ndebug)) (rowUse (cfg check ndebug)) :=
    ViewUse.view (t := .base (cfg check ndebug) Demo.env int) (u := .base .contents (cfg check ndebug) Demo.env int)
      viewTI_valid rfl (.base _)
  have h2 : ViewUse .contents (cfg check ndebug) Demo.env (constRowType (cfg check ndebug)) (constRowUse (cfg check ndebug)) :=
    ViewUse.constView (t := .base (cfg check ndebug) Demo.env int) (u := .base .contents (cfg check ndebug) Demo.env int)
      viewTI_valid int_same_size ⟨.prim rfl, trivial⟩ (.base _)
  refine .cons ⟨h1, ?_⟩ (.cons ⟨h1, ?_⟩ (.cons ⟨h2, ?_⟩ .nil))
  · rw [load_whole]; exact row_use _ 3 (by decide)
  · rw [load_front]; exact row_use _ 2 (by decide)
  · rw [load_whole]; exact ⟨row_ok _ (by decide), fun _ h => ints h, int_arr _, .inl rfl⟩

example : Demo.env.Valid .contents (· ∈ builtinKinds) (Demo.cfg true true) ∧ (Demo.env.ti int).Valid :=
  ⟨Demo.valid_contents, ti_valid _⟩

/-- What is written through the view is seen through the subview. -/
example : ((pool.write whole [1] (num 7)).load back).data[0]? = some (num 7) :=
  C73_originals_share (a := 0) (o := 0) (o' := 1) rfl rfl (by decide) rfl (by decide) _

/-- Contents of `front` can be read into `back`. -/
theorem front_target : (pool.load front).Target (pool.load back) where
  extents := rfl
  alloc := rfl
  inside idx h := by
    cases h with
    | cons h1 h2 => cases h2; simpa [View.offset, pool, back, front, VMem.load, row] using h1
  inj i j h1 h2 h := by
    cases h1 with
    | cons a1 b1 =>
      cases h2 with
      | cons a2 b2 =>
        cases b1; cases b2
        simpa [View.offset, back, VMem.load] using h

end Demo
end Ckpt
