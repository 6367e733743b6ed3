import Mathlib.Data.List.Perm.Basic
import Verif.Spec.Generations
import Verif.Proofs.Stable
import Verif.Proofs.View
/-!
# Usages that last: restored objects can be written, and equality is transitive
-/

set_option autoImplicit false

namespace Ckpt

variable {T A B : Type}

theorem Usage.Lasting.clean {u : Usage T} (h : u.Lasting) (c : T → Prop) : ({ u with clean := c } : Usage T).Lasting :=
  ⟨h.ok, h.trans⟩

theorem base_lasting {R : RelMode} (cfg : Cfg) {env : Env} (hc : ∀ a b, R.cap a b → a < 2 ^ 64 → a ≤ b ∧ b < 2 ^ 64)
    (ht : ∀ a b c, R.cap a b → R.cap b c → R.cap a c) (heq : R.anyOrder → ∀ e a b, env.eq e a b = env.eq e b a) (t : Ty) :
    (Usage.base R cfg env t).Lasting :=
  ⟨fun h hs => ⟨h.1.of_rel hc heq hs, hs.byVal h.2⟩, fun _ h1 h2 => h1.trans ht h2⟩

/-! ### Lists of objects -/

theorem lasting_mem {α β : Type} {S : α → β → Prop} : ∀ {xs : List α} {ys : List β}, List.Forall₂ S xs ys → ∀ y ∈ ys,
    ∃ x ∈ xs, S x y
  | _, _, .nil, _, h => by cases h
  | _, _, .cons h t, y, hy => by
    rcases List.mem_cons.1 hy with rfl | hy
    · exact ⟨_, by simp, h⟩
    · obtain ⟨x, hx, hs⟩ := lasting_mem t y hy
      exact ⟨x, by simp [hx], hs⟩

theorem forall₂_pairwise {α : Type} {S S' Q : α → α → Prop} (hQ : ∀ a b a' b', Q a a' → Q b b' → S a b → S' a' b') :
    ∀ {xs ys : List α}, List.Forall₂ Q xs ys → xs.Pairwise S → ys.Pairwise S'
  | _, _, .nil, _ => .nil
  | _, _, .cons h t, hp => by
    rw [List.pairwise_cons] at hp ⊢
    refine ⟨fun b hb => ?_, forall₂_pairwise hQ t hp.2⟩
    obtain ⟨a, ha, hab⟩ := lasting_mem t b hb
    exact hQ _ _ _ _ h hab (hp.1 a ha)

variable {u : Usage T}

theorem Usage.Lasting.all (h : u.Lasting) {xs ys : List T} (hs : List.Forall₂ u.same xs ys) (hx : ∀ x ∈ xs, u.ok x) :
    ∀ y ∈ ys, u.ok y := by
  intro y hy
  obtain ⟨x, hx', hs⟩ := lasting_mem hs y hy
  exact h.ok (hx x hx') hs

theorem Usage.Lasting.lists (h : u.Lasting) : ∀ {xs ys zs : List T}, (∀ x ∈ xs, u.ok x) → List.Forall₂ u.same xs ys →
    List.Forall₂ u.same ys zs → List.Forall₂ u.same xs zs
  | _, _, _, _, .nil, .nil => .nil
  | _, _, _, hx, .cons h1 t1, .cons h2 t2 =>
    .cons (h.trans (hx _ (by simp)) h1 h2) (h.lists (fun x hx' => hx x (by simp [hx'])) t1 t2)

namespace Usage.Lasting

theorem vector (h : u.Lasting) (t : CppType T) : (Usage.vector t u).Lasting where
  ok hx hs := ⟨h.all hs.1 hx.1, by have := hs.1.length_eq; have := hx.2.1; have := hs.2.1; omega, hs.2.2,
    by rw [← hs.1.length_eq]; exact hx.2.2.2⟩
  trans hx h1 h2 := ⟨h.lists hx.1 h1.1 h2.1, Nat.le_trans h1.2.1 h2.2.1, h2.2.2⟩

theorem list (h : u.Lasting) (t : CppType T) : (Usage.list t u).Lasting where
  ok hx hs := ⟨h.all hs hx.1, by rw [← List.Forall₂.length_eq hs]; exact hx.2⟩
  trans hx h1 h2 := h.lists hx.1 h1 h2

theorem queue (h : u.Lasting) : (Usage.queue u).Lasting where
  ok hx hs := ⟨h.all hs hx.1, by rw [← List.Forall₂.length_eq hs]; exact hx.2⟩
  trans hx h1 h2 := h.lists hx.1 h1 h2

theorem ordered (h : u.Lasting) (a : Assoc) {lt : T → T → Bool}
    (hlt : ∀ x y x' y', u.same x x' → u.same y y' → lt x y = lt x' y') : (Usage.ordered a lt u).Lasting where
  ok hx hs := by
    refine ⟨h.all hs hx.1, by rw [← List.Forall₂.length_eq hs]; exact hx.2.1, ?_⟩
    have hp := hx.2.2
    split at hp
    · rw [if_pos ‹_›]
      exact forall₂_pairwise (fun a b a' b' ha hb h => by rw [← hlt b a b' a' hb ha]; exact h) hs hp
    · rw [if_neg ‹_›]
      exact forall₂_pairwise (fun a b a' b' ha hb h => by rw [← hlt a b a' b' ha hb]; exact h) hs hp
  trans hx h1 h2 := h.lists hx.1 h1 h2

theorem unordered (h : u.Lasting) (a : Assoc) {eq : T → T → Bool} (hsym : ∀ x y, eq x y = eq y x)
    (heq : ∀ x y x' y', u.same x x' → u.same y y' → eq x y = eq x' y') : (Usage.unordered a eq u).Lasting where
  ok := by
    rintro xs ws hx ⟨zs, h1, h2⟩
    refine ⟨fun w hw => h.all h1 hx.1 w (h2.mem_iff.2 hw), by
      have := h1.length_eq; have := h2.length_eq; have := hx.2.1; omega, fun ha => ?_⟩
    have hz : zs.Pairwise fun x y => eq x y = false :=
      forall₂_pairwise (fun a b a' b' ha hb h => by rw [← heq a b a' b' ha hb]; exact h) h1 (hx.2.2 ha)
    exact h2.pairwise hz fun {a b} h => by rw [← hsym a b]; exact h
  trans := by
    rintro xs ys zs hx ⟨ps, h1, h2⟩ ⟨qs, h3, h4⟩
    obtain ⟨rs, h5, h6⟩ := List.perm_comp_forall₂ h2 h3
    exact ⟨rs, h.lists hx.1 h1 h5, h6.trans h4⟩

theorem pair {v : Usage B} {u : Usage A} (h : u.Lasting) (h' : v.Lasting) : (Usage.pair u v).Lasting where
  ok hx hs := ⟨h.ok hx.1 hs.1, h'.ok hx.2 hs.2⟩
  trans hx h1 h2 := ⟨h.trans hx.1 h1.1 h2.1, h'.trans hx.2 h1.2 h2.2⟩

theorem sameOption (h : u.Lasting) : (∀ {x y : Option T}, (∀ v, x = some v → u.ok v) → u.sameOption x y →
      ∀ v, y = some v → u.ok v) ∧
    ∀ {x y z : Option T}, (∀ v, x = some v → u.ok v) → u.sameOption x y → u.sameOption y z → u.sameOption x z := by
  refine ⟨?_, ?_⟩
  · rintro (_ | x) (_ | y) hx hs v hv
    · cases hv
    · cases hs
    · cases hv
    · cases hv; exact h.ok (hx x rfl) hs
  · rintro (_ | x) (_ | y) (_ | z) hx h1 h2
    · trivial
    · cases h2
    · cases h1
    · cases h1
    · cases h1
    · cases h1
    · cases h2
    · exact h.trans (hx x rfl) h1 h2

theorem optional (h : u.Lasting) : (Usage.optional u).Lasting := ⟨h.sameOption.1, h.sameOption.2⟩

theorem uniquePtr (h : u.Lasting) : (Usage.uniquePtr u).Lasting := ⟨h.sameOption.1, h.sameOption.2⟩

theorem array (h : u.Lasting) (k : Nat) : (Usage.array k u).Lasting where
  ok hx hs := ⟨h.all hs hx.1, by rw [← List.Forall₂.length_eq hs]; exact hx.2.1, hx.2.2⟩
  trans hx h1 h2 := h.lists hx.1 h1 h2

/-! ### Kokkos classes -/

theorem view_ok (h : u.Lasting) {t : CppType T} {ty : ViewTy} (hz : u.ok t.zero) {v w : View T}
    (hv : ∀ x ∈ v.data, u.ok x) (hs : v.Copy ty t.zero u.same w) : ∀ y ∈ w.data, u.ok y := by
  intro y hy
  rcases hs.memory y hy with rfl | ⟨x, hx, hs⟩
  · exact hz
  · exact h.ok (hx.elim (fun e => e ▸ hz) (hv x)) hs

theorem view_trans (h : u.Lasting) {t : CppType T} {ty : ViewTy} (hz : u.ok t.zero) {v w y : View T}
    (hv : ∀ x ∈ v.data, u.ok x) (ha : v.alloc = true ∨ v.size = 0) (h1 : v.Copy ty t.zero u.same w)
    (h2 : w.Copy ty t.zero u.same y) : v.Copy ty t.zero u.same y where
  label := h2.label.trans h1.label
  extents := h2.extents.trans h1.extents
  alloc := h2.alloc
  strides := by
    rw [h2.strides, h1.strides, h1.extents]
    cases ty.layout.compact v.extents <;> rfl
  elements ha idx hi := by
    obtain ⟨a, b, e1, e2, e3⟩ := h1.elements ha idx hi
    obtain ⟨b', c, f1, f2, f3⟩ := h2.elements h1.alloc idx (by rw [h1.extents]; exact hi)
    obtain rfl : b = b' := by rw [e2] at f1; exact Option.some.inj f1
    exact ⟨a, c, e1, f2, h.trans (hv a (List.mem_of_getElem? e1)) e3 f3⟩
  fresh hf idx hi := by
    have h0 : v.size = 0 := ha.resolve_left (by simp [hf])
    have h1 := allIdx_length v.extents
    rw [show v.extents.prod = 0 from h0] at h1
    have := mem_allIdx.2 hi
    rw [List.length_eq_zero_iff.1 h1] at this
    simp at this
  memory a ha := by
    have hw := h.view_ok hz hv h1
    rcases h2.memory a ha with rfl | ⟨b, hb, hs⟩
    · exact .inl rfl
    · rcases hb with rfl | hb
      · exact .inr ⟨_, .inl rfl, hs⟩
      · rcases h1.memory b hb with rfl | ⟨c, hc, hs'⟩
        · exact .inr ⟨_, .inl rfl, hs⟩
        · exact .inr ⟨c, hc, h.trans (hc.elim (fun e => e ▸ hz) (hv c)) hs' hs⟩

theorem view (h : u.Lasting) {t : CppType T} (hz : u.ok t.zero) (ty : ViewTy) :
    (Usage.view ty t u).allocated.Lasting where
  ok hx hs := ⟨⟨hs.2, h.view_ok hz hx.1.2.1 hs.1, by
    simp only [View.size, hs.1.extents]; exact hx.1.2.2⟩, hs.1.alloc⟩
  trans hx h1 h2 := ⟨h.view_trans hz hx.1.2.1 (.inl hx.2) h1.1 h2.1, h2.2⟩

theorem constView (h : u.Lasting) {t : CppType T} (hz : u.ok t.zero) (ty : ViewTy) : (Usage.constView ty t u).Lasting where
  ok hx hs := ⟨hs.2, h.view_ok hz hx.2.1 hs.1, by
    simp only [View.size, hs.1.extents]; exact hx.2.2.1, .inl hs.1.alloc⟩
  trans hx h1 h2 := ⟨h.view_trans hz hx.2.1 hx.2.2.2 h1.1 h2.1, h2.2⟩

theorem dynRank (h : u.Lasting) {t : CppType T} (hz : u.ok t.zero) (l : Layout) :
    (Usage.dynRank l t u).dynAllocated.Lasting where
  ok := by
    rintro x y ⟨⟨h1, h2, h3⟩, h4⟩ ⟨hs, hy⟩
    rcases hs with ⟨rfl, rfl⟩ | ⟨m1, m2, hc⟩
    · exact ⟨⟨hy, h2, h3⟩, h4⟩
    · exact ⟨⟨hy, h.view_ok hz h2 hc, by simp only [View.size, hc.extents]; exact h3⟩, fun _ => hc.alloc⟩
  trans := by
    rintro x y z ⟨⟨h1, h2, h3⟩, h4⟩ ⟨hs, hy⟩ ⟨hs', hz'⟩
    refine ⟨?_, hz'⟩
    rcases hs with ⟨rfl, rfl⟩ | ⟨m1, m2, hc⟩
    · exact hs'
    · rcases hs' with ⟨rfl, _⟩ | ⟨_, m3, hc'⟩
      · cases m2
      · refine .inr ⟨m1, m3, h.view_trans hz h2 (.inl (h4 m1)) hc ?_⟩
        rw [hc.extents] at hc'
        exact hc'

theorem dynamic (h : u.Lasting) : (Usage.dynamic u).Lasting where
  ok hx hs := ⟨hs.2, h.all hs.1.elems hx.2⟩
  trans hx h1 h2 := by
    have e1 := h1.1.elems.length_eq
    refine ⟨⟨h2.1.label.trans h1.1.label, h2.1.shift.trans h1.1.shift, h.lists hx.2 h1.1.elems h2.1.elems, ?_, ?_⟩, h2.2⟩
    · have := h2.1.max_enough
      rw [h1.1.shift, ← e1] at this
      exact this
    · intro m hm
      exact h2.1.max_least m (by rw [h1.1.shift, ← e1]; exact hm)

/-! ### Classes, variants and pointers -/

theorem members : ∀ {O : Type} {us : MemberUsages O}, us.Lasting →
    (∀ {x y : O}, us.All (fun u => u.ok) x → us.Same x y → us.All (fun u => u.ok) y) ∧
    ∀ {x y z : O}, us.All (fun u => u.ok) x → us.Same x y → us.Same y z → us.Same x z
  | _, .nil, _ => ⟨fun _ _ => trivial, fun _ _ _ => trivial⟩
  | _, .cons _ _, h => ⟨fun hx hs => ⟨h.1.ok hx.1 hs.1, (members h.2).1 hx.2 hs.2⟩,
    fun hx h1 h2 => ⟨h.1.trans hx.1 h1.1 h2.1, (members h.2).2 hx.2 h1.2 h2.2⟩⟩

theorem cls {O : Type} {us : MemberUsages O} (h : us.Lasting) : (Usage.cls us).Lasting :=
  ⟨(members h).1, (members h).2⟩

theorem object {O : Type} {us : MemberUsages O} (h : us.Lasting) : (Usage.object us).Lasting :=
  ⟨(members h).1, (members h).2⟩

theorem alts : ∀ {V : Type} {us : AltUsages V}, us.Lasting → (∀ {x y : V}, us.Ok x → us.Same x y → us.Ok y) ∧
    ∀ {x y z : V}, us.Ok x → us.Same x y → us.Same y z → us.Same x z
  | _, .nil, _ => ⟨fun {x} => x.elim, fun {x} => x.elim⟩
  | _, .cons u us, h => by
    refine ⟨?_, ?_⟩
    · rintro (x | x) (y | y) hx hs
      · exact h.1.ok hx hs
      · cases hs
      · cases hs
      · exact (alts h.2).1 hx hs
    · rintro (x | x) (y | y) (z | z) hx h1 h2
      · exact h.1.trans hx h1 h2
      · cases h2
      · cases h1
      · cases h1
      · cases h1
      · cases h1
      · cases h2
      · exact (alts h.2).2 hx h1 h2

theorem variant {V : Type} {us : AltUsages V} (h : us.Lasting) : (Usage.variant us).Lasting where
  ok := by
    rintro _ _ ⟨x, rfl, hx⟩ ⟨_, y, e, rfl, hs⟩
    cases e
    exact ⟨y, rfl, (alts h).1 hx hs⟩
  trans := by
    rintro _ _ _ ⟨x, rfl, hx⟩ ⟨_, y, e, rfl, h1⟩ ⟨_, z, e', rfl, h2⟩
    cases e
    cases e'
    exact ⟨x, z, rfl, rfl, (alts h).2 hx h1 h2⟩

theorem classOf_same {V : Type} {ds : DynTypes V} {us : AltUsages V} {ps : List TypeUse} (hm : ds.Match us ps) :
    ∀ {v w : V}, us.Same v w → ds.classOf v = ds.classOf w := by
  induction hm with
  | nil => intro v; exact v.elim
  | cons d _ _ _ ih =>
    rintro (v | v) (w | w) h
    · rfl
    · cases h
    · cases h
    · exact ih h

theorem polyPtr {V : Type} {us : AltUsages V} (h : us.Lasting) (env : Env) (c : Nat) {ds : DynTypes V}
    {ps : List TypeUse} (hm : ds.Match us ps) :
    (Usage.polyPtr env c ds us).Lasting where
  ok := by
    rintro x y hx (⟨rfl, rfl⟩ | ⟨v, w, rfl, rfl, hs⟩)
    · exact hx
    · rintro _ ⟨⟩
      obtain ⟨h1, h2, h3⟩ := hx v rfl
      rw [classOf_same hm hs] at h2 h3
      exact ⟨(alts h).1 h1 hs, h2, h3⟩
  trans := by
    rintro x y z hx (⟨rfl, rfl⟩ | ⟨v, w, rfl, rfl, h1⟩) h2
    · exact h2
    · rcases h2 with ⟨e, _⟩ | ⟨_, z, e, rfl, h2⟩
      · cases e
      · cases e
        exact .inr ⟨v, z, rfl, rfl, (alts h).2 (hx v rfl).1 h1 h2⟩

end Usage.Lasting

end Ckpt
