import Mathlib.Data.List.Perm.Basic
import Verif.Proofs.CodecRel
/-!
# Observable equality is an equivalence; equal objects have equal encodings
-/

set_option autoImplicit false

namespace Ckpt

section
variable {R : RelMode} {env : Env}

theorem Rel.symm (hc : ∀ a b, R.cap a b → R.cap b a) {t : Ty} {x y : Val} (h : Rel R env t x y) :
    Rel R env t y x := by
  induction h with
  | prim => exact .prim
  | enm => exact .enm
  | chrono => exact .chrono
  | str h => exact .str h.symm
  | vec h1 h2 _ ih => exact .vec (hc _ _ h1) h2.symm fun i x y hx hy => ih i y x hy hx
  | vecBool h => exact .vecBool (hc _ _ h)
  | seq h2 _ ih => exact .seq h2.symm fun i x y hx hy => ih i y x hy hx
  | queue h2 _ ih => exact .queue h2.symm fun i x y hx hy => ih i y x hy hx
  | oset h2 _ ih => exact .oset h2.symm fun i x y hx hy => ih i y x hy hx
  | @uset a eq t xs zs ys h2 _ hp ho ih =>
    have hf : List.Forall₂ (Rel R env t) zs xs := forall₂_of_get h2.symm fun i x y hx hy => ih i y x hy hx
    obtain ⟨ws, hw1, hw2⟩ := List.perm_comp_forall₂ hp.symm hf
    obtain ⟨g1, g2⟩ := forall₂_get hw1
    rcases ho with ho | rfl
    · exact .uset g1 g2 hw2 (.inl ho)
    · obtain ⟨g1, g2⟩ := forall₂_get hf
      exact .uset g1 g2 (.refl _) (.inr rfl)
  | pair _ _ ih1 ih2 => exact .pair ih1 ih2
  | tuple h1 h2 _ ih => exact .tuple h2 h1 fun i t x y ht hx hy => ih i t y x ht hy hx
  | optNone => exact .optNone
  | optSome _ ih => exact .optSome ih
  | variant h _ ih => exact .variant h ih
  | variantBytes => exact .variantBytes
  | ptrNull => exact .ptrNull
  | ptr _ ih => exact .ptr ih
  | arr h1 h2 _ ih => exact .arr h2 h1 fun i x y hx hy => ih i y x hy hx
  | obj h1 h2 h3 _ ih =>
    exact .obj h2 h1 (fun j k p q hk hp hq => (h3 j k q p hk hq hp).symm)
      fun j k p q hk hp hq i t x y ht hx hy => ih j k q p hk hq hp i t y x ht hy hx

theorem get_trans {S : Val → Val → Prop} {S' : Val → Val → Prop} {xs ys zs : List Val} (h1 : xs.length = ys.length)
    (h : ∀ (i : Nat) x y, xs[i]? = some x → ys[i]? = some y → ∀ {z}, S y z → S' x z)
    (h' : ∀ (i : Nat) x y, ys[i]? = some x → zs[i]? = some y → S x y) :
    ∀ (i : Nat) x y, xs[i]? = some x → zs[i]? = some y → S' x y := by
  intro i x z hx hz
  have hi : i < xs.length := (List.getElem?_eq_some_iff.1 hx).1
  have hy : ys[i]? = some (ys[i]'(h1 ▸ hi)) := List.getElem?_eq_getElem _
  exact h i x _ hx hy (h' i _ z hy hz)

theorem Rel.trans (hc : ∀ a b c, R.cap a b → R.cap b c → R.cap a c) {t : Ty} {x y : Val} (h : Rel R env t x y) :
    ∀ {z : Val}, Rel R env t y z → Rel R env t x z := by
  induction h with
  | prim => exact fun h => h
  | enm => exact fun h => h
  | chrono => exact fun h => h
  | str h => intro z hz; cases hz with | str h' => exact .str (h.trans h')
  | vec h1 h2 _ ih =>
    intro z hz; cases hz with
    | vec h1' h2' h3' => exact .vec (hc _ _ _ h1 h1') (h2.trans h2') (get_trans h2 ih h3')
  | vecBool h => intro z hz; cases hz with | vecBool h' => exact .vecBool (hc _ _ _ h h')
  | seq h2 _ ih => intro z hz; cases hz with | seq h2' h3' => exact .seq (h2.trans h2') (get_trans h2 ih h3')
  | queue h2 _ ih => intro z hz; cases hz with | queue h2' h3' => exact .queue (h2.trans h2') (get_trans h2 ih h3')
  | oset h2 _ ih => intro z hz; cases hz with | oset h2' h3' => exact .oset (h2.trans h2') (get_trans h2 ih h3')
  | @uset a eq t xs zs ys h2 _ hp ho ih =>
    intro z hz
    cases hz with
    | @uset _ _ _ _ vs us h2' h3' hp' ho' =>
      have hf : List.Forall₂ (Rel R env t) ys vs := forall₂_of_get h2' h3'
      rcases ho with ho | rfl
      · obtain ⟨ws, hw1, hw2⟩ := List.perm_comp_forall₂ hp hf
        obtain ⟨g1, g2⟩ := forall₂_get hw1
        exact .uset (h2.trans g1) (get_trans h2 ih g2) (hw2.trans hp') (.inl ho)
      · exact .uset (h2.trans h2') (get_trans h2 ih h3') hp' ho'
  | pair _ _ ih1 ih2 => intro z hz; cases hz with | pair h1 h2 => exact .pair (ih1 h1) (ih2 h2)
  | tuple h1 h2 _ ih =>
    intro z hz; cases hz with
    | tuple h1' h2' h3' =>
      refine .tuple h1 h2' fun i t x z ht hx hz => ?_
      have hi := (List.getElem?_eq_some_iff.1 hx).1
      have hy := List.getElem?_eq_getElem (h2.symm ▸ h1 ▸ hi)
      exact ih i t x _ ht hx hy (h3' i t _ z ht hy hz)
  | optNone => exact fun h => h
  | optSome _ ih => intro z hz; cases hz with | optSome h => exact .optSome (ih h)
  | variant h _ ih =>
    intro z hz; cases hz with
    | variant h' h2 => exact .variant h (ih (by rw [h] at h'; cases h'; exact h2))
  | variantBytes => exact fun h => h
  | ptrNull => exact fun h => h
  | ptr _ ih => intro z hz; cases hz with | ptr h => exact .ptr (ih h)
  | arr h1 h2 _ ih =>
    intro z hz; cases hz with
    | arr h1' h2' h3' => exact .arr h1 h2' (get_trans (h1.trans h2.symm) ih h3')
  | @obj c d ps qs h1 h2 h3 _ ih =>
    intro z hz
    cases hz with
    | @obj _ _ _ rs h1' h2' h3' h4' =>
      have mid : ∀ (j k : Nat) p, (env.chain d)[j]? = some k → ps[j]? = some p → ∃ q, qs[j]? = some q := by
        intro j k p _ hp
        have hj : j < ps.length := (List.getElem?_eq_some_iff.1 hp).1
        exact ⟨_, List.getElem?_eq_getElem (by omega)⟩
      refine .obj h1 h2' (fun j k p r hk hp hr => ?_) fun j k p r hk hp hr i t x z ht hx hz => ?_
      · obtain ⟨q, hq⟩ := mid j k p hk hp
        exact ⟨(h3 j k p q hk hp hq).1, (h3' j k q r hk hq hr).2⟩
      · obtain ⟨q, hq⟩ := mid j k p hk hp
        have hi : i < p.length := (List.getElem?_eq_some_iff.1 hx).1
        have hl := h3 j k p q hk hp hq
        have hy : q[i]? = some (q[i]'(by omega)) := List.getElem?_eq_getElem _
        exact ih j k p q hk hp hq i t x _ ht hx hy (h4' j k q r hk hq hr i t _ z ht hy hz)

end

/-! ### capacities and orders equal -/

section
variable {R : RelMode} {cfg : Cfg} {env : Env}

theorem Rel.byVal {t : Ty} {x y : Val} (h : Rel R env t x y) (hb : ByVal t x) : ByVal t y := by
  cases h <;> first | trivial | exact hb

theorem mem_of_get {S : Val → Val → Prop} {xs ys : List Val} (h : xs.length = ys.length)
    (hS : ∀ (i : Nat) x y, xs[i]? = some x → ys[i]? = some y → S x y) {y : Val} (hy : y ∈ ys) :
    ∃ x ∈ xs, S x y := by
  obtain ⟨i, hi, rfl⟩ := List.getElem_of_mem hy
  exact ⟨xs[i]'(h ▸ hi), List.getElem_mem _, hS i _ _ (List.getElem?_eq_getElem _) (List.getElem?_eq_getElem _)⟩

theorem pairwise_of_get {S S' : Val → Val → Prop} {Q : Val → Val → Prop} (hQ : ∀ a b a' b', Q a a' → Q b b' → S a b → S' a' b') :
    ∀ {xs ys : List Val}, List.Forall₂ Q xs ys → xs.Pairwise S → ys.Pairwise S'
  | _, _, .nil, _ => .nil
  | _, _, .cons h t, hp => by
    rw [List.pairwise_cons] at hp ⊢
    refine ⟨fun b hb => ?_, pairwise_of_get hQ t hp.2⟩
    obtain ⟨h1, h2⟩ := forall₂_get t
    obtain ⟨a, ha, hab⟩ := mem_of_get h1 h2 hb
    exact hQ _ _ _ _ h hab (hp.1 a ha)

/-- Being a value of a type only depends on contents, as long as capacities fit their type; with unordered containers
in any order if the equality of keys is symmetric. -/
theorem WT.of_rel (hcap : ∀ a b, R.cap a b → a < 2 ^ 64 → a ≤ b ∧ b < 2 ^ 64)
    (heq : R.anyOrder → ∀ e a b, env.eq e a b = env.eq e b a) {t : Ty} {x : Val} (h : WT R env t x) :
    ∀ {y : Val}, Rel R env t x y → WT R env t y := by
  have hmem : ∀ {t : Ty} {xs ys : List Val}, xs.length = ys.length →
      (∀ (i : Nat) x y, xs[i]? = some x → ys[i]? = some y → Rel R env t x y) → (∀ x ∈ xs, ByVal t x) →
      (∀ x ∈ xs, ∀ {y}, Rel R env t x y → WT R env t y) →
      (∀ y ∈ ys, ByVal t y) ∧ (∀ y ∈ ys, WT R env t y) := by
    intro t xs ys hl hr hb hw
    refine ⟨fun y hy => ?_, fun y hy => ?_⟩
    · obtain ⟨x, hx, h⟩ := mem_of_get hl hr hy
      exact h.byVal (hb x hx)
    · obtain ⟨x, hx, h⟩ := mem_of_get hl hr hy
      exact hw x hx h
  induction h with
  | prim h => intro y hy; cases hy; exact .prim h
  | enm h => intro y hy; cases hy; exact .enm h
  | chrono h => intro y hy; cases hy; exact .chrono h
  | str h => intro y hy; cases hy with | str e => exact .str (by rw [← e]; exact h)
  | vec h1 h2 h3 h4 _ ih =>
    intro y hy; cases hy with
    | vec hc hl hr =>
      obtain ⟨c1, c2⟩ := hcap _ _ hc h2
      obtain ⟨g1, g2⟩ := hmem hl hr h4 ih
      exact .vec (by omega) c2 (by rw [← hl]; exact h3) g1 g2
  | vecBool h1 h2 => intro y hy; cases hy with | vecBool hc => obtain ⟨c1, c2⟩ := hcap _ _ hc h2; exact .vecBool (by omega) c2
  | seq h1 h2 _ ih =>
    intro y hy; cases hy with
    | seq hl hr => obtain ⟨g1, g2⟩ := hmem hl hr h2 ih; exact .seq (by omega) g1 g2
  | queue h1 h2 _ ih =>
    intro y hy; cases hy with
    | queue hl hr => obtain ⟨g1, g2⟩ := hmem hl hr h2 ih; exact .queue (by omega) g1 g2
  | oset h1 hc hs h2 _ ih =>
    intro y hy; cases hy with
    | oset hl hr =>
      obtain ⟨g1, g2⟩ := hmem hl hr h2 ih
      refine .oset (by omega) hc ?_ g1 g2
      unfold Env.Sorted at hs ⊢
      have hf := forall₂_of_get hl hr
      split at hs
      · rw [if_pos ‹_›]
        exact pairwise_of_get (fun a b a' b' ha hb h => by rw [← hc b a b' a' hb ha]; exact h) hf hs
      · rw [if_neg ‹_›]
        exact pairwise_of_get (fun a b a' b' ha hb h => by rw [← hc a b a' b' ha hb]; exact h) hf hs
  | @uset a e t xs h1 hc hs ho h2 _ ih =>
    intro y hy; cases hy with
    | @uset _ _ _ _ zs ys hl hr hp ho' =>
      obtain ⟨g1, g2⟩ := hmem hl hr h2 ih
      have hlen := hp.length_eq
      refine .uset (by omega) hc (fun ha => ?_) (ho.imp id fun h => by omega) (fun y hy => g1 y (hp.mem_iff.2 hy))
        fun y hy => g2 y (hp.mem_iff.2 hy)
      have hz : zs.Pairwise fun x y => env.eq e x y = false := pairwise_of_get (fun a b a' b' ha hb h => by rw [← hc a b a' b' ha hb]; exact h)
        (forall₂_of_get hl hr) (hs ha)
      rcases ho' with ho' | rfl
      · exact hp.pairwise hz fun {a b} h => by rw [← heq ho' _ a b]; exact h
      · exact hz
  | pair h1 h2 _ _ ih1 ih2 =>
    intro y hy; cases hy with
    | pair r1 r2 => exact .pair (r1.byVal h1) (r2.byVal h2) (ih1 r1) (ih2 r2)
  | @tuple ts xs h1 h2 _ ih =>
    intro y hy; cases hy with
    | @tuple _ _ ys l1 l2 hr =>
      have mid : ∀ (i : Nat) t z, ts[i]? = some t → ys[i]? = some z → ∃ x, xs[i]? = some x := by
        intro i t z _ hz
        have hi := (List.getElem?_eq_some_iff.1 hz).1
        exact ⟨_, List.getElem?_eq_getElem (by omega)⟩
      refine .tuple l2 (fun i t z ht hz => ?_) fun i t z ht hz => ?_
      · obtain ⟨x, hx⟩ := mid i t z ht hz
        exact (hr i t x z ht hx hz).byVal (h2 i t x ht hx)
      · obtain ⟨x, hx⟩ := mid i t z ht hz
        exact ih i t x ht hx (hr i t x z ht hx hz)
  | optNone => intro y hy; cases hy; exact .optNone
  | optSome h1 _ ih => intro y hy; cases hy with | optSome r => exact .optSome (r.byVal h1) (ih r)
  | variantBytes h h' => intro y hy; cases hy; exact .variantBytes h h'
  | variant hb h1 h2 h3 _ ih =>
    intro y hy; cases hy with
    | variant h' r =>
      rw [h1] at h'
      cases h'
      exact .variant hb h1 h2 (r.byVal h3) (ih r)
  | ptrNull => intro y hy; cases hy; exact .ptrNull
  | ptr h1 h2 _ ih =>
    intro y hy; cases hy with
    | ptr r =>
      refine .ptr (fun h => r.byVal (h1 h)) (fun c d ps ht hy hv => ?_) (ih r)
      subst ht hy
      cases r with
      | obj => exact h2 c d _ rfl rfl hv
  | arr h1 h2 h3 _ ih =>
    intro y hy; cases hy with
    | arr l1 l2 hr => obtain ⟨g1, g2⟩ := hmem (l1.trans l2.symm) hr h3 ih; exact .arr l2 h2 g1 g2
  | @obj c d ps h1 h2 h3 h4 h5 _ ih =>
    intro y hy; cases hy with
    | @obj _ _ _ qs l1 l2 l3 hr =>
      have mid : ∀ (j k : Nat) q, (env.chain d)[j]? = some k → qs[j]? = some q → ∃ p, ps[j]? = some p := by
        intro j k q _ hq
        have hj : j < qs.length := (List.getElem?_eq_some_iff.1 hq).1
        exact ⟨_, List.getElem?_eq_getElem (by omega)⟩
      have mid2 : ∀ (j k : Nat) p q, (env.chain d)[j]? = some k → ps[j]? = some p → qs[j]? = some q →
          ∀ (i : Nat) y, q[i]? = some y → ∃ x, p[i]? = some x := by
        intro j k p q hk hp hq i y hy
        have hi : i < q.length := (List.getElem?_eq_some_iff.1 hy).1
        have := l3 j k p q hk hp hq
        exact ⟨_, List.getElem?_eq_getElem (by omega)⟩
      refine .obj h1 h2 l2 (fun j k q hk hq => ?_) (fun j k q hk hq i t y ht hy => ?_)
        fun j k q hk hq i t y ht hy => ?_
      · obtain ⟨p, hp⟩ := mid j k q hk hq
        exact (l3 j k p q hk hp hq).2
      · obtain ⟨p, hp⟩ := mid j k q hk hq
        obtain ⟨x, hx⟩ := mid2 j k p q hk hp hq i y hy
        exact (hr j k p q hk hp hq i t x y ht hx hy).byVal (h5 j k p hk hp i t x ht hx)
      · obtain ⟨p, hp⟩ := mid j k q hk hq
        obtain ⟨x, hx⟩ := mid2 j k p q hk hp hq i y hy
        exact ih j k p hk hp i t x ht hx (hr j k p q hk hp hq i t x y ht hx hy)

theorem flatMap_get {f g : Val → Bytes} {xs ys : List Val} (h : xs.length = ys.length)
    (hS : ∀ (i : Nat) x y, xs[i]? = some x → ys[i]? = some y → f x = g y) : xs.flatMap f = ys.flatMap g := by
  have := forall₂_of_get (S := fun x y => f x = g y) h hS
  clear h hS
  induction this with
  | nil => rfl
  | cons h _ ih => simp [h, ih]

theorem members_get {cfg : Cfg} {w : Bool} {E : Ty → Elem Val} {C : Ty → Codec Val} : ∀ {ts : List Ty} {p q : List Val},
    p.length = ts.length → q.length = ts.length →
    (∀ (i : Nat) t x y, ts[i]? = some t → p[i]? = some x → q[i]? = some y → (C t).enc w x = (C t).enc w y) →
    membersEnc cfg w E C ts p = membersEnc cfg w E C ts q
  | [], [], [], _, _, _ => rfl
  | t :: ts, x :: p, y :: q, hp, hq, h => by
    have h1 := h 0 t x y rfl rfl rfl
    have h2 := members_get (cfg := cfg) (w := w) (E := E) (C := C) (ts := ts) (p := p) (q := q) (by simpa using hp)
      (by simpa using hq) (fun i t x y a b c => h (i + 1) t x y (by simpa using a) (by simpa using b) (by simpa using c))
    simp [membersEnc, nodeEnc, h1, h2]
  | [], _ :: _, _, hp, _, _ => by simp at hp
  | [], [], _ :: _, _, hq, _ => by simp at hq
  | _ :: _, [], _, hp, _, _ => by simp at hp
  | _ :: _, _ :: _, [], _, hq, _ => by simp at hq

theorem chain_get {cfg : Cfg} {w : Bool} {ti : Nat → TI} {enc : Nat → List Val → Bytes} :
    ∀ {ks : List Nat} {ps qs : List (List Val)}, ps.length = ks.length → qs.length = ks.length →
    (∀ (j k : Nat) p q, ks[j]? = some k → ps[j]? = some p → qs[j]? = some q → enc k p = enc k q) →
    chainEnc cfg w ti enc ks ps = chainEnc cfg w ti enc ks qs
  | [], [], [], _, _, _ => rfl
  | k :: ks, p :: ps, q :: qs, hp, hq, h => by
    have h1 := h 0 k p q rfl rfl rfl
    have h2 := chain_get (cfg := cfg) (w := w) (ti := ti) (enc := enc) (ks := ks) (ps := ps) (qs := qs)
      (by simpa using hp) (by simpa using hq)
      (fun i t x y a b c => h (i + 1) t x y (by simpa using a) (by simpa using b) (by simpa using c))
    simp [chainEnc, h1, h2]
  | [], _ :: _, _, hp, _, _ => by simp at hp
  | [], [], _ :: _, _, hq, _ => by simp at hq
  | _ :: _, [], _, hp, _, _ => by simp at hp
  | _ :: _, _ :: _, [], _, hq, _ => by simp at hq

theorem codec_enc_eq {R' : RelMode} (hplain : ∀ c, (env.cls c).virt = false → (env.cls c).bases = []) : ∀ (n : Nat) (t : Ty) (x y : Val) (w : Bool), WT R' env t x → Rel .exact env t x y →
    (codec R cfg env n t).enc w x = (codec R cfg env n t).enc w y := by
  intro n
  induction n with
  | zero => intros; rfl
  | succ n ih =>
    intro t x y w hx h
    have hseq : ∀ {t : Ty} {xs ys : List Val}, xs.length = ys.length → (∀ x ∈ xs, WT R' env t x) →
        (∀ (i : Nat) x y, xs[i]? = some x → ys[i]? = some y → Rel .exact env t x y) →
        seqEnc cfg w (env.ti t) ((codec R cfg env n t).byVal t) xs =
          seqEnc cfg w (env.ti t) ((codec R cfg env n t).byVal t) ys := by
      intro t xs ys hl hw hr
      have := flatMap_get (f := nodeEnc cfg w (env.ti t) ((codec R cfg env n t).byVal t))
          (g := nodeEnc cfg w (env.ti t) ((codec R cfg env n t).byVal t)) hl
          (fun i a b ha hb => by
            simp only [nodeEnc, Codec.byVal, ih _ a b w (hw a (List.mem_of_getElem? ha)) (hr i a b ha hb)])
      simp only [seqEnc, hl, this]
    cases h with
    | prim => rfl
    | enm => rfl
    | chrono => rfl
    | str h => simp only [codec, h]
    | vec hc hl hr =>
      obtain rfl : _ = _ := hc
      cases hx with
      | vec _ _ _ _ hw =>
        have := flatMap_get (f := (codec R cfg env n _).enc w) (g := (codec R cfg env n _).enc w) hl
          (fun i a b ha hb => ih _ a b w (hw a (List.mem_of_getElem? ha)) (hr i a b ha hb))
        simp only [codec, vecEnc, arrEnc, Codec.byVal, hl, this]
    | vecBool hc => obtain rfl : _ = _ := hc; rfl
    | seq hl hr =>
      cases hx with
      | seq _ _ hw => simp only [codec]; exact hseq hl hw hr
    | queue hl hr =>
      cases hx with
      | queue _ _ hw => simp only [codec]; exact hseq hl hw hr
    | oset hl hr =>
      cases hx with
      | oset _ _ _ _ hw => simp only [codec]; exact hseq hl hw hr
    | uset hl hr hp ho =>
      obtain rfl : _ = _ := ho.resolve_left id
      cases hx with
      | uset _ _ _ _ _ hw => simp only [codec]; exact hseq hl hw hr
    | pair r1 r2 =>
      cases hx with
      | pair _ _ w1 w2 => simp only [codec, nodeEnc, Codec.byVal, ih _ _ _ w w1 r1, ih _ _ _ w w2 r2]
    | @tuple ts xs ys l1 l2 hr =>
      cases hx with
      | tuple _ _ hw =>
        simp only [codec, tupleEnc]
        congr 1
        funext i
        simp only [memberEnc]
        cases ht : ts[i]? with
        | none => rfl
        | some t =>
          have hi := (List.getElem?_eq_some_iff.1 ht).1
          have hx := List.getElem?_eq_getElem (l := xs) (i := i) (by omega)
          have hy := List.getElem?_eq_getElem (l := ys) (i := i) (by omega)
          simp only [hx, hy, nodeEnc, Codec.byVal, ih t _ _ w (hw i t _ ht hx) (hr i t _ _ ht hx hy)]
    | optNone => rfl
    | optSome r =>
      cases hx with
      | optSome _ w1 => simp only [codec, optEnc, nodeEnc, Codec.byVal, ih _ _ _ w w1 r]
    | variantBytes => rfl
    | variant h r =>
      cases hx with
      | variant hb h' _ _ w1 =>
        rw [codec_variant hb]
        rw [h] at h'
        cases h'
        simp only [variantCodec, variantEnc, nodeEnc, Codec.byVal, h, ih _ _ _ w w1 r]
    | ptrNull => rfl
    | @ptr t x y r =>
      cases hx with
      | ptr _ _ w1 =>
        simp only [codec, uptrEnc, nodeEnc, ih _ _ _ w w1 r]
        have hd : ∀ vi, env.virt cfg t = some vi → vi.dynIdx x = vi.dynIdx y := by
          intro vi hvi
          cases t <;> simp only [Env.virt] at hvi <;> try cases hvi
          split at hvi
          · cases hvi
            cases r
            rfl
          · cases hvi
        cases hvi : env.virt cfg t with
        | none => rfl
        | some vi => simp only [Option.map_some, hd vi hvi]
    | arr l1 l2 hr =>
      cases hx with
      | arr _ _ _ hw =>
        have := flatMap_get (f := (codec R cfg env n _).enc w) (g := (codec R cfg env n _).enc w) (l1.trans l2.symm)
          (fun i a b ha hb => ih _ a b w (hw a (List.mem_of_getElem? ha)) (hr i a b ha hb))
        simp only [codec, arrEnc, Codec.byVal, l1, l2, this]
    | @obj c d ps qs l1 l2 l3 hr =>
      cases hx with
      | obj h1 h2 h3 h4 h5 hw =>
        have hm : ∀ (j k : Nat) p q, (env.chain d)[j]? = some k → ps[j]? = some p → qs[j]? = some q →
            membersEnc cfg w (fun t => elem cfg env n t) (fun t => (codec R cfg env n t).byVal t) (env.cls k).fields p =
            membersEnc cfg w (fun t => elem cfg env n t) (fun t => (codec R cfg env n t).byVal t) (env.cls k).fields q :=
          fun j k p q hk hp hq => members_get (l3 j k p q hk hp hq).1 (l3 j k p q hk hp hq).2
            fun i t x y ht hx hy => ih t x y w (hw j k p hk hp i t x ht hx) (hr j k p q hk hp hq i t x y ht hx hy)
        simp only [codec]
        split
        · exact chain_get l1 l2 hm
        · rename_i hvirt
          have hvirt : (env.cls c).virt = false := by simpa using hvirt
          obtain rfl := h2 hvirt
          have hch : env.chain d = [d] := by simp [Env.chain, hplain d hvirt]
          rw [hch] at l1 l2
          obtain ⟨p, rfl⟩ := List.length_eq_one_iff.1 l1
          obtain ⟨q, rfl⟩ := List.length_eq_one_iff.1 l2
          have := hm 0 d p q (by simp [hch]) rfl rfl
          simp only [List.flatMap_cons, List.flatMap_nil, this]

end
end Ckpt
