import Verif.Proofs.Codec
/-!
The codec relations agree with the specifications `Rel`, `WT`, `Clean`.
-/

set_option autoImplicit false

namespace Ckpt

variable {R : RelMode} {cfg : Cfg} {env : Env}

theorem forall₂_get {α : Type} {S : α → α → Prop} {xs ys : List α} (h : List.Forall₂ S xs ys) :
    xs.length = ys.length ∧ ∀ (i : Nat) x y, xs[i]? = some x → ys[i]? = some y → S x y := by
  refine ⟨h.length_eq, ?_⟩
  induction h with
  | nil => intro i x y hx; simp at hx
  | cons h1 _ ih =>
    intro i x y hx hy
    cases i with
    | zero => simp at hx hy; subst hx hy; exact h1
    | succ i => exact ih i x y (by simpa using hx) (by simpa using hy)

theorem forall₂_of_get {α : Type} {S : α → α → Prop} : ∀ {xs ys : List α}, xs.length = ys.length →
    (∀ (i : Nat) x y, xs[i]? = some x → ys[i]? = some y → S x y) → List.Forall₂ S xs ys
  | [], [], _, _ => .nil
  | x :: xs, y :: ys, h, hg => .cons (hg 0 x y rfl rfl)
      (forall₂_of_get (by simpa using h) (fun i a b ha hb => hg (i + 1) a b (by simpa using ha)
        (by simpa using hb)))
  | [], _ :: _, h, _ => by simp at h
  | _ :: _, [], h, _ => by simp at h

theorem codec_rel : ∀ (n : Nat) (t : Ty) (x y : Val), (codec R cfg env n t).rel x y → Rel R env t x y := by
  intro n
  induction n with
  | zero => intro t x y h; exact h.elim
  | succ n ih =>
    have ih2 : ∀ {t : Ty} {xs ys : List Val}, List.Forall₂ ((codec R cfg env n t).byVal t).rel xs ys →
        xs.length = ys.length ∧ ∀ (i : Nat) x y, xs[i]? = some x → ys[i]? = some y → Rel R env t x y := by
      intro t xs ys h
      obtain ⟨h1, h2⟩ := forall₂_get h
      exact ⟨h1, fun i x y hx hy => ih t x y (h2 i x y hx hy)⟩
    intro t x y h
    cases t <;> simp only [codec] at h
    case prim => simp only [rawCodec] at h; split at h; · subst h; exact .prim
                 · exact h.elim
    case enm => simp only [underCodec] at h; split at h; · subst h; exact .enm
                · exact h.elim
    case chrono => simp only [underCodec] at h; split at h; · subst h; exact .chrono
                   · exact h.elim
    case str => split at h; · exact .str h
                · exact h.elim
    case vec t =>
      split at h
      · obtain ⟨h1, h2⟩ := ih2 h.1; exact .vec h.2 h1 h2
      · exact h.elim
    case vecBool => split at h; · obtain ⟨rfl, h2⟩ := h; exact .vecBool h2
                    · exact h.elim
    case seq k t =>
      split at h
      · obtain ⟨h1, h2⟩ := ih2 h; exact .seq h1 h2
      · exact h.elim
    case queue t =>
      split at h
      · obtain ⟨h1, h2⟩ := ih2 h; exact .queue h1 h2
      · exact h.elim
    case oset =>
      split at h
      · obtain ⟨h1, h2⟩ := ih2 h; exact .oset h1 h2
      · exact h.elim
    case uset =>
      split at h
      · obtain ⟨zs, hz, hp, ho⟩ := h
        obtain ⟨h1, h2⟩ := ih2 hz; exact .uset h1 h2 hp ho
      · exact h.elim
    case pair =>
      split at h
      · exact .pair (ih _ _ _ h.1) (ih _ _ _ h.2)
      · exact h.elim
    case tuple =>
      split at h
      · obtain ⟨⟨h1, h2⟩, h3⟩ := All3.get h
        exact .tuple h1.symm (by rw [h1, h2]) (fun i t x y ht hx hy => ih _ _ _ (h3 i t x y ht hx hy))
      · exact h.elim
    case opt =>
      split at h
      · rcases h with ⟨rfl, rfl⟩ | ⟨a, b, rfl, rfl, hr⟩
        · exact .optNone
        · exact .optSome (ih _ _ _ hr)
      · exact h.elim
    case variant =>
      split at h
      · simp only [rawCodec] at h
        split at h
        · subst h; exact .variantBytes
        · exact h.elim
      · simp only [variantCodec] at h
        split at h
        · obtain ⟨rfl, t, ht, hr⟩ := h
          exact .variant ht (ih _ _ _ hr)
        · exact h.elim
    case uptr =>
      split at h
      · rcases h with ⟨rfl, rfl⟩ | ⟨a, b, rfl, rfl, hr⟩
        · exact .ptrNull
        · exact .ptr (ih _ _ _ hr)
      · exact h.elim
    case arr =>
      split at h
      · obtain ⟨h1, h2⟩ := ih2 h.2
        exact .arr (by rw [h1]; exact h.1) h.1 h2
      · exact h.elim
    case cls c =>
      split at h
      · obtain ⟨rfl, h⟩ := h
        obtain ⟨⟨h1, h2⟩, h3⟩ := All3.get h
        refine .obj h1.symm (by rw [h1, h2]) ?_ ?_
        · intro j k p q hk hp hq
          obtain ⟨⟨g1, g2⟩, _⟩ := All3.get (h3 j k p q hk hp hq).2
          exact ⟨g1.symm, by rw [g1, g2]⟩
        · intro j k p q hk hp hq i t x y ht hx hy
          exact ih _ _ _ ((All3.get (h3 j k p q hk hp hq).2).2 i t x y ht hx hy)
      · exact h.elim

theorem All2.of_get {ι T : Type} {S : ι → T → Prop} : ∀ {ts : List ι} {xs : List T},
    ts.length = xs.length →
    (∀ (i : Nat) t x, ts[i]? = some t → xs[i]? = some x → S t x) → All2 S ts xs
  | [], [], _, _ => trivial
  | t :: ts, x :: xs, h1, h => ⟨h 0 t x rfl rfl, All2.of_get (by simpa using h1)
      (fun i t' x' ht hx => h (i + 1) t' x' (by simpa using ht) (by simpa using hx))⟩
  | [], _ :: _, h, _ => by simp at h
  | _ :: _, [], h, _ => by simp at h

/-- A property that holds eventually for each element of a list holds eventually for all. -/
theorem eventually_list {α : Type _} {Q : α → Nat → Prop} : ∀ {xs : List α},
    (∀ x ∈ xs, ∃ n0, ∀ n ≥ n0, Q x n) → ∃ n0, ∀ n ≥ n0, ∀ x ∈ xs, Q x n
  | [], _ => ⟨0, by simp⟩
  | x :: xs, h => by
    obtain ⟨a, ha⟩ := h x (by simp)
    obtain ⟨b, hb⟩ := eventually_list (xs := xs) (fun y hy => h y (by simp [hy]))
    refine ⟨max a b, fun n hn y hy => ?_⟩
    rcases List.mem_cons.1 hy with rfl | hy
    · exact ha n (by omega)
    · exact hb n (by omega) y hy

theorem eventually_get {α : Type} {Q : Nat → α → Nat → Prop} {xs : List α}
    (h : ∀ i x, xs[i]? = some x → ∃ n0, ∀ n ≥ n0, Q i x n) :
    ∃ n0, ∀ n ≥ n0, ∀ i x, xs[i]? = some x → Q i x n := by
  have := eventually_list (xs := xs.zipIdx) (Q := fun p n => Q p.2 p.1 n) (by
    intro p hp
    apply h
    rw [List.mem_zipIdx_iff_getElem?] at hp
    exact hp)
  obtain ⟨n0, h0⟩ := this
  refine ⟨n0, fun n hn i x hx => h0 n hn (x, i) ?_⟩
  rw [List.mem_zipIdx_iff_getElem?]
  exact hx

theorem codec_P {t : Ty} {v : Val} (h : WT R env t v) :
    ∃ n0, ∀ n ≥ n0, (codec R cfg env n t).P v := by
  induction h with
  | prim h => exact ⟨1, fun n hn => by obtain ⟨m, rfl⟩ := Nat.exists_eq_add_of_le' hn; exact h⟩
  | enm h => exact ⟨1, fun n hn => by obtain ⟨m, rfl⟩ := Nat.exists_eq_add_of_le' hn; exact h⟩
  | chrono h => exact ⟨1, fun n hn => by obtain ⟨m, rfl⟩ := Nat.exists_eq_add_of_le' hn; exact h⟩
  | str h => exact ⟨1, fun n hn => by obtain ⟨m, rfl⟩ := Nat.exists_eq_add_of_le' hn; exact h⟩
  | @vec t cap xs h1 h2 h3 h4 _ ih =>
    obtain ⟨n0, h0⟩ := eventually_list ih
    refine ⟨n0 + 1, fun n hn => ?_⟩
    obtain ⟨m, rfl⟩ := Nat.exists_eq_add_of_le' (show 1 ≤ n by omega)
    refine ⟨fun x hx => ⟨h0 m (by omega) x hx, h4 x hx⟩, h1, h2, ?_⟩
    cases m with
    | zero => trivial
    | succ m => cases t <;> first | trivial | exact codec_variant_multi _ _
  | vecBool h1 h2 =>
    exact ⟨1, fun n hn => by obtain ⟨m, rfl⟩ := Nat.exists_eq_add_of_le' hn; exact ⟨h1, h2⟩⟩
  | seq h1 h2 _ ih =>
    obtain ⟨n0, h0⟩ := eventually_list ih
    refine ⟨n0 + 1, fun n hn => ?_⟩
    obtain ⟨m, rfl⟩ := Nat.exists_eq_add_of_le' (show 1 ≤ n by omega)
    exact ⟨fun x hx => ⟨h0 m (by omega) x hx, h2 x hx⟩, h1⟩
  | queue h1 h2 _ ih =>
    obtain ⟨n0, h0⟩ := eventually_list ih
    refine ⟨n0 + 1, fun n hn => ?_⟩
    obtain ⟨m, rfl⟩ := Nat.exists_eq_add_of_le' (show 1 ≤ n by omega)
    exact ⟨fun x hx => ⟨h0 m (by omega) x hx, h2 x hx⟩, h1⟩
  | oset h1 hr hs h2 _ ih =>
    obtain ⟨n0, h0⟩ := eventually_list ih
    refine ⟨n0 + 1, fun n hn => ?_⟩
    obtain ⟨m, rfl⟩ := Nat.exists_eq_add_of_le' (show 1 ≤ n by omega)
    exact ⟨⟨fun x hx => ⟨h0 m (by omega) x hx, h2 x hx⟩, h1⟩, hr, hs⟩
  | uset h1 hr hs ho h2 _ ih =>
    obtain ⟨n0, h0⟩ := eventually_list ih
    refine ⟨n0 + 1, fun n hn => ?_⟩
    obtain ⟨m, rfl⟩ := Nat.exists_eq_add_of_le' (show 1 ≤ n by omega)
    exact ⟨⟨fun x hx => ⟨h0 m (by omega) x hx, h2 x hx⟩, h1⟩, hr, hs, ho⟩
  | pair h1 h2 _ _ ih1 ih2 =>
    obtain ⟨n1, g1⟩ := ih1
    obtain ⟨n2, g2⟩ := ih2
    refine ⟨max n1 n2 + 1, fun n hn => ?_⟩
    obtain ⟨m, rfl⟩ := Nat.exists_eq_add_of_le' (show 1 ≤ n by omega)
    exact ⟨⟨g1 m (by omega), h1⟩, ⟨g2 m (by omega), h2⟩⟩
  | @tuple ts xs h1 h2 _ ih =>
    have := eventually_get (xs := xs) (Q := fun i x n => ∀ t, ts[i]? = some t → (codec R cfg env n t).P x)
      (by
        intro i x hx
        have hi : i < ts.length := by
          rcases Nat.lt_or_ge i xs.length with h | h
          · omega
          · rw [List.getElem?_eq_none h] at hx; cases hx
        obtain ⟨n0, h0⟩ := ih i ts[i] x (List.getElem?_eq_getElem hi) hx
        refine ⟨n0, fun n hn t ht => ?_⟩
        rw [List.getElem?_eq_getElem hi] at ht
        cases ht
        exact h0 n hn)
    obtain ⟨n0, h0⟩ := this
    refine ⟨n0 + 1, fun n hn => ?_⟩
    obtain ⟨m, rfl⟩ := Nat.exists_eq_add_of_le' (show 1 ≤ n by omega)
    exact All2.of_get h1.symm (fun i t x ht hx => ⟨h0 m (by omega) i x hx t ht, h2 i t x ht hx⟩)
  | optNone =>
    exact ⟨1, fun n hn => by
      obtain ⟨m, rfl⟩ := Nat.exists_eq_add_of_le' hn; exact fun a h => by cases h⟩
  | optSome h1 _ ih =>
    obtain ⟨n0, h0⟩ := ih
    refine ⟨n0 + 1, fun n hn => ?_⟩
    obtain ⟨m, rfl⟩ := Nat.exists_eq_add_of_le' (show 1 ≤ n by omega)
    intro a ha
    cases ha
    exact ⟨h0 m (by omega), h1⟩
  | variantBytes hb h =>
    exact ⟨1, fun n hn => by
      obtain ⟨m, rfl⟩ := Nat.exists_eq_add_of_le' hn; rw [codec_variantBytes hb]; exact h⟩
  | variant hb ht hi h1 _ ih =>
    obtain ⟨n0, h0⟩ := ih
    refine ⟨n0 + 1, fun n hn => ?_⟩
    obtain ⟨m, rfl⟩ := Nat.exists_eq_add_of_le' (show 1 ≤ n by omega)
    rw [codec_variant hb]
    exact ⟨hi, _, ht, h0 m (by omega), h1⟩
  | ptrNull =>
    exact ⟨1, fun n hn => by
      obtain ⟨m, rfl⟩ := Nat.exists_eq_add_of_le' hn; exact fun a h => by cases h⟩
  | ptr h1 h2 _ ih =>
    obtain ⟨n0, h0⟩ := ih
    refine ⟨n0 + 1, fun n hn => ?_⟩
    obtain ⟨m, rfl⟩ := Nat.exists_eq_add_of_le' (show 1 ≤ n by omega)
    intro a ha
    cases ha
    exact ⟨h0 m (by omega), h1, h2⟩
  | @arr k t xs h1 h3 h2 _ ih =>
    obtain ⟨n0, h0⟩ := eventually_list ih
    refine ⟨n0 + 1, fun n hn => ?_⟩
    obtain ⟨m, rfl⟩ := Nat.exists_eq_add_of_le' (show 1 ≤ n by omega)
    refine ⟨h1, fun x hx => ⟨h0 m (by omega) x hx, h2 x hx⟩, ?_⟩
    rw [h1]
    cases m with
    | zero => trivial
    | succ m => cases t <;> first | trivial | exact codec_variant_multi _ _
  | @obj c d ps hc hd hl hlen hbv _ ih =>
    have := eventually_get (xs := ps) (Q := fun j p n => ∀ k, (env.chain d)[j]? = some k →
        ∀ (i : Nat) t x, (env.cls k).fields[i]? = some t → p[i]? = some x → (codec R cfg env n t).P x)
      (by
        intro j p hp
        have hj : j < (env.chain d).length := by
          rcases Nat.lt_or_ge j ps.length with h | h
          · omega
          · rw [List.getElem?_eq_none h] at hp; cases hp
        have hk := List.getElem?_eq_getElem hj
        have := eventually_get (xs := p) (Q := fun i x n => ∀ t,
            (env.cls (env.chain d)[j]).fields[i]? = some t → (codec R cfg env n t).P x) (by
          intro i x hx
          have hi : i < (env.cls (env.chain d)[j]).fields.length := by
            rw [← hlen j _ p hk hp]
            rcases Nat.lt_or_ge i p.length with h | h
            · exact h
            · rw [List.getElem?_eq_none h] at hx; cases hx
          have ht := List.getElem?_eq_getElem hi
          obtain ⟨n0, h0⟩ := ih j _ p hk hp i _ x ht hx
          refine ⟨n0, fun n hn t ht' => ?_⟩
          rw [ht] at ht'
          cases ht'
          exact h0 n hn)
        obtain ⟨n0, h0⟩ := this
        refine ⟨n0, fun n hn k hk' i t x ht hx => ?_⟩
        rw [hk] at hk'
        cases hk'
        exact h0 n hn i x hx t ht)
    obtain ⟨n0, h0⟩ := this
    refine ⟨n0 + 1, fun n hn => ?_⟩
    obtain ⟨m, rfl⟩ := Nat.exists_eq_add_of_le' (show 1 ≤ n by omega)
    refine ⟨hc, hd, All2.of_get hl.symm (fun j k p hk hp => ?_)⟩
    exact All2.of_get (hlen j k p hk hp).symm (fun i t x ht hx =>
      ⟨h0 m (by omega) j p hp k hk i t x ht hx, hbv j k p hk hp i t x ht hx⟩)

end Ckpt
