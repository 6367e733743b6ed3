import Verif.Proofs.Compose
import Verif.Proofs.KMap
/-!
Further composed types obey codecs: tuples, variants, Kokkos maps, views of `const` elements or in other memory.
-/

set_option autoImplicit false

namespace Ckpt

variable {K : Scope} {R : RelMode} {cfg : Cfg} {env : Env}

/-! ### Tuples -/

/-- What is known of each member of an object. -/
structure Parts (O : Type) where
  P : O → Prop
  enc : Nat → Bool → O → Bytes
  prior : Nat → O → O → Prop
  rel : Nat → O → O → Prop
  fp : Nat → O → Nat

/-- The law of the members, each for itself. -/
structure PartsLaw (K : Scope) (cfg : Cfg) {O : Type} (ms : MemberTypes O) (us : MemberUsages O) (D : Nat → Parts O) : Prop where
  le : ∀ {n m : Nat}, n ≤ m → ∀ i s o, Out.Le (ms.visitAt cfg n i s o) (ms.visitAt cfg m i s o)
  wr : ∀ n i x, i < ms.length → (D n).P x → Wr K cfg (fun s => ms.visitAt cfg n i s x)
    (fun w => (D n).enc i w x) x
  rd : ∀ n i x y, i < ms.length → (D n).P x → (D n).prior i x y →
    Rd K (fun s => ms.visitAt cfg n i s y) ((D n).enc i cfg.check x)
      (fun z => (D n).rel i x z ∧ ∀ j, j ≠ i → ((D n).prior j x y → (D n).prior j x z) ∧
        ((D n).rel j x y → (D n).rel j x z))
  fp : ∀ n i x, i < ms.length → (D n).P x → Fp K (fun s => ms.visitAt cfg n i s x)
    ((D n).fp i x) x
  ok : ∀ x, (Usage.cls us).ok x → ∃ n0, ∀ n ≥ n0, (D n).P x
  prior : ∀ n x y, (D n).P x → (Usage.cls us).clean y → ∀ i < ms.length, (D n).prior i x y
  rel : ∀ n x y, (∀ i < ms.length, (D n).rel i x y) → us.Same x y
  fresh : (Usage.cls us).clean ms.fresh
  dflt : ∀ d, ms.dflt = some d → (Usage.cls us).clean d

def partsNil : Parts Unit := ⟨fun _ => True, fun _ _ _ => [], fun _ _ _ => True, fun _ _ _ => True, fun _ _ => 0⟩

/-- One member and the others. -/
def partsCons {A O : Type} (cfg : Cfg) (t : CppType A) (c : Codec A) (d : Parts O) : Parts (A × O) where
  P x := c.P x.1 ∧ d.P x.2
  enc i w x := match i with
    | 0 => nodeEnc cfg w t.ti c x.1
    | i + 1 => d.enc i w x.2
  prior i x y := match i with
    | 0 => c.prior x.1 y.1
    | i + 1 => d.prior i x.2 y.2
  rel i x y := match i with
    | 0 => c.rel x.1 y.1
    | i + 1 => d.rel i x.2 y.2
  fp i x := match i with
    | 0 => c.fp x.1
    | i + 1 => d.fp i x.2

theorem parts_law_over {O : Type} {ms : MemberTypes O} {us : MemberUsages O} {o : O → O → Prop} {ps : List OverUse}
    (hm : ms.MatchOver us o ps) (h : ∀ p ∈ ps, OverUse.Lawful K cfg p) : ∃ D, PartsLaw K cfg ms us D ∧
      ∀ n x y, (D n).P x → o x y → ∀ i < ms.length, (D n).prior i x y := by
  induction hm with
  | nil =>
    exact ⟨fun _ => partsNil, {
      le := fun _ _ _ _ => .refl _
      wr := fun _ i _ hi => by simp [MemberTypes.length] at hi
      rd := fun _ i _ _ hi => by simp [MemberTypes.length] at hi
      fp := fun _ i _ hi => by simp [MemberTypes.length] at hi
      ok := fun _ _ => ⟨0, fun _ _ => trivial⟩
      prior := fun _ _ _ _ _ _ _ => trivial
      rel := fun _ _ _ _ => trivial
      fresh := trivial
      dflt := fun _ _ => trivial }, fun _ _ _ _ _ _ _ => trivial⟩
  | @cons A O t u o ms us os ps hm ih =>
    obtain ⟨C, hC, hCo⟩ := h ⟨A, t, u, o⟩ (.head _)
    obtain ⟨D, hD, hDo⟩ := ih fun p hp => h p (.tail _ hp)
    refine ⟨fun n => partsCons cfg t (C n) (D n), ?_, fun n x y hx ho i hi => by
      cases i with
      | zero => exact hCo n _ _ hx.1 ho.1
      | succ i => exact hDo n _ _ hx.2 ho.2 i (Nat.lt_of_succ_lt_succ hi)⟩
    exact {
      le := fun hnm i s o => by
        cases i with
        | zero => exact Out.Le.bind (pipe_le (hC.elem_le hnm) _ _) fun _ => .refl _
        | succ i => exact Out.Le.bind (hD.le hnm i _ _) fun _ => .refl _
      wr := fun n i x hi hx => by
        cases i with
        | zero => exact ((pipe_wr (hC.elaw n) hx.1).map fun a => (a, x.2)).congr (fun _ _ => rfl) (fun _ => rfl)
        | succ i =>
          exact ((hD.wr n i x.2 (Nat.lt_of_succ_lt_succ hi) hx.2).map fun r => (x.1, r)).congr (fun _ _ => rfl)
            (fun _ => rfl)
      rd := fun n i x y hi hx hy => by
        cases i with
        | zero =>
          refine ((pipe_rd (hC.elaw n) hx.1 hy).map (Q' := fun z : A × O => (C n).rel x.1 z.1 ∧ z.2 = y.2)
            (fun a => (a, y.2)) fun a ha => ⟨ha, rfl⟩).congr (fun _ _ => rfl) rfl ?_
          rintro ⟨a, r⟩ ⟨h1, rfl⟩
          refine ⟨h1, fun j hj => ?_⟩
          cases j with
          | zero => exact absurd rfl hj
          | succ j => exact ⟨id, id⟩
        | succ i =>
          refine ((hD.rd n i x.2 y.2 (Nat.lt_of_succ_lt_succ hi) hx.2 hy).map
            (Q' := fun z : A × O => ((D n).rel i x.2 z.2 ∧ ∀ j, j ≠ i →
              ((D n).prior j x.2 y.2 → (D n).prior j x.2 z.2) ∧ ((D n).rel j x.2 y.2 → (D n).rel j x.2 z.2)) ∧ z.1 = y.1)
            (fun r => (y.1, r)) fun r hr => ⟨hr, rfl⟩).congr (fun _ _ => rfl) rfl ?_
          rintro ⟨a, r⟩ ⟨⟨h1, h2⟩, rfl⟩
          refine ⟨h1, fun j hj => ?_⟩
          cases j with
          | zero => exact ⟨id, id⟩
          | succ j => exact h2 j fun e => hj (by rw [e])
      fp := fun n i x hi hx => by
        cases i with
        | zero => exact ((pipe_fp (hC.elaw n) hx.1).map fun a => (a, x.2)).congr (fun _ _ => rfl) rfl
        | succ i =>
          exact ((hD.fp n i x.2 (Nat.lt_of_succ_lt_succ hi) hx.2).map fun r => (x.1, r)).congr (fun _ _ => rfl) rfl
      ok := fun x hx => by
        obtain ⟨n1, g1⟩ := hC.ok _ hx.1
        obtain ⟨n2, g2⟩ := hD.ok _ hx.2
        exact ⟨max n1 n2, fun n hn => ⟨g1 n (by omega), g2 n (by omega)⟩⟩
      prior := fun n x y hx hy i hi => by
        cases i with
        | zero => exact hC.prior n _ _ hx.1 hy.1
        | succ i => exact hD.prior n _ _ hx.2 hy.2 i (Nat.lt_of_succ_lt_succ hi)
      rel := fun n x y hr => ⟨hC.rel n _ _ (hr 0 (Nat.succ_pos _)),
        hD.rel n _ _ fun i hi => hr (i + 1) (Nat.succ_lt_succ hi)⟩
      fresh := ⟨hC.fresh, hD.fresh⟩
      dflt := fun d hd => by
        simp only [MemberTypes.dflt] at hd
        split at hd
        · rename_i a b h1 h2
          cases hd
          exact ⟨hC.dflt _ h1, hD.dflt _ h2⟩
        · cases hd }

theorem parts_law {O : Type} {ms : MemberTypes O} {us : MemberUsages O} {ps : List TypeUse}
    (hm : ms.Match us ps) (h : ∀ p ∈ ps, ∃ C, Composes K cfg p.2.1 p.2.2 C) : ∃ D, PartsLaw K cfg ms us D := by
  obtain ⟨o, ho⟩ := hm.over
  obtain ⟨D, hD, _⟩ := parts_law_over ho (TypeUse.lawful h)
  exact ⟨D, hD⟩

section
variable {O : Type} {ms : MemberTypes O} {us : MemberUsages O} {D : Nat → Parts O}

theorem order_wr (h : PartsLaw K cfg ms us D) {n : Nat} {x : O} (hx : (D n).P x) : ∀ {is : List Nat},
    (∀ i ∈ is, i < ms.length) →
    Wr K cfg (fun s => ms.visitOrder cfg n is s x)
      (fun w => is.flatMap fun i => (D n).enc i w x) x
  | [], _ => Wr.pure x
  | i :: is, hi => ((h.wr n i x (hi i (by simp)) hx).bind (k := fun p => ms.visitOrder cfg n is p.2 p.1)
      (order_wr h hx fun j hj => hi j (by simp [hj]))).congr (fun _ _ => rfl) (fun _ => by simp)

theorem order_fp (h : PartsLaw K cfg ms us D) {n : Nat} {x : O} (hx : (D n).P x) : ∀ {is : List Nat},
    (∀ i ∈ is, i < ms.length) →
    Fp K (fun s => ms.visitOrder cfg n is s x) ((is.map fun i => (D n).fp i x).sum) x
  | [], _ => Fp.pure x
  | i :: is, hi => ((h.fp n i x (hi i (by simp)) hx).bind (k := fun p => ms.visitOrder cfg n is p.2 p.1)
      (order_fp h hx fun j hj => hi j (by simp [hj]))).congr (fun _ _ => rfl) (by simp)

theorem order_rd (h : PartsLaw K cfg ms us D) {n : Nat} {x : O} (hx : (D n).P x) : ∀ {is : List Nat} {y : O},
    (∀ i ∈ is, i < ms.length) → is.Nodup → (∀ i ∈ is, (D n).prior i x y) →
    Rd K (fun s => ms.visitOrder cfg n is s y)
      (is.flatMap fun i => (D n).enc i cfg.check x)
      (fun z => (∀ i ∈ is, (D n).rel i x z) ∧ ∀ j, j ∉ is → (D n).rel j x y → (D n).rel j x z)
  | [], _, _, _, _ => Rd.pure ⟨by simp, fun _ _ => id⟩
  | i :: is, y, hi, hn, hp => by
    obtain ⟨hni, hn'⟩ := List.nodup_cons.1 hn
    refine ((h.rd n i x y (hi i (by simp)) hx (hp i (by simp))).bind
      (bs' := is.flatMap fun i => (D n).enc i cfg.check x) (k := fun p => ms.visitOrder cfg n is p.2 p.1)
      (Q' := fun z => (∀ j ∈ i :: is, (D n).rel j x z) ∧ ∀ j, j ∉ i :: is → (D n).rel j x y → (D n).rel j x z)
      fun z hz => ?_).congr (fun _ _ => rfl) (by simp) (fun _ h => h)
    have hne : ∀ j ∈ is, j ≠ i := fun j hj e => hni (e ▸ hj)
    refine (order_rd h hx (y := z) (fun j hj => hi j (by simp [hj])) hn'
      (fun j hj => (hz.2 j (hne j hj)).1 (hp j (by simp [hj])))).mono ?_
    rintro r ⟨h1, h2⟩
    refine ⟨fun j hj => ?_, fun j hj hr => ?_⟩
    · rcases List.mem_cons.1 hj with rfl | hj
      · exact h2 _ hni hz.1
      · exact h1 j hj
    · simp only [List.mem_cons, not_or] at hj
      exact h2 j hj.2 ((hz.2 j hj.1).2 hr)

theorem order_le (h : PartsLaw K cfg ms us D) {n m : Nat} (hnm : n ≤ m) : ∀ (is : List Nat) (s : Ser) (o : O),
    Out.Le (ms.visitOrder cfg n is s o) (ms.visitOrder cfg m is s o)
  | [], _, _ => .refl _
  | i :: is, s, o => Out.Le.bind (h.le hnm i s o) fun _ => order_le h hnm is _ _

def tupleCodec (order : List Nat) (d : Parts O) : Codec O where
  P := d.P
  enc w x := order.flatMap fun i => d.enc i w x
  prior x y := ∀ i ∈ order, d.prior i x y
  rel x y := ∀ i ∈ order, d.rel i x y
  fp x := (order.map fun i => d.fp i x).sum
  multi _ := True

theorem tuple_composes (ho : OrderOk cfg) (h : PartsLaw K cfg ms us D) {ti : TI} (hti : ti.Valid) :
    Composes K cfg (.tuple cfg ti ms) (.cls us) (fun n => tupleCodec (cfg.argOrder ms.length) (D n)) := by
  have hmem : ∀ i, i ∈ cfg.argOrder ms.length ↔ i < ms.length := fun i => by
    rw [(ho _).mem_iff]; exact List.mem_range
  exact {
    le := fun hnm => dispatchEach_le fun s x => order_le h hnm _ s x
    law := fun n => Law.ofEach hti trivial (fun x hx => order_wr h hx fun i hi => (hmem i).1 hi)
      (fun x y hx hy => (order_rd h hx (fun i hi => (hmem i).1 hi) ((ho _).nodup_iff.2 List.nodup_range) hy).mono
        fun _ hz => hz.1)
      (fun x hx => order_fp h hx fun i hi => (hmem i).1 hi)
    fresh := h.fresh
    dflt := h.dflt
    ok := h.ok
    prior := fun n x y hx hy i hi => h.prior n x y hx hy i ((hmem i).1 hi)
    rel := fun n x y hr => h.rel n x y fun i hi => hr i ((hmem i).2 hi)
    multi := fun _ _ _ => trivial }

end

/-! ### Variants -/

/-- What is known of the values of a variant. -/
structure AltCodec (V : Type) where
  P : V → Prop
  enc : Bool → V → Bytes
  rel : V → V → Prop
  fp : V → Nat

structure AltsLaw (K : Scope) (cfg : Cfg) {V : Type} (as : AltTypes V) (us : AltUsages V) (D : Nat → AltCodec V) : Prop where
  le : ∀ {n m : Nat}, n ≤ m → ∀ s v e, Out.Le (as.entry cfg n s v e) (as.entry cfg m s v e)
  wr : ∀ n x, (D n).P x → Wr K cfg (fun s => as.entry cfg n s (some x) (as.at x))
    (fun w => (D n).enc w x) (some x)
  rd : ∀ n x y, (D n).P x → Rd K (fun s => as.entry cfg n s y (as.at x))
    ((D n).enc cfg.check x) (fun z => ∃ r, z = some r ∧ (D n).rel x r)
  fp : ∀ n x, (D n).P x → Fp K (fun s => as.entry cfg n s (some x) (as.at x))
    ((D n).fp x) (some x)
  at_lt : ∀ x, as.at x < as.length
  ok : ∀ x, us.Ok x → ∃ n0, ∀ n ≥ n0, (D n).P x
  rel : ∀ n x y, (D n).rel x y → us.Same x y

def altNil : AltCodec Empty := ⟨fun _ => True, fun _ _ => [], fun _ _ => True, fun _ => 0⟩

/-- One alternative and the others. -/
def altCons {A V : Type} (cfg : Cfg) (t : CppType A) (c : Codec A) (d : AltCodec V) : AltCodec (A ⊕ V) where
  P x := match x with
    | .inl a => c.P a
    | .inr r => d.P r
  enc w x := match x with
    | .inl a => nodeEnc cfg w t.ti c a
    | .inr r => d.enc w r
  rel x y := match x, y with
    | .inl a, .inl b => c.rel a b
    | .inr r, .inr q => d.rel r q
    | _, _ => False
  fp x := match x with
    | .inl a => c.fp a
    | .inr r => d.fp r

/-- The result of the other alternatives as one of all. -/
def beyond {A V : Type} (v : Option (A ⊕ V)) : Option V → Option (A ⊕ V)
  | some r => some (.inr r)
  | none => v

theorem entry_succ {A V : Type} (t : CppType A) (as : AltTypes V) (n : Nat) (s : Ser) (v : Option (A ⊕ V)) (e : Nat) :
    (AltTypes.cons t as).entry cfg n s v (e + 1) =
      as.entry cfg n s (beyondFirst v) e >>= fun p => .ok (beyond v p.1, p.2) := by
  simp only [AltTypes.entry]
  congr 1
  funext p
  obtain ⟨w, s'⟩ := p
  cases w <;> rfl

theorem alts_law {V : Type} {as : AltTypes V} {us : AltUsages V} {ps : List TypeUse}
    (hm : as.Match us ps) (h : ∀ p ∈ ps, ∃ C, Composes K cfg p.2.1 p.2.2 C) : ∃ D, AltsLaw K cfg as us D := by
  induction hm with
  | nil =>
    exact ⟨fun _ => altNil, {
      le := fun _ _ _ _ => .refl _
      wr := fun _ x => x.elim
      rd := fun _ x => x.elim
      fp := fun _ x => x.elim
      at_lt := fun x => x.elim
      ok := fun x => x.elim
      rel := fun _ x => x.elim }⟩
  | @cons A V t u as us ps hm ih =>
    obtain ⟨C, hC⟩ := h ⟨A, t, u⟩ (.head _)
    obtain ⟨D, hD⟩ := ih fun p hp => h p (.tail _ hp)
    refine ⟨fun n => altCons cfg t (C n) (D n), ?_⟩
    exact {
      le := fun hnm s v e => by
        cases e with
        | zero =>
          simp only [AltTypes.entry]
          split
          · exact Out.Le.bind (pipe_le (hC.elem_le hnm) _ _) fun _ => .refl _
          · split
            · exact Out.Le.bind (pipe_le (hC.elem_le hnm) _ _) fun _ => .refl _
            · exact .refl _
        | succ e =>
          rw [entry_succ, entry_succ]
          exact Out.Le.bind (hD.le hnm _ _ _) fun _ => .refl _
      wr := fun n x hx => by
        cases x with
        | inl a =>
          refine ((pipe_wr (hC.elaw n) hx).map fun b => some (Sum.inl b : A ⊕ V)).congr ?_ (fun _ => rfl)
          intro s hs
          simp [AltTypes.at, AltTypes.entry, hs.not_unpacking]
        | inr r =>
          refine ((hD.wr n r hx).map (beyond (some (Sum.inr r : A ⊕ V)))).congr ?_ (fun _ => rfl)
          intro s hs
          exact entry_succ t as n s _ _
      rd := fun n x y hx => by
        cases x with
        | inl a =>
          refine ((pipe_rd (hC.elaw n) hx ((hC.isFresh n).fresh a hx)).map
            (Q' := fun z : Option (A ⊕ V) => ∃ r, z = some r ∧ (altCons cfg t (C n) (D n)).rel (.inl a) r)
            (fun b => some (Sum.inl b : A ⊕ V)) (fun b hb => ⟨_, rfl, hb⟩)).congr ?_ rfl (fun _ h => h)
          intro s hs
          simp only [AltTypes.at, AltTypes.entry, hs.unpacking, if_true]
          rfl
        | inr r =>
          refine ((hD.rd n r (beyondFirst y) hx).map
            (Q' := fun z : Option (A ⊕ V) => ∃ q, z = some q ∧ (altCons cfg t (C n) (D n)).rel (.inr r) q)
            (beyond y) ?_).congr ?_ rfl (fun _ h => h)
          · rintro _ ⟨q, rfl, hq⟩
            exact ⟨_, rfl, hq⟩
          · intro s hs
            exact entry_succ t as n s _ _
      fp := fun n x hx => by
        cases x with
        | inl a =>
          refine ((pipe_fp (hC.elaw n) hx).map fun b => some (Sum.inl b : A ⊕ V)).congr ?_ rfl
          intro s hs
          simp [AltTypes.at, AltTypes.entry, hs.not_unpacking]
        | inr r =>
          refine ((hD.fp n r hx).map (beyond (some (Sum.inr r : A ⊕ V)))).congr ?_ rfl
          intro s hs
          exact entry_succ t as n s _ _
      at_lt := fun x => by
        cases x with
        | inl a => exact Nat.succ_pos _
        | inr r => exact Nat.succ_lt_succ (hD.at_lt r)
      ok := fun x hx => by
        cases x with
        | inl a => exact hC.ok a hx
        | inr r => exact hD.ok r hx
      rel := fun n x y hr => by
        cases x <;> cases y
        · exact hC.rel n _ _ hr
        · exact hr.elim
        · exact hr.elim
        · exact hD.rel n _ _ hr }

section
variable {V : Type} {as : AltTypes V} {us : AltUsages V} {D : Nat → AltCodec V}

def variantCodecOf (cfg : Cfg) (as : AltTypes V) (d : AltCodec V) : Codec (Option V) where
  P v := ∃ x, v = some x ∧ d.P x
  enc w v := match v with
    | some x => sizeNode cfg w (as.at x) ++ d.enc w x
    | none => []
  prior _ _ := True
  rel v w := ∃ x y, v = some x ∧ w = some y ∧ d.rel x y
  fp v := match v with
    | some x => 8 + d.fp x
    | none => 0
  multi _ := True

theorem variant_composes (hc : cfg.Valid) (h : AltsLaw K cfg as us D) (hl : as.length ≤ 2 ^ 64) {ti : TI}
    (hti : ti.Valid) :
    Composes K cfg (.variant cfg ti as) (.variant us) (fun n => variantCodecOf cfg as (D n)) where
  le hnm := dispatchEach_le fun s x => Out.Le.bind (.refl _) fun _ => h.le hnm _ _ _
  law n := Law.ofEach hti trivial
    (by
      rintro _ ⟨x, rfl, hx⟩
      have hlt : as.at x < 2 ^ 64 := Nat.lt_of_lt_of_le (h.at_lt x) hl
      exact ((pipeSize_wr hc hlt).bind (k := fun p => as.entry cfg n p.2 (some x) p.1) (h.wr n x hx)).congr
        (fun _ _ => rfl) (fun _ => rfl))
    (by
      rintro _ y ⟨x, rfl, hx⟩ _
      have hlt : as.at x < 2 ^ 64 := Nat.lt_of_lt_of_le (h.at_lt x) hl
      refine ((pipeSize_rd hc hlt).bind (k := fun p => as.entry cfg n p.2 y p.1)
        (Q' := fun z => ∃ r, z = some r ∧ (D n).rel x r) ?_).congr (fun _ _ => rfl) rfl ?_
      · rintro _ rfl
        exact h.rd n x y hx
      · rintro _ ⟨r, rfl, hr⟩
        exact ⟨x, r, rfl, rfl, hr⟩)
    (by
      rintro _ ⟨x, rfl, hx⟩
      have hlt : as.at x < 2 ^ 64 := Nat.lt_of_lt_of_le (h.at_lt x) hl
      exact ((pipeSize_fp hc hlt).bind (k := fun p => as.entry cfg n p.2 (some x) p.1) (h.fp n x hx)).congr
        (fun _ _ => rfl) rfl)
  fresh := trivial
  dflt _ _ := trivial
  ok := by
    rintro _ ⟨x, rfl, hx⟩
    obtain ⟨n0, h0⟩ := h.ok x hx
    exact ⟨n0, fun n hn => ⟨x, rfl, h0 n hn⟩⟩
  prior _ _ _ _ _ := trivial
  rel n x y hr := by
    obtain ⟨a, b, h1, h2, h3⟩ := hr
    exact ⟨a, b, h1, h2, h.rel n _ _ h3⟩
  multi _ _ _ := trivial

end

/-! ### Kokkos maps -/

section
variable {A B : Type}

/-- A map read over an empty one. -/
def kmapOverEmpty (cfg : Cfg) (k : KMapTI) (h : KHash A B) (eK : Elem A) (eV : Elem B) (cK : Codec A) (cV : Codec B) :
    Codec (KMap A B) where
  P m := (KMapP h cK cV m ∧ m.NoStale h) ∧ h.Room m.capacity m.size
  enc w m := kmapEnc cfg w k h eK eV cK cV m
  prior _ y := y.size = 0
  rel m m' := KMap.Restored h cK.rel cV.rel m m'
  fp m := kmapFp k eK eV m
  multi _ := True

theorem restored_of {h : KHash A B} {rK : A → A → Prop} {rV : B → B → Prop} {m0 m m' : KMap A B} (hz : m0.size = 0)
    (hr : KMap.ReadOver h rK rV m0 m m') : KMap.Restored h rK rV m m' := by
  have hnil : occupied m0.slots = [] := List.length_eq_zero_iff.1 hz
  refine ⟨fun q => ?_, hr.distinct, ?_, hr.entries hz⟩
  · have := hr.merged q
    have hq : m0.find h q = none := by simp [KMap.find, hnil]
    rw [hq] at this
    exact this
  · rw [hr.capacity, hz, Nat.max_zero]

theorem kmap_composes {a : CppType A} {b : CppType B} {u : Usage A} {v : Usage B} {C : Nat → Codec A} {D : Nat → Codec B}
    (h1 : Composes K cfg a u C) (h2 : Composes K cfg b v D) {k : KMapTI} {h : KHash A B} (hk : k.map.Valid)
    (hu : k.u32.Valid) (hl : h.Lawful) (hK : ∀ x y q, u.same x y → h.eq x q = h.eq y q) :
    Composes K cfg (.kmap cfg k h a b) (.kmap h u v)
      (fun n => kmapOverEmpty cfg k h (a.elem n) (b.elem n) (C n) (D n)) where
  le hnm := (kmapElem_le (h1.elem_le hnm) (h2.elem_le hnm)).2
  law n := Law.ofEach hk trivial (fun m hm => serKMap_wr hu (h1.elaw n) (h2.elaw n) hm.1.1)
    (fun m y hm hy => (serKMap_over hl hu (h1.elaw n) (h2.elaw n) (h1.isFresh n) (h2.isFresh n)
      (fun x z q hr => hK x z q (h1.rel n x z hr)) hm.1.1 hm.1.2 (by
        have hy : y.size = 0 := hy
        simpa [hy] using hm.2)).mono fun _ hr => restored_of hy hr)
    (fun m _ => serKMap_fp)
  fresh := by simp [CppType.kmap, Usage.kmap, KMap.size, occupied_make]
  dflt d hd := by
    cases hd
    simp [Usage.kmap, KMap.size, occupied_make]
  ok m hm := by
    obtain ⟨ok, ns, room, hx⟩ := hm
    obtain ⟨n1, g1⟩ := eventually_list (xs := occupied m.slots) (Q := fun p n => (C n).P p.1)
      fun p hp => h1.ok _ (hx p hp).1
    obtain ⟨n2, g2⟩ := eventually_list (xs := occupied m.slots) (Q := fun p n => (D n).P p.2)
      fun p hp => h2.ok _ (hx p hp).2
    refine ⟨max n1 n2, fun n hn => ⟨⟨⟨ok, ?_, fun p hp => g2 n (by omega) p hp⟩, ns⟩, room⟩⟩
    rintro ⟨x, o⟩ hp hf
    cases o with
    | none => exact absurd (ns x hp) hf
    | some y => exact g1 n (by omega) (x, y) (mem_occupied.2 hp)
  prior _ _ _ _ hy := hy
  rel n m m' hr := ⟨fun q => (hr.find q).mono fun _ _ => h2.rel n _ _, hr.distinct, hr.capacity, by
    obtain ⟨l, g1, g2⟩ := hr.entries
    exact ⟨l, g1, g2.imp fun _ _ hpq => ⟨h1.rel n _ _ hpq.1, h2.rel n _ _ hpq.2⟩⟩⟩
  multi _ _ _ := trivial

end

/-! ### Elements of one size -/

section
variable {T : Type} {t : CppType T} {u : Usage T} {C : Nat → Codec T}

theorem Composes.enc_of_stream (hK : ∀ k, K.kinds k ↔ k ∈ builtinKinds) (h : Composes K cfg t u C) {n : Nat} {x : T} (hx : (C n).P x) {bs : Bytes}
    (hs : Yields (fun n => serializeToStream cfg (t.elem n) x { data := [] }) (.ok (x, { data := bs }))) :
    bs = topEnc cfg t.ti (C n) x := by
  have hw := toStream_law (e := t.elem n) (K := K) (fun k h => (hK k).2 h) (h.elaw n) hx ⟨[], none⟩
    (by simp)
  have hy : Yields (fun n => serializeToStream cfg (t.elem n) x { data := [] })
      (.ok (x, { data := topEnc cfg t.ti (C n) x })) := by
    refine ⟨n, fun m hm => ?_⟩
    have := (toStream_le (cfg := cfg) (h.elem_le hm) x { data := [] }).eq_of_ne (by rw [hw]; simp)
    dsimp only
    rw [this, hw]
    simp only [List.nil_append]
    rfl
  simpa using hs.unique hy

theorem Composes.uniform (hK : ∀ k, K.kinds k ↔ k ∈ builtinKinds) (h : Composes K cfg t u C) (hf : t.SameSize cfg u) (hz : u.ok t.zero) {n : Nat}
    (hP : (C n).P t.zero) : Uniform K cfg (t.elem n) ((C n).on u.ok) where
  zero := ⟨hP, hz⟩
  len x hx := by
    obtain ⟨k, hk⟩ := hf
    obtain ⟨bs, h1, h2⟩ := hk x hx.2
    obtain ⟨bs', h1', h2'⟩ := hk _ hz
    have e1 := h.enc_of_stream hK hx.1 h1
    have e2 := h.enc_of_stream hK hP h1'
    exact topEnc_length (ti := t.ti) (c := C n) (x := x) (y := t.zero) (by rw [← e1, ← e2, h2, h2'])
  library := by simp [hK, builtinKinds]

/-- Of views whose elements are written with the same number of bytes. -/
def fixedView (K : Scope) (cfg : Cfg) (e : Elem T) (c : Codec T) (C : Codec (View T)) : Codec (View T) :=
  { C with P := fun v => C.P v ∧ Uniform K cfg e c }

theorem Composes.zeroOn (h : Composes K cfg t u C) (n : Nat) (x : T) (hx : ((C n).on u.ok).P x) :
    ((C n).on u.ok).prior x (t.elem n).zero := h.zero n x hx.1

theorem Composes.allOn (hK : ∀ k, K.kinds k ↔ k ∈ builtinKinds) (h : Composes K cfg t u C) (hf : t.SameSize cfg u) (hz : u.ok t.zero) {xs : List T}
    (hx : ∀ x ∈ xs, u.ok x) : ∃ n0, ∀ n ≥ n0, (∀ x ∈ xs, ((C n).on u.ok).P x) ∧
      Uniform K cfg (t.elem n) ((C n).on u.ok) := by
  obtain ⟨n0, h0⟩ := h.all (xs := t.zero :: xs) (by
    intro x hx'
    rcases List.mem_cons.1 hx' with rfl | hx'
    · exact hz
    · exact hx x hx')
  exact ⟨n0, fun n hn => ⟨fun x hx' => ⟨h0 n hn x (by simp [hx']), hx x hx'⟩,
    h.uniform hK hf hz (h0 n hn _ (by simp))⟩⟩

theorem deviceView_composes (hK : ∀ k, K.kinds k ↔ k ∈ builtinKinds) (hc : cfg.Valid) (h : Composes K cfg t u C) {k : ViewTI} (hk : k.Valid) {ty : ViewTy}
    (hf : t.SameSize cfg u) (hz : u.ok t.zero) :
    Composes K cfg (.view cfg k ty t) (.view ty t u)
      (fun n => fixedView K cfg (t.elem n) ((C n).on u.ok) (viewCodec cfg k ty (t.elem n) ((C n).on u.ok))) where
  le hnm := (viewElem_le (h.elem_le hnm) k ty false).2
  law n := Law.ofEach hk.view trivial (fun _ hx => serView_wr hc hk ((h.elaw n).on u.ok) hx.1 fun _ => hx.2)
    (fun _ _ hx _ => serView_rd hc hk ((h.elaw n).on u.ok) (h.zeroOn n) hx.1)
    (fun _ hx => serView_fp hc hk ((h.elaw n).on u.ok) hx.1 fun _ => hx.2)
  fresh := trivial
  dflt _ _ := trivial
  ok v hv := by
    obtain ⟨n0, h0⟩ := h.allOn hK hf hz hv.2.1
    exact ⟨n0, fun n hn => ⟨⟨hv.1, (h0 n hn).1, fun _ => h.multi n _ hv.2.2⟩, (h0 n hn).2⟩⟩
  prior _ _ _ _ _ := trivial
  rel n x y hr := ⟨h.copy hr.1, hr.2⟩
  multi _ _ _ := trivial

theorem constView_composes (hK : ∀ k, K.kinds k ↔ k ∈ builtinKinds) (hc : cfg.Valid) (h : Composes K cfg t u C) {k : ViewTI} (hk : k.Valid) {ty : ViewTy}
    (hf : t.SameSize cfg u) (hz : u.ok t.zero) :
    Composes K cfg (.constView cfg k ty t) (.constView ty t u)
      (fun n => fixedView K cfg (t.elem n) ((C n).on u.ok) (constCodec cfg k ty (t.elem n) ((C n).on u.ok))) where
  le hnm := (viewElem_le (h.elem_le hnm) k ty true).2
  law n := Law.ofEach hk.view trivial (fun _ hx => serConstView_wr hc hk ((h.elaw n).on u.ok) hx.1 hx.2)
    (fun _ _ hx _ => serConstView_rd hc hk ((h.elaw n).on u.ok) (h.zeroOn n) hx.1 hx.2)
    (fun _ hx => serConstView_fp hc hk ((h.elaw n).on u.ok) hx.1 hx.2)
  fresh := trivial
  dflt _ _ := trivial
  ok v hv := by
    obtain ⟨n0, h0⟩ := h.allOn hK hf hz hv.2.1
    exact ⟨n0, fun n hn => ⟨⟨hv.1, (h0 n hn).1, h.multi n _ hv.2.2.1, hv.2.2.2⟩, (h0 n hn).2⟩⟩
  prior _ _ _ _ _ := trivial
  rel n x y hr := ⟨h.copy hr.1, hr.2⟩
  multi _ _ _ := trivial

end

end Ckpt
