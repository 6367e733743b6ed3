import Verif.Spec.Over
import Verif.Proofs.ViewMoreTop
import Verif.Proofs.Api
/-!
Composed types obey codecs.
-/

set_option autoImplicit false

namespace Ckpt

variable {K : Scope} {R : RelMode} {cfg : Cfg} {env : Env}

/-- The law of a composed type: a codec for each nesting bound. -/
structure Composes (K : Scope) (cfg : Cfg) {T : Type} (t : CppType T) (u : Usage T) (C : Nat → Codec T) : Prop where
  le : ∀ {n m : Nat}, n ≤ m → Handler.Le (t.apply n) (t.apply m)
  law : ∀ n, Law K cfg t.ti (t.apply n) (C n)
  fresh : u.clean t.fresh
  dflt : ∀ d, t.dflt = some d → u.clean d
  ok : ∀ x, u.ok x → ∃ n0, ∀ n ≥ n0, (C n).P x
  prior : ∀ n x y, (C n).P x → u.clean y → (C n).prior x y
  rel : ∀ n x y, (C n).rel x y → u.same x y
  multi : ∀ n m, u.many m → (C n).multi m

/-- The codec allows to read object `x` over object `y` if `o x y`. -/
def Codec.ReadsOver {T : Type} (C : Nat → Codec T) (o : T → T → Prop) : Prop :=
  ∀ n x y, (C n).P x → o x y → (C n).prior x y

/-- A type with a codec. -/
def OverUse.Lawful (K : Scope) (cfg : Cfg) (p : OverUse) : Prop :=
  ∃ C, Composes K cfg p.2.1 p.2.2.1 C ∧ Codec.ReadsOver C p.2.2.2

/-- Nothing is said about objects read over. -/
def TypeUse.over (p : TypeUse) : OverUse := ⟨p.1, p.2.1, p.2.2, fun _ _ => False⟩

theorem TypeUse.lawful {ps : List TypeUse} (h : ∀ p ∈ ps, ∃ C, Composes K cfg p.2.1 p.2.2 C) :
    ∀ p ∈ ps.map TypeUse.over, OverUse.Lawful K cfg p := by
  intro q hq
  obtain ⟨p, hp, rfl⟩ := List.mem_map.1 hq
  obtain ⟨C, hC⟩ := h p hp
  exact ⟨C, hC, fun _ _ _ _ h => h.elim⟩

theorem MemberTypes.Match.over {O : Type} {ms : MemberTypes O} {us : MemberUsages O} {ps : List TypeUse}
    (h : ms.Match us ps) : ∃ o, ms.MatchOver us o (ps.map TypeUse.over) := by
  induction h with
  | nil => exact ⟨_, .nil⟩
  | cons t u _ ih =>
    obtain ⟨o, ih⟩ := ih
    exact ⟨_, .cons t u _ ih⟩

section
variable {T A B : Type} {t : CppType T} {u : Usage T} {C : Nat → Codec T}

theorem Composes.elem_le (h : Composes K cfg t u C) {n m : Nat} (hnm : n ≤ m) : Elem.Le (t.elem n) (t.elem m) :=
  ⟨rfl, h.le hnm⟩

theorem Composes.isFresh (h : Composes K cfg t u C) (n : Nat) : Fresh (t.elem n) (C n) :=
  ⟨fun x hx => h.prior n x _ hx h.fresh, fun d hd x hx => h.prior n x _ hx (h.dflt d hd)⟩

theorem Composes.elaw (h : Composes K cfg t u C) (n : Nat) :
    Law K cfg (t.elem n).ti (t.elem n).apply (C n) := h.law n

theorem Composes.all (h : Composes K cfg t u C) {xs : List T} (hx : ∀ x ∈ xs, u.ok x) :
    ∃ n0, ∀ n ≥ n0, ∀ x ∈ xs, (C n).P x :=
  eventually_list (Q := fun x n => (C n).P x) fun x hx' => h.ok x (hx x hx')

theorem Composes.priors (h : Composes K cfg t u C) {n : Nat} {xs ys : List T} (hx : ∀ x ∈ xs, (C n).P x)
    (hy : ∀ y ∈ ys, u.clean y) (i : Nat) (a b : T) (ha : xs[i]? = some a) (hb : ys[i]? = some b) :
    (C n).prior a b :=
  h.prior n a b (hx a (List.mem_of_getElem? ha)) (hy b (List.mem_of_getElem? hb))

theorem Composes.rels (h : Composes K cfg t u C) {n : Nat} {xs ys : List T} (hr : List.Forall₂ (C n).rel xs ys) :
    List.Forall₂ u.same xs ys := hr.imp fun a b => h.rel n a b

/-! ### The types of the universe -/

theorem base_composes (hv : env.Usable R K.kinds cfg) (hA : env.AsymOk K cfg) (t : Ty) :
    Composes K cfg (.base cfg env t) (.base R cfg env t) (fun n => (codec R cfg env n t).byVal t) where
  le hnm := dispatch_le cfg env hnm t
  law n := (codec_law hv hA n t).byVal t
  fresh := hv.fresh t
  dflt := hv.dflt t
  ok x hx := by
    obtain ⟨n0, h0⟩ := codec_P hx.1
    exact ⟨n0, fun n hn => ⟨h0 n hn, hx.2⟩⟩
  prior n x y hx hy := codec_prior hv n t x y hx.1 hy.1 (by
    rintro c rfl
    exact sameDyn_of_byVal hx.2 hy.2)
  rel n x y h := codec_rel _ _ _ _ h
  multi n m h := by
    cases n with
    | zero => trivial
    | succ n => cases t <;> first | trivial | exact codec_variant_multi _ _ | exact h

/-! ### Containers -/

def vectorCodec (cfg : Cfg) (ti : TI) (e : Elem T) (c : Codec T) : Codec (Vec T) where
  P v := VecOk c v
  enc w v := vecEnc cfg w e.ti c v
  prior x y := VecPrior e c x y ∧ y.cap < 2 ^ 64
  rel x z := List.Forall₂ c.rel x.elems z.elems ∧ x.cap ≤ z.cap ∧ z.cap < 2 ^ 64
  fp v := ti.sizeof + ((v.elems.map c.fp).sum + e.ti.sizeof * (v.cap - v.elems.length))
  multi _ := True

theorem vector_composes (hc : cfg.Valid) (h : Composes K cfg t u C) {ti : TI} (hti : ti.Valid) (c : Bool) :
    Composes K cfg (.vector cfg ti c t) (.vector t u) (fun n => vectorCodec cfg ti (t.elem n) (C n)) where
  le hnm := dispatchEach_le fun s x => serVector_le (h.elem_le hnm) _ s x
  law n := Law.ofEach hti trivial (fun x hx => vector_wr hc (h.elaw n) hx)
    (fun x y hx hy => (vector_rd hc (h.elaw n) (h.isFresh n) hx hy.1).mono fun z hz => ⟨hz.1, by
      rw [hz.2]
      split
      · exact ⟨by assumption, hy.2⟩
      · exact ⟨hc.grow _, hc.fits _ hx.lt⟩⟩)
    (fun x hx => vector_fp (h.elaw n) hx)
  fresh := ⟨fun _ h => (by cases h), fun _ _ => rfl, by simp [CppType.vector]⟩
  dflt d hd := by cases hd; exact ⟨fun _ h => (by cases h), fun _ _ => rfl, by simp⟩
  ok x hx := by
    obtain ⟨n0, h0⟩ := h.all hx.1
    exact ⟨n0, fun n hn => ⟨h0 n hn, hx.2.1, hx.2.2.1, h.multi n _ hx.2.2.2⟩⟩
  prior n x y hx hy := ⟨⟨h.priors hx.all hy.1, hy.2.1⟩, hy.2.2⟩
  rel n x y hr := ⟨h.rels hr.1, hr.2⟩
  multi _ _ _ := trivial

def listCodec (cfg : Cfg) (ti : TI) (e : Elem T) (c : Codec T) : Codec (List T) where
  P xs := SeqOk c xs
  enc w xs := seqEnc cfg w e.ti c xs
  prior x y := SeqPrior e c x y
  rel := List.Forall₂ c.rel
  fp xs := ti.sizeof + (xs.map c.fp).sum
  multi _ := True

theorem list_composes (hc : cfg.Valid) (h : Composes K cfg t u C) {ti : TI} (hti : ti.Valid) (c : Bool) :
    Composes K cfg (.list cfg ti c t) (.list t u) (fun n => listCodec cfg ti (t.elem n) (C n)) where
  le hnm := dispatchEach_le fun s x => serList_le (h.elem_le hnm) _ s x
  law n := Law.ofEach hti trivial (fun x hx => list_wr hc (h.elaw n) hx)
    (fun x y hx hy => list_rd hc (h.elaw n) (h.isFresh n) hx hy)
    (fun x hx => list_fp (h.elaw n) hx.all)
  fresh := ⟨by simp [CppType.list], fun _ => rfl⟩
  dflt d hd := by cases hd; exact ⟨by simp, fun _ => rfl⟩
  ok x hx := by
    obtain ⟨n0, h0⟩ := h.all hx.1
    exact ⟨n0, fun n hn => ⟨h0 n hn, hx.2⟩⟩
  prior n x y hx hy := ⟨fun _ => h.priors hx.all hy.1, hy.2⟩
  rel n x y hr := h.rels hr
  multi _ _ _ := trivial

def queueCodec (cfg : Cfg) (ti : TI) (e : Elem T) (c : Codec T) : Codec (List T) where
  P xs := SeqOk c xs
  enc w xs := seqEnc cfg w e.ti c xs
  prior _ y := y = []
  rel := List.Forall₂ c.rel
  fp xs := ti.sizeof + e.ti.sizeof * xs.length
  multi _ := True

theorem queue_composes (hc : cfg.Valid) (h : Composes K cfg t u C) {ti : TI} (hti : ti.Valid) (c : Bool) :
    Composes K cfg (.queue cfg ti c t) (.queue u) (fun n => queueCodec cfg ti (t.elem n) (C n)) where
  le hnm := dispatchEach_le fun s x => serQueue_le (h.elem_le hnm) _ s x
  law n := Law.ofEach hti trivial (fun x hx => queue_wr hc (h.elaw n) hx)
    (fun x y hx hy => (queue_rd hc (h.elaw n) (h.isFresh n) hx).mono (by
      have hy : y = [] := hy
      subst hy
      rintro _ ⟨zs, hz, rfl⟩
      exact hz))
    (fun x hx => queue_fp)
  fresh := rfl
  dflt d hd := by cases hd; rfl
  ok x hx := by
    obtain ⟨n0, h0⟩ := h.all hx.1
    exact ⟨n0, fun n hn => ⟨h0 n hn, hx.2⟩⟩
  prior n x y hx hy := hy
  rel n x y hr := h.rels hr
  multi _ _ _ := trivial

/-- The order of the elements of an ordered container. -/
def InOrder (a : Assoc) (lt : T → T → Bool) (xs : List T) : Prop :=
  if a.repeats then xs.Pairwise (fun x y => lt y x = false) else xs.Pairwise (fun x y => lt x y = true)

def orderedCodec (cfg : Cfg) (ti : TI) (a : Assoc) (lt : T → T → Bool) (e : Elem T) (c : Codec T) : Codec (List T) where
  P xs := SeqOk c xs ∧ InOrder a lt xs
  enc w xs := seqEnc cfg w e.ti c xs
  prior _ y := y = []
  rel := List.Forall₂ c.rel
  fp xs := ti.sizeof + (xs.map c.fp).sum
  multi _ := True

theorem ordered_composes (hc : cfg.Valid) (h : Composes K cfg t u C) {ti : TI} (hti : ti.Valid) (c : Bool) (a : Assoc)
    {lt : T → T → Bool} (hlt : ∀ x y x' y', u.same x x' → u.same y y' → lt x y = lt x' y') :
    Composes K cfg (.ordered cfg ti c a lt t) (.ordered a lt u) (fun n => orderedCodec cfg ti a lt (t.elem n) (C n)) where
  le hnm := dispatchEach_le fun s x => serMapLike_le (h.elem_le hnm) _ _ s x
  law n := Law.ofEach hti trivial (fun x hx => mapLike_wr hc (h.elaw n) hx.1)
    (fun x y hx hy => (mapLike_rd hc (h.elaw n) (h.isFresh n) hx.1).mono (by
      have hy : y = [] := hy
      subst hy
      rintro _ ⟨zs, hz, rfl⟩
      have ho := hx.2
      unfold InOrder at ho
      have hr := h.rels hz
      split at ho
      · rename_i hm
        have h2 := pairwise_respects (f := fun x y => lt y x) (fun x y x' y' h h' => hlt y x y' x' h' h) hr ho
        show List.Forall₂ _ _ _
        simp only [multi_eq, hm, if_true]
        rw [foldl_emplaceMulti zs [] (by simpa using h2)]
        simpa using hz
      · rename_i hm
        have h2 := pairwise_respects (f := lt) hlt hr ho
        show List.Forall₂ _ _ _
        rw [multi_eq, if_neg hm, foldl_emplaceUnique zs [] (by simpa using h2)]
        simpa using hz))
    (fun x hx => mapLike_fp (h.elaw n) hx.1.all)
  fresh := rfl
  dflt d hd := by cases hd; rfl
  ok x hx := by
    obtain ⟨n0, h0⟩ := h.all hx.1
    exact ⟨n0, fun n hn => ⟨⟨h0 n hn, hx.2.1⟩, hx.2.2⟩⟩
  prior n x y hx hy := hy
  rel n x y hr := h.rels hr
  multi _ _ _ := trivial

def unorderedCodec (cfg : Cfg) (ti : TI) (a : Assoc) (eq : T → T → Bool) (e : Elem T) (c : Codec T) :
    Codec (List T) where
  P xs := SeqOk c xs ∧ (a.repeats = false → xs.Pairwise (fun x y => eq x y = false))
  enc w xs := seqEnc cfg w e.ti c xs
  prior _ y := y = []
  rel xs ws := ∃ zs, List.Forall₂ c.rel xs zs ∧ zs.Perm ws
  fp xs := ti.sizeof + (xs.map c.fp).sum
  multi _ := True

theorem unordered_composes (hc : cfg.Valid) (h : Composes K cfg t u C) {ti : TI} (hti : ti.Valid) (c : Bool) (a : Assoc)
    {eq : T → T → Bool} (heq : ∀ x y x' y', u.same x x' → u.same y y' → eq x y = eq x' y')
    {arrange : List T → List T} (harr : ∀ xs, (arrange xs).Perm xs) :
    Composes K cfg (.unordered cfg ti c a eq arrange t) (.unordered a eq u)
      (fun n => unorderedCodec cfg ti a eq (t.elem n) (C n)) where
  le hnm := dispatchEach_le fun s x => serMapLike_le (h.elem_le hnm) _ _ s x
  law n := Law.ofEach hti trivial (fun x hx => mapLike_wr hc (h.elaw n) hx.1)
    (fun x y hx hy => (mapLike_rd hc (h.elaw n) (h.isFresh n) hx.1).mono (by
      have hy : y = [] := hy
      subst hy
      rintro _ ⟨zs, hz, rfl⟩
      have hp := foldl_emplaceUnordered (multi := a.multi) (eq := eq) harr zs [] (fun hm => ⟨by simp,
        pairwise_respects heq (h.rels hz) (hx.2 ((multi_eq a).symm.trans hm))⟩)
      exact ⟨zs, hz, by simpa using hp.symm⟩))
    (fun x hx => mapLike_fp (h.elaw n) hx.1.all)
  fresh := rfl
  dflt d hd := by cases hd; rfl
  ok x hx := by
    obtain ⟨n0, h0⟩ := h.all hx.1
    exact ⟨n0, fun n hn => ⟨⟨h0 n hn, hx.2.1⟩, hx.2.2⟩⟩
  prior n x y hx hy := hy
  rel n x y hr := by
    obtain ⟨zs, h1, h2⟩ := hr
    exact ⟨zs, h.rels h1, h2⟩
  multi _ _ _ := trivial

def pairCodec (cfg : Cfg) (ti : TI) (e1 : Elem A) (e2 : Elem B) (c1 : Codec A) (c2 : Codec B) : Codec (A × B) where
  P x := c1.P x.1 ∧ c2.P x.2
  enc w x := nodeEnc cfg w e1.ti c1 x.1 ++ nodeEnc cfg w e2.ti c2 x.2
  prior x y := c1.prior x.1 y.1 ∧ c2.prior x.2 y.2
  rel x z := c1.rel x.1 z.1 ∧ c2.rel x.2 z.2
  fp x := ti.sizeof + (c1.fp x.1 + c2.fp x.2)
  multi _ := True

theorem pair_composes {a : CppType A} {b : CppType B} {u : Usage A} {v : Usage B} {C : Nat → Codec A}
    {D : Nat → Codec B} (h1 : Composes K cfg a u C) (h2 : Composes K cfg b v D) {ti : TI} (hti : ti.Valid) :
    Composes K cfg (.pair cfg ti a b) (.pair u v) (fun n => pairCodec cfg ti (a.elem n) (b.elem n) (C n) (D n)) where
  le hnm := dispatchEach_le fun s x => serPair_le (h1.elem_le hnm) (h2.elem_le hnm) _ s x
  law n := Law.ofEach hti trivial (fun x hx => pair_wr (h1.elaw n) (h2.elaw n) hx.1 hx.2)
    (fun x y hx hy => pair_rd (h1.elaw n) (h2.elaw n) hx.1 hx.2 hy.1 hy.2)
    (fun x hx => pair_fp (h1.elaw n) (h2.elaw n) hx.1 hx.2)
  fresh := ⟨h1.fresh, h2.fresh⟩
  dflt d hd := by
    simp only [CppType.pair] at hd
    split at hd
    · rename_i x y hx hy
      cases hd
      exact ⟨h1.dflt _ hx, h2.dflt _ hy⟩
    · cases hd
  ok x hx := by
    obtain ⟨n1, g1⟩ := h1.ok _ hx.1
    obtain ⟨n2, g2⟩ := h2.ok _ hx.2
    exact ⟨max n1 n2, fun n hn => ⟨g1 n (by omega), g2 n (by omega)⟩⟩
  prior n x y hx hy := ⟨h1.prior n _ _ hx.1 hy.1, h2.prior n _ _ hx.2 hy.2⟩
  rel n x y hr := ⟨h1.rel n _ _ hr.1, h2.rel n _ _ hr.2⟩
  multi _ _ _ := trivial

/-- The relation of `opt_rd` and `uptr_rd`. -/
def optRel (c : Codec T) (x z : Option T) : Prop :=
  (x = none ∧ z = none) ∨ ∃ a b, x = some a ∧ z = some b ∧ c.rel a b

theorem Composes.option (h : Composes K cfg t u C) {n : Nat} {x z : Option T} (hr : optRel (C n) x z) :
    u.sameOption x z := by
  rcases hr with ⟨rfl, rfl⟩ | ⟨a, b, rfl, rfl, hr⟩
  · trivial
  · exact h.rel n _ _ hr

theorem Composes.some (h : Composes K cfg t u C) {x : Option T} (hx : ∀ v, x = some v → u.ok v) :
    ∃ n0, ∀ n ≥ n0, ∀ v, x = some v → (C n).P v := by
  cases x with
  | none => exact ⟨0, fun n _ v h => by cases h⟩
  | some v =>
    obtain ⟨n0, h0⟩ := h.ok v (hx v rfl)
    exact ⟨n0, fun n hn w hw => by cases hw; exact h0 n hn⟩

def optionalCodec (cfg : Cfg) (ti : TI) (e : Elem T) (c : Codec T) : Codec (Option T) where
  P x := ∀ v, x = some v → c.P v
  enc w x := optEnc cfg w e.ti c x
  prior _ _ := True
  rel := optRel c
  fp x := ti.sizeof + match x with | some _ => e.ti.sizeof | none => 0
  multi _ := True

theorem optional_composes (hc : cfg.Valid) (h : Composes K cfg t u C) {ti : TI} (hti : ti.Valid) :
    Composes K cfg (.optional cfg ti t) (.optional u) (fun n => optionalCodec cfg ti (t.elem n) (C n)) where
  le hnm := dispatchEach_le fun s x => serOptional_le (h.elem_le hnm) _ s x
  law n := Law.ofEach hti trivial (fun _ hx => opt_wr hc (h.elaw n) hx)
    (fun _ _ hx _ => opt_rd hc (h.elaw n) (h.isFresh n) hx)
    (fun _ _ => opt_fp)
  fresh := trivial
  dflt _ _ := trivial
  ok _ hx := h.some hx
  prior _ _ _ _ _ := trivial
  rel _ _ _ hr := h.option hr
  multi _ _ _ := trivial

def uniquePtrCodec (cfg : Cfg) (ti : TI) (e : Elem T) (c : Codec T) : Codec (Option T) where
  P x := ∀ v, x = some v → c.P v
  enc w x := uptrEnc cfg w e.ti c none x
  prior x y := PtrPrior e c none x y
  rel := optRel c
  fp x := ti.sizeof + match x with | none => 0 | some v => c.fp v
  multi _ := True

theorem uniquePtr_composes (hc : cfg.Valid) (h : Composes K cfg t u C) {ti : TI} (hti : ti.Valid) :
    Composes K cfg (.uniquePtr cfg ti t) (.uniquePtr u) (fun n => uniquePtrCodec cfg ti (t.elem n) (C n)) where
  le hnm := dispatchEach_le fun s x => serUniquePtr_le (h.elem_le hnm) _ _ s x
  law n := Law.ofEach hti trivial (fun x hx => uptr_wr (virt := none) hc (h.elaw n) hx (fun _ _ _ h => by cases h))
    (fun x y hx hy => uptr_rd (virt := none) hc (h.elaw n) hx (fun _ _ _ h => by cases h) hy)
    (fun x hx => (uptr_fp (h.elaw n) hx).congr (fun _ _ => rfl) (by cases x <;> rfl))
  fresh := fun v h => by cases h
  dflt d hd := by cases hd; exact fun v h => by cases h
  ok x hx := h.some hx
  prior n x y hx hy := ⟨fun a b ha hb => ⟨h.prior n a b (hx a ha) (hy b hb), fun _ h => by cases h⟩,
    fun a ha _ _ => h.prior n a _ (hx a ha) h.fresh, fun _ _ _ _ h => by cases h⟩
  rel n x y hr := h.option hr
  multi _ _ _ := trivial

def arrayCodec (cfg : Cfg) (k : Nat) (e : Elem T) (c : Codec T) : Codec (List T) where
  P xs := (∀ x ∈ xs, c.P x) ∧ xs.length = k ∧ c.multi xs.length
  enc w xs := arrEnc cfg w e.ti c xs
  prior := List.Forall₂ c.prior
  rel := List.Forall₂ c.rel
  fp xs := (xs.map c.fp).sum
  multi _ := True

theorem array_composes (h : Composes K cfg t u C) {ti : TI} (hti : ti.Valid) (k : Nat) :
    Composes K cfg (.array cfg ti k t) (.array k u) (fun n => arrayCodec cfg k (t.elem n) (C n)) where
  le hnm := dispatchEach_le fun s x => by
    split
    · exact serializeArray_le (h.elem_le hnm) _ _
    · exact .refl _
  law n := Law.ofEach hti trivial
    (fun x hx => (serializeArray_wr (h.elaw n) hx.1 hx.2.2).congr
      (fun s _ => by simp [hx.2.1, serArray]) (fun _ => rfl))
    (fun x y hx hy => (serializeArray_rd (h.elaw n) hx.1 hy hx.2.2).congr
      (fun s _ => by rw [if_pos (by rw [← hy.length_eq]; exact hx.2.1)]; rfl) rfl (fun _ h => h))
    (fun x hx => (serializeArray_fp (h.elaw n) hx.1 hx.2.2).congr
      (fun s _ => by simp [hx.2.1, serArray]) rfl)
  fresh := ⟨fun y hy => (List.eq_of_mem_replicate hy) ▸ h.fresh, by simp [CppType.array]⟩
  dflt d hd := by
    simp only [CppType.array, Option.map_eq_some_iff] at hd
    obtain ⟨z, hz, rfl⟩ := hd
    exact ⟨fun y hy => (List.eq_of_mem_replicate hy) ▸ h.dflt z hz, by simp⟩
  ok x hx := by
    obtain ⟨n0, h0⟩ := h.all hx.1
    exact ⟨n0, fun n hn => ⟨h0 n hn, hx.2.1, hx.2.1 ▸ h.multi n _ hx.2.2⟩⟩
  prior n x y hx hy := forall₂_of_get (by rw [hx.2.1, hy.2]) (h.priors hx.1 hy.1)
  rel n x y hr := h.rels hr
  multi _ _ _ := trivial

/-! ### Kokkos classes -/

theorem Composes.zero (h : Composes K cfg t u C) (n : Nat) (x : T) (hx : (C n).P x) : (C n).prior x (t.elem n).zero := by
  have F := h.isFresh n
  unfold Elem.zero
  cases hd : (t.elem n).dflt with
  | none => exact F.fresh x hx
  | some d => exact F.dflt d hd x hx

theorem Composes.copy (h : Composes K cfg t u C) {n : Nat} {ty : ViewTy} {v w : View T}
    (hw : v.Copy ty (t.elem n).zero (C n).rel w) : v.Copy ty t.zero u.same w :=
  ⟨hw.label, hw.extents, hw.alloc, hw.strides, fun ha idx hi => by
    obtain ⟨x, y, h1, h2, h3⟩ := hw.elements ha idx hi
    exact ⟨x, y, h1, h2, h.rel _ _ _ h3⟩, hw.fresh, fun y hy =>
    (hw.memory y hy).imp_right fun ⟨x, hx, hr⟩ => ⟨x, hx, h.rel _ _ _ hr⟩⟩

theorem view_composes (hc : cfg.Valid) (h : Composes K cfg t u C) {k : ViewTI} (hk : k.Valid) {ty : ViewTy}
    (hh : ty.host = true) :
    Composes K cfg (.view cfg k ty t) (.view ty t u) (fun n => viewCodec cfg k ty (t.elem n) (C n)) where
  le hnm := (viewElem_le (h.elem_le hnm) k ty false).2
  law n := viewLaw hc hk (h.elaw n) (h.zero n) (by simp [hh])
  fresh := trivial
  dflt _ _ := trivial
  ok v hv := by
    obtain ⟨n0, h0⟩ := h.all hv.2.1
    exact ⟨n0, fun n hn => ⟨hv.1, h0 n hn, fun _ => h.multi n _ hv.2.2⟩⟩
  prior _ _ _ _ _ := trivial
  rel n x y hr := ⟨h.copy hr.1, hr.2⟩
  multi _ _ _ := trivial

theorem dynRank_composes (hc : cfg.Valid) (h : Composes K cfg t u C) {k : DynTI} (hk : k.Valid) (l : Layout) :
    Composes K cfg (.dynRank cfg k l t) (.dynRank l t u) (fun n => dynCodec cfg k l (t.elem n) (C n)) where
  le hnm := (dynRankElem_le (h.elem_le hnm) k l).2
  law n := dynLaw hc hk (h.elaw n) (h.zero n)
  fresh := trivial
  dflt _ _ := trivial
  ok v hv := by
    obtain ⟨n0, h0⟩ := h.all hv.2.1
    exact ⟨n0, fun n hn => ⟨hv.1, h0 n hn, fun _ => h.multi n _ hv.2.2⟩⟩
  prior _ _ _ _ _ := trivial
  rel n x y hr := ⟨by
    rcases hr.1 with h1 | ⟨h1, h2, h3⟩
    · exact .inl h1
    · exact .inr ⟨h1, h2, h.copy h3⟩, hr.2⟩
  multi _ _ _ := trivial

theorem dynamic_composes (hc : cfg.Valid) (h : Composes K cfg t u C) {k : DynamicTI} (hk : k.Valid) :
    Composes K cfg (.dynamic cfg k t) (.dynamic u) (fun n => dynamicCodec cfg k (t.elem n) (C n)) where
  le hnm := (dynamicElem_le (h.elem_le hnm) k).2
  law n := dynamicLaw hc hk (h.elaw n) (h.zero n)
  fresh := trivial
  dflt _ _ := trivial
  ok v hv := by
    obtain ⟨n0, h0⟩ := h.all hv.2
    exact ⟨n0, fun n hn => ⟨hv.1, h0 n hn⟩⟩
  prior _ _ _ _ _ := trivial
  rel n x y hw := ⟨⟨hw.1.label, hw.1.shift, hw.1.elems.imp fun a b hr => h.rel n _ _ hr, hw.1.max_enough,
    hw.1.max_least⟩, hw.2⟩
  multi _ _ _ := trivial

end

/-! ### Classes -/

/-- The law of the members of a class. -/
structure MembersCompose (K : Scope) (cfg : Cfg) {O : Type} (ms : MemberTypes O) (us : MemberUsages O) (C : Nat → Codec O) :
    Prop where
  le : ∀ {n m : Nat}, n ≤ m → ∀ s o, Out.Le (ms.visit cfg n s o) (ms.visit cfg m s o)
  wr : ∀ n x, (C n).P x → Wr K cfg (fun s => ms.visit cfg n s x)
    (fun w => (C n).enc w x) x
  rd : ∀ n x y, (C n).P x → (C n).prior x y → Rd K (fun s => ms.visit cfg n s y)
    ((C n).enc cfg.check x) ((C n).rel x)
  fp : ∀ n x, (C n).P x → Fp K (fun s => ms.visit cfg n s x) ((C n).fp x) x
  ok : ∀ x, (Usage.cls us).ok x → ∃ n0, ∀ n ≥ n0, (C n).P x
  prior : ∀ n x y, (C n).P x → (Usage.cls us).clean y → (C n).prior x y
  rel : ∀ n x y, (C n).rel x y → us.Same x y
  multi : ∀ n m, (C n).multi m

/-- One member and the others. -/
def membersCodec {A O : Type} (cfg : Cfg) (t : CppType A) (c : Codec A) (d : Codec O) : Codec (A × O) where
  P x := c.P x.1 ∧ d.P x.2
  enc w x := nodeEnc cfg w t.ti c x.1 ++ d.enc w x.2
  prior x y := c.prior x.1 y.1 ∧ d.prior x.2 y.2
  rel x y := c.rel x.1 y.1 ∧ d.rel x.2 y.2
  fp x := c.fp x.1 + d.fp x.2
  multi _ := True

theorem members_compose_over {O : Type} {ms : MemberTypes O} {us : MemberUsages O} {o : O → O → Prop} {ps : List OverUse}
    (hm : ms.MatchOver us o ps) (h : ∀ p ∈ ps, OverUse.Lawful K cfg p) :
    ∃ C, MembersCompose K cfg ms us C ∧ Codec.ReadsOver C o := by
  induction hm with
  | nil =>
    refine ⟨fun _ => (⟨fun _ => True, fun _ _ => [], fun _ _ => True, fun _ _ => True, fun _ => 0, fun _ => True⟩ :
      Codec Unit), ?_, fun _ _ _ _ _ => trivial⟩
    exact {
      le := fun _ _ _ => .refl _
      wr := fun _ x _ => Wr.pure x
      rd := fun _ _ y _ _ => Rd.pure trivial
      fp := fun _ x _ => Fp.pure x
      ok := fun _ _ => ⟨0, fun _ _ => trivial⟩
      prior := fun _ _ _ _ _ => trivial
      rel := fun _ _ _ _ => trivial
      multi := fun _ _ => trivial }
  | @cons A O t u o ms us os ps hm ih =>
    obtain ⟨C, hC, hCo⟩ := h ⟨A, t, u, o⟩ (.head _)
    obtain ⟨D, hD, hDo⟩ := ih fun p hp => h p (.tail _ hp)
    refine ⟨fun n => membersCodec cfg t (C n) (D n), ?_,
      fun n x y hx ho => ⟨hCo n _ _ hx.1 ho.1, hDo n _ _ hx.2 ho.2⟩⟩
    exact {
      le := fun hnm s o => Out.Le.bind (pipe_le (hC.elem_le hnm) _ _) fun _ =>
        Out.Le.bind (hD.le hnm _ _) fun _ => .refl _
      wr := fun n x hx => ((pipe_wr (hC.elaw n) hx.1).bind
        (k := fun p => ms.visit cfg n p.2 x.2 >>= fun q => .ok ((p.1, q.1), q.2)) (c := x)
        ((hD.wr n x.2 hx.2).map fun r => (x.1, r))).congr (fun _ _ => rfl) (fun _ => rfl)
      rd := fun n x y hx hy => ((pipe_rd (hC.elaw n) hx.1 hy.1).bind
        (k := fun p => ms.visit cfg n p.2 y.2 >>= fun q => .ok ((p.1, q.1), q.2))
        (Q' := fun z => (C n).rel x.1 z.1 ∧ (D n).rel x.2 z.2)
        (fun a ha => (hD.rd n x.2 y.2 hx.2 hy.2).map (fun r => (a, r)) fun r hr => ⟨ha, hr⟩)).congr
        (fun _ _ => rfl) rfl (fun _ h => h)
      fp := fun n x hx => ((pipe_fp (hC.elaw n) hx.1).bind
        (k := fun p => ms.visit cfg n p.2 x.2 >>= fun q => .ok ((p.1, q.1), q.2)) (c := x)
        ((hD.fp n x.2 hx.2).map fun r => (x.1, r))).congr (fun _ _ => rfl) rfl
      ok := fun x hx => by
        obtain ⟨n1, g1⟩ := hC.ok _ hx.1
        obtain ⟨n2, g2⟩ := hD.ok _ hx.2
        exact ⟨max n1 n2, fun n hn => ⟨g1 n (by omega), g2 n (by omega)⟩⟩
      prior := fun n x y hx hy => ⟨hC.prior n _ _ hx.1 hy.1, hD.prior n _ _ hx.2 hy.2⟩
      rel := fun n x y hr => ⟨hC.rel n _ _ hr.1, hD.rel n _ _ hr.2⟩
      multi := fun _ _ => trivial }

theorem members_compose {O : Type} {ms : MemberTypes O} {us : MemberUsages O} {ps : List TypeUse}
    (hm : ms.Match us ps) (h : ∀ p ∈ ps, ∃ C, Composes K cfg p.2.1 p.2.2 C) :
    ∃ C, MembersCompose K cfg ms us C := by
  obtain ⟨o, ho⟩ := hm.over
  obtain ⟨C, hC, _⟩ := members_compose_over ho (TypeUse.lawful h)
  exact ⟨C, hC⟩

theorem cls_composes {O : Type} {ms : MemberTypes O} {us : MemberUsages O} {C : Nat → Codec O}
    (h : MembersCompose K cfg ms us C) {ti : TI} (hti : ti.Valid) {fresh : O} {dflt : Option O} (c : Bool)
    (hf : (Usage.cls us).clean fresh) (hd : ∀ d, dflt = some d → (Usage.cls us).clean d) :
    Composes K cfg (.cls cfg ti fresh dflt c ms) (.cls us) C where
  le hnm := dispatchEach_le fun s x => h.le hnm s x
  law n := Law.ofEach hti (h.multi n 1) (h.wr n) (h.rd n) (h.fp n)
  fresh := hf
  dflt := hd
  ok := h.ok
  prior := h.prior
  rel := h.rel
  multi n m _ := h.multi n m

section
variable {K : Scope} {cfg : Cfg} {T : Type}

/-- The law of one object. -/
structure EachLaw (K : Scope) (cfg : Cfg) (f : Ser → T → Out (T × Ser)) (c : Codec T) : Prop where
  wr : ∀ x, c.P x → Wr K cfg (fun s => f s x) (fun w => c.enc w x) x
  rd : ∀ x y, c.P x → c.prior x y → Rd K (fun s => f s y) (c.enc cfg.check x) (c.rel x)
  fp : ∀ x, c.P x → Fp K (fun s => f s x) (c.fp x) x

theorem EachLaw.law {f : Ser → T → Out (T × Ser)} {c : Codec T} (h : EachLaw K cfg f c) {ti : TI} (hti : ti.Valid)
    (hone : c.multi 1) : Law K cfg ti (dispatchEach f) c := Law.ofEach hti hone h.wr h.rd h.fp

end

end Ckpt
