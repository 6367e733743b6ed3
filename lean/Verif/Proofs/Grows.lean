import Verif.Proofs.Recursive
import Verif.Proofs.ComposeMore
import Verif.Proofs.ComposePoly
/-!
Types that have others within pass on their failures; they finish whenever these do.
-/

set_option autoImplicit false

namespace Ckpt

variable {cfg : Cfg} {T A B O : Type} {n : Nat} {fl : Failure}

theorem CppType.FailsOr.refl (t : CppType T) : t.FailsOr fl n t := ⟨rfl, fun _ _ => .inr rfl⟩

theorem CppType.FailsOr.elem {t t' : CppType T} (h : t.FailsOr fl n t') : Elem.Or fl (t.elem n) (t'.elem n) := by
  obtain ⟨he, hh⟩ := h
  refine ⟨?_, hh⟩
  conv => lhs; rw [he]
  rfl

theorem CppType.FailsOr.cases {t t' : CppType T} (h : t.FailsOr fl n t') : ∃ f, t' = { t with apply := f } := ⟨_, h.1⟩

namespace CppType.PassesOn
variable {F : CppType T → CppType A} {G : CppType T → CppType B}

theorem self : CppType.PassesOn fl fun t : CppType T => t := fun _ _ _ h => h

theorem const (t : CppType A) : CppType.PassesOn fl fun _ : CppType T => t := fun _ _ _ _ => .refl _

theorem comp {H : CppType A → CppType B} (hH : CppType.PassesOn fl H) (hF : CppType.PassesOn fl F) :
    CppType.PassesOn fl fun t => H (F t) := fun n _ _ h => hH n _ _ (hF n _ _ h)

theorem vector (ti : TI) (c : Bool) (h : CppType.PassesOn fl F) : CppType.PassesOn fl fun t => .vector cfg ti c (F t) :=
  fun n t t' ht => ⟨rfl, dispatchEach_le fun s x => serVector_le (h n t t' ht).elem _ s x⟩

theorem list (ti : TI) (c : Bool) (h : CppType.PassesOn fl F) : CppType.PassesOn fl fun t => .list cfg ti c (F t) :=
  fun n t t' ht => ⟨rfl, dispatchEach_le fun s x => serList_le (h n t t' ht).elem _ s x⟩

theorem queue (ti : TI) (c : Bool) (h : CppType.PassesOn fl F) : CppType.PassesOn fl fun t => .queue cfg ti c (F t) :=
  fun n t t' ht => ⟨rfl, dispatchEach_le fun s x => serQueue_le (h n t t' ht).elem _ s x⟩

theorem ordered (ti : TI) (c : Bool) (a : Assoc) (lt : A → A → Bool) (h : CppType.PassesOn fl F) :
    CppType.PassesOn fl fun t => .ordered cfg ti c a lt (F t) :=
  fun n t t' ht => ⟨rfl, dispatchEach_le fun s x => serMapLike_le (h n t t' ht).elem _ _ s x⟩

theorem unordered (ti : TI) (c : Bool) (a : Assoc) (eq : A → A → Bool) (arrange : List A → List A)
    (h : CppType.PassesOn fl F) : CppType.PassesOn fl fun t => .unordered cfg ti c a eq arrange (F t) :=
  fun n t t' ht => ⟨rfl, dispatchEach_le fun s x => serMapLike_le (h n t t' ht).elem _ _ s x⟩

theorem pair (ti : TI) (h : CppType.PassesOn fl F) (h' : CppType.PassesOn fl G) :
    CppType.PassesOn fl fun t => .pair cfg ti (F t) (G t) := by
  intro n t t' ht
  refine ⟨?_, dispatchEach_le fun s x => serPair_le (h n t t' ht).elem (h' n t t' ht).elem _ s x⟩
  obtain ⟨f, hf⟩ := (h n t t' ht).cases
  obtain ⟨g, hg⟩ := (h' n t t' ht).cases
  simp only [hf, hg, CppType.pair]

theorem optional (ti : TI) (h : CppType.PassesOn fl F) : CppType.PassesOn fl fun t => .optional cfg ti (F t) := by
  intro n t t' ht
  refine ⟨?_, dispatchEach_le fun s x => serOptional_le (h n t t' ht).elem _ s x⟩
  obtain ⟨f, hf⟩ := (h n t t' ht).cases
  simp only [hf, CppType.optional]

theorem uniquePtr (ti : TI) (h : CppType.PassesOn fl F) : CppType.PassesOn fl fun t => .uniquePtr cfg ti (F t) :=
  fun n t t' ht => ⟨rfl, dispatchEach_le fun s x => serUniquePtr_le (h n t t' ht).elem _ _ s x⟩

theorem array (ti : TI) (k : Nat) (h : CppType.PassesOn fl F) : CppType.PassesOn fl fun t => .array cfg ti k (F t) := by
  intro n t t' ht
  refine ⟨?_, dispatchEach_le fun s x => ?_⟩
  · obtain ⟨f, hf⟩ := (h n t t' ht).cases
    simp only [hf, CppType.array]
  · split
    · exact serializeArray_le (h n t t' ht).elem _ _
    · exact .refl _

theorem view (k : ViewTI) (ty : ViewTy) (h : CppType.PassesOn fl F) : CppType.PassesOn fl fun t => .view cfg k ty (F t) :=
  fun n t t' ht => ⟨rfl, (viewElem_le (h n t t' ht).elem k ty false).2⟩

theorem constView (k : ViewTI) (ty : ViewTy) (h : CppType.PassesOn fl F) : CppType.PassesOn fl fun t => .constView cfg k ty (F t) :=
  fun n t t' ht => ⟨rfl, (viewElem_le (h n t t' ht).elem k ty true).2⟩

theorem dynRank (k : DynTI) (l : Layout) (h : CppType.PassesOn fl F) : CppType.PassesOn fl fun t => .dynRank cfg k l (F t) :=
  fun n t t' ht => ⟨rfl, (dynRankElem_le (h n t t' ht).elem k l).2⟩

theorem dynamic (k : DynamicTI) (h : CppType.PassesOn fl F) : CppType.PassesOn fl fun t => .dynamic cfg k (F t) :=
  fun n t t' ht => ⟨rfl, (dynamicElem_le (h n t t' ht).elem k).2⟩

theorem kmap (k : KMapTI) (e : KHash A B) (h : CppType.PassesOn fl F) (h' : CppType.PassesOn fl G) :
    CppType.PassesOn fl fun t => .kmap cfg k e (F t) (G t) :=
  fun n t t' ht => ⟨rfl, (kmapElem_le (h n t t' ht).elem (h' n t t' ht).elem).2⟩

theorem program (ti : TI) (fresh : O) (dflt : Option O) (c : Bool) {p : CppType T → Prog O} (h : Prog.PassesOn fl cfg p) :
    CppType.PassesOn fl fun t => .program cfg ti fresh dflt c (p t) :=
  fun n t t' ht => ⟨rfl, dispatchEach_le fun s x => h n t t' ht s x⟩

/-- A recursive class within another one. -/
theorem recursive (ti : TI) (fresh : O) (dflt : Option O) (c : Bool) {p : CppType T → CppType O → Prog O}
    (h : ∀ n t t' r r', t.FailsOr fl n t' → r.FailsOr fl n r' → ∀ s o, Out.Or fl ((p t r).run cfg n s o) ((p t' r').run cfg n s o)) :
    CppType.PassesOn fl fun t => .recursive cfg ti fresh dflt c (p t) := by
  intro n t t' ht
  refine ⟨rfl, ?_⟩
  have key : ∀ j, (CppType.unfold cfg ti fresh dflt c (p t) j).FailsOr fl n (CppType.unfold cfg ti fresh dflt c (p t') j) := by
    intro j
    induction j with
    | zero => exact .refl _
    | succ j ih => exact ⟨rfl, dispatchEach_le fun s x => h n t t' _ _ ht ih s x⟩
  exact (key n).2

end CppType.PassesOn

/-! ### Several types within -/

theorem MemberTypes.FailsOr.refl : {O : Type} → (ms : MemberTypes O) → ms.FailsOr fl n ms
  | _, .nil => .nil
  | _, .cons _ ms => .cons (.refl _) (.refl ms)

theorem AltTypes.FailsOr.refl : {V : Type} → (as : AltTypes V) → as.FailsOr fl n as
  | _, .nil => .nil
  | _, .cons _ as => .cons (.refl _) (.refl as)

theorem DynTypes.FailsOr.refl : {V : Type} → (ds : DynTypes V) → ds.FailsOr fl n ds
  | _, .nil => .nil
  | _, .cons d fresh _ ds => .cons d fresh (.refl _) (.refl ds)

theorem MemberTypes.PassesOn.const (ms : MemberTypes O) : MemberTypes.PassesOn fl fun _ : CppType T => ms :=
  fun _ _ _ _ => .refl ms

theorem AltTypes.PassesOn.const (as : AltTypes O) : AltTypes.PassesOn fl fun _ : CppType T => as := fun _ _ _ _ => .refl as

theorem DynTypes.PassesOn.const (ds : DynTypes O) : DynTypes.PassesOn fl fun _ : CppType T => ds := fun _ _ _ _ => .refl ds

theorem MemberTypes.PassesOn.nil : MemberTypes.PassesOn fl fun _ : CppType T => .nil := fun _ _ _ _ => .nil

theorem MemberTypes.PassesOn.cons {F : CppType T → CppType A} {M : CppType T → MemberTypes O} (h : CppType.PassesOn fl F)
    (hM : MemberTypes.PassesOn fl M) : MemberTypes.PassesOn fl fun t => .cons (F t) (M t) :=
  fun n t t' ht => .cons (h n t t' ht) (hM n t t' ht)

theorem AltTypes.PassesOn.nil : AltTypes.PassesOn fl fun _ : CppType T => .nil := fun _ _ _ _ => .nil

theorem AltTypes.PassesOn.cons {F : CppType T → CppType A} {M : CppType T → AltTypes O} (h : CppType.PassesOn fl F)
    (hM : AltTypes.PassesOn fl M) : AltTypes.PassesOn fl fun t => .cons (F t) (M t) :=
  fun n t t' ht => .cons (h n t t' ht) (hM n t t' ht)

theorem DynTypes.PassesOn.nil : DynTypes.PassesOn fl fun _ : CppType T => .nil := fun _ _ _ _ => .nil

theorem DynTypes.PassesOn.cons (d : Nat) (fresh : A) {M : CppType T → MemberTypes A} {D : CppType T → DynTypes O}
    (hM : MemberTypes.PassesOn fl M) (hD : DynTypes.PassesOn fl D) : DynTypes.PassesOn fl fun t => .cons d fresh (M t) (D t) :=
  fun n t t' ht => .cons d fresh (hM n t t' ht) (hD n t t' ht)

theorem MemberTypes.FailsOr.visit {ms ms' : MemberTypes O} (h : ms.FailsOr fl n ms') :
    ∀ s o, Out.Or fl (ms.visit cfg n s o) (ms'.visit cfg n s o) := by
  induction h with
  | nil => exact fun _ _ => .refl _
  | cons ht _ ih => exact fun s o => Out.Or.bind (pipe_le ht.elem _ _) fun _ => Out.Or.bind (ih _ _) fun _ => .refl _

theorem MemberTypes.FailsOr.visitAt {ms ms' : MemberTypes O} (h : ms.FailsOr fl n ms') :
    ∀ i s o, Out.Or fl (ms.visitAt cfg n i s o) (ms'.visitAt cfg n i s o) := by
  induction h with
  | nil => exact fun _ _ _ => .refl _
  | cons ht _ ih =>
    rintro (_ | i) s o
    · exact Out.Or.bind (pipe_le ht.elem _ _) fun _ => .refl _
    · exact Out.Or.bind (ih _ _ _) fun _ => .refl _

theorem MemberTypes.FailsOr.visitOrder {ms ms' : MemberTypes O} (h : ms.FailsOr fl n ms') :
    ∀ is s o, Out.Or fl (ms.visitOrder cfg n is s o) (ms'.visitOrder cfg n is s o)
  | [], _, _ => .refl _
  | i :: is, s, o => Out.Or.bind (h.visitAt i s o) fun _ => h.visitOrder is _ _

theorem MemberTypes.FailsOr.chain {ms ms' : MemberTypes O} {reg : SerReg} {root : Nat} (h : ms.FailsOr fl n ms') :
    ∀ ks s o, Out.Or fl (ms.chain cfg reg root n ks s o) (ms'.chain cfg reg root n ks s o) := by
  induction h with
  | nil => exact fun _ _ _ => .refl _
  | @cons A O t t' ms ms' ht _ ih =>
    rintro (_ | ⟨k, ks⟩) s o
    · exact .refl _
    · refine Out.Or.bind (.refl _) fun kind => ?_
      split
      · exact .refl _
      · refine Out.Or.bind (pipe_le ?_ _ _) fun _ => Out.Or.bind (ih _ _ _) fun _ => .refl _
        refine ⟨?_, fun s xs => ht.2 _ _⟩
        obtain ⟨f, hf⟩ := ht.cases
        rw [hf]
        rfl

theorem MemberTypes.FailsOr.same {ms ms' : MemberTypes O} (h : ms.FailsOr fl n ms') : ms'.length = ms.length ∧
    ms'.fresh = ms.fresh ∧ ms'.dflt = ms.dflt ∧ ms'.copyable = ms.copyable := by
  induction h with
  | nil => exact ⟨rfl, rfl, rfl, rfl⟩
  | cons ht _ ih =>
    obtain ⟨f, hf⟩ := ht.cases
    simp only [hf, MemberTypes.length, MemberTypes.fresh, MemberTypes.dflt, MemberTypes.copyable, ih, and_self]

theorem AltTypes.FailsOr.entry {as as' : AltTypes O} (h : as.FailsOr fl n as') :
    ∀ i s v, Out.Or fl (as.entry cfg n s v i) (as'.entry cfg n s v i) := by
  induction h with
  | nil => exact fun _ _ _ => .refl _
  | @cons A V t t' as as' ht _ ih =>
    rintro (_ | i) s v
    · have hf : t'.fresh = t.fresh := by rw [ht.1]
      simp only [AltTypes.entry, hf]
      split
      · exact Out.Or.bind (pipe_le ht.elem _ _) fun _ => .refl _
      · split
        · exact Out.Or.bind (pipe_le ht.elem _ _) fun _ => .refl _
        · exact .refl _
    · exact Out.Or.bind (ih _ _ _) fun _ => .refl _

theorem AltTypes.FailsOr.same {as as' : AltTypes O} (h : as.FailsOr fl n as') : as'.at = as.at ∧
    as'.fresh = as.fresh ∧ as'.dflt = as.dflt ∧ as'.copyable = as.copyable := by
  induction h with
  | nil => exact ⟨rfl, rfl, rfl, rfl⟩
  | cons ht _ ih =>
    obtain ⟨f, hf⟩ := ht.cases
    refine ⟨?_, ?_⟩
    · funext v
      cases v with
      | inl _ => rfl
      | inr v => simp only [AltTypes.at, ih.1]
    · simp only [hf, AltTypes.fresh, AltTypes.dflt, AltTypes.copyable, ih, and_self]

theorem DynTypes.FailsOr.serialize {env : Env} {ds ds' : DynTypes O} (h : ds.FailsOr fl n ds') :
    ∀ s v, Out.Or fl (ds.serialize cfg env n s v) (ds'.serialize cfg env n s v) := by
  induction h with
  | nil => exact fun _ v => v.elim
  | cons d fresh hm _ ih =>
    rintro s (o | v)
    · exact Out.Or.bind (hm.chain _ _ _) fun _ => .refl _
    · exact Out.Or.bind (ih _ _) fun _ => .refl _

theorem DynTypes.FailsOr.same {ds ds' : DynTypes O} (h : ds.FailsOr fl n ds') : ds'.classOf = ds.classOf ∧ ds'.make = ds.make := by
  induction h with
  | nil => exact ⟨rfl, rfl⟩
  | cons d fresh hm _ ih =>
    constructor
    · funext v
      cases v with
      | inl _ => rfl
      | inr v => simp only [DynTypes.classOf, ih.1]
    · funext k
      simp only [DynTypes.make, ih.2]

namespace CppType.PassesOn

theorem cls (ti : TI) (fresh : O) (dflt : Option O) (c : Bool) {M : CppType T → MemberTypes O} (h : MemberTypes.PassesOn fl M) :
    CppType.PassesOn fl fun t => .cls cfg ti fresh dflt c (M t) :=
  fun n t t' ht => ⟨rfl, dispatchEach_le fun s x => (h n t t' ht).visit s x⟩

theorem tuple (ti : TI) {M : CppType T → MemberTypes O} (h : MemberTypes.PassesOn fl M) :
    CppType.PassesOn fl fun t => .tuple cfg ti (M t) := by
  intro n t t' ht
  obtain ⟨h1, h2, h3, h4⟩ := (h n t t' ht).same
  refine ⟨by simp only [CppType.tuple, h2, h3, h4], ?_⟩
  simp only [CppType.tuple, h1]
  exact dispatchEach_le fun s x => (h n t t' ht).visitOrder _ s x

theorem variant (ti : TI) {M : CppType T → AltTypes O} (h : AltTypes.PassesOn fl M) :
    CppType.PassesOn fl fun t => .variant cfg ti (M t) := by
  intro n t t' ht
  obtain ⟨h1, h2, h3, h4⟩ := (h n t t' ht).same
  refine ⟨by simp only [CppType.variant, h2, h3, h4], dispatchEach_le fun s x => ?_⟩
  have : (M t').index x = (M t).index x := by
    cases x with
    | none => rfl
    | some v => simp only [AltTypes.index, h1]
  simp only [AltTypes.serialize, this]
  exact Out.Or.bind (.refl _) fun p => (h n t t' ht).entry _ _ _

theorem object (env : Env) (d : Nat) (ti : TI) (fresh : O) (dflt : Option O) (c : Bool) {M : CppType T → MemberTypes O}
    (h : MemberTypes.PassesOn fl M) : CppType.PassesOn fl fun t => .object cfg env d ti fresh dflt c (M t) :=
  fun n t t' ht => ⟨rfl, first_le fun s x => (h n t t' ht).chain _ s x⟩

theorem polyPtr_of (env : Env) (ti : TI) (c : Nat) (cti : TI) (any : O) {ds ds' : DynTypes O} (h : ds.FailsOr fl n ds') :
    (CppType.polyPtr cfg env ti c cti any ds).FailsOr fl n (.polyPtr cfg env ti c cti any ds') := by
  refine ⟨rfl, dispatchEach_le fun s x => ?_⟩
  have hv : ds'.virt cfg env c = ds.virt cfg env c := by
    obtain ⟨h1, h2⟩ := h.same
    simp only [DynTypes.virt, h1, Virt.mk.injEq, true_and]
    funext i
    simp only [DynTypes.construct, h2]
  simp only [hv]
  exact serUniquePtr_le ⟨rfl, first_le h.serialize⟩ _ _ s x

theorem polyPtr (env : Env) (ti : TI) (c : Nat) (cti : TI) (any : O) {M : CppType T → DynTypes O}
    (h : DynTypes.PassesOn fl M) : CppType.PassesOn fl fun t => .polyPtr cfg env ti c cti any (M t) :=
  fun n t t' ht => polyPtr_of env ti c cti any (h n t t' ht)

/-- Hierarchies that own objects of the hierarchy, with other types within. -/
theorem hierarchyPtr (env : Env) (ti : TI) (c : Nat) (cti : TI) (any : A) {M : CppType T → CppType (Option A) → DynTypes A}
    (h : ∀ n t t' r r', t.FailsOr fl n t' → r.FailsOr fl n r' → (M t r).FailsOr fl n (M t' r')) :
    CppType.PassesOn fl fun t => .hierarchyPtr cfg env ti c cti any (M t) := by
  intro n t t' ht
  have key : ∀ j, (CppType.hierarchyTo cfg env ti c cti any (M t) j).FailsOr fl n
      (CppType.hierarchyTo cfg env ti c cti any (M t') j) := by
    intro j
    induction j with
    | zero => exact .refl _
    | succ j ih => exact polyPtr_of env ti c cti any (h n t t' _ _ ht ih)
  exact ⟨rfl, (key n).2⟩

end CppType.PassesOn

namespace Prog.PassesOn
variable {F : CppType T → CppType A}

theorem done : Prog.PassesOn fl cfg fun _ : CppType T => (.done : Prog O) := fun _ _ _ _ _ _ => .inr rfl

theorem const (p : Prog O) : Prog.PassesOn fl cfg fun _ : CppType T => p := fun _ _ _ _ _ _ => .inr rfl

theorem visit (get : O → Option A) (set : A → O → O) {k : CppType T → Prog O} (h : CppType.PassesOn fl F)
    (hk : Prog.PassesOn fl cfg k) : Prog.PassesOn fl cfg fun t => .visit (F t) get set (k t) := by
  intro n t t' ht s o
  simp only [Prog.run]
  split
  · exact (pipe_le (h n t t' ht).elem _ _).bind fun p => hk n t t' ht _ _
  · exact .inr rfl

theorem block (get : O → Option (List A)) (set : List A → O → O) {k : CppType T → Prog O} (h : CppType.PassesOn fl F)
    (hk : Prog.PassesOn fl cfg k) : Prog.PassesOn fl cfg fun t => .block (F t) get set (k t) := by
  intro n t t' ht s o
  simp only [Prog.run]
  split
  · exact (serializeArray_le (h n t t' ht).elem _ _).bind fun p => hk n t t' ht _ _
  · exact .inr rfl

theorem value (f : O → A) {k : CppType T → A → Prog O} (h : CppType.PassesOn fl F)
    (hk : ∀ a, Prog.PassesOn fl cfg fun t => k t a) : Prog.PassesOn fl cfg fun t => .value (F t) f (k t) :=
  fun n t t' ht _ _ => (pipe_le (h n t t' ht).elem _ _).bind fun p => hk p.1 n t t' ht _ _

theorem count (f : O → Nat) {k : CppType T → Nat → Prog O} (hk : ∀ a, Prog.PassesOn fl cfg fun t => k t a) :
    Prog.PassesOn fl cfg fun t => .count f (k t) :=
  fun n t t' ht _ _ => Out.Or.bind (.refl _) fun p => hk p.1 n t t' ht _ _

theorem flag (f : O → Bool) {k : CppType T → Bool → Prog O} (hk : ∀ a, Prog.PassesOn fl cfg fun t => k t a) :
    Prog.PassesOn fl cfg fun t => .flag f (k t) :=
  fun n t t' ht _ _ => Out.Or.bind (.refl _) fun p => hk p.1 n t t' ht _ _

theorem update (g : O → O) {k : CppType T → Prog O} (hk : Prog.PassesOn fl cfg k) :
    Prog.PassesOn fl cfg fun t => .update g (k t) := fun n t t' ht s o => hk n t t' ht s (g o)

theorem mode {r w : CppType T → Prog O} (hr : Prog.PassesOn fl cfg r) (hw : Prog.PassesOn fl cfg w) :
    Prog.PassesOn fl cfg fun t => .mode (r t) (w t) := by
  intro n t t' ht s o
  simp only [Prog.run]
  split
  · exact hr n t t' ht s o
  · exact hw n t t' ht s o

theorem addBytes (f : O → Nat) {k : CppType T → Prog O} (hk : Prog.PassesOn fl cfg k) :
    Prog.PassesOn fl cfg fun t => .addBytes f (k t) := fun n t t' ht _ o => hk n t t' ht _ o

theorem look {k : CppType T → O → Prog O} (hk : ∀ o, Prog.PassesOn fl cfg fun t => k t o) :
    Prog.PassesOn fl cfg fun t => .look (k t) := fun n t t' ht s o => hk o n t t' ht s o

end Prog.PassesOn

/-! ### A recursive class is the class whose function visits it -/

section
variable {ti : TI} {fresh : O} {dflt : Option O} {c : Bool} {p : CppType O → Prog O}

theorem recursive_unfold (hp : Prog.Grows cfg p) (n : Nat) :
    (CppType.program cfg ti fresh dflt c (p (.recursive cfg ti fresh dflt c p))).apply n =
      (CppType.unfold cfg ti fresh dflt c p (n + 1)).apply n := by
  have hrec : ∀ s o, (p (.recursive cfg ti fresh dflt c p)).run cfg n s o =
      (p (.unfold cfg ti fresh dflt c p n)).run cfg n s o := by
    intro s o
    have h1 : (CppType.recursive cfg ti fresh dflt c p).Below n (.unfold cfg ti fresh dflt c p n) :=
      ⟨by rw [unfold_head]; rfl, fun _ _ => .inr rfl⟩
    have h2 : (CppType.unfold cfg ti fresh dflt c p n).Below n (.recursive cfg ti fresh dflt c p) :=
      ⟨by conv => rhs; rw [unfold_head]
          rfl, fun _ _ => .inr rfl⟩
    rcases hp n _ _ h1 s o with h | h
    · rcases hp n _ _ h2 s o with h' | h'
      · rw [h, h']
      · exact h'.symm
    · exact h
  show dispatchEach _ = dispatchEach _
  congr 1
  funext s o
  exact hrec s o

end

end Ckpt
