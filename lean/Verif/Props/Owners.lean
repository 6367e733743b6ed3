import Verif.Props.RecursivePoly
/-!
# C74: hierarchies any classes of which own objects of the hierarchy
-/

set_option autoImplicit false

namespace Ckpt

section
variable {R : RelMode} {cfg : Cfg} {env : Env} {V : Type} {ti cti : TI} {c : Nat} {any : V}
  {ds : CppType (Option V) → DynTypes V}

/-- **C74**: a pointer to the root of a hierarchy any classes of which visit such pointers, or types that contain them,
and members of any other types: a pointer to an object of any of these classes, with objects owned by each other up to
any depth, round trips; the restored object is of the same class. -/
theorem C74_hierarchy_roundtrip {us : Nat → AltUsages V} {ps : Nat → List TypeUse}
    (hv : env.Valid R (· ∈ builtinKinds) cfg) (hti : ti.Valid) (hcti : cti.Valid)
    (hg : CppType.Grows fun t => .polyPtr cfg env ti c cti any (ds t))
    (hm : ∀ j, (ds (.hierarchyTo cfg env ti c cti any ds j)).Match (us j) (ps j))
    (hps : ∀ j, ∀ p ∈ ps j, Composed R cfg env p.2.1 p.2.2)
    (hfit : ∀ j, (ds (.hierarchyTo cfg env ti c cti any ds j)).Fits env)
    (hnd : ∀ j, (ds (.hierarchyTo cfg env ti c cti any ds j)).classes.Nodup) {j : Nat} {x : Option V}
    (hx : ∀ v, x = some v → (us j).Ok v ∧
      (ds (.hierarchyTo cfg env ti c cti any ds j)).classOf v ∈ env.objReg (env.root c) ∧
      (env.cls ((ds (.hierarchyTo cfg env ti c cti any ds j)).classOf v)).abstract = false) :
    RoundTrips cfg (CppType.hierarchyPtr cfg env ti c cti any ds).elem x (fun y => y = none)
      fun _ w => (x = none ∧ w = none) ∨ ∃ v v' j, x = some v ∧ w = some v' ∧ (us j).Same v v' := by
  have h : Composed R cfg env (.hierarchyPtr cfg env ti c cti any ds)
      ⟨fun x => ∃ j, ∀ v, x = some v → (us j).Ok v ∧
        (ds (.hierarchyTo cfg env ti c cti any ds j)).classOf v ∈ env.objReg (env.root c) ∧
        (env.cls ((ds (.hierarchyTo cfg env ti c cti any ds j)).classOf v)).abstract = false, fun y => y = none,
        fun x w => (x = none ∧ w = none) ∨ ∃ v v' j, x = some v ∧ w = some v' ∧ (us j).Same v v', fun _ => True⟩ := by
    refine .weaken (.hierarchyPtr c any hti hcti hg hm hps hfit hnd) (fun _ h => h) (fun _ h _ => h) ?_
      (fun _ _ => trivial) rfl (by rintro _ ⟨⟩; rfl)
    rintro x y - ⟨j, h | ⟨v, v', h1, h2, h3⟩⟩
    · exact .inl h
    · exact .inr ⟨v, v', j, h1, h2, h3⟩
  exact C65_composed_roundtrip hv h ⟨j, hx⟩

/-- **C74**: the type is `std::unique_ptr` to the classes that own it: they end in the same way for all pointers and all
serializers. -/
theorem C74_hierarchy_is_pointer {us : Nat → Usage (Option V)} (hv : env.Valid R (· ∈ builtinKinds) cfg)
    (hg : CppType.Grows fun t => .polyPtr cfg env ti c cti any (ds t))
    (hc : ∀ j, Composed R cfg env (.hierarchyTo cfg env ti c cti any ds j) (us j)) (s : Ser) (xs : List (Option V))
    (o : Out (List (Option V) × Ser)) (ho : o ≠ .fuel) :
    (∃ n, (CppType.hierarchyPtr cfg env ti c cti any ds).apply n s xs = o) ↔
      ∃ n, (CppType.polyPtr cfg env ti c cti any (ds (.hierarchyPtr cfg env ti c cti any ds))).apply n s xs = o := by
  constructor
  · rintro ⟨n, rfl⟩
    refine ⟨n, ?_⟩
    rw [hierarchyPtr_unfold hg]
    rcases (hierarchyTo_below hg n n).2 s xs with h | h
    · exact absurd h ho
    · exact h.symm
  · rintro ⟨n, rfl⟩
    refine ⟨n + 1, ?_⟩
    rw [hierarchyPtr_unfold hg] at ho ⊢
    obtain ⟨C, hC⟩ := (hc (n + 1)).composes hv
    exact (hC.le (Nat.le_succ n) s xs).eq_of_ne ho

/-- **C74**: for a pointer to an object of such a hierarchy, the footprinter counts what `std::unique_ptr` counts, all
that the object owns included. -/
theorem C74_footprint {us : Nat → Usage (Option V)} (hv : env.Valid R (· ∈ builtinKinds) cfg)
    (hg : CppType.Grows fun t => .polyPtr cfg env ti c cti any (ds t))
    (hc : ∀ j, Composed R cfg env (.hierarchyTo cfg env ti c cti any ds j) (us j)) {x : Option V} {f : Nat}
    (h : Counts cfg (.polyPtr cfg env ti c cti any (ds (.hierarchyPtr cfg env ti c cti any ds))) x f) :
    Counts cfg (.hierarchyPtr cfg env ti c cti any ds) x f := by
  obtain ⟨n0, h0⟩ := h
  refine ⟨n0 + 1, fun n hn m hm => ?_⟩
  obtain ⟨k, rfl⟩ : ∃ k, n = k + 1 := ⟨n - 1, by omega⟩
  obtain ⟨C, hC⟩ := (hc (k + 1)).composes hv
  have key : Elem.Le ((CppType.polyPtr cfg env ti c cti any (ds (.hierarchyPtr cfg env ti c cti any ds))).elem k)
      ((CppType.hierarchyPtr cfg env ti c cti any ds).elem (k + 1)) := by
    refine ⟨rfl, fun s xs => ?_⟩
    show Out.Le ((CppType.polyPtr cfg env ti c cti any (ds (.hierarchyPtr cfg env ti c cti any ds))).apply k s xs)
      ((CppType.hierarchyTo cfg env ti c cti any ds (k + 1)).apply (k + 1) s xs)
    rw [hierarchyPtr_unfold hg]
    exact hC.le (Nat.le_succ k) s xs
  have := h0 k (by omega) m hm
  rw [← this]
  exact ((pipe_le key _ x).eq_of_ne (by rw [this]; exact fun h => by cases h))

/-- **C74**: whatever bytes a stream delivers for a pointer to such a hierarchy, reading ends as in C66: it suffices that
the members of the classes are guarded if pointers to the root are, with whatever handler `t.apply`. -/
theorem C74_arbitrary_input {U : UB → Prop} {is : AltShapes V} {ps : CppType (Option V) → List TypeShape}
    (hE : env.Sound cfg) (hU : ∀ u, Hazard cfg env u → U u)
    (hg : CppType.Grows fun t => .polyPtr cfg env ti c cti any (ds t))
    (hm : ∀ t, (CppType.declared ti none (some none) false).Like t → (ds t).Shaped is (ps t))
    (hps : ∀ t, (CppType.declared ti none (some none) false).Like t → ∀ p ∈ ps t,
      GuardedIn U cfg env (· = ⟨Option V, t, fun x => ∀ v, x = some v → is.Holds v⟩)
        (· = ⟨Option V, t, fun x => ∀ v, x = some v → is.Holds v⟩) p.2.1 p.2.2)
    (hfit : ∀ t, (CppType.declared ti none (some none) false).Like t → (ds t).Fits env)
    (ha : ∀ d ∈ env.objReg (env.root c), (env.cls d).abstract = true → cfg.ndebug = true → U .nullDeref)
    (hd : ∀ t, (CppType.declared ti none (some none) false).Like t →
      ∀ d ∈ env.objReg (env.root c), (env.cls d).abstract = false → d ∉ (ds t).classes → U .typeConfusion)
    (inp : Bytes) {y : Option V} (hy : ∀ v, y = some v → is.Holds v) :
    ∃ o, EndsWell U (fun x => ∀ v, x = some v → is.Holds v) o ∧ ∃ n0, ∀ n, n0 ≤ n →
      deserializeInPlaceFromStream cfg ((CppType.hierarchyPtr cfg env ti c cti any ds).elem n) inp y = o :=
  C66_stream_in_place hE hU (.hierarchyPtr ti c cti any hg hm
    (fun t ht p hp => (hps t ht p hp).mono (fun _ => .inr) (fun _ => .inr)) hfit ha hd) inp hy

end

/-! ### Groups and decorators -/

/-- The own part of `struct Group : Base { std::vector<std::unique_ptr<Base>> kids; };` (`true`) and that of
`struct Decorator : Base { B value; std::unique_ptr<Base> inner; };` (`false`), the members of `Base` being `S`; `V` are
the objects of the other classes that derive from `Base`, and `cap` is the capacity of the vector. -/
inductive Owner (S B V : Type) : Bool → Type
  | group (cap : Nat) (kids : List (Option ((S × Owner S B V true × Unit) ⊕ ((S × Owner S B V false × Unit) ⊕ V)))) :
      Owner S B V true
  | deco (value : B) (inner : Option ((S × Owner S B V true × Unit) ⊕ ((S × Owner S B V false × Unit) ⊕ V))) :
      Owner S B V false

namespace Owner

section
variable {S B V : Type}

/-- Any object of the hierarchy. -/
abbrev Any (S B V : Type) : Type := (S × Owner S B V true × Unit) ⊕ ((S × Owner S B V false × Unit) ⊕ V)

def kids : Owner S B V true → Vec (Option (Any S B V))
  | group n ks => ⟨n, ks⟩

def value : Owner S B V false → B
  | deco b _ => b

def inner : Owner S B V false → Option (Any S B V)
  | deco _ p => p

/-- What holds for objects of the hierarchy: `I` for the members of the base class, `G` for owners, `J` for objects of
the other classes. -/
inductive PtrAll (I : S → Prop) (G : (i : Bool) → Owner S B V i → Prop) (J : V → Prop) : Option (Any S B V) → Prop
  | null : PtrAll I G J none
  | group {s : S} {g : Owner S B V true} : I s → G true g → PtrAll I G J (some (.inl (s, g, ())))
  | deco {s : S} {g : Owner S B V false} : I s → G false g → PtrAll I G J (some (.inr (.inl (s, g, ()))))
  | other {v : V} : J v → PtrAll I G J (some (.inr (.inr v)))

/-- The owner can be written, with everything below it: `u` for the members of the base class, `w` for those of
decorators, `P` for objects of other classes. -/
inductive Ok (u : Usage S) (w : Usage B) (P : V → Prop) : (i : Bool) → Owner S B V i → Prop
  | group {n : Nat} {ks : List (Option (Any S B V))} : ks.length ≤ n → n < 2 ^ 64 →
      (∀ p ∈ ks, PtrAll u.ok (Ok u w P) P p) → Ok u w P true (.group n ks)
  | deco {b : B} {p : Option (Any S B V)} : w.ok b → PtrAll u.ok (Ok u w P) P p → Ok u w P false (.deco b p)

/-- Pointers to equal objects of the same class, given which owners are equal. -/
inductive SamePtr (u : Usage S) (Q : V → V → Prop) (G : (i : Bool) → Owner S B V i → Owner S B V i → Prop) :
    Option (Any S B V) → Option (Any S B V) → Prop
  | null : SamePtr u Q G none none
  | group {s s' : S} {g g' : Owner S B V true} : u.same s s' → G true g g' →
      SamePtr u Q G (some (.inl (s, g, ()))) (some (.inl (s', g', ())))
  | deco {s s' : S} {g g' : Owner S B V false} : u.same s s' → G false g g' →
      SamePtr u Q G (some (.inr (.inl (s, g, ())))) (some (.inr (.inl (s', g', ()))))
  | other {v v' : V} : Q v v' → SamePtr u Q G (some (.inr (.inr v))) (some (.inr (.inr v')))

/-- An owner with equal objects of the same classes. -/
inductive Same (u : Usage S) (w : Usage B) (Q : V → V → Prop) : (i : Bool) → Owner S B V i → Owner S B V i → Prop
  | group {n m : Nat} {ks ls : List (Option (Any S B V))} : n ≤ m → m < 2 ^ 64 →
      List.Forall₂ (SamePtr u Q (Same u w Q)) ks ls → Same u w Q true (.group n ks) (.group m ls)
  | deco {a b : B} {p q : Option (Any S B V)} : w.same a b → SamePtr u Q (Same u w Q) p q →
      Same u w Q false (.deco a p) (.deco b q)

theorem PtrAll.mono {I : S → Prop} {J : V → Prop} {G G' : (i : Bool) → Owner S B V i → Prop} (h : ∀ i g, G i g → G' i g)
    {p : Option (Any S B V)} (hp : PtrAll I G J p) : PtrAll I G' J p := by
  cases hp with
  | null => exact .null
  | group h1 h2 => exact .group h1 (h _ _ h2)
  | deco h1 h2 => exact .deco h1 (h _ _ h2)
  | other h1 => exact .other h1

/-- Induction. -/
theorem Ok.elim {u : Usage S} {w : Usage B} {P : V → Prop} {M : (i : Bool) → Owner S B V i → Prop}
    (hg : ∀ n ks, ks.length ≤ n → n < 2 ^ 64 → (∀ p ∈ ks, PtrAll u.ok (fun i g => Ok u w P i g ∧ M i g) P p) →
      M true (.group n ks))
    (hd : ∀ b p, w.ok b → PtrAll u.ok (fun i g => Ok u w P i g ∧ M i g) P p → M false (.deco b p)) {i : Bool}
    {x : Owner S B V i} (h : Ok u w P i x) : M i x := by
  refine Ok.rec (motive_1 := fun i x _ => M i x) (motive_2 := fun p _ => PtrAll u.ok (fun i g => Ok u w P i g ∧ M i g) P p)
    (fun hl hn _ ih => hg _ _ hl hn ih) (fun hb _ ih => hd _ _ hb ih) .null (fun h1 h2 ih => .group h1 ⟨h2, ih⟩)
    (fun h1 h2 ih => .deco h1 ⟨h2, ih⟩) (fun h1 => .other h1) h

variable (cfg : Cfg) (env : Env)

/-- The part of the class of groups, `s | kids;`, given `std::unique_ptr<Base>`. -/
def groupPart (gti vti : TI) (t : CppType (Option (Any S B V))) : CppType (Owner S B V true) :=
  .program cfg gti (.group 0 []) none false
    (.visit (.vector cfg vti false t) (fun o => some o.kids) (fun v _ => .group v.cap v.elems) .done)

/-- The part of the class of decorators, `s | value; s | inner;`. -/
def decoPart (dti : TI) (newB : B) (b : CppType B) (t : CppType (Option (Any S B V))) : CppType (Owner S B V false) :=
  .program cfg dti (.deco newB none) none false
    (.visit b (fun o => some o.value) (fun v o => .deco v o.inner)
      (.visit t (fun o => some o.inner) (fun p o => .deco o.value p) .done))

/-- What the hierarchy consists of: types of the vector, of the classes' parts, and of the pointer, the number and type
of the root, the numbers of the classes of groups and decorators, the members of the root and those of decorators with
what their constructors make, and the other classes. -/
structure Parts (S B V : Type) where
  gti : TI
  vti : TI
  dti : TI
  pti : TI
  c : Nat
  cti : TI
  group : Nat
  deco : Nat
  new : S
  s : CppType S
  newB : B
  b : CppType B
  others : DynTypes V

/-- The classes of the hierarchy. -/
def Parts.classes (h : Parts S B V) (t : CppType (Option (Any S B V))) : DynTypes (Any S B V) :=
  .cons h.group (h.new, .group 0 [], ()) (.cons h.s (.cons (groupPart cfg h.gti h.vti t) .nil))
    (.cons h.deco (h.new, .deco h.newB none, ()) (.cons h.s (.cons (decoPart cfg h.dti h.newB h.b t) .nil)) h.others)

/-- Some object. -/
def Parts.any (h : Parts S B V) : Any S B V := .inl (h.new, .group 0 [], ())

/-- `std::unique_ptr<Base>`. -/
def Parts.rootPtr (h : Parts S B V) : CppType (Option (Any S B V)) :=
  .hierarchyPtr cfg env h.pti h.c h.cti h.any (h.classes cfg)

/-- An object of another class can be written: its class is registered with the root of the hierarchy, and can be
constructed. -/
def Parts.OtherOk (h : Parts S B V) (vs : AltUsages V) (v : V) : Prop :=
  vs.Ok v ∧ h.others.classOf v ∈ env.objReg (env.root h.c) ∧ (env.cls (h.others.classOf v)).abstract = false

/-- The hierarchy is that of the program, with type indices as the library makes them. -/
structure Parts.Fits (h : Parts S B V) : Prop where
  gti : h.gti.Valid
  vti : h.vti.Valid
  dti : h.dti.Valid
  pti : h.pti.Valid
  cti : h.cti.Valid
  others : h.others.Fits env
  group : (env.chain h.group).length = 2
  deco : (env.chain h.deco).length = 2
  distinct : (h.group :: h.deco :: h.others.classes).Nodup
  groupReg : h.group ∈ env.objReg (env.root h.c)
  decoReg : h.deco ∈ env.objReg (env.root h.c)
  groupMade : (env.cls h.group).abstract = false
  decoMade : (env.cls h.deco).abstract = false

end

section
variable {R : RelMode} {cfg : Cfg} {env : Env} {S B V : Type} {h : Parts S B V} {u : Usage S} {w : Usage B}
  {vs : AltUsages V} {ps : List TypeUse} {E : Bool}

theorem classes_grows (h : Parts S B V) :
    CppType.Grows fun t => .polyPtr cfg env h.pti h.c h.cti h.any (h.classes cfg t) :=
  .polyPtr env _ _ _ _ (.cons _ _ (.cons (.const _) (.cons (.program _ _ _ _ (.visit _ _ (.vector _ _ .self) .done)) .nil))
    (.cons _ _ (.cons (.const _) (.cons (.program _ _ _ _ (.visit _ _ (.const _) (.visit _ _ .self .done))) .nil)) (.const _)))

/-- The owner can be written if the pointers it owns can. -/
def OwnTo (w : Usage B) (Q : Option (Any S B V) → Prop) : (i : Bool) → Owner S B V i → Prop
  | _, .group n ks => ks.length ≤ n ∧ n < 2 ^ 64 ∧ ∀ p ∈ ks, Q p
  | _, .deco b p => w.ok b ∧ Q p

/-- Up to depth `j`. -/
def PtrTo (u : Usage S) (w : Usage B) (P : V → Prop) : Nat → Option (Any S B V) → Prop
  | 0, _ => False
  | j + 1, p => PtrAll u.ok (OwnTo w (PtrTo u w P j)) P p

theorem OwnTo.mono {Q Q' : Option (Any S B V) → Prop} (h : ∀ p, Q p → Q' p) : ∀ {i : Bool} {x : Owner S B V i},
    OwnTo w Q i x → OwnTo w Q' i x
  | _, .group _ _, hx => ⟨hx.1, hx.2.1, fun p hp => h p (hx.2.2 p hp)⟩
  | _, .deco _ _, hx => ⟨hx.1, h _ hx.2⟩

theorem PtrTo.step {P : V → Prop} : ∀ {j : Nat} {p : Option (Any S B V)}, PtrTo u w P j p → PtrTo u w P (j + 1) p
  | _ + 1, _, hp => PtrAll.mono (fun _ _ hg => hg.mono fun _ hp => PtrTo.step hp) hp

theorem PtrTo.mono {P : V → Prop} {j m : Nat} (hjm : j ≤ m) {p : Option (Any S B V)} (hp : PtrTo u w P j p) :
    PtrTo u w P m p := by
  induction hjm with
  | refl => exact hp
  | step _ ih => exact ih.step

theorem PtrAll.to {P : V → Prop} {p : Option (Any S B V)}
    (hp : PtrAll u.ok (fun i g => ∃ j, OwnTo w (PtrTo u w P j) i g) P p) : ∃ j, ∀ m ≥ j, PtrTo u w P m p := by
  have key : ∃ j, PtrAll u.ok (OwnTo w (PtrTo u w P j)) P p := by
    cases hp with
    | null => exact ⟨0, .null⟩
    | group h1 h2 =>
      obtain ⟨j, hj⟩ := h2
      exact ⟨j, .group h1 hj⟩
    | deco h1 h2 =>
      obtain ⟨j, hj⟩ := h2
      exact ⟨j, .deco h1 hj⟩
    | other h1 => exact ⟨0, .other h1⟩
  obtain ⟨j, hj⟩ := key
  exact ⟨j + 1, fun m hm => PtrTo.mono (j := j + 1) hm hj⟩

theorem Ok.to {P : V → Prop} {i : Bool} {x : Owner S B V i} (hx : Ok u w P i x) : ∃ j, OwnTo w (PtrTo u w P j) i x := by
  refine Ok.elim (M := fun i x => ∃ j, OwnTo w (PtrTo u w P j) i x) ?_ ?_ hx
  · intro n ks hl hn ih
    obtain ⟨j, hj⟩ := eventually_list (xs := ks) (Q := fun p j => PtrTo u w P j p) fun p hp =>
      PtrAll.to ((ih p hp).mono fun _ _ => And.right)
    exact ⟨j, hl, hn, hj j (Nat.le_refl _)⟩
  · intro b p hb ih
    obtain ⟨j, hj⟩ := PtrAll.to (ih.mono fun _ _ => And.right)
    exact ⟨j, hb, hj j (Nat.le_refl _)⟩

/-- The owner can be read over. -/
def Clean (w : Usage B) : (i : Bool) → Owner S B V i → Prop
  | _, .group n ks => (∀ p ∈ ks, p = none) ∧ n < 2 ^ 64
  | _, .deco b p => w.clean b ∧ p = none

/-- What is said of pointers. -/
def ptrUse (u : Usage S) (w : Usage B) (vs : AltUsages V) (Q : Option (Any S B V) → Prop) : Usage (Option (Any S B V)) :=
  ⟨Q, fun y => y = none, SamePtr u vs.Same (Same u w vs.Same), fun _ => True⟩

/-- What is said of owners. -/
def ownUse (u : Usage S) (w : Usage B) (vs : AltUsages V) (Q : Option (Any S B V) → Prop) (i : Bool) :
    Usage (Owner S B V i) :=
  ⟨OwnTo w Q i, Clean w i, Same u w vs.Same i, fun _ => True⟩

theorem groupPart_composed {gti vti pti : TI} {t : CppType (Option (Any S B V))} {Q : Option (Any S B V) → Prop}
    (hgti : gti.Valid) (hvti : vti.Valid) (hl : (CppType.declared pti none (some none) false).Like t)
    (ht : ComposedOf E R cfg env t (ptrUse u w vs Q)) :
    ComposedOf E R cfg env (groupPart cfg gti vti t) (ownUse u w vs Q true) := by
  refine .program (ps := (· = ⟨_, .vector cfg vti false t, .vector t (ptrUse u w vs Q)⟩)) false
    (fun x => [.one (.vector cfg vti false t) (.vector t (ptrUse u w vs Q)) x.kids]) hgti ⟨⟨_, rfl⟩, trivial⟩ ?_ ?_ ?_ ?_ ?_
  · rintro _ rfl
    exact .vector false hvti ht
  · rintro (⟨n, ks⟩ | _) hx
    refine ⟨.visit _ rfl rfl .done, ?_⟩
    intro i hi
    simp only [List.mem_cons, List.not_mem_nil, or_false] at hi
    subst hi
    exact ⟨rfl, hx.2.2, hx.1, hx.2.1, trivial⟩
  · rintro (⟨n, ks⟩ | _) (⟨m, ls⟩ | _) _ hy
    refine .visit rfl ⟨hy.1, fun hn => ?_, hy.2⟩ fun v' hv' => .done (.group hv'.2.1 hv'.2.2 hv'.1)
    rw [hl] at hn
    cases hn
  · exact ⟨by simp, by decide⟩
  · rintro _ ⟨⟩

theorem decoPart_composed {dti : TI} {newB : B} {b : CppType B} {t : CppType (Option (Any S B V))}
    {Q : Option (Any S B V) → Prop} (hdti : dti.Valid) (hb : ComposedOf E R cfg env b w) (hn : w.clean newB)
    (ht : ComposedOf E R cfg env t (ptrUse u w vs Q)) :
    ComposedOf E R cfg env (decoPart cfg dti newB b t) (ownUse u w vs Q false) := by
  refine .program (ps := fun q => q = ⟨_, b, w⟩ ∨ q = ⟨_, t, ptrUse u w vs Q⟩) false
    (fun x => [.one b w x.value, .one t (ptrUse u w vs Q) x.inner]) hdti ⟨⟨_, .inl rfl⟩, ⟨_, .inr rfl⟩, trivial⟩ ?_ ?_ ?_ ?_ ?_
  · rintro _ (rfl | rfl)
    · exact hb
    · exact ht
  · rintro (_ | ⟨a, p⟩) hx
    refine ⟨.visit _ rfl rfl (.visit _ rfl rfl .done), ?_⟩
    intro i hi
    simp only [List.mem_cons, List.not_mem_nil, or_false] at hi
    rcases hi with rfl | rfl
    · exact ⟨.inl rfl, hx.1⟩
    · exact ⟨.inr rfl, hx.2⟩
  · rintro (_ | ⟨a, p⟩) (_ | ⟨a', q⟩) _ hy
    exact .visit rfl hy.1 fun v hv => .visit rfl hy.2 fun q' hq' => .done (.deco hv hq')
  · exact ⟨hn, rfl⟩
  · rintro _ ⟨⟩

/-- What is said of each class, given which pointers can be written. -/
def classUse (u : Usage S) (w : Usage B) (vs : AltUsages V) (Q : Option (Any S B V) → Prop) : AltUsages (Any S B V) :=
  .cons (.cls (.cons u (.cons (ownUse u w vs Q true) .nil))) (.cons (.cls (.cons u (.cons (ownUse u w vs Q false) .nil))) vs)

/-- The types of all parts. -/
def Parts.uses (h : Parts S B V) (cfg : Cfg) (u : Usage S) (w : Usage B) (vs : AltUsages V) (ps : List TypeUse)
    (t : CppType (Option (Any S B V))) (Q : Option (Any S B V) → Prop) : List TypeUse :=
  ⟨_, h.s, u⟩ :: ⟨_, groupPart cfg h.gti h.vti t, ownUse u w vs Q true⟩ ::
    ⟨_, h.s, u⟩ :: ⟨_, decoPart cfg h.dti h.newB h.b t, ownUse u w vs Q false⟩ :: ps

theorem classes_match (hn : u.clean h.new) (hnb : w.clean h.newB) (hds : h.others.Match vs ps)
    (t : CppType (Option (Any S B V))) (Q : Option (Any S B V) → Prop) :
    (h.classes cfg t).Match (classUse u w vs Q) (h.uses cfg u w vs ps t Q) := by
  have h1 : (Usage.cls (.cons u (.cons (ownUse u w vs Q true) .nil))).clean (h.new, .group 0 [], ()) :=
    ⟨hn, by simp [ownUse, Clean], trivial⟩
  have h2 : (Usage.cls (.cons u (.cons (ownUse u w vs Q false) .nil))).clean (h.new, .deco h.newB none, ()) :=
    ⟨hn, ⟨hnb, rfl⟩, trivial⟩
  exact .cons h.group (.cons _ _ (.cons _ _ .nil)) h1 (.cons h.deco (.cons _ _ (.cons _ _ .nil)) h2 hds)

theorem uses_composed (hf : h.Fits env) (hs : ComposedOf E R cfg env h.s u) (hb : ComposedOf E R cfg env h.b w)
    (hnb : w.clean h.newB) (hps : ∀ p ∈ ps, ComposedOf E R cfg env p.2.1 p.2.2) {t : CppType (Option (Any S B V))}
    {Q : Option (Any S B V) → Prop} (hl : (CppType.declared h.pti none (some none) false).Like t)
    (ht : ComposedOf E R cfg env t (ptrUse u w vs Q)) :
    ∀ p ∈ h.uses cfg u w vs ps t Q, ComposedOf E R cfg env p.2.1 p.2.2 := by
  intro p hp
  simp only [Parts.uses, List.mem_cons] at hp
  rcases hp with rfl | rfl | rfl | rfl | hp
  · exact hs
  · exact groupPart_composed hf.gti hf.vti hl ht
  · exact hs
  · exact decoPart_composed hf.dti hb hnb ht
  · exact hps p hp

theorem same_classes {Q : Option (Any S B V) → Prop} : ∀ {v v' : Any S B V}, (classUse u w vs Q).Same v v' →
    SamePtr u vs.Same (Same u w vs.Same) (some v) (some v')
  | .inl (_, _, ()), .inl (_, _, ()), h => .group h.1 h.2.1
  | .inr (.inl (_, _, ())), .inr (.inl (_, _, ())), h => .deco h.1 h.2.1
  | .inr (.inr _), .inr (.inr _), h => .other h

theorem ok_classes (hf : h.Fits env) (t : CppType (Option (Any S B V))) {Q : Option (Any S B V) → Prop}
    {x : Option (Any S B V)} (hx : PtrAll u.ok (OwnTo w Q) (h.OtherOk env vs) x) :
    (Usage.polyPtr env h.c (h.classes cfg t) (classUse u w vs Q)).ok x := by
  rintro v rfl
  cases hx with
  | group h1 h2 => exact ⟨⟨h1, h2, trivial⟩, hf.groupReg, hf.groupMade⟩
  | deco h1 h2 => exact ⟨⟨h1, h2, trivial⟩, hf.decoReg, hf.decoMade⟩
  | other h1 => exact h1

theorem hierarchyTo_like (j : Nat) : (CppType.declared h.pti none (some none) false).Like
    (.hierarchyTo cfg env h.pti h.c h.cti h.any (h.classes cfg) j) := hierarchyTo_head j

/-- The pointers are composed up to every depth. -/
theorem composedTo (hf : h.Fits env) (hs : ComposedOf E R cfg env h.s u) (hn : u.clean h.new)
    (hb : ComposedOf E R cfg env h.b w) (hnb : w.clean h.newB) (hds : h.others.Match vs ps)
    (hps : ∀ p ∈ ps, ComposedOf E R cfg env p.2.1 p.2.2) :
    ∀ j, ComposedOf E R cfg env (.hierarchyTo cfg env h.pti h.c h.cti h.any (h.classes cfg) j)
      (ptrUse u w vs (PtrTo u w (h.OtherOk env vs) j))
  | 0 => .weaken (.declared (clean := fun y => y = none) false hf.pti rfl (by rintro _ ⟨⟩; rfl)) (fun _ h => h)
      (fun _ h => h) (fun _ _ h => h.elim) (fun _ _ => trivial) rfl (by rintro _ ⟨⟩; rfl)
  | j + 1 => by
    refine .weaken (.polyPtr h.c h.any hf.pti hf.cti (classes_match hn hnb hds _ (PtrTo u w (h.OtherOk env vs) j))
      (uses_composed hf hs hb hnb hps (hierarchyTo_like j) (composedTo hf hs hn hb hnb hds hps j))
      ⟨hf.group.symm, hf.deco.symm, hf.others⟩ hf.distinct) (fun x hx => ok_classes hf _ hx) (fun _ h => h) ?_
      (fun _ _ => trivial) rfl (by rintro _ ⟨⟩; rfl)
    rintro x y - (⟨rfl, rfl⟩ | ⟨v, v', rfl, rfl, h⟩)
    · exact .null
    · exact same_classes h

theorem composed (hf : h.Fits env) (hs : ComposedOf E R cfg env h.s u) (hn : u.clean h.new)
    (hb : ComposedOf E R cfg env h.b w) (hnb : w.clean h.newB) (hds : h.others.Match vs ps)
    (hps : ∀ p ∈ ps, ComposedOf E R cfg env p.2.1 p.2.2) :
    ComposedOf E R cfg env (h.rootPtr cfg env)
      (ptrUse u w vs (PtrAll u.ok (Ok u w (h.OtherOk env vs)) (h.OtherOk env vs))) := by
  refine .weaken (.hierarchyPtr h.c h.any hf.pti hf.cti (classes_grows h)
    (fun j => classes_match hn hnb hds _ (PtrTo u w (h.OtherOk env vs) j))
    (fun j => uses_composed hf hs hb hnb hps (hierarchyTo_like j) (composedTo hf hs hn hb hnb hds hps j))
    (fun _ => ⟨hf.group.symm, hf.deco.symm, hf.others⟩) (fun _ => hf.distinct)) ?_ (fun _ h _ => h) ?_
    (fun _ _ => trivial) rfl (by rintro _ ⟨⟩; rfl)
  · intro x hx
    obtain ⟨j, hj⟩ := PtrAll.to (hx.mono fun _ _ => Ok.to)
    exact ⟨j, ok_classes hf _ (hj (j + 1) (Nat.le_succ j))⟩
  · rintro x y - ⟨j, ⟨rfl, rfl⟩ | ⟨v, v', rfl, rfl, h⟩⟩
    · exact .null
    · exact same_classes h

/-! ### What is counted -/

/-- What is counted for an owner, with `f` bytes for the members of the base class, `k` for those of a decorator and `h`
for an object of another class. -/
def counted (vector ptr : Nat) (f : S → Nat) (k : B → Nat) (h : V → Nat) : {i : Bool} → Owner S B V i → Nat
  | _, .group n ks => vector + (ks.attach.map fun
      | ⟨none, _⟩ => ptr
      | ⟨some (.inl (s, g, ())), _⟩ => ptr + (f s + g.counted vector ptr f k h)
      | ⟨some (.inr (.inl (s, g, ()))), _⟩ => ptr + (f s + g.counted vector ptr f k h)
      | ⟨some (.inr (.inr v)), _⟩ => ptr + h v).sum + ptr * (n - ks.length)
  | _, .deco b none => k b + ptr
  | _, .deco b (some (.inl (s, g, ()))) => k b + (ptr + (f s + g.counted vector ptr f k h))
  | _, .deco b (some (.inr (.inl (s, g, ())))) => k b + (ptr + (f s + g.counted vector ptr f k h))
  | _, .deco b (some (.inr (.inr v))) => k b + (ptr + h v)
termination_by _ x => sizeOf x
decreasing_by
  all_goals first
    | (rename_i hm
       have := List.sizeOf_lt_of_mem hm
       simp at this ⊢
       omega)
    | (simp; omega)

/-- What is counted for a pointer. -/
def countedPtr (vector ptr : Nat) (f : S → Nat) (k : B → Nat) (h : V → Nat) : Option (Any S B V) → Nat
  | none => ptr
  | some (.inl (s, g, ())) => ptr + (f s + g.counted vector ptr f k h)
  | some (.inr (.inl (s, g, ()))) => ptr + (f s + g.counted vector ptr f k h)
  | some (.inr (.inr v)) => ptr + h v

theorem counted_group (vector ptr : Nat) (f : S → Nat) (k : B → Nat) (h : V → Nat) (n : Nat)
    (ks : List (Option (Any S B V))) : (Owner.group n ks).counted vector ptr f k h =
      vector + (ks.map (countedPtr vector ptr f k h)).sum + ptr * (n - ks.length) := by
  rw [counted]
  congr 3
  rw [← List.attach_map_val (l := ks) (f := countedPtr vector ptr f k h)]
  refine List.map_congr_left fun p _ => ?_
  match p with
  | ⟨none, _⟩ => rfl
  | ⟨some (.inl (_, _, ())), _⟩ => rfl
  | ⟨some (.inr (.inl (_, _, ()))), _⟩ => rfl
  | ⟨some (.inr (.inr _)), _⟩ => rfl

theorem counted_deco (vector ptr : Nat) (f : S → Nat) (k : B → Nat) (h : V → Nat) (b : B) (p : Option (Any S B V)) :
    (Owner.deco b p).counted vector ptr f k h = k b + countedPtr vector ptr f k h p := by
  match p with
  | none => rw [counted]; rfl
  | some (.inl (_, _, ())) => rw [counted]; rfl
  | some (.inr (.inl (_, _, ()))) => rw [counted]; rfl
  | some (.inr (.inr _)) => rw [counted]; rfl

theorem groupPart_counts {gti vti : TI} {t : CppType (Option (Any S B V))} {v : Usage (Option (Any S B V))} {n : Nat}
    {ks : List (Option (Any S B V))} {f : Option (Any S B V) → Nat} (hv : env.Valid R (· ∈ builtinKinds) cfg)
    (ht : Composed R cfg env t v) (hm : v.many ks.length) (hk : ∀ p ∈ ks, v.ok p) (hf : ∀ p ∈ ks, Counts cfg t p (f p)) :
    Counts cfg (groupPart cfg gti vti t) (.group n ks)
      (vti.sizeof + (ks.map f).sum + t.ti.sizeof * (n - ks.length)) := by
  rw [← Nat.add_zero (_ + _ * _)]
  refine C70_program hv ?_ _ _ _ _
  exact .visit rfl rfl ((C70_containers vti false).1 ⟨n, ks⟩ _ (C70_arrays hv ht hk hm hf)) .done

theorem decoPart_counts {dti : TI} {newB : B} {b : CppType B} {t : CppType (Option (Any S B V))} {x : B}
    {p : Option (Any S B V)} {m n : Nat} (hv : env.Valid R (· ∈ builtinKinds) cfg) (hb : Counts cfg b x m)
    (ht : Counts cfg t p n) : Counts cfg (decoPart cfg dti newB b t) (.deco x p) (m + n) := by
  refine C70_program hv ?_ _ _ _ _
  rw [← Nat.add_zero n]
  exact .visit rfl rfl hb (.visit rfl rfl ht .done)

/-! ### Well-formed owners -/

/-- No group has more pointers than its vector has room for; `I` holds for members of the base class, `K` for those of
decorators and `J` for objects of other classes. -/
inductive Formed (I : S → Prop) (K : B → Prop) (J : V → Prop) : (i : Bool) → Owner S B V i → Prop
  | group {n : Nat} {ks : List (Option (Any S B V))} : ks.length ≤ n → (∀ p ∈ ks, PtrAll I (Formed I K J) J p) →
      Formed I K J true (.group n ks)
  | deco {b : B} {p : Option (Any S B V)} : K b → PtrAll I (Formed I K J) J p → Formed I K J false (.deco b p)

variable {I : S → Prop} {K : B → Prop} {js : AltShapes V} {qs : List TypeShape} {U : UB → Prop}

/-- The shapes of all classes. -/
def shapes (I : S → Prop) (K : B → Prop) (js : AltShapes V) : AltShapes (Any S B V) :=
  .cons (MemberShapes.cons I (.cons (Formed I K js.Holds true) .nil)).All
    (.cons (MemberShapes.cons I (.cons (Formed I K js.Holds false) .nil)).All js)

theorem holds_iff : (fun x => ∀ v, x = some v → (shapes I K js).Holds v) = PtrAll I (Formed I K js.Holds) js.Holds := by
  funext x
  refine propext ⟨fun hx => ?_, ?_⟩
  · match x, hx with
    | none, _ => exact .null
    | some (.inl (_, _, ())), hx => exact .group (hx _ rfl).1 (hx _ rfl).2.1
    | some (.inr (.inl (_, _, ()))), hx => exact .deco (hx _ rfl).1 (hx _ rfl).2.1
    | some (.inr (.inr _)), hx => exact .other (hx _ rfl)
  · rintro hx v rfl
    cases hx with
    | group h1 h2 => exact ⟨h1, h2, trivial⟩
    | deco h1 h2 => exact ⟨h1, h2, trivial⟩
    | other h1 => exact h1

theorem groupPart_guarded {gti vti : TI} {D L : TypeSet} {t : CppType (Option (Any S B V))} {J : V → Prop}
    (ht : GuardedIn U cfg env L L t (PtrAll I (Formed I K J) J)) :
    GuardedIn U cfg env D L (groupPart cfg gti vti t) (Formed I K J true) := by
  refine .program (ps := (· = ⟨_, .vector cfg vti false t,
    fun v => v.elems.length ≤ v.cap ∧ ∀ p ∈ v.elems, PtrAll I (Formed I K J) J p⟩)) (qs := fun _ => False) gti false ?_ (fun _ h => h.elim) ?_
    (.group (Nat.le_refl _) (by simp)) (by rintro _ ⟨⟩)
  · rintro _ rfl
    exact .vector vti false ht
  · intro y hy
    cases hy with
    | group hl hk => exact ⟨_, rfl, ⟨hl, hk⟩, fun v hv => .group hv.1 hv.2⟩

theorem decoPart_guarded {dti : TI} {newB : B} {b : CppType B} {D L : TypeSet} {t : CppType (Option (Any S B V))}
    {J : V → Prop} (hb : GuardedIn U cfg env D L b K) (hn : K newB)
    (ht : GuardedIn U cfg env D L t (PtrAll I (Formed I K J) J)) :
    GuardedIn U cfg env D L (decoPart cfg dti newB b t) (Formed I K J false) := by
  refine .program (ps := fun q => q = ⟨_, b, K⟩ ∨ q = ⟨_, t, PtrAll I (Formed I K J) J⟩) (qs := fun _ => False) dti false ?_
    (fun _ h => h.elim) ?_ (.deco hn .null) (by rintro _ ⟨⟩)
  · rintro _ (rfl | rfl)
    · exact hb
    · exact ht
  · intro y hy
    cases hy with
    | deco hk hp => exact ⟨K, .inl rfl, hk, fun a ha => ⟨_, .inr rfl, hp, fun q hq => .deco ha hq⟩⟩

theorem guarded (hs : Guarded U cfg env h.s I) (hn : I h.new) (hb : Guarded U cfg env h.b K) (hnb : K h.newB)
    (hds : h.others.Shaped js qs) (hqs : ∀ q ∈ qs, Guarded U cfg env q.2.1 q.2.2) (hf : h.others.Fits env)
    (hg : (env.chain h.group).length = 2) (hd : (env.chain h.deco).length = 2)
    (ha : ∀ d ∈ env.objReg (env.root h.c), (env.cls d).abstract = true → cfg.ndebug = true → U .nullDeref)
    (hc : ∀ d ∈ env.objReg (env.root h.c), (env.cls d).abstract = false → d ∉ h.group :: h.deco :: h.others.classes →
      U .typeConfusion) :
    Guarded U cfg env (h.rootPtr cfg env) (PtrAll I (Formed I K js.Holds) js.Holds) := by
  have hf1 : (MemberShapes.cons I (.cons (Formed I K js.Holds true) .nil)).All (h.new, .group 0 [], ()) :=
    ⟨hn, .group (Nat.le_refl _) (by simp), trivial⟩
  have hf2 : (MemberShapes.cons I (.cons (Formed I K js.Holds false) .nil)).All (h.new, .deco h.newB none, ()) :=
    ⟨hn, .deco hnb .null, trivial⟩
  have key : Guarded U cfg env (h.rootPtr cfg env) (fun x => ∀ v, x = some v → (shapes I K js).Holds v) := by
    refine .hierarchyPtr (is := shapes I K js) h.pti h.c h.cti h.any (classes_grows h)
      (fun t _ => .cons h.group (.cons h.s I (.cons (groupPart cfg h.gti h.vti t) (Formed I K js.Holds true) .nil)) hf1
        (.cons h.deco (.cons h.s I (.cons (decoPart cfg h.dti h.newB h.b t) (Formed I K js.Holds false) .nil)) hf2 hds))
      ?_ (fun t _ => ⟨hg.symm, hd.symm, hf⟩) ha (fun t _ => hc)
    intro t _ p hp
    simp only [List.cons_append, List.nil_append, List.mem_cons] at hp
    have hk : GuardedIn U cfg env (fun r => False ∨ r = ⟨_, t, fun x => ∀ v, x = some v → (shapes I K js).Holds v⟩)
        (fun r => False ∨ r = ⟨_, t, fun x => ∀ v, x = some v → (shapes I K js).Holds v⟩) t
        (PtrAll I (Formed I K js.Holds) js.Holds) := by
      have : GuardedIn U cfg env (fun r => False ∨ r = ⟨_, t, fun x => ∀ v, x = some v → (shapes I K js).Holds v⟩)
          (fun r => False ∨ r = ⟨_, t, fun x => ∀ v, x = some v → (shapes I K js).Holds v⟩) t
          (fun x => ∀ v, x = some v → (shapes I K js).Holds v) := .known (.inr rfl)
      rw [holds_iff] at this ⊢
      exact this
    rcases hp with rfl | rfl | rfl | rfl | hp
    · exact hs.mono (fun _ h => h.elim) (fun _ h => h.elim)
    · exact groupPart_guarded hk
    · exact hs.mono (fun _ h => h.elim) (fun _ h => h.elim)
    · exact decoPart_guarded (hb.mono (fun _ h => h.elim) (fun _ h => h.elim)) hnb hk
    · exact (hqs p hp).mono (fun _ h => h.elim) (fun _ h => h.elim)
  rw [holds_iff] at key
  exact key

end

end Owner

section
variable {R : RelMode} {cfg : Cfg} {env : Env} {S B V : Type} {h : Owner.Parts S B V} {u : Usage S} {w : Usage B}
  {vs : AltUsages V} {ps : List TypeUse}

/-- **C74**: a hierarchy with a class that owns any number of objects of the hierarchy, another one that owns one such
object beside other members, and any other classes: a pointer to an object of any of these classes, with any objects
within each other, is restored with objects of the same classes and equal members. -/
theorem C74_owners_roundtrip (hv : env.Valid R (· ∈ builtinKinds) cfg) (hf : h.Fits env)
    (hs : Composed R cfg env h.s u) (hn : u.clean h.new) (hb : Composed R cfg env h.b w) (hnb : w.clean h.newB)
    (hds : h.others.Match vs ps) (hps : ∀ p ∈ ps, Composed R cfg env p.2.1 p.2.2) {x : Option (Owner.Any S B V)}
    (hx : Owner.PtrAll u.ok (Owner.Ok u w (h.OtherOk env vs)) (h.OtherOk env vs) x) :
    RoundTrips cfg (h.rootPtr cfg env).elem x (fun y => y = none)
      fun _ y => Owner.SamePtr u vs.Same (Owner.Same u w vs.Same) x y :=
  C65_composed_roundtrip hv (Owner.composed hf hs hn hb hnb hds hps) hx

/-- **C74**: its memory footprint: for each pointer its own size, and what is counted for the object it owns. -/
theorem C74_owners_footprint (hv : env.Valid R (· ∈ builtinKinds) cfg) (hf : h.Fits env)
    (hs : Composed R cfg env h.s u) (hn : u.clean h.new) (hb : Composed R cfg env h.b w) (hnb : w.clean h.newB)
    (hds : h.others.Match vs ps) (hps : ∀ p ∈ ps, Composed R cfg env p.2.1 p.2.2) {f : S → Nat}
    (hfs : ∀ a, u.ok a → Counts cfg h.s a (f a)) {k : B → Nat} (hfb : ∀ b, w.ok b → Counts cfg h.b b (k b))
    {g : V → Nat} (hfv : ∀ v, h.OtherOk env vs v → ∃ fs, h.others.Counts cfg v fs ∧ fs.sum = g v)
    {x : Option (Owner.Any S B V)}
    (hx : Owner.PtrAll u.ok (Owner.Ok u w (h.OtherOk env vs)) (h.OtherOk env vs) x) :
    Counts cfg (h.rootPtr cfg env) x (Owner.countedPtr h.vti.sizeof h.pti.sizeof f k g x) := by
  have hc := Owner.composed hf hs hn hb hnb hds hps
  have hto := Owner.composedTo hf hs hn hb hnb hds hps
  have hfit : (h.classes cfg (h.rootPtr cfg env)).Fits env := ⟨hf.group.symm, hf.deco.symm, hf.others⟩
  let M : (i : Bool) → Owner S B V i → Prop := fun i y =>
    match i, y with
    | true, y => Counts cfg (Owner.groupPart cfg h.gti h.vti (h.rootPtr cfg env)) y
        (y.counted h.vti.sizeof h.pti.sizeof f k g)
    | false, y => Counts cfg (Owner.decoPart cfg h.dti h.newB h.b (h.rootPtr cfg env)) y
        (y.counted h.vti.sizeof h.pti.sizeof f k g)
  have one : ∀ x, Owner.PtrAll u.ok M (h.OtherOk env vs) x →
      Counts cfg (h.rootPtr cfg env) x (Owner.countedPtr h.vti.sizeof h.pti.sizeof f k g x) := by
    intro x hx
    refine C74_footprint hv (Owner.classes_grows h) hto ?_
    cases hx with
    | null => exact polyPtr_null
    | group h1 h2 =>
      have := polyPtr_counts (ti := h.pti) (k := h.c) (cti := h.cti) (any := h.any) hv.toUsable hfit
        (.here (.cons (hfs _ h1) (.cons h2 .nil)))
      simpa [Owner.countedPtr, Owner.Parts.rootPtr] using this
    | deco h1 h2 =>
      have := polyPtr_counts (ti := h.pti) (k := h.c) (cti := h.cti) (any := h.any) hv.toUsable hfit
        (.there (.here (.cons (hfs _ h1) (.cons h2 .nil))))
      simpa [Owner.countedPtr, Owner.Parts.rootPtr] using this
    | other h1 =>
      obtain ⟨fs, h2, h3⟩ := hfv _ h1
      have := polyPtr_counts (ti := h.pti) (k := h.c) (cti := h.cti) (any := h.any) hv.toUsable hfit (.there (.there h2))
      simpa [Owner.countedPtr, Owner.Parts.rootPtr, h3] using this
  have all : ∀ i y, Owner.Ok u w (h.OtherOk env vs) i y → M i y := by
    intro i y hy
    refine Owner.Ok.elim (M := M) ?_ ?_ hy
    · intro n ks hl hn' ih
      have := Owner.groupPart_counts (n := n) (gti := h.gti) (vti := h.vti) hv hc trivial
        (fun p hp => (ih p hp).mono fun _ _ => And.left) fun p hp => one p ((ih p hp).mono fun _ _ => And.right)
      simp only [M, Owner.counted_group]
      exact this
    · intro b p hb' ih
      simp only [M, Owner.counted_deco]
      exact Owner.decoPart_counts hv (hfb b hb') (one p (ih.mono fun _ _ => And.right))
  exact one x (hx.mono all)

/-- **C74**: whatever bytes a stream delivers for such a pointer, reading ends as in C66; an index can name a class that
can not be constructed, or one that is not among these. -/
theorem C74_owners_arbitrary_input {U : UB → Prop} {I : S → Prop} {K : B → Prop} {js : AltShapes V}
    {qs : List TypeShape} (hE : env.Sound cfg) (hU : ∀ u, Hazard cfg env u → U u) (hs : Guarded U cfg env h.s I)
    (hn : I h.new) (hb : Guarded U cfg env h.b K) (hnb : K h.newB) (hds : h.others.Shaped js qs)
    (hqs : ∀ q ∈ qs, Guarded U cfg env q.2.1 q.2.2) (hf : h.others.Fits env)
    (hg : (env.chain h.group).length = 2) (hd : (env.chain h.deco).length = 2)
    (ha : ∀ d ∈ env.objReg (env.root h.c), (env.cls d).abstract = true → cfg.ndebug = true → U .nullDeref)
    (hc : ∀ d ∈ env.objReg (env.root h.c), (env.cls d).abstract = false → d ∉ h.group :: h.deco :: h.others.classes →
      U .typeConfusion) (inp : Bytes) {y : Option (Owner.Any S B V)}
    (hy : Owner.PtrAll I (Owner.Formed I K js.Holds) js.Holds y) :
    ∃ o, EndsWell U (Owner.PtrAll I (Owner.Formed I K js.Holds) js.Holds) o ∧ ∃ n0, ∀ n, n0 ≤ n →
      deserializeInPlaceFromStream cfg ((h.rootPtr cfg env).elem n) inp y = o :=
  C66_stream_in_place hE hU (Owner.guarded hs hn hb hnb hds hqs hf hg hd ha hc) inp hy

end

/-! ### Examples -/

namespace Demo
variable (c : Cfg)

/-- `struct Shape { Kokkos::View<int*> outline; }`, `struct Group : Shape { std::vector<std::unique_ptr<Shape>> kids; }`
and `struct Framed : Shape { int width; std::unique_ptr<Shape> inner; }`. -/
def drawing : Owner.Parts (View Val × Unit) Val (((View Val × Unit) × Unit) ⊕ Empty) where
  gti := Demo.env.ti (.cls 3)
  vti := Demo.env.ti int
  dti := Demo.env.ti (.cls 2)
  pti := Demo.env.ti (.uptr (.cls 1))
  c := 1
  cti := Demo.env.ti (.cls 1)
  group := 3
  deco := 2
  new := (rowTy.empty, ())
  s := shapePart c
  newB := num 0
  b := .base c Demo.env int
  others := .cons 1 ((rowTy.empty, ()), ()) (.cons (shapePart c) .nil) .nil

def plainUses : AltUsages (((View Val × Unit) × Unit) ⊕ Empty) := .cons (.cls (.cons (shapePartUse c) .nil)) .nil

theorem drawing_fits : (drawing c).Fits Demo.env where
  gti := ti_valid _
  vti := ti_valid _
  dti := ti_valid _
  pti := ti_valid _
  cti := ti_valid _
  others := ⟨rfl, trivial⟩
  group := rfl
  deco := rfl
  distinct := by simp [drawing, DynTypes.classes]
  groupReg := show 3 ∈ Demo.env.objReg (Demo.env.root 1) by decide
  decoReg := show 2 ∈ Demo.env.objReg (Demo.env.root 1) by decide
  groupMade := rfl
  decoMade := rfl

/-- A framed group of a shape, a framed nothing, and nothing. -/
def picture : Option (Owner.Any (View Val × Unit) Val (((View Val × Unit) × Unit) ⊕ Empty)) :=
  some (.inr (.inl ((row 2, ()), .deco (num 5) (some (.inl ((row 1, ()), .group 4
    [some (.inr (.inr (.inl ((row 3, ()), ())))), some (.inr (.inl ((row 0, ()), .deco (num 1) none, ()))), none], ()))), ())))

theorem picture_ok : Owner.PtrAll (shapePartUse c).ok
    (Owner.Ok (shapePartUse c) (.base .contents c Demo.env int) ((drawing c).OtherOk Demo.env (plainUses c)))
    ((drawing c).OtherOk Demo.env (plainUses c)) picture := by
  have h1 : ∀ n, n < 2 ^ 32 → (shapePartUse c).ok (row n, ()) := fun n hn => ⟨row_use c n hn, trivial⟩
  refine .deco (h1 2 (by decide)) (.deco (int_ok _ _) (.group (h1 1 (by decide)) (.group (by decide) (by decide) ?_)))
  intro p hp
  simp only [List.mem_cons, List.not_mem_nil, or_false] at hp
  rcases hp with rfl | rfl | rfl
  · exact .other ⟨⟨h1 3 (by decide), trivial⟩, show 1 ∈ Demo.env.objReg (Demo.env.root 1) by decide, rfl⟩
  · exact .deco (h1 0 (by decide)) (.deco (int_ok _ _) .null)
  · exact .null

end Demo

/-- The hypotheses are met by the drawing. -/
example (check ndebug : Bool) : RoundTrips (Demo.cfg check ndebug)
    ((Demo.drawing (Demo.cfg check ndebug)).rootPtr (Demo.cfg check ndebug) Demo.env).elem Demo.picture (fun y => y = none)
    fun _ w => Owner.SamePtr (Demo.shapePartUse (Demo.cfg check ndebug)) (Demo.plainUses (Demo.cfg check ndebug)).Same
      (Owner.Same (Demo.shapePartUse (Demo.cfg check ndebug)) (.base .contents (Demo.cfg check ndebug) Demo.env Demo.int)
        (Demo.plainUses (Demo.cfg check ndebug)).Same) Demo.picture w := by
  have h1 := Demo.partComposed (Demo.cfg check ndebug) (Demo.rowComposed _) 1 (fresh := Demo.rowTy.empty) trivial
  have hr : (Demo.shapePartUse (Demo.cfg check ndebug)).clean (Demo.rowTy.empty, ()) := ⟨trivial, trivial⟩
  have g1 : (Usage.cls (.cons (Demo.shapePartUse (Demo.cfg check ndebug)) .nil)).clean ((Demo.rowTy.empty, ()), ()) :=
    ⟨hr, trivial⟩
  refine C74_owners_roundtrip (h := Demo.drawing _) (vs := Demo.plainUses _) Demo.valid_contents (Demo.drawing_fits _) h1 hr
    (.base _) ⟨.prim rfl, trivial⟩ (.cons 1 (.cons _ _ .nil) g1 .nil) ?_ (Demo.picture_ok _)
  intro p hp
  simp only [List.cons_append, List.nil_append, List.mem_cons, List.not_mem_nil, or_false] at hp
  rw [hp]
  exact h1

/-- The footprint of the drawing. -/
example (check ndebug : Bool) : Counts (Demo.cfg check ndebug)
    ((Demo.drawing (Demo.cfg check ndebug)).rootPtr (Demo.cfg check ndebug) Demo.env) Demo.picture
    (Owner.countedPtr (Demo.env.ti Demo.int).sizeof (Demo.env.ti (.uptr (.cls 1))).sizeof (fun x => Demo.rowFp x.1)
      (fun _ => 4) (fun | .inl x => Demo.rowFp x.1.1) Demo.picture) := by
  have hv : Demo.env.Valid .contents (· ∈ builtinKinds) (Demo.cfg check ndebug) := Demo.valid_contents
  have h1 := Demo.partComposed (Demo.cfg check ndebug) (Demo.rowComposed _) 1 (fresh := Demo.rowTy.empty) trivial
  have hr : (Demo.shapePartUse (Demo.cfg check ndebug)).clean (Demo.rowTy.empty, ()) := ⟨trivial, trivial⟩
  have g1 : (Usage.cls (.cons (Demo.shapePartUse (Demo.cfg check ndebug)) .nil)).clean ((Demo.rowTy.empty, ()), ()) :=
    ⟨hr, trivial⟩
  have part : ∀ {T : Type} (t : CppType T) k fresh x f, Counts (Demo.cfg check ndebug) t x f →
      Counts (Demo.cfg check ndebug) (.cls (Demo.cfg check ndebug) (Demo.env.ti (.cls k)) (fresh, ()) none true (.cons t .nil))
        (x, ()) f := fun t k fresh x f h => cls_counts (fs := [f]) (.cons h .nil)
  refine C74_owners_footprint (h := Demo.drawing _) (vs := Demo.plainUses _) hv (Demo.drawing_fits _) h1 hr
    (.base _) ⟨.prim rfl, trivial⟩ (.cons 1 (.cons _ _ .nil) g1 .nil) ?_
    (fun a ha => part _ 1 _ _ _ (Demo.row_counts _ ha.1)) (fun b hb => Demo.prim_counts hb.1) (fun v hv => ?_)
    (Demo.picture_ok _)
  · intro p hp
    simp only [List.cons_append, List.nil_append, List.mem_cons, List.not_mem_nil, or_false] at hp
    rw [hp]
    exact h1
  · match v, hv with
    | .inl ((r, ()), ()), hv =>
      exact ⟨[Demo.rowFp r], .here (.cons (part _ 1 _ _ _ (Demo.row_counts _ hv.1.1.1)) .nil), rfl⟩

/-- Arbitrary input for pointers to shapes. -/
example (check ndebug : Bool) (inp : Bytes) : ∃ o, EndsWell (Demo.viewHazard (Demo.cfg check ndebug))
    (Owner.PtrAll Demo.shapePartFormed.All (Owner.Formed Demo.shapePartFormed.All Demo.intFormed
      (AltShapes.cons Demo.shapeShapes1.All .nil).Holds) (AltShapes.cons Demo.shapeShapes1.All .nil).Holds) o ∧
    ∃ n0, ∀ n, n0 ≤ n → deserializeInPlaceFromStream (Demo.cfg check ndebug)
      (((Demo.drawing (Demo.cfg check ndebug)).rootPtr (Demo.cfg check ndebug) Demo.env).elem n) inp none = o := by
  have hint : Demo.intFormed (Demo.num 0) := ⟨.prim rfl, trivial⟩
  have h1 : Guarded (Demo.viewHazard (Demo.cfg check ndebug)) (Demo.cfg check ndebug) Demo.env
      (Demo.shapePart (Demo.cfg check ndebug)) Demo.shapePartFormed.All :=
    Demo.partGuarded (Demo.rowGuarded _) _ rfl (empty_formed _ _)
  have hr : Demo.shapePartFormed.All (Demo.rowTy.empty, ()) := ⟨empty_formed _ _, trivial⟩
  have f1 : Demo.shapeShapes1.All ((Demo.rowTy.empty, ()), ()) := ⟨hr, trivial⟩
  refine C74_owners_arbitrary_input (h := Demo.drawing _) (K := Demo.intFormed) Demo.sound (fun _ => .inl) h1 hr (.base _) hint
    (.cons 1 (.cons _ _ .nil) f1 .nil) ?_ ⟨rfl, trivial⟩ rfl rfl ?_ ?_ inp .null
  · intro p hp
    simp only [List.cons_append, List.nil_append, List.mem_cons, List.not_mem_nil, or_false] at hp
    rw [hp]
    exact h1
  · intro d hd ha hn
    obtain ⟨i, hi⟩ := List.getElem?_of_mem hd
    exact .inl (.abstract hn (c := 1) rfl hi ha)
  · intro d hd ha hc
    have hd' : d ∈ [2, 1, 3, 5] := hd
    simp only [List.mem_cons, List.not_mem_nil, or_false] at hd'
    rcases hd' with rfl | rfl | rfl | rfl
    · simp [Demo.drawing] at hc
    · simp [Demo.drawing, DynTypes.classes] at hc
    · simp [Demo.drawing] at hc
    · cases ha

end Ckpt
