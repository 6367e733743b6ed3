import Verif.Props.Recursive
/-!
# C71: classes that own objects of their hierarchy through pointers to its root
-/

set_option autoImplicit false

namespace Ckpt

/-- The own part of `struct Group : Base { std::vector<std::unique_ptr<Base>> kids; };`, the members of `Base` being
`S`; `V` are the objects of the other classes that derive from `Base`, and `cap` is the capacity of the vector. -/
inductive Group (S V : Type) : Type
  | mk (cap : Nat) (kids : List (Option ((S × Group S V × Unit) ⊕ V)))

namespace Group

section
variable {S V : Type}

/-- Any object of the hierarchy. -/
abbrev Any (S V : Type) : Type := (S × Group S V × Unit) ⊕ V

def kids : Group S V → Vec (Option (Any S V))
  | mk n ks => ⟨n, ks⟩

/-- The group can be written, with everything below it: `u` for the members of the base class, `P` for objects of other
classes. -/
inductive Ok (u : Usage S) (P : V → Prop) : Group S V → Prop
  | mk {n : Nat} {ks : List (Option (Any S V))} : ks.length ≤ n → n < 2 ^ 64 →
      (∀ s g, some (.inl (s, g, ())) ∈ ks → u.ok s) → (∀ s g, some (.inl (s, g, ())) ∈ ks → Ok u P g) →
      (∀ v, some (.inr v) ∈ ks → P v) → Ok u P (mk n ks)

/-- Pointers to equal objects of the same class, given which groups are equal. -/
inductive SamePtr (u : Usage S) (Q : V → V → Prop) (G : Group S V → Group S V → Prop) :
    Option (Any S V) → Option (Any S V) → Prop
  | null : SamePtr u Q G none none
  | group {s s' : S} {g g' : Group S V} : u.same s s' → G g g' →
      SamePtr u Q G (some (.inl (s, g, ()))) (some (.inl (s', g', ())))
  | other {v v' : V} : Q v v' → SamePtr u Q G (some (.inr v)) (some (.inr v'))

/-- A group with equal objects of the same classes. -/
inductive Same (u : Usage S) (Q : V → V → Prop) : Group S V → Group S V → Prop
  | mk {n m : Nat} {ks ls : List (Option (Any S V))} : n ≤ m → m < 2 ^ 64 →
      List.Forall₂ (SamePtr u Q (Same u Q)) ks ls →
      Same u Q (mk n ks) (mk m ls)

variable (cfg : Cfg) (env : Env)

/-- The classes of the hierarchy: `k` is the number of the class of groups, `s` the type of the base class, `ds` are the
other classes. -/
def classes (k : Nat) (new : S) (s : CppType S) (ds : DynTypes V) (t : CppType (Group S V)) : DynTypes (Any S V) :=
  .cons k (new, mk 0 [], ()) (.cons s (.cons t .nil)) ds

/-- `std::unique_ptr<Base>`, `Base` being of number `c` and type `cti`. -/
def ptr (pti : TI) (c : Nat) (cti : TI) (k : Nat) (new : S) (s : CppType S) (ds : DynTypes V) (t : CppType (Group S V)) :
    CppType (Option (Any S V)) :=
  .polyPtr cfg env pti c cti (.inl (new, mk 0 [], ())) (classes k new s ds t)

/-- `s | kids;`, given the part of the class of groups. -/
def serialize (vti pti : TI) (c : Nat) (cti : TI) (k : Nat) (new : S) (s : CppType S) (ds : DynTypes V)
    (t : CppType (Group S V)) : Prog (Group S V) :=
  .visit (.vector cfg vti false (ptr cfg env pti c cti k new s ds t)) (fun o => some o.kids)
    (fun v _ => mk v.cap v.elems) .done

/-- The part of the class of groups. -/
def type (gti vti pti : TI) (c : Nat) (cti : TI) (k : Nat) (new : S) (s : CppType S) (ds : DynTypes V) :
    CppType (Group S V) :=
  .recursive cfg gti (mk 0 []) none false (serialize cfg env vti pti c cti k new s ds)

/-- `std::unique_ptr<Base>`. -/
def rootPtr (gti vti pti : TI) (c : Nat) (cti : TI) (k : Nat) (new : S) (s : CppType S) (ds : DynTypes V) :
    CppType (Option (Any S V)) :=
  ptr cfg env pti c cti k new s ds (type cfg env gti vti pti c cti k new s ds)

/-- An object of another class can be written: its class is registered with the root of the hierarchy, and can be
constructed. -/
def OtherOk (c : Nat) (ds : DynTypes V) (vs : AltUsages V) (v : V) : Prop :=
  vs.Ok v ∧ ds.classOf v ∈ env.objReg (env.root c) ∧ (env.cls (ds.classOf v)).abstract = false

/-- The pointer can be written. -/
def OkPtr (c : Nat) (u : Usage S) (ds : DynTypes V) (vs : AltUsages V) (x : Option (Any S V)) : Prop :=
  (∀ s g, x = some (.inl (s, g, ())) → u.ok s ∧ g.Ok u (OtherOk env c ds vs)) ∧
  ∀ v, x = some (.inr v) → OtherOk env c ds vs v

end

section
variable {R : RelMode} {cfg : Cfg} {env : Env} {S V : Type} {gti vti pti cti : TI} {c k : Nat} {new : S} {s : CppType S}
  {u : Usage S} {ds : DynTypes V} {vs : AltUsages V} {ps : List TypeUse}

theorem classes_grows : DynTypes.PassesOn .fuel (classes k new s ds) :=
  .cons _ _ (.cons (.const s) (.cons .self .nil)) (.const ds)

theorem serialize_grows : Prog.Grows cfg (serialize cfg env vti pti c cti k new s ds) :=
  .visit _ _ (.vector _ _ (.polyPtr env _ _ _ _ classes_grows)) .done

/-- Up to depth `j`. -/
def OkTo (u : Usage S) (P : V → Prop) : Nat → Group S V → Prop
  | 0, _ => False
  | j + 1, x => x.kids.elems.length ≤ x.kids.cap ∧ x.kids.cap < 2 ^ 64 ∧
      ∀ p ∈ x.kids.elems, (∀ s g, p = some (.inl (s, g, ())) → u.ok s ∧ OkTo u P j g) ∧ ∀ v, p = some (.inr v) → P v

theorem OkTo.step {P : V → Prop} : ∀ {j : Nat} {x : Group S V}, OkTo u P j x → OkTo u P (j + 1) x
  | _ + 1, _, h => ⟨h.1, h.2.1, fun p hp =>
    ⟨fun s g he => ⟨((h.2.2 p hp).1 s g he).1, ((h.2.2 p hp).1 s g he).2.step⟩, (h.2.2 p hp).2⟩⟩

theorem OkTo.mono {P : V → Prop} {j m : Nat} (hjm : j ≤ m) {x : Group S V} (h : OkTo u P j x) : OkTo u P m x := by
  induction hjm with
  | refl => exact h
  | step _ ih => exact ih.step

theorem Ok.okTo {P : V → Prop} {x : Group S V} (h : Ok u P x) : ∃ j, OkTo u P j x := by
  induction h with
  | @mk n ks hl hn hs _ hv ih =>
    obtain ⟨j, hj⟩ := eventually_list (xs := ks)
      (Q := fun p j => ∀ s g, p = some (.inl (s, g, ())) → u.ok s ∧ OkTo u P j g) fun p hp => by
        match p with
        | none => exact ⟨0, fun _ _ _ _ h => by cases h⟩
        | some (.inr _) => exact ⟨0, fun _ _ _ _ h => by cases h⟩
        | some (.inl (s, g, ())) =>
          obtain ⟨j, hj⟩ := ih s g hp
          refine ⟨j, ?_⟩
          rintro m hm _ _ ⟨⟩
          exact ⟨hs s g hp, hj.mono hm⟩
    exact ⟨j + 1, hl, hn, fun p hp => ⟨hj j (Nat.le_refl _) p hp, fun v he => hv v (he ▸ hp)⟩⟩

theorem unfold_fresh {cfg : Cfg} {ti : TI} {O : Type} {fresh : O} {dflt : Option O} {b : Bool} {p : CppType O → Prog O} (j : Nat) :
    (CppType.unfold cfg ti fresh dflt b p j).fresh = fresh := by
  cases j <;> rfl

/-- What is said of pointers, given what is said of groups. -/
theorem ptr_composed {E : Bool} {t : CppType (Group S V)} {P : Group S V → Prop} (hpti : pti.Valid) (hcti : cti.Valid)
    (hs : ComposedOf E R cfg env s u) (hn : u.clean new) (hds : ds.Match vs ps)
    (hps : ∀ p ∈ ps, ComposedOf E R cfg env p.2.1 p.2.2) (hfit : ds.Fits env) (hk : (env.chain k).length = 2)
    (hnd : (k :: ds.classes).Nodup) (hreg : k ∈ env.objReg (env.root c)) (habs : (env.cls k).abstract = false)
    (ht : ComposedOf E R cfg env t ⟨P, fun y => (∀ p ∈ y.kids.elems, p = none) ∧ y.kids.cap < 2 ^ 64, Same u vs.Same, fun _ => True⟩) :
    ComposedOf E R cfg env (ptr cfg env pti c cti k new s ds t)
      ⟨fun x => (∀ s g, x = some (.inl (s, g, ())) → u.ok s ∧ P g) ∧ ∀ v, x = some (.inr v) → OtherOk env c ds vs v,
        fun y => y = none, SamePtr u vs.Same (Same u vs.Same), fun _ => True⟩ := by
  let w : Usage (Group S V) := ⟨P, fun y => (∀ p ∈ y.kids.elems, p = none) ∧ y.kids.cap < 2 ^ 64, Same u vs.Same, fun _ => True⟩
  have hc : (Usage.cls (.cons u (.cons w .nil))).clean (new, mk 0 [], ()) := ⟨hn, by simp [kids, w], trivial⟩
  refine .weaken (.polyPtr c _ hpti hcti (.cons k (.cons s u (.cons t w .nil)) hc hds) ?_ ⟨hk.symm, hfit⟩ hnd) ?_ (fun _ h => h) ?_ (fun _ _ => trivial) rfl (by rintro _ ⟨⟩; rfl)
  · intro p hp
    simp only [List.cons_append, List.nil_append, List.mem_cons] at hp
    rcases hp with rfl | rfl | hp
    · exact hs
    · exact ht
    · exact hps p hp
  · rintro _ ⟨h1, h2⟩ (⟨s, g, ⟨⟩⟩ | v) rfl
    · exact ⟨⟨(h1 s g rfl).1, (h1 s g rfl).2, trivial⟩, hreg, habs⟩
    · exact h2 v rfl
  · rintro x y - (⟨rfl, rfl⟩ | ⟨v, w, rfl, rfl, h⟩)
    · exact .null
    · match v, w, h with
      | .inl (_, _, ()), .inl (_, _, ()), h => exact .group h.1 h.2.1
      | .inr _, .inr _, h => exact .other h

/-- The part of the class of groups is composed, and so are the types it visits, up to every depth. -/
theorem composes {E : Bool} (hgti : gti.Valid) (hvti : vti.Valid) (hpti : pti.Valid) (hcti : cti.Valid)
    (hs : ComposedOf E R cfg env s u) (hn : u.clean new) (hds : ds.Match vs ps)
    (hps : ∀ p ∈ ps, ComposedOf E R cfg env p.2.1 p.2.2) (hfit : ds.Fits env) (hk : (env.chain k).length = 2)
    (hnd : (k :: ds.classes).Nodup) (hreg : k ∈ env.objReg (env.root c)) (habs : (env.cls k).abstract = false) :
    ComposedOf E R cfg env (type cfg env gti vti pti c cti k new s ds)
      ⟨Ok u (OtherOk env c ds vs), fun y => (∀ p ∈ y.kids.elems, p = none) ∧ y.kids.cap < 2 ^ 64, Same u vs.Same, fun _ => True⟩ ∧
    ∃ ps : Nat → TypeUse → Prop, (∀ j, (serialize cfg env vti pti c cti k new s ds
        (.unfold cfg gti (mk 0 []) none false (serialize cfg env vti pti c cti k new s ds) j)).Within (ps j)) ∧
      ∀ j q, ps j q → ComposedOf E R cfg env q.2.1 q.2.2 := by
  let P := OtherOk env c ds vs
  let us : Nat → Usage (Group S V) := fun j =>
    ⟨OkTo u P j, fun y => (∀ p ∈ y.kids.elems, p = none) ∧ y.kids.cap < 2 ^ 64, Same u vs.Same, fun _ => True⟩
  let t : Nat → CppType (Group S V) :=
    CppType.unfold cfg gti (mk 0 []) none false (serialize cfg env vti pti c cti k new s ds)
  let vt : Nat → CppType (Vec (Option (Any S V))) := fun j => .vector cfg vti false (ptr cfg env pti c cti k new s ds (t j))
  let vu : Nat → Usage (Vec (Option (Any S V))) := fun j => .vector (ptr cfg env pti c cti k new s ds (t j))
    ⟨fun x => (∀ s g, x = some (.inl (s, g, ())) → u.ok s ∧ OkTo u P j g) ∧ ∀ v, x = some (.inr v) → P v,
      fun y => y = none, SamePtr u vs.Same (Same u vs.Same), fun _ => True⟩
  let items : Nat → Group S V → List Item := fun j x => [.one (vt j) (vu j) x.kids]
  have hw : ∀ j, (serialize cfg env vti pti c cti k new s ds (t j)).Within (· = ⟨_, vt j, vu j⟩) := fun j =>
    ⟨⟨_, rfl⟩, trivial⟩
  have hps' : ∀ j, ComposedOf E R cfg env (t j) (us j) → ∀ q, q = (⟨_, vt j, vu j⟩ : TypeUse) →
      ComposedOf E R cfg env q.2.1 q.2.2 := by
    rintro j h _ rfl
    exact .vector false hvti (ptr_composed hpti hcti hs hn hds hps hfit hk hnd hreg habs h)
  have hi : ∀ j x, (us (j + 1)).ok x → (serialize cfg env vti pti c cti k new s ds (t j)).Writes x (items j x) ∧
      ∀ i ∈ items j x, i.Good (· = ⟨_, vt j, vu j⟩) := by
    intro j x hx
    obtain ⟨n, ks⟩ := x
    refine ⟨.visit _ rfl rfl .done, ?_⟩
    intro i hi
    simp only [items, List.mem_cons, List.not_mem_nil, or_false] at hi
    subst hi
    exact ⟨rfl, hx.2.2, hx.1, hx.2.1, trivial⟩
  have ht : ∀ j x y, (us (j + 1)).ok x → (us (j + 1)).clean y →
      (serialize cfg env vti pti c cti k new s ds (t j)).Takes ((us (j + 1)).same x) (items j x) y := by
    intro j x y _ hy
    obtain ⟨n, ks⟩ := x
    exact .visit rfl ⟨hy.1, fun h => (by cases h), hy.2⟩ fun v' hv' => .done (.mk hv'.2.1 hv'.2.2 hv'.1)
  have hf : (∀ p ∈ (mk 0 [] : Group S V).kids.elems, p = none) ∧ (mk 0 [] : Group S V).kids.cap < 2 ^ 64 := by simp [kids]
  have hall := ComposedOf.unfolds (us := us) false items hgti (fun _ h => h) hw hps' hi ht (fun _ => hf)
    (fun _ _ h => by cases h)
  refine ⟨?_, _, hw, fun j => hps' j (hall j)⟩
  refine .weaken (.recursive (us := fun j => us (j + 1)) false items hgti serialize_grows hw (fun j => hps' j (hall j)) hi ht
    (fun _ => hf) (fun _ _ h => by cases h)) ?_ ?_ ?_ (fun _ _ => trivial) hf (fun _ h => by cases h)
  · intro x hx
    obtain ⟨j, hj⟩ := Ok.okTo hx
    exact ⟨j, hj.step⟩
  · exact fun y hy _ => hy
  · rintro x y _ ⟨_, h⟩
    exact h

/-- What is counted for a group, with `f` bytes for the members of the base class and `h` for an object of another
class. -/
def counted (vector ptr : Nat) (f : S → Nat) (h : V → Nat) : Group S V → Nat
  | mk n ks => vector + (ks.attach.map fun
      | ⟨none, _⟩ => ptr
      | ⟨some (.inl (s, g, ())), _⟩ => ptr + (f s + g.counted vector ptr f h)
      | ⟨some (.inr v), _⟩ => ptr + h v).sum + ptr * (n - ks.length)
decreasing_by
  rename_i hm
  have := List.sizeOf_lt_of_mem hm
  simp at this ⊢
  omega

/-- What is counted for a pointer. -/
def countedPtr (vector ptr : Nat) (f : S → Nat) (h : V → Nat) : Option (Any S V) → Nat
  | none => ptr
  | some (.inl (s, g, ())) => ptr + (f s + g.counted vector ptr f h)
  | some (.inr v) => ptr + h v

theorem counted_mk (vector ptr : Nat) (f : S → Nat) (h : V → Nat) (n : Nat) (ks : List (Option (Any S V))) :
    (mk n ks).counted vector ptr f h =
      vector + (ks.map (countedPtr vector ptr f h)).sum + ptr * (n - ks.length) := by
  rw [counted]
  congr 3
  rw [← List.attach_map_val (l := ks) (f := countedPtr vector ptr f h)]
  refine List.map_congr_left fun p _ => ?_
  match p with
  | ⟨none, _⟩ => rfl
  | ⟨some (.inl (_, _, ())), _⟩ => rfl
  | ⟨some (.inr _), _⟩ => rfl

/-- Well-formed groups. -/
inductive Formed (I : S → Prop) (J : V → Prop) : Group S V → Prop
  | mk {n : Nat} {ks : List (Option (Any S V))} : ks.length ≤ n → (∀ s g, some (.inl (s, g, ())) ∈ ks → I s) →
      (∀ s g, some (.inl (s, g, ())) ∈ ks → Formed I J g) → (∀ v, some (.inr v) ∈ ks → J v) → Formed I J (mk n ks)

/-- Pointers to well-formed objects. -/
def FormedPtr (I : S → Prop) (J : V → Prop) (x : Option (Any S V)) : Prop :=
  (∀ s g, x = some (.inl (s, g, ())) → I s ∧ g.Formed I J) ∧ ∀ v, x = some (.inr v) → J v

theorem Ok.ptr {P : V → Prop} {n : Nat} {ks : List (Option (Any S V))} (h : Ok u P (.mk n ks)) {p : Option (Any S V)}
    (hp : p ∈ ks) : (∀ s g, p = some (.inl (s, g, ())) → u.ok s ∧ g.Ok u P) ∧ ∀ v, p = some (.inr v) → P v := by
  cases h with
  | mk _ _ h1 h2 h3 => exact ⟨fun s g he => ⟨h1 s g (he ▸ hp), h2 s g (he ▸ hp)⟩, fun v he => h3 v (he ▸ hp)⟩

theorem ptr_guarded {U : UB → Prop} {D L : TypeSet} {I : S → Prop} {js : AltShapes V} {qs : List TypeShape}
    {t : CppType (Group S V)} (hs : GuardedIn U cfg env L L s I) (hn : I new) (hds : ds.Shaped js qs)
    (hqs : ∀ q ∈ qs, GuardedIn U cfg env L L q.2.1 q.2.2) (hfit : ds.Fits env) (hk : (env.chain k).length = 2)
    (ha : ∀ d ∈ env.objReg (env.root c), (env.cls d).abstract = true → cfg.ndebug = true → U .nullDeref)
    (hc : ∀ d ∈ env.objReg (env.root c), (env.cls d).abstract = false → d ∉ k :: ds.classes → U .typeConfusion)
    (ht : GuardedIn U cfg env L L t (Formed I js.Holds)) :
    GuardedIn U cfg env D L (ptr cfg env pti c cti k new s ds t) (FormedPtr I js.Holds) := by
  let is : MemberShapes (S × Group S V × Unit) := .cons I (.cons (Formed I js.Holds) .nil)
  have hf : is.All (new, mk 0 [], ()) := ⟨hn, .mk (Nat.le_refl _) (by simp) (by simp) (by simp), trivial⟩
  have := GuardedIn.polyPtr (U := U) (cfg := cfg) (D := D) pti c cti (.inl (new, mk 0 [], ()))
    (DynTypes.Shaped.cons k (.cons s I (.cons t (Formed I js.Holds) .nil)) hf hds) (by
      intro p hp
      simp only [List.cons_append, List.nil_append, List.mem_cons] at hp
      rcases hp with rfl | rfl | hp
      · exact hs
      · exact ht
      · exact hqs p hp) ⟨hk.symm, hfit⟩ ha hc
  refine (congrArg (GuardedIn U cfg env D L _) ?_).mp this
  funext x
  refine propext ⟨fun h => ⟨?_, ?_⟩, ?_⟩
  · rintro s g rfl
    exact ⟨(h _ rfl).1, (h _ rfl).2.1⟩
  · rintro v rfl
    exact h _ rfl
  · rintro ⟨h1, h2⟩ (⟨s, g, ⟨⟩⟩ | v) rfl
    · exact ⟨(h1 s g rfl).1, (h1 s g rfl).2, trivial⟩
    · exact h2 v rfl

theorem guarded {U : UB → Prop} {I : S → Prop} {js : AltShapes V} {qs : List TypeShape}
    (hs : Guarded U cfg env s I) (hn : I new) (hds : ds.Shaped js qs)
    (hqs : ∀ q ∈ qs, Guarded U cfg env q.2.1 q.2.2) (hfit : ds.Fits env) (hk : (env.chain k).length = 2)
    (ha : ∀ d ∈ env.objReg (env.root c), (env.cls d).abstract = true → cfg.ndebug = true → U .nullDeref)
    (hc : ∀ d ∈ env.objReg (env.root c), (env.cls d).abstract = false → d ∉ k :: ds.classes → U .typeConfusion) :
    Guarded U cfg env (type cfg env gti vti pti c cti k new s ds) (Formed I js.Holds) := by
  have hf : Formed I js.Holds (.mk 0 []) := .mk (Nat.le_refl _) (by simp) (by simp) (by simp)
  refine .recursive
    (ps := fun t q => q = ⟨Vec (Option (Any S V)), .vector cfg vti false (ptr cfg env pti c cti k new s ds t),
      fun v => v.elems.length ≤ v.cap ∧ ∀ x ∈ v.elems, FormedPtr I js.Holds x⟩)
    (qs := fun _ _ => False) gti false serialize_grows ?_ (fun _ _ _ h => h.elim) ?_ hf (fun _ h => by cases h)
  · rintro t - _ rfl
    exact .vector vti false (ptr_guarded (hs.mono (fun _ h => h.elim) (fun _ h => h.elim)) hn hds
      (fun q hq => (hqs q hq).mono (fun _ h => h.elim) (fun _ h => h.elim)) hfit hk ha hc (.known (.inr rfl)))
  · rintro t - _ ⟨hl, h1, h2, h3⟩
    refine ⟨_, rfl, ⟨hl, fun x hx => ⟨fun s g he => ⟨h1 s g (he ▸ hx), h2 s g (he ▸ hx)⟩, fun v he => h3 v (he ▸ hx)⟩⟩,
      fun v hv => .mk hv.1 (fun s g hm => ((hv.2 _ hm).1 s g rfl).1) (fun s g hm => ((hv.2 _ hm).1 s g rfl).2)
        (fun w hm => (hv.2 _ hm).2 w rfl)⟩

end

end Group

section
variable {R : RelMode} {cfg : Cfg} {env : Env} {S V : Type} {gti vti pti cti : TI} {c k : Nat} {new : S} {s : CppType S}
  {u : Usage S} {ds : DynTypes V} {vs : AltUsages V} {ps : List TypeUse}

/-- **C71**: a hierarchy with a class that owns any number of objects of the hierarchy through pointers to its root, and
any other classes, with members of any types: a pointer to an object of any of these classes, with any objects within
each other, is restored with objects of the same classes and equal members. -/
theorem C71_hierarchy_roundtrip (hv : env.Valid R (· ∈ builtinKinds) cfg) (hgti : gti.Valid) (hvti : vti.Valid)
    (hpti : pti.Valid) (hcti : cti.Valid) (hs : Composed R cfg env s u) (hn : u.clean new) (hds : ds.Match vs ps)
    (hps : ∀ p ∈ ps, Composed R cfg env p.2.1 p.2.2) (hfit : ds.Fits env) (hk : (env.chain k).length = 2)
    (hnd : (k :: ds.classes).Nodup) (hreg : k ∈ env.objReg (env.root c)) (habs : (env.cls k).abstract = false)
    {x : Option (Group.Any S V)} (hx : Group.OkPtr env c u ds vs x) :
    RoundTrips cfg (Group.rootPtr cfg env gti vti pti c cti k new s ds).elem x (fun y => y = none)
      fun _ w => Group.SamePtr u vs.Same (Group.Same u vs.Same) x w :=
  C65_composed_roundtrip hv (Group.ptr_composed hpti hcti hs hn hds hps hfit hk hnd hreg habs
    (Group.composes hgti hvti hpti hcti hs hn hds hps hfit hk hnd hreg habs).1) hx

/-- **C71**: its memory footprint: for each pointer its own size, and what is counted for the object it owns. -/
theorem C71_hierarchy_footprint (hv : env.Valid R (· ∈ builtinKinds) cfg) (hgti : gti.Valid) (hvti : vti.Valid)
    (hpti : pti.Valid) (hcti : cti.Valid) (hs : Composed R cfg env s u) (hn : u.clean new) (hds : ds.Match vs ps)
    (hps : ∀ p ∈ ps, Composed R cfg env p.2.1 p.2.2) (hfit : ds.Fits env) (hk : (env.chain k).length = 2)
    (hnd : (k :: ds.classes).Nodup) (hreg : k ∈ env.objReg (env.root c)) (habs : (env.cls k).abstract = false)
    {f : S → Nat} (hf : ∀ b, u.ok b → Counts cfg s b (f b)) {h : V → Nat}
    (hh : ∀ v, Group.OtherOk env c ds vs v → ∃ fs, ds.Counts cfg v fs ∧ fs.sum = h v)
    {x : Option (Group.Any S V)} (hx : Group.OkPtr env c u ds vs x) :
    Counts cfg (Group.rootPtr cfg env gti vti pti c cti k new s ds) x
      (Group.countedPtr vti.sizeof pti.sizeof f h x) := by
  obtain ⟨hc, qs, hw, hqs⟩ := Group.composes hgti hvti hpti hcti hs hn hds hps hfit hk hnd hreg habs
  have hp := Group.ptr_composed (k := k) hpti hcti hs hn hds hps hfit hk hnd hreg habs hc
  have one : ∀ x : Option (Group.Any S V), (∀ s' g, x = some (.inl (s', g, ())) → u.ok s' ∧
      Counts cfg (Group.type cfg env gti vti pti c cti k new s ds) g (g.counted vti.sizeof pti.sizeof f h)) →
      (∀ v, x = some (.inr v) → Group.OtherOk env c ds vs v) →
      Counts cfg (Group.rootPtr cfg env gti vti pti c cti k new s ds) x
        (Group.countedPtr vti.sizeof pti.sizeof f h x) := by
    intro x h1 h2
    have hfit' : (Group.classes k new s ds (Group.type cfg env gti vti pti c cti k new s ds)).Fits env :=
      ⟨hk.symm, hfit⟩
    match x, h1, h2 with
    | none, _, _ => exact polyPtr_null
    | some (.inl (s', g, ())), h1, _ =>
      have := polyPtr_counts (ti := pti) (k := c) (cti := cti) (any := .inl (new, .mk 0 [], ())) hv.toUsable hfit'
        (.here (.cons (hf _ (h1 s' g rfl).1) (.cons (h1 s' g rfl).2 .nil)))
      simpa [Group.countedPtr, Group.rootPtr, Group.ptr] using this
    | some (.inr v), _, h2 =>
      obtain ⟨fs, h3, h4⟩ := hh v (h2 v rfl)
      have := polyPtr_counts (ti := pti) (k := c) (cti := cti) (any := .inl (new, .mk 0 [], ())) hv.toUsable hfit'
        (.there h3)
      simpa [Group.countedPtr, Group.rootPtr, Group.ptr, h4] using this
  have all : ∀ g : Group S V, g.Ok u (Group.OtherOk env c ds vs) →
      Counts cfg (Group.type cfg env gti vti pti c cti k new s ds) g (g.counted vti.sizeof pti.sizeof f h) := by
    intro g hg
    induction hg with
    | @mk n ks hl hn' h1 h2 h3 ih =>
      refine C71_footprint false hv Group.serialize_grows hw hqs ?_
      rw [Group.counted_mk, ← Nat.add_zero (_ + _ * _)]
      refine .visit rfl rfl ?_ .done
      refine (C70_containers vti false).1 ⟨n, ks⟩ _ (C70_arrays hv hp (fun x hx => ?_) trivial fun x hx => ?_)
      · exact ⟨fun s' g he => ⟨h1 s' g (he ▸ hx), h2 s' g (he ▸ hx)⟩, fun v he => h3 v (he ▸ hx)⟩
      · exact one x (fun s' g he => ⟨h1 s' g (he ▸ hx), ih s' g (he ▸ hx)⟩) (fun v he => h3 v (he ▸ hx))
  exact one x (fun s' g he => ⟨(hx.1 s' g he).1, all g (hx.1 s' g he).2⟩) hx.2

/-- **C71**: whatever bytes a stream delivers for such a pointer, reading ends as in C66; an index can name a class that
can not be constructed, or one that is not among these. -/
theorem C71_hierarchy_arbitrary_input {U : UB → Prop} {I : S → Prop} {js : AltShapes V} {qs : List TypeShape}
    (gti vti pti cti : TI) (hE : env.Sound cfg) (hU : ∀ u, Hazard cfg env u → U u)
    (hs : Guarded U cfg env s I) (hn : I new) (hds : ds.Shaped js qs)
    (hqs : ∀ q ∈ qs, Guarded U cfg env q.2.1 q.2.2) (hfit : ds.Fits env) (hk : (env.chain k).length = 2)
    (ha : ∀ d ∈ env.objReg (env.root c), (env.cls d).abstract = true → cfg.ndebug = true → U .nullDeref)
    (hc : ∀ d ∈ env.objReg (env.root c), (env.cls d).abstract = false → d ∉ k :: ds.classes → U .typeConfusion)
    (inp : Bytes) {y : Option (Group.Any S V)} (hy : Group.FormedPtr I js.Holds y) :
    ∃ o, EndsWell U (Group.FormedPtr I js.Holds) o ∧ ∃ n0, ∀ n, n0 ≤ n →
      deserializeInPlaceFromStream cfg ((Group.rootPtr cfg env gti vti pti c cti k new s ds).elem n) inp y = o :=
  C66_stream_in_place hE hU (Group.ptr_guarded hs hn hds hqs hfit hk ha hc
    (Group.guarded hs hn hds hqs hfit hk ha hc)) inp hy

end

/-! ### Examples -/

namespace Demo
variable (c : Cfg)

/-- `struct Shape { Kokkos::View<int*> outline; }`, `struct Circle : Shape { int r; }`,
`struct Group : Shape { std::vector<std::unique_ptr<Shape>> kids; }`: shapes that are no groups. -/
abbrev Single : Type := ((View Val × Unit) × Unit) ⊕ (((View Val × Unit) × (Val × Unit) × Unit) ⊕ Empty)

def singles : DynTypes Single :=
  .cons 1 ((rowTy.empty, ()), ()) (.cons (shapePart c) .nil)
    (.cons 2 ((rowTy.empty, ()), (num 0, ()), ()) (.cons (shapePart c) (.cons (circlePart c) .nil)) .nil)

def singleUses : AltUsages Single :=
  .cons (.cls (.cons (shapePartUse c) .nil)) (.cons (.cls (.cons (shapePartUse c) (.cons (circlePartUse c) .nil))) .nil)

/-- A group of a circle, nothing, and a group of a shape and an empty group. -/
def scene : Option (Group.Any (View Val × Unit) Single) :=
  some (.inl ((row 2, ()), .mk 4 [some (.inr (.inr (.inl ((row 1, ()), (num 7, ()), ())))), none,
    some (.inl ((row 0, ()), .mk 2 [some (.inr (.inl ((row 3, ()), ()))), some (.inl ((row 1, ()), .mk 0 [], ()))], ()))], ()))

/-- `std::unique_ptr<Shape>`. -/
def scenePtr : CppType (Option (Group.Any (View Val × Unit) Single)) :=
  Group.rootPtr c Demo.env (Demo.env.ti (.cls 3)) (Demo.env.ti int) (Demo.env.ti (.uptr (.cls 1))) 1 (Demo.env.ti (.cls 1)) 3
    (rowTy.empty, ()) (shapePart c) (singles c)

theorem scene_ok : Group.OkPtr Demo.env 1 (shapePartUse c) (singles c) (singleUses c) scene := by
  have h1 : ∀ n, n < 2 ^ 32 → (shapePartUse c).ok (row n, ()) := fun n hn => ⟨row_use c n hn, trivial⟩
  have e : Group.Ok (shapePartUse c) (Group.OtherOk Demo.env 1 (singles c) (singleUses c)) (.mk 0 []) :=
    .mk (Nat.le_refl _) (by decide) (by simp) (by simp) (by simp)
  refine ⟨?_, fun v hv => by cases hv⟩
  rintro _ _ ⟨⟩
  refine ⟨h1 2 (by decide), .mk (by decide) (by decide) ?_ ?_ ?_⟩
  · intro s g hm
    simp only [List.mem_cons, List.not_mem_nil, or_false, Option.some.injEq, reduceCtorEq, false_or, Sum.inl.injEq,
      Prod.mk.injEq] at hm
    rw [hm.1]
    exact h1 0 (by decide)
  · intro s g hm
    simp only [List.mem_cons, List.not_mem_nil, or_false, Option.some.injEq, reduceCtorEq, false_or, Sum.inl.injEq,
      Prod.mk.injEq] at hm
    rw [hm.2.1]
    refine .mk (by decide) (by decide) ?_ ?_ ?_
    · intro s g hm
      simp only [List.mem_cons, List.not_mem_nil, or_false, Option.some.injEq, reduceCtorEq, false_or, Sum.inl.injEq,
        Prod.mk.injEq] at hm
      rw [hm.1]
      exact h1 1 (by decide)
    · intro s g hm
      simp only [List.mem_cons, List.not_mem_nil, or_false, Option.some.injEq, reduceCtorEq, false_or, Sum.inl.injEq,
        Prod.mk.injEq] at hm
      rw [hm.2.1]
      exact e
    · intro v hm
      simp only [List.mem_cons, List.not_mem_nil, or_false, Option.some.injEq, reduceCtorEq, false_or, Sum.inr.injEq] at hm
      subst hm
      exact ⟨⟨h1 3 (by decide), trivial⟩, show 1 ∈ Demo.env.objReg (Demo.env.root 1) by decide, rfl⟩
  · intro v hm
    simp only [List.mem_cons, List.not_mem_nil, or_false, Option.some.injEq, reduceCtorEq, false_or, Sum.inr.injEq] at hm
    subst hm
    exact ⟨⟨h1 1 (by decide), ⟨int_ok _ _, trivial⟩, trivial⟩, show 2 ∈ Demo.env.objReg (Demo.env.root 1) by decide, rfl⟩

end Demo

/-- The hypotheses are met by the shapes. -/
example (check ndebug : Bool) : RoundTrips (Demo.cfg check ndebug) (Demo.scenePtr (Demo.cfg check ndebug)).elem Demo.scene
    (fun y => y = none) fun _ w => Group.SamePtr (Demo.shapePartUse (Demo.cfg check ndebug))
      (Demo.singleUses (Demo.cfg check ndebug)).Same (Group.Same (Demo.shapePartUse (Demo.cfg check ndebug))
        (Demo.singleUses (Demo.cfg check ndebug)).Same) Demo.scene w := by
  have h1 := Demo.partComposed (Demo.cfg check ndebug) (Demo.rowComposed _) 1 (fresh := Demo.rowTy.empty) trivial
  have h2 := Demo.partComposed (Demo.cfg check ndebug) (.base Demo.int) 2 (fresh := Demo.num 0) ⟨.prim rfl, trivial⟩
  have hr : (Demo.shapePartUse (Demo.cfg check ndebug)).clean (Demo.rowTy.empty, ()) := ⟨trivial, trivial⟩
  have hn : (Demo.circlePartUse (Demo.cfg check ndebug)).clean (Demo.num 0, ()) := ⟨⟨.prim rfl, trivial⟩, trivial⟩
  have g1 : (Usage.cls (.cons (Demo.shapePartUse (Demo.cfg check ndebug)) .nil)).clean ((Demo.rowTy.empty, ()), ()) :=
    ⟨hr, trivial⟩
  have g2 : (Usage.cls (.cons (Demo.shapePartUse (Demo.cfg check ndebug)) (.cons (Demo.circlePartUse (Demo.cfg check ndebug))
    .nil))).clean ((Demo.rowTy.empty, ()), (Demo.num 0, ()), ()) := ⟨hr, hn, trivial⟩
  have hfit : (Demo.singles (Demo.cfg check ndebug)).Fits Demo.env := ⟨rfl, rfl, trivial⟩
  refine C71_hierarchy_roundtrip (ds := Demo.singles _) (vs := Demo.singleUses _) Demo.valid_contents (Demo.ti_valid _)
    (Demo.ti_valid _) (Demo.ti_valid _) (Demo.ti_valid _)
    h1 hr (.cons 1 (.cons _ _ .nil) g1 (.cons 2 (.cons _ _ (.cons _ _ .nil)) g2 .nil)) ?_ hfit rfl (by simp [Demo.singles, DynTypes.classes]) (show 3 ∈ Demo.env.objReg (Demo.env.root 1) by decide)
    rfl (Demo.scene_ok _)
  intro p hp
  simp only [List.cons_append, List.nil_append, List.mem_cons, List.not_mem_nil, or_false] at hp
  rcases hp with rfl | rfl | rfl
  · exact h1
  · exact h1
  · exact h2

/-- What is counted for a shape that is no group. -/
def Demo.singleFp : Demo.Single → Nat
  | .inl (x, _) => Demo.rowFp x.1
  | .inr (.inl (x, _, _)) => Demo.rowFp x.1 + 4

/-- The footprint of the shapes. -/
example (check ndebug : Bool) : Counts (Demo.cfg check ndebug) (Demo.scenePtr (Demo.cfg check ndebug)) Demo.scene
    (Group.countedPtr (Demo.env.ti Demo.int).sizeof (Demo.env.ti (.uptr (.cls 1))).sizeof (fun x => Demo.rowFp x.1)
      Demo.singleFp Demo.scene) := by
  have hv : Demo.env.Valid .contents (· ∈ builtinKinds) (Demo.cfg check ndebug) := Demo.valid_contents
  have h1 := Demo.partComposed (Demo.cfg check ndebug) (Demo.rowComposed _) 1 (fresh := Demo.rowTy.empty) trivial
  have h2 := Demo.partComposed (Demo.cfg check ndebug) (.base Demo.int) 2 (fresh := Demo.num 0) ⟨.prim rfl, trivial⟩
  have hr : (Demo.shapePartUse (Demo.cfg check ndebug)).clean (Demo.rowTy.empty, ()) := ⟨trivial, trivial⟩
  have hn : (Demo.circlePartUse (Demo.cfg check ndebug)).clean (Demo.num 0, ()) := ⟨⟨.prim rfl, trivial⟩, trivial⟩
  have g1 : (Usage.cls (.cons (Demo.shapePartUse (Demo.cfg check ndebug)) .nil)).clean ((Demo.rowTy.empty, ()), ()) :=
    ⟨hr, trivial⟩
  have g2 : (Usage.cls (.cons (Demo.shapePartUse (Demo.cfg check ndebug)) (.cons (Demo.circlePartUse (Demo.cfg check ndebug))
    .nil))).clean ((Demo.rowTy.empty, ()), (Demo.num 0, ()), ()) := ⟨hr, hn, trivial⟩
  have hfit : (Demo.singles (Demo.cfg check ndebug)).Fits Demo.env := ⟨rfl, rfl, trivial⟩
  have part : ∀ {T : Type} (t : CppType T) k fresh x f, Counts (Demo.cfg check ndebug) t x f →
      Counts (Demo.cfg check ndebug) (.cls (Demo.cfg check ndebug) (Demo.env.ti (.cls k)) (fresh, ()) none true (.cons t .nil))
        (x, ()) f := fun t k fresh x f h => cls_counts (fs := [f]) (.cons h .nil)
  refine C71_hierarchy_footprint (ds := Demo.singles _) (vs := Demo.singleUses _) hv (Demo.ti_valid _)
    (Demo.ti_valid _) (Demo.ti_valid _) (Demo.ti_valid _)
    h1 hr (.cons 1 (.cons _ _ .nil) g1 (.cons 2 (.cons _ _ (.cons _ _ .nil)) g2 .nil)) ?_ hfit rfl
    (by simp [Demo.singles, DynTypes.classes]) (show 3 ∈ Demo.env.objReg (Demo.env.root 1) by decide)
    rfl (fun b hb => ?_) (fun v hv => ?_) (Demo.scene_ok _)
  · intro p hp
    simp only [List.cons_append, List.nil_append, List.mem_cons, List.not_mem_nil, or_false] at hp
    rcases hp with rfl | rfl | rfl
    · exact h1
    · exact h1
    · exact h2
  · exact part _ 1 _ _ _ (Demo.row_counts _ hb.1)
  · match v, hv with
    | .inl ((r, ()), ()), hv =>
      exact ⟨[Demo.rowFp r], .here (.cons (part _ 1 _ _ _ (Demo.row_counts _ hv.1.1.1)) .nil), rfl⟩
    | .inr (.inl ((r, ()), (n, ()), ())), hv =>
      exact ⟨[Demo.rowFp r, 4], .there (.here (.cons (part _ 1 _ _ _ (Demo.row_counts _ hv.1.1.1))
        (.cons (part _ 2 _ _ _ (Demo.prim_counts hv.1.2.1.1.1)) .nil))), rfl⟩

/-- Arbitrary input for pointers to shapes. -/
example (check ndebug : Bool) (inp : Bytes) : ∃ o, EndsWell (Demo.viewHazard (Demo.cfg check ndebug))
    (Group.FormedPtr Demo.shapePartFormed.All
      (AltShapes.cons Demo.shapeShapes1.All (.cons Demo.shapeShapes2.All .nil)).Holds) o ∧ ∃ n0, ∀ n, n0 ≤ n →
    deserializeInPlaceFromStream (Demo.cfg check ndebug) ((Demo.scenePtr (Demo.cfg check ndebug)).elem n) inp none = o := by
  have hint : Demo.intFormed (Demo.num 0) := ⟨.prim rfl, trivial⟩
  have h1 : Guarded (Demo.viewHazard (Demo.cfg check ndebug)) (Demo.cfg check ndebug) Demo.env
      (Demo.shapePart (Demo.cfg check ndebug)) Demo.shapePartFormed.All :=
    Demo.partGuarded (Demo.rowGuarded _) _ rfl (empty_formed _ _)
  have h2 : Guarded (Demo.viewHazard (Demo.cfg check ndebug)) (Demo.cfg check ndebug) Demo.env
      (Demo.circlePart (Demo.cfg check ndebug)) Demo.circlePartFormed.All :=
    Demo.partGuarded (I := Demo.intFormed) (.base _) _ rfl hint
  have hr : Demo.shapePartFormed.All (Demo.rowTy.empty, ()) := ⟨empty_formed _ _, trivial⟩
  have f1 : Demo.shapeShapes1.All ((Demo.rowTy.empty, ()), ()) := ⟨hr, trivial⟩
  have f2 : Demo.shapeShapes2.All ((Demo.rowTy.empty, ()), (Demo.num 0, ()), ()) := ⟨hr, ⟨hint, trivial⟩, trivial⟩
  have hfit : (Demo.singles (Demo.cfg check ndebug)).Fits Demo.env := ⟨rfl, rfl, trivial⟩
  refine C71_hierarchy_arbitrary_input (c := 1) (ds := Demo.singles _) _ _ _ _ Demo.sound (fun _ => .inl) h1 hr
    (.cons 1 (.cons _ _ .nil) f1 (.cons 2 (.cons _ _ (.cons _ _ .nil)) f2 .nil)) ?_ hfit rfl ?_ ?_ inp
    ⟨(fun _ _ h => by cases h), fun _ h => by cases h⟩
  · intro p hp
    simp only [List.cons_append, List.nil_append, List.mem_cons, List.not_mem_nil, or_false] at hp
    rcases hp with rfl | rfl | rfl
    · exact h1
    · exact h1
    · exact h2
  · intro d hd ha hn
    obtain ⟨i, hi⟩ := List.getElem?_of_mem hd
    exact .inl (.abstract hn (c := 1) rfl hi ha)
  · intro d hd ha hc
    have hd' : d ∈ [2, 1, 3, 5] := hd
    simp only [List.mem_cons, List.not_mem_nil, or_false] at hd'
    rcases hd' with rfl | rfl | rfl | rfl
    · simp [Demo.singles, DynTypes.classes] at hc
    · simp [Demo.singles, DynTypes.classes] at hc
    · simp at hc
    · cases ha

end Ckpt
