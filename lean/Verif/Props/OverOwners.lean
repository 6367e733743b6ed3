import Verif.Props.Over
import Verif.Props.Owners
/-!
# C78: reading in place over objects of hierarchies several classes of which own objects
-/

set_option autoImplicit false

namespace Ckpt

namespace Owner

section
variable {S B V : Type}

/-- Read over each other: nothing is said if one of the pointers is null; otherwise the objects are of the same class, `o`
for the members of the base class, `G` for owners, `Q` for objects of other classes. -/
inductive OverPtr (o : S → S → Prop) (Q : V → V → Prop) (G : (i : Bool) → Owner S B V i → Owner S B V i → Prop) :
    Option (Any S B V) → Option (Any S B V) → Prop
  | null {y : Option (Any S B V)} : OverPtr o Q G none y
  | made {x : Option (Any S B V)} : OverPtr o Q G x none
  | group {s s' : S} {g g' : Owner S B V true} : o s s' → G true g g' →
      OverPtr o Q G (some (.inl (s, g, ()))) (some (.inl (s', g', ())))
  | deco {s s' : S} {g g' : Owner S B V false} : o s s' → G false g g' →
      OverPtr o Q G (some (.inr (.inl (s, g, ())))) (some (.inr (.inl (s', g', ()))))
  | other {v v' : V} : Q v v' → OverPtr o Q G (some (.inr (.inr v))) (some (.inr (.inr v')))

/-- Owners: groups of any numbers of objects, as far as both have one in a place; the members of decorators and what they
own. -/
inductive Over (o : S → S → Prop) (o' : B → B → Prop) (Q : V → V → Prop) :
    (i : Bool) → Owner S B V i → Owner S B V i → Prop
  | group {n m : Nat} {ks ls : List (Option (Any S B V))} : m < 2 ^ 64 →
      (∀ (i : Nat) (x y : Option (Any S B V)), ks[i]? = some x → ls[i]? = some y → OverPtr o Q (Over o o' Q) x y) →
      Over o o' Q true (.group n ks) (.group m ls)
  | deco {a b : B} {p q : Option (Any S B V)} : o' a b → OverPtr o Q (Over o o' Q) p q →
      Over o o' Q false (.deco a p) (.deco b q)

end

section
variable {R : RelMode} {cfg : Cfg} {env : Env} {S B V : Type} {h : Parts S B V} {u : Usage S} {w : Usage B}
  {vs : AltUsages V} {o : S → S → Prop} {o' : B → B → Prop} {Q : V → V → Prop} {ps : List OverUse}

theorem groupPart_over {gti vti pti : TI} {t : CppType (Option (Any S B V))} {P : Option (Any S B V) → Prop}
    (hgti : gti.Valid) (hvti : vti.Valid) (hl : (CppType.declared pti none (some none) false).Like t)
    (ht : OverOf R cfg env t (ptrUse u w vs P) (OverPtr o Q (Over o o' Q))) :
    OverOf R cfg env (groupPart cfg gti vti t) (ownUse u w vs P true) (Over o o' Q true) := by
  let q : TypeUse := ⟨_, .vector cfg vti false t, .vector t (ptrUse u w vs P)⟩
  refine .program (ps := (· = q)) false (fun x => [.one (.vector cfg vti false t) (.vector t (ptrUse u w vs P)) x.kids])
    (.only q (overVector t (OverPtr o Q (Over o o' Q)))) hgti ⟨⟨_, rfl⟩, trivial⟩ ?_ ?_ ?_ ?_ ?_
  · rintro _ rfl
    exact .fewer (.vector false hvti ht) fun _ _ h => h rfl
  · rintro (⟨n, ks⟩ | _) hx
    refine ⟨.visit _ rfl rfl .done, ?_⟩
    intro i hi
    simp only [List.mem_cons, List.not_mem_nil, or_false] at hi
    subst hi
    exact ⟨rfl, hx.2.2, hx.1, hx.2.1, trivial⟩
  · rintro (⟨n, ks⟩ | _) (⟨m, ls⟩ | _) _ hy
    have hd : t.dflt = none → t.copyable = false → ls = [] := by
      intro hn
      rw [hl] at hn
      cases hn
    refine .visit rfl (fun _ => ?_) fun v' hv' => .done (.group hv'.2.1 hv'.2.2 hv'.1)
    rcases hy with hy | hy
    · refine ⟨fun i a b _ hb => ?_, hd, hy.2⟩
      rw [hy.1 b (List.mem_of_getElem? hb)]
      exact .made
    · cases hy with
      | group hm hy => exact ⟨hy, hd, hm⟩
  · exact ⟨by simp, by decide⟩
  · rintro _ ⟨⟩

theorem decoPart_over {dti : TI} {newB : B} {b : CppType B} {t : CppType (Option (Any S B V))}
    {P : Option (Any S B V) → Prop} (hdti : dti.Valid) (hb : OverOf R cfg env b w o') (hn : w.clean newB)
    (hbf : w.clean b.fresh) (hbd : ∀ d, b.dflt = some d → w.clean d)
    (ht : OverOf R cfg env t (ptrUse u w vs P) (OverPtr o Q (Over o o' Q))) :
    OverOf R cfg env (decoPart cfg dti newB b t) (ownUse u w vs P false) (Over o o' Q false) := by
  let w' : Usage B := { w with many := fun _ => False }
  let q : TypeUse := ⟨_, b, w'⟩
  let p : TypeUse := ⟨_, t, ptrUse u w vs P⟩
  have hpq : p ≠ q := by
    intro h
    have : p.2.2.many 2 = q.2.2.many 2 := congrArg (fun q : TypeUse => q.2.2.many 2) h
    exact (this.mp trivial : False)
  let f : B → B → Prop := fun x y => o' x y ∨ w.clean y
  let r : OverRel := fun s a b => OverRel.only q f s a b ∧ OverRel.only p (OverPtr o Q (Over o o' Q)) s a b
  have r1 : ∀ a b : B, f a b → r q a b := fun a b h => ⟨fun _ => h, fun h => (hpq h.symm).elim⟩
  have r2 : ∀ a b, OverPtr o Q (Over o o' Q) a b → r p a b := fun a b h => ⟨fun h => (hpq h).elim, fun _ => h⟩
  refine .program (ps := fun s => s = q ∨ s = p) false
    (fun x => [.one b w' x.value, .one t (ptrUse u w vs P) x.inner]) r hdti
    ⟨⟨_, .inl rfl⟩, ⟨_, .inr rfl⟩, trivial⟩ ?_ ?_ ?_ ?_ ?_
  · rintro _ (rfl | rfl)
    · exact .weaken (.either hb) (fun _ h => h) (fun _ h => h) (fun _ _ _ h => h) (fun _ h => h.elim) hbf hbd
        (fun _ _ _ h => h.1 rfl)
    · exact .fewer ht fun _ _ h => h.2 rfl
  · rintro (_ | ⟨a, p⟩) hx
    refine ⟨.visit _ rfl rfl (.visit _ rfl rfl .done), ?_⟩
    intro i hi
    simp only [List.mem_cons, List.not_mem_nil, or_false] at hi
    rcases hi with rfl | rfl
    · exact ⟨.inl rfl, hx.1⟩
    · exact ⟨.inr rfl, hx.2⟩
  · rintro (_ | ⟨a, p⟩) (_ | ⟨a', q⟩) _ hy
    rcases hy with hy | hy
    · refine .visit rfl (r1 _ _ (.inr hy.1)) fun v hv => .visit rfl (r2 _ _ ?_) fun q' hq' => .done (.deco hv hq')
      cases hy.2
      exact .made
    · cases hy with
      | deco h1 h2 =>
        exact .visit rfl (r1 _ _ (.inl h1)) fun v hv => .visit rfl (r2 _ _ h2) fun q' hq' => .done (.deco hv hq')
  · exact ⟨hn, rfl⟩
  · rintro _ ⟨⟩

/-- The types of all parts. -/
def Parts.overs (h : Parts S B V) (cfg : Cfg) (u : Usage S) (w : Usage B) (vs : AltUsages V) (o : S → S → Prop)
    (o' : B → B → Prop) (Q : V → V → Prop) (ps : List OverUse) (t : CppType (Option (Any S B V)))
    (P : Option (Any S B V) → Prop) : List OverUse :=
  ⟨_, h.s, u, o⟩ :: ⟨_, groupPart cfg h.gti h.vti t, ownUse u w vs P true, Over o o' Q true⟩ ::
    ⟨_, h.s, u, o⟩ :: ⟨_, decoPart cfg h.dti h.newB h.b t, ownUse u w vs P false, Over o o' Q false⟩ :: ps

/-- Objects of the same class. -/
def OverAny (o : S → S → Prop) (o' : B → B → Prop) (Q : V → V → Prop) : Any S B V → Any S B V → Prop :=
  overEither (overPair o (overPair (Over o o' Q true) fun _ _ => True))
    (overEither (overPair o (overPair (Over o o' Q false) fun _ _ => True)) Q)

theorem classes_matchOver (hn : u.clean h.new) (hnb : w.clean h.newB) (hds : h.others.MatchOver vs Q ps)
    (t : CppType (Option (Any S B V))) (P : Option (Any S B V) → Prop) :
    (h.classes cfg t).MatchOver (classUse u w vs P) (OverAny o o' Q) (h.overs cfg u w vs o o' Q ps t P) := by
  have h1 : (Usage.cls (.cons u (.cons (ownUse u w vs P true) .nil))).clean (h.new, .group 0 [], ()) :=
    ⟨hn, by simp [ownUse, Clean], trivial⟩
  have h2 : (Usage.cls (.cons u (.cons (ownUse u w vs P false) .nil))).clean (h.new, .deco h.newB none, ()) :=
    ⟨hn, ⟨hnb, rfl⟩, trivial⟩
  exact .cons h.group (.cons _ _ _ (.cons _ _ _ .nil)) h1 (.cons h.deco (.cons _ _ _ (.cons _ _ _ .nil)) h2 hds)

theorem overs_over (hf : h.Fits env) (hs : OverOf R cfg env h.s u o) (hb : OverOf R cfg env h.b w o')
    (hnb : w.clean h.newB) (hbf : w.clean h.b.fresh) (hbd : ∀ d, h.b.dflt = some d → w.clean d)
    (hps : ∀ p ∈ ps, OverOf R cfg env p.2.1 p.2.2.1 p.2.2.2) {t : CppType (Option (Any S B V))}
    {P : Option (Any S B V) → Prop} (hl : (CppType.declared h.pti none (some none) false).Like t)
    (ht : OverOf R cfg env t (ptrUse u w vs P) (OverPtr o Q (Over o o' Q))) :
    ∀ p ∈ h.overs cfg u w vs o o' Q ps t P, OverOf R cfg env p.2.1 p.2.2.1 p.2.2.2 := by
  intro p hp
  simp only [Parts.overs, List.mem_cons] at hp
  rcases hp with rfl | rfl | rfl | rfl | hp
  · exact hs
  · exact groupPart_over hf.gti hf.vti hl ht
  · exact hs
  · exact decoPart_over hf.dti hb hnb hbf hbd ht
  · exact hps p hp

theorem over_any {x y : Option (Any S B V)} (hxy : OverPtr o Q (Over o o' Q) x y) : overPtr (OverAny o o' Q) x y := by
  rintro v v' rfl rfl
  cases hxy with
  | group h1 h2 => exact ⟨h1, h2, trivial⟩
  | deco h1 h2 => exact ⟨h1, h2, trivial⟩
  | other h1 => exact h1

/-- Up to every depth. -/
theorem overTo (hf : h.Fits env) (hs : OverOf R cfg env h.s u o) (hn : u.clean h.new) (hb : OverOf R cfg env h.b w o')
    (hnb : w.clean h.newB) (hbf : w.clean h.b.fresh) (hbd : ∀ d, h.b.dflt = some d → w.clean d)
    (hds : h.others.MatchOver vs Q ps) (hps : ∀ p ∈ ps, OverOf R cfg env p.2.1 p.2.2.1 p.2.2.2) :
    ∀ j, OverOf R cfg env (.hierarchyTo cfg env h.pti h.c h.cti h.any (h.classes cfg) j)
      (ptrUse u w vs (PtrTo u w (h.OtherOk env vs) j)) (OverPtr o Q (Over o o' Q))
  | 0 => .weaken (.clean (.declared (clean := fun y => y = none) false hf.pti rfl (by rintro _ ⟨⟩; rfl))) (fun _ h => h)
      (fun _ h => h) (fun _ _ h => h.elim) (fun _ _ => trivial) rfl (by rintro _ ⟨⟩; rfl) (fun _ _ h => h.elim)
  | j + 1 => by
    refine .weaken (.polyPtr h.c h.any hf.pti hf.cti (classes_matchOver hn hnb hds _ (PtrTo u w (h.OtherOk env vs) j))
      (overs_over hf hs hb hnb hbf hbd hps (hierarchyTo_like j) (overTo hf hs hn hb hnb hbf hbd hds hps j))
      ⟨hf.group.symm, hf.deco.symm, hf.others⟩ hf.distinct) (fun x hx => ok_classes hf _ hx) (fun _ h => h) ?_
      (fun _ _ => trivial) rfl (by rintro _ ⟨⟩; rfl) (fun _ _ _ h => over_any h)
    rintro x y - (⟨rfl, rfl⟩ | ⟨v, v', rfl, rfl, h⟩)
    · exact .null
    · exact same_classes h

theorem over (hf : h.Fits env) (hs : OverOf R cfg env h.s u o) (hn : u.clean h.new) (hb : OverOf R cfg env h.b w o')
    (hnb : w.clean h.newB) (hbf : w.clean h.b.fresh) (hbd : ∀ d, h.b.dflt = some d → w.clean d)
    (hds : h.others.MatchOver vs Q ps) (hps : ∀ p ∈ ps, OverOf R cfg env p.2.1 p.2.2.1 p.2.2.2) :
    OverOf R cfg env (h.rootPtr cfg env)
      (ptrUse u w vs (PtrAll u.ok (Ok u w (h.OtherOk env vs)) (h.OtherOk env vs))) (OverPtr o Q (Over o o' Q)) := by
  refine .weaken (.hierarchyPtr h.c h.any hf.pti hf.cti (classes_grows h)
    (fun j => classes_matchOver hn hnb hds _ (PtrTo u w (h.OtherOk env vs) j))
    (fun j => overs_over hf hs hb hnb hbf hbd hps (hierarchyTo_like j) (overTo hf hs hn hb hnb hbf hbd hds hps j))
    (fun _ => ⟨hf.group.symm, hf.deco.symm, hf.others⟩) (fun _ => hf.distinct)) ?_ (fun _ h _ => h) ?_
    (fun _ _ => trivial) rfl (by rintro _ ⟨⟩; rfl) (fun _ _ _ h _ => over_any h)
  · intro x hx
    obtain ⟨j, hj⟩ := PtrAll.to (hx.mono fun _ _ => Ok.to)
    exact ⟨j, ok_classes hf _ (hj (j + 1) (Nat.le_succ j))⟩
  · rintro x y - ⟨j, ⟨rfl, rfl⟩ | ⟨v, v', rfl, rfl, h⟩⟩
    · exact .null
    · exact same_classes h

end

end Owner

section
variable {R : RelMode} {cfg : Cfg} {env : Env} {S B V : Type} {h : Owner.Parts S B V} {u : Usage S} {w : Usage B}
  {vs : AltUsages V} {o : S → S → Prop} {o' : B → B → Prop} {Q : V → V → Prop} {ps : List OverUse}

/-- **C78**: the same for hierarchies two classes of which own objects, one of them beside other members. -/
theorem C78_owners_in_place (hv : env.Valid R (· ∈ builtinKinds) cfg) (hf : h.Fits env)
    (hs : OverOf R cfg env h.s u o) (hn : u.clean h.new) (hb : OverOf R cfg env h.b w o') (hnb : w.clean h.newB)
    (hds : h.others.MatchOver vs Q ps) (hps : ∀ p ∈ ps, OverOf R cfg env p.2.1 p.2.2.1 p.2.2.2)
    {x : Option (Owner.Any S B V)}
    (hx : Owner.PtrAll u.ok (Owner.Ok u w (h.OtherOk env vs)) (h.OtherOk env vs) x) :
    RoundTrips cfg (h.rootPtr cfg env).elem x (Owner.OverPtr o Q (Owner.Over o o' Q) x)
      fun _ y => Owner.SamePtr u vs.Same (Owner.Same u w vs.Same) x y := by
  obtain ⟨C, hC, _⟩ := hb.composes_valid hv
  obtain ⟨bs, h1, h2, h3, h4⟩ := C78_in_place hv (Owner.over hf hs hn hb hnb hC.fresh hC.dflt hds hps) hx
  exact ⟨bs, h1, h2, h3, fun y rest hy => h4 y rest (.inl hy)⟩

end

/-! ### Example -/

namespace Demo
variable (c : Cfg)

def overPlain : ((View Val × Unit) × Unit) ⊕ Empty → ((View Val × Unit) × Unit) ⊕ Empty → Prop :=
  overEither (overPair (fun _ y => (shapePartUse c).clean y) fun _ _ => True) fun _ _ => True

/-- A framed group of nothing and of a framed group. -/
def laterPicture : Option (Owner.Any (View Val × Unit) Val (((View Val × Unit) × Unit) ⊕ Empty)) :=
  some (.inr (.inl ((row 0, ()), .deco (num 8) (some (.inl ((row 2, ()), .group 2
    [none, some (.inr (.inl ((row 1, ()), .deco (num 3) (some (.inl ((row 1, ()), .group 0 [], ()))), ())))], ()))), ())))

theorem picture_over : Owner.OverPtr (fun _ y => (shapePartUse c).clean y) (overPlain c)
    (Owner.Over (fun _ y => (shapePartUse c).clean y) (fun _ y => (Usage.base .contents c Demo.env int).clean y) (overPlain c))
    picture laterPicture := by
  have h : ∀ n, (shapePartUse c).clean (row n, ()) := fun n => ⟨trivial, trivial⟩
  refine .deco (h 0) (.deco ⟨.prim rfl, trivial⟩ (.group (h 2) (.group (by decide) ?_)))
  rintro (_ | _ | i) x y hx hy
  · cases hy
    exact .made
  · cases hx
    cases hy
    exact .deco (h 1) (.deco ⟨.prim rfl, trivial⟩ .null)
  · cases hy

end Demo

/-- A drawing is read over another. -/
example (check ndebug : Bool) : RoundTrips (Demo.cfg check ndebug)
    ((Demo.drawing (Demo.cfg check ndebug)).rootPtr (Demo.cfg check ndebug) Demo.env).elem Demo.picture
    (fun y => y = Demo.laterPicture)
    fun _ w => Owner.SamePtr (Demo.shapePartUse (Demo.cfg check ndebug)) (Demo.plainUses (Demo.cfg check ndebug)).Same
      (Owner.Same (Demo.shapePartUse (Demo.cfg check ndebug)) (.base .contents (Demo.cfg check ndebug) Demo.env Demo.int)
        (Demo.plainUses (Demo.cfg check ndebug)).Same) Demo.picture w := by
  have h1 := Demo.partComposed (Demo.cfg check ndebug) (Demo.rowComposed _) 1 (fresh := Demo.rowTy.empty) trivial
  have hr : (Demo.shapePartUse (Demo.cfg check ndebug)).clean (Demo.rowTy.empty, ()) := ⟨trivial, trivial⟩
  have g1 : (Usage.cls (.cons (Demo.shapePartUse (Demo.cfg check ndebug)) .nil)).clean ((Demo.rowTy.empty, ()), ()) :=
    ⟨hr, trivial⟩
  obtain ⟨bs, k1, k2, k3, k4⟩ := C78_owners_in_place (h := Demo.drawing (Demo.cfg check ndebug)) (vs := Demo.plainUses _)
    (Q := Demo.overPlain (Demo.cfg check ndebug)) Demo.valid_contents (Demo.drawing_fits _) (.clean h1) hr
    (.clean (.base Demo.int)) ⟨.prim rfl, trivial⟩ (.cons 1 (.cons _ _ _ .nil) g1 .nil) (by
      intro p hp
      simp only [List.cons_append, List.nil_append, List.mem_cons, List.not_mem_nil, or_false] at hp
      rw [hp]
      exact .clean h1) (Demo.picture_ok _)
  refine ⟨bs, k1, k2, k3, ?_⟩
  rintro _ rest rfl
  exact k4 _ rest (Demo.picture_over _)

end Ckpt
