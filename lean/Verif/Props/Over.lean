import Verif.Proofs.Over
import Verif.Proofs.ComposeApi
import Verif.Proofs.Ends
import Verif.Props.ComposeApi
import Verif.Props.RecursivePoly
/-!
# C78: reading in place over objects that exist, part by part
-/

set_option autoImplicit false

namespace Ckpt

section
variable {R : RelMode} {cfg : Cfg} {env : Env} {T : Type} {t : CppType T} {u : Usage T} {o : T → T → Prop} {x : T}

/-- **C78**: an object is restored over every object it can be read over: what is left is equal to the object that was
written, nothing of the old object is left. -/
theorem C78_in_place (hv : env.Valid R (· ∈ builtinKinds) cfg) (h : OverOf R cfg env t u o) (hx : u.ok x) :
    RoundTrips cfg t.elem x (fun y => o x y ∨ u.clean y) fun _ w => u.same x w := by
  obtain ⟨C, hC, ho⟩ := (OverOf.either h).composes_valid hv
  obtain ⟨n0, h0⟩ := hC.ok x hx
  exact roundTrips_of (K := (· ∈ builtinKinds)) (fun _ h => h) hC.elem_le (n0 := n0) (C := fun _ => C n0)
    (fun _ => hC.law n0) (fun _ => h0 n0 (Nat.le_refl _)) (fun y hy => ho n0 x y (h0 n0 (Nat.le_refl _)) hy)
    (fun _ w hw => hC.rel n0 x w hw)

/-- **C78**: a stream that ends within the object makes reading over another object throw. -/
theorem C78_truncated (hv : env.Valid R (· ∈ builtinKinds) cfg) (h : OverOf R cfg env t u o) (hx : u.ok x)
    {bs inp : Bytes} (hs : Yields (fun n => serializeToStream cfg (t.elem n) x { data := [] }) (.ok (x, { data := bs })))
    (hpre : inp <+: bs) (hne : inp ≠ bs) {y : T} (hy : o x y) :
    Yields (fun n => deserializeInPlaceFromStream cfg (t.elem n) inp y) (.throw .streamShort) := by
  obtain ⟨C, hC, ho⟩ := h.composes_valid hv
  obtain ⟨tl, rfl⟩ := hpre
  exact (hC.encOf hx hs).inStreamOver_short hC (fun n hP => ho n x y hP hy) (tl := tl) (by rintro rfl; simp at hne) rfl

/-- **C78**: a file is read over such an object as well. -/
theorem C78_file (hv : env.Valid R (· ∈ builtinKinds) cfg) (h : OverOf R cfg env t u o) (hx : u.ok x) {bs : Bytes}
    (hs : Yields (fun n => serializeToStream cfg (t.elem n) x { data := [] }) (.ok (x, { data := bs }))) {w : World}
    (hw : w.Ok) {file : Nat} {rest : Bytes} (hf : w.files file = some (bs ++ rest)) {y : T} (hy : o x y) :
    ∃ z, u.same x z ∧ ∃ n0, ∀ n, n0 ≤ n → ∃ w',
      deserializeInPlaceFromFile cfg (t.elem n) noFaults w file y = (.out (.ok z), w') ∧
      w'.files = w.files ∧ w'.disk = w.disk ∧ w'.fds = w.fds ∧ w'.maps = w.maps := by
  obtain ⟨C, hC, ho⟩ := h.composes_valid hv
  have he := hC.encOf hx hs
  have hlen := he.ne_nil
  obtain ⟨z, hz, n0, h0⟩ := he.unpackIOOver hC (fun n hP => ho n x y hP hy) rest
  refine ⟨z, hz, n0, fun n hn => ?_⟩
  exact inPlaceFromFile_noFaults hw hf (by rw [ne_eq, List.append_eq_nil_iff]; rintro ⟨rfl, -⟩; simp at hlen)
    (h0 n hn) (.inl ⟨_, rfl⟩)

end

section
variable {R : RelMode} {cfg : Cfg} {env : Env} {V : Type} {ds : DynTypes V} {us : AltUsages V} {ti cti : TI}
  {ps : List TypeUse} {c : Nat}

/-- **C78**: over an object of another class, the assertion of the library fails. -/
theorem C78_other_class (hv : env.Valid R (· ∈ builtinKinds) cfg) (hnd : cfg.ndebug = false) (any : V) (hti : ti.Valid)
    (hcti : cti.Valid) (hm : ds.Match us ps) (hps : ∀ p ∈ ps, Composed R cfg env p.2.1 p.2.2) (hfit : ds.Fits env)
    (hcl : ds.classes.Nodup) {v w : V} (hx : (Usage.polyPtr env c ds us).ok (some v)) (hw : ds.classOf w ≠ ds.classOf v)
    {bs : Bytes} (hs : Yields (fun n => serializeToStream cfg ((CppType.polyPtr cfg env ti c cti any ds).elem n) (some v)
      { data := [] }) (.ok (some v, { data := bs }))) (rest : Bytes) :
    Yields (fun n => deserializeInPlace cfg ((CppType.polyPtr cfg env ti c cti any ds).elem n) (bs ++ rest) (some w)) .abort ∧
    Yields (fun n => deserializeInPlaceFromStream cfg ((CppType.polyPtr cfg env ti c cti any ds).elem n) (bs ++ rest)
      (some w)) .abort := by
  have hE : ∀ e, ¬ (Scope.quiet (· ∈ builtinKinds)).errs e := fun _ h => h
  have hK : ∀ k, (Scope.quiet (· ∈ builtinKinds)).kinds k ↔ k ∈ builtinKinds := fun _ => Iff.rfl
  obtain ⟨D, hD, hmade⟩ := dyn_handles (K := Scope.quiet (· ∈ builtinKinds)) hK hv.toUsable hm
    (fun p hp => (hps p hp).composes hv) hfit hcl
  have hC := polyPtr_composes (K := Scope.quiet (· ∈ builtinKinds)) hv.toUsable hD hmade hti hcti c any
  obtain ⟨n0, h0⟩ := hC.encOf hx hs
  have hmem := (hx v rfl).2.1
  have hlt : (env.objReg (env.root c)).idxOf (ds.classOf v) < (env.objReg (env.root c)).length :=
    List.idxOf_lt_length_of_mem hmem
  have hne : (ds.virt cfg env c).dynIdx w ≠ (env.objReg (env.root c)).idxOf (ds.classOf v) := by
    intro h
    have h' : List.idxOf (ds.classOf w) (env.objReg (env.root c)) = List.idxOf (ds.classOf v) (env.objReg (env.root c)) := h
    have hlt' : List.idxOf (ds.classOf v) (env.objReg (env.root c)) < (env.objReg (env.root c)).length := hlt
    have e1 : (env.objReg (env.root c))[List.idxOf (ds.classOf v) (env.objReg (env.root c))]? = some (ds.classOf v) := by
      rw [List.getElem?_eq_getElem hlt', List.getElem_idxOf]
    have e2 : (env.objReg (env.root c))[List.idxOf (ds.classOf w) (env.objReg (env.root c))]? = some (ds.classOf w) := by
      rw [List.getElem?_eq_getElem (h' ▸ hlt'), List.getElem_idxOf]
    rw [h', e1] at e2
    exact hw (Option.some.inj e2).symm
  have h1 := fun n => uptr_ends_mismatch (S := Scope.quiet (· ∈ builtinKinds)) (cfg := cfg) (e := ds.elem cfg env cti any n)
    (sz := ti.sizeof) (vi := ds.virt cfg env c) hE hv.cfgOk
    (i := (env.objReg (env.root c)).idxOf (ds.classOf v)) (by have := hv.regSize (env.root c); omega) (y := w) hne hnd
  have h2 := fun n => top_ends (cfg := cfg) hE (by simp [Fin.Plain]) (e := (CppType.polyPtr cfg env ti c cti any ds).elem n)
    hti (each_ends (h1 n))
  have key : ∀ n, n0 ≤ n → ∃ tl, bs ++ rest = (intBytes cfg.endian 4 ti.idx ++ (boolNode cfg cfg.check false ++
      node cfg cfg.check cfg.tiInt 1 (intBytes cfg.endian 4 ((env.objReg (env.root c)).idxOf (ds.classOf v))))) ++ tl := by
    intro n hn
    have := (h0 n hn).2
    rw [← this]
    simp only [topEnc, polyPtrCodec, uptrEnc, node, if_true]
    exact ⟨_, by simp only [List.append_assoc]; rfl⟩
  constructor
  · refine ⟨n0, fun n hn => ?_⟩
    obtain ⟨tl, he⟩ := key n hn
    have hr : Ser.Reader (Scope.quiet (· ∈ builtinKinds)) { core := .unpacker (bs ++ rest) 0 0, kind := .unpacker } :=
      ⟨rfl, by simp [Scope.quiet, builtinKinds], by simp⟩
    have := h2 n _ hr tl (by simp only [Ser.remaining, List.drop_zero]; exact he)
    simp only at this ⊢
    unfold deserializeInPlace
    rw [this]
    rfl
  · refine ⟨n0, fun n hn => ?_⟩
    obtain ⟨tl, he⟩ := key n hn
    have hr : Ser.Reader (Scope.quiet (· ∈ builtinKinds)) { core := .streamUnpacker (bs ++ rest) 0, kind := .streamUnpacker } :=
      ⟨rfl, by simp [Scope.quiet, builtinKinds], trivial⟩
    have := h2 n _ hr tl (by simp only [Ser.remaining, List.drop_zero]; exact he)
    simp only at this ⊢
    unfold deserializeInPlaceFromStream
    rw [this]
    rfl

end

/-! ### Hierarchies -/

namespace Group

/-- Read over each other: nothing is said if one of the pointers is null; otherwise the objects are of the same class, `o`
for the members of the base class, `G` for groups, `Q` for objects of other classes. -/
inductive OverPtr {S V : Type} (o : S → S → Prop) (Q : V → V → Prop) (G : Group S V → Group S V → Prop) :
    Option (Any S V) → Option (Any S V) → Prop
  | null {y : Option (Any S V)} : OverPtr o Q G none y
  | made {x : Option (Any S V)} : OverPtr o Q G x none
  | group {s s' : S} {g g' : Group S V} : o s s' → G g g' →
      OverPtr o Q G (some (.inl (s, g, ()))) (some (.inl (s', g', ())))
  | other {v v' : V} : Q v v' → OverPtr o Q G (some (.inr v)) (some (.inr v'))

/-- Groups of any numbers of objects; as far as both have one in a place, they are read over each other. -/
inductive Over {S V : Type} (o : S → S → Prop) (Q : V → V → Prop) : Group S V → Group S V → Prop
  | mk {n m : Nat} {ks ls : List (Option (Any S V))} : m < 2 ^ 64 →
      (∀ (i : Nat) (x y : Option (Any S V)), ks[i]? = some x → ls[i]? = some y → OverPtr o Q (Over o Q) x y) →
      Over o Q (mk n ks) (mk m ls)

section
variable {R : RelMode} {cfg : Cfg} {env : Env} {S V : Type} {gti vti pti cti : TI} {c k : Nat} {new : S} {s : CppType S}
  {u : Usage S} {o : S → S → Prop} {ds : DynTypes V} {vs : AltUsages V} {Q : V → V → Prop} {ps : List OverUse}

/-- What is said of pointers, given what is said of groups. -/
theorem ptr_over {t : CppType (Group S V)} {P : Group S V → Prop} {G : Group S V → Group S V → Prop} (hpti : pti.Valid)
    (hcti : cti.Valid) (hs : OverOf R cfg env s u o) (hn : u.clean new) (hds : ds.MatchOver vs Q ps)
    (hps : ∀ p ∈ ps, OverOf R cfg env p.2.1 p.2.2.1 p.2.2.2) (hfit : ds.Fits env) (hk : (env.chain k).length = 2)
    (hnd : (k :: ds.classes).Nodup) (hreg : k ∈ env.objReg (env.root c)) (habs : (env.cls k).abstract = false)
    (ht : OverOf R cfg env t ⟨P, fun y => (∀ p ∈ y.kids.elems, p = none) ∧ y.kids.cap < 2 ^ 64, Same u vs.Same,
      fun _ => True⟩ G) :
    OverOf R cfg env (ptr cfg env pti c cti k new s ds t)
      ⟨fun x => (∀ s g, x = some (.inl (s, g, ())) → u.ok s ∧ P g) ∧ ∀ v, x = some (.inr v) → OtherOk env c ds vs v,
        fun y => y = none, SamePtr u vs.Same (Same u vs.Same), fun _ => True⟩ (OverPtr o Q G) := by
  let w : Usage (Group S V) := ⟨P, fun y => (∀ p ∈ y.kids.elems, p = none) ∧ y.kids.cap < 2 ^ 64, Same u vs.Same, fun _ => True⟩
  have hc : (Usage.cls (.cons u (.cons w .nil))).clean (new, mk 0 [], ()) := ⟨hn, by simp [kids, w], trivial⟩
  refine .weaken (.polyPtr c _ hpti hcti (.cons k (.cons s u o (.cons t w G .nil)) hc hds) ?_ ⟨hk.symm, hfit⟩ hnd) ?_
    (fun _ h => h) ?_ (fun _ _ => trivial) rfl (by rintro _ ⟨⟩; rfl) ?_
  · intro p hp
    simp only [List.cons_append, List.nil_append, List.mem_cons] at hp
    rcases hp with rfl | rfl | hp
    · exact hs
    · exact ht
    · exact hps p hp
  · rintro _ ⟨h1, h2⟩ (⟨s, g, ⟨⟩⟩ | v) rfl
    · exact ⟨⟨(h1 s g rfl).1, (h1 s g rfl).2, trivial⟩, hreg, habs⟩
    · exact h2 v rfl
  · rintro x y - (⟨rfl, rfl⟩ | ⟨v, w, rfl, rfl, h⟩)
    · exact .null
    · match v, w, h with
      | .inl (_, _, ()), .inl (_, _, ()), h => exact .group h.1 h.2.1
      | .inr _, .inr _, h => exact .other h
  · rintro x y - h v w rfl rfl
    cases h with
    | group h1 h2 => exact ⟨h1, h2, trivial⟩
    | other h => exact h

/-- The part of the class of groups. -/
theorem composes_over (hgti : gti.Valid) (hvti : vti.Valid) (hpti : pti.Valid) (hcti : cti.Valid)
    (hs : OverOf R cfg env s u o) (hn : u.clean new) (hds : ds.MatchOver vs Q ps)
    (hps : ∀ p ∈ ps, OverOf R cfg env p.2.1 p.2.2.1 p.2.2.2) (hfit : ds.Fits env) (hk : (env.chain k).length = 2)
    (hnd : (k :: ds.classes).Nodup) (hreg : k ∈ env.objReg (env.root c)) (habs : (env.cls k).abstract = false) :
    OverOf R cfg env (type cfg env gti vti pti c cti k new s ds)
      ⟨Ok u (OtherOk env c ds vs), fun y => (∀ p ∈ y.kids.elems, p = none) ∧ y.kids.cap < 2 ^ 64, Same u vs.Same, fun _ => True⟩
      (Over o Q) := by
  let P := OtherOk env c ds vs
  let us : Nat → Usage (Group S V) := fun j =>
    ⟨OkTo u P j, fun y => (∀ p ∈ y.kids.elems, p = none) ∧ y.kids.cap < 2 ^ 64, Same u vs.Same, fun _ => True⟩
  let t : Nat → CppType (Group S V) :=
    CppType.unfold cfg gti (mk 0 []) none false (serialize cfg env vti pti c cti k new s ds)
  let vt : Nat → CppType (Vec (Option (Any S V))) := fun j => .vector cfg vti false (ptr cfg env pti c cti k new s ds (t j))
  let vu : Nat → Usage (Vec (Option (Any S V))) := fun j => .vector (ptr cfg env pti c cti k new s ds (t j))
    ⟨fun x => (∀ s g, x = some (.inl (s, g, ())) → u.ok s ∧ OkTo u P j g) ∧ ∀ v, x = some (.inr v) → P v,
      fun y => y = none, SamePtr u vs.Same (Same u vs.Same), fun _ => True⟩
  let items : Nat → Group S V → List Item := fun j x => [.one (vt j) (vu j) x.kids]
  let q0 : Nat → TypeUse := fun j => ⟨_, vt j, vu j⟩
  let r : Nat → OverRel := fun j =>
    .only (q0 j) (overVector (ptr cfg env pti c cti k new s ds (t j)) (OverPtr o Q (Over o Q)))
  have hw : ∀ j, (serialize cfg env vti pti c cti k new s ds (t j)).Within (· = q0 j) := fun j => ⟨⟨_, rfl⟩, trivial⟩
  have hps' : ∀ j, OverOf R cfg env (t j) (us j) (Over o Q) → ∀ q, q = q0 j → OverOf R cfg env q.2.1 q.2.2 (r j q) := by
    rintro j h _ rfl
    exact .fewer (.vector false hvti (ptr_over hpti hcti hs hn hds hps hfit hk hnd hreg habs h)) fun x y h => h rfl
  have hi : ∀ j x, (us (j + 1)).ok x → (serialize cfg env vti pti c cti k new s ds (t j)).Writes x (items j x) ∧
      ∀ i ∈ items j x, i.Good (· = q0 j) := by
    intro j x hx
    obtain ⟨n, ks⟩ := x
    refine ⟨.visit _ rfl rfl .done, ?_⟩
    intro i hi
    simp only [items, List.mem_cons, List.not_mem_nil, or_false] at hi
    subst hi
    exact ⟨rfl, hx.2.2, hx.1, hx.2.1, trivial⟩
  have ht : ∀ j x y, (us (j + 1)).ok x → (us (j + 1)).clean y ∨ Over o Q x y →
      (serialize cfg env vti pti c cti k new s ds (t j)).TakesOver (r j) ((us (j + 1)).same x) (items j x) y := by
    intro j x y _ hy
    obtain ⟨n, ks⟩ := x
    refine .visit rfl (fun _ => ?_) fun v' hv' => .done (.mk hv'.2.1 hv'.2.2 hv'.1)
    rcases hy with hy | hy
    · refine ⟨fun i a b _ hb => ?_, fun h => (by cases h), hy.2⟩
      rw [hy.1 b (List.mem_of_getElem? hb)]
      exact .made
    · cases hy with
      | mk hm hy => exact ⟨hy, fun h => (by cases h), hm⟩
  have hf : (∀ p ∈ (mk 0 [] : Group S V).kids.elems, p = none) ∧ (mk 0 [] : Group S V).kids.cap < 2 ^ 64 := by simp [kids]
  have hall : ∀ j, OverOf R cfg env (t j) (us j) (Over o Q) := by
    intro j
    induction j with
    | zero =>
      exact .weaken (.clean (.declared (clean := (us 0).clean) false hgti hf (fun _ h => by cases h))) (fun _ h => h.elim)
        (fun _ h => h) (fun x _ h => h.elim) (fun _ _ => trivial) hf (fun _ h => by cases h) (fun x _ h => h.elim)
    | succ j ih =>
      exact .program false (items j) (r j) hgti (hw j) (hps' j ih) (hi j) (ht j) hf (fun _ h => by cases h)
  refine .weaken (.recursive (us := fun j => us (j + 1)) (o := fun _ => Over o Q) false items r hgti serialize_grows hw
    (fun j => hps' j (hall j)) hi ht (fun _ => hf) (fun _ _ h => by cases h)) ?_ ?_ ?_ (fun _ _ => trivial) hf
    (fun _ h => by cases h) (fun _ _ _ h _ => h)
  · intro x hx
    obtain ⟨j, hj⟩ := Ok.okTo hx
    exact ⟨j, hj.step⟩
  · exact fun y hy _ => hy
  · rintro x y _ ⟨_, h⟩
    exact h

end

end Group

section
variable {R : RelMode} {cfg : Cfg} {env : Env} {S V : Type} {gti vti pti cti : TI} {c k : Nat} {new : S} {s : CppType S}
  {u : Usage S} {o : S → S → Prop} {ds : DynTypes V} {vs : AltUsages V} {Q : V → V → Prop} {ps : List OverUse}

/-- **C78**: objects that own objects of a hierarchy, to any depth, are restored over such objects, of any numbers: where
both own an object in the same place, these have to be of the same class; other objects are made or destroyed. -/
theorem C78_hierarchy_in_place (hv : env.Valid R (· ∈ builtinKinds) cfg) (hgti : gti.Valid) (hvti : vti.Valid)
    (hpti : pti.Valid) (hcti : cti.Valid) (hs : OverOf R cfg env s u o) (hn : u.clean new) (hds : ds.MatchOver vs Q ps)
    (hps : ∀ p ∈ ps, OverOf R cfg env p.2.1 p.2.2.1 p.2.2.2) (hfit : ds.Fits env) (hk : (env.chain k).length = 2)
    (hnd : (k :: ds.classes).Nodup) (hreg : k ∈ env.objReg (env.root c)) (habs : (env.cls k).abstract = false)
    {x : Option (Group.Any S V)} (hx : Group.OkPtr env c u ds vs x) :
    RoundTrips cfg (Group.rootPtr cfg env gti vti pti c cti k new s ds).elem x (Group.OverPtr o Q (Group.Over o Q) x)
      fun _ w => Group.SamePtr u vs.Same (Group.Same u vs.Same) x w := by
  obtain ⟨bs, h1, h2, h3, h4⟩ := C78_in_place hv (Group.ptr_over hpti hcti hs hn hds hps hfit hk hnd hreg habs
    (Group.composes_over hgti hvti hpti hcti hs hn hds hps hfit hk hnd hreg habs)) hx
  exact ⟨bs, h1, h2, h3, fun y rest hy => h4 y rest (.inl hy)⟩

end

/-! ### Examples -/

namespace Demo
variable (c : Cfg)

/-- Shapes can be read over any shapes of the same class. -/
def overShape : AnyShape → AnyShape → Prop :=
  overEither (overPair (fun _ y => (shapePartUse c).clean y) fun _ _ => True)
    (overEither (overPair (fun _ y => (shapePartUse c).clean y) (overPair (fun _ y => (circlePartUse c).clean y) fun _ _ => True))
      (overEither (overPair (fun _ y => (shapePartUse c).clean y) (overPair (fun _ y => (groupPartUse c).clean y) fun _ _ => True))
        fun _ _ => True))

theorem shapePtrOver : OverOf .contents c Demo.env (shapePtr c) (shapePtrUse c) (overPtr (overShape c)) := by
  have h1 : Composed .contents c Demo.env (shapePart c) (shapePartUse c) := partComposed c (rowComposed c) 1 trivial
  have h2 : Composed .contents c Demo.env (circlePart c) (circlePartUse c) :=
    partComposed c (.base _) 2 ⟨.prim rfl, trivial⟩
  have h3 : Composed .contents c Demo.env (groupPart c) (groupPartUse c) :=
    partComposed c (.vector true (ti_valid _) (rowComposed c)) 3 ⟨(fun _ h => by cases h), fun _ _ => rfl, by decide⟩
  have hr : (shapePartUse c).clean (rowTy.empty, ()) := ⟨trivial, trivial⟩
  have hn : (circlePartUse c).clean (num 0, ()) := ⟨⟨.prim rfl, trivial⟩, trivial⟩
  have hg : (groupPartUse c).clean (⟨0, []⟩, ()) := ⟨⟨(fun _ h => by cases h), fun _ _ => rfl, by decide⟩, trivial⟩
  refine .polyPtr 1 _ (ti_valid _) (ti_valid _)
    (.cons 1 (.cons _ _ _ .nil) ⟨hr, trivial⟩ (.cons 2 (.cons _ _ _ (.cons _ _ _ .nil)) ⟨hr, hn, trivial⟩
      (.cons 3 (.cons _ _ _ (.cons _ _ _ .nil)) ⟨hr, hg, trivial⟩ .nil))) ?_ ⟨rfl, rfl, rfl, trivial⟩
    (by simp [shapeClasses, DynTypes.classes])
  intro p hp
  simp only [List.cons_append, List.nil_append, List.append_nil, List.mem_cons, List.not_mem_nil, or_false] at hp
  rcases hp with rfl | rfl | rfl | rfl | rfl
  · exact .clean h1
  · exact .clean h1
  · exact .clean h2
  · exact .clean h1
  · exact .clean h3

/-- Another circle, a shape in the place of nothing. -/
def laterShapes : Vec (Option AnyShape) :=
  ⟨2, [some (.inr (.inl ((row 5, ()), (num 1, ()), ()))), some (.inl ((row 1, ()), ()))]⟩

theorem shapes_over : overVector (shapePtr c) (overPtr (overShape c)) shapes laterShapes := by
  refine ⟨?_, fun h => (by cases h), by decide⟩
  rintro (_ | _ | i) x y hx hy v w rfl rfl
  · cases hx
    cases hy
    exact ⟨⟨trivial, trivial⟩, ⟨⟨.prim rfl, trivial⟩, trivial⟩, trivial⟩
  · cases hx
  · cases hy

end Demo

/-- The hypotheses are met by vectors of pointers to shapes. -/
example (check ndebug : Bool) : Demo.env.Valid .contents (· ∈ builtinKinds) (Demo.cfg check ndebug) ∧
    OverOf .contents (Demo.cfg check ndebug) Demo.env
      (.vector (Demo.cfg check ndebug) (Demo.env.ti Demo.int) false (Demo.shapePtr (Demo.cfg check ndebug)))
      (.vector (Demo.shapePtr (Demo.cfg check ndebug)) (Demo.shapePtrUse (Demo.cfg check ndebug)))
      (overVector (Demo.shapePtr (Demo.cfg check ndebug)) (overPtr (Demo.overShape (Demo.cfg check ndebug)))) ∧
    (Usage.vector (Demo.shapePtr (Demo.cfg check ndebug)) (Demo.shapePtrUse (Demo.cfg check ndebug))).ok Demo.shapes ∧
    overVector (Demo.shapePtr (Demo.cfg check ndebug)) (overPtr (Demo.overShape (Demo.cfg check ndebug))) Demo.shapes
      Demo.laterShapes ∧
    ¬(Usage.vector (Demo.shapePtr (Demo.cfg check ndebug)) (Demo.shapePtrUse (Demo.cfg check ndebug))).clean Demo.laterShapes :=
  ⟨Demo.valid_contents, .vector _ (Demo.ti_valid _) (Demo.shapePtrOver _), Demo.shapes_ok _, Demo.shapes_over _,
    fun h => by cases h.1 _ (.head _)⟩

/-- A circle is not read over a shape that is no circle. -/
example : (Usage.polyPtr Demo.env 1 (Demo.shapeClasses (Demo.cfg true false)) (Demo.shapeUses (Demo.cfg true false))).ok
      (some (.inr (.inl ((Demo.row 2, ()), (Demo.num 7, ()), ())))) ∧
    (Demo.shapeClasses (Demo.cfg true false)).classOf (.inl ((Demo.row 1, ()), ())) ≠
      (Demo.shapeClasses (Demo.cfg true false)).classOf (.inr (.inl ((Demo.row 2, ()), (Demo.num 7, ()), ()))) :=
  ⟨(Demo.shapes_ok _).1 _ (.head _), by decide⟩

namespace Demo
variable (c : Cfg)

/-- Shapes that are no groups. -/
def overSingle : Single → Single → Prop :=
  overEither (overPair (fun _ y => (shapePartUse c).clean y) fun _ _ => True)
    (overEither (overPair (fun _ y => (shapePartUse c).clean y) (overPair (fun _ y => (circlePartUse c).clean y) fun _ _ => True))
      fun _ _ => True)

/-- A group of another circle, a group in the place of nothing, a group of nothing, of a group that is not empty and of a
circle, and one shape more. -/
def laterScene : Option (Group.Any (View Val × Unit) Single) :=
  some (.inl ((row 4, ()), .mk 8 [some (.inr (.inr (.inl ((row 0, ()), (num 2, ()), ())))),
    some (.inl ((row 1, ()), .mk 0 [], ())),
    some (.inl ((row 2, ()), .mk 4 [none, some (.inl ((row 0, ()), .mk 1 [none], ())),
      some (.inr (.inr (.inl ((row 1, ()), (num 1, ()), ()))))], ())),
    some (.inr (.inl ((row 3, ()), ())))], ()))

theorem scene_over : Group.OverPtr (fun _ y => (shapePartUse c).clean y) (overSingle c)
    (Group.Over (fun _ y => (shapePartUse c).clean y) (overSingle c)) scene laterScene := by
  have h : ∀ n, (shapePartUse c).clean (row n, ()) := fun n => ⟨trivial, trivial⟩
  refine .group (h 4) (.mk (by decide) ?_)
  rintro (_ | _ | _ | i) x y hx hy
  · cases hx
    cases hy
    exact .other ⟨h 0, ⟨⟨.prim rfl, trivial⟩, trivial⟩, trivial⟩
  · cases hx
    exact .null
  · cases hx
    cases hy
    refine .group (h 2) (.mk (by decide) ?_)
    rintro (_ | _ | i) x y hx hy
    · cases hy
      exact .made
    · cases hx
      cases hy
      refine .group (h 0) (.mk (by decide) ?_)
      intro i x y hx
      cases hx
    · cases hx
  · cases hx

end Demo

/-- A scene is read over another. -/
example (check ndebug : Bool) : RoundTrips (Demo.cfg check ndebug) (Demo.scenePtr (Demo.cfg check ndebug)).elem Demo.scene
    (fun y => y = Demo.laterScene) fun _ w => Group.SamePtr (Demo.shapePartUse (Demo.cfg check ndebug))
      (Demo.singleUses (Demo.cfg check ndebug)).Same (Group.Same (Demo.shapePartUse (Demo.cfg check ndebug))
        (Demo.singleUses (Demo.cfg check ndebug)).Same) Demo.scene w := by
  have h1 := Demo.partComposed (Demo.cfg check ndebug) (Demo.rowComposed _) 1 (fresh := Demo.rowTy.empty) trivial
  have h2 := Demo.partComposed (Demo.cfg check ndebug) (.base Demo.int) 2 (fresh := Demo.num 0) ⟨.prim rfl, trivial⟩
  have hr : (Demo.shapePartUse (Demo.cfg check ndebug)).clean (Demo.rowTy.empty, ()) := ⟨trivial, trivial⟩
  have hn : (Demo.circlePartUse (Demo.cfg check ndebug)).clean (Demo.num 0, ()) := ⟨⟨.prim rfl, trivial⟩, trivial⟩
  have g1 : (Usage.cls (.cons (Demo.shapePartUse (Demo.cfg check ndebug)) .nil)).clean ((Demo.rowTy.empty, ()), ()) :=
    ⟨hr, trivial⟩
  have g2 : (Usage.cls (.cons (Demo.shapePartUse (Demo.cfg check ndebug)) (.cons (Demo.circlePartUse (Demo.cfg check ndebug))
    .nil))).clean ((Demo.rowTy.empty, ()), (Demo.num 0, ()), ()) := ⟨hr, hn, trivial⟩
  have hfit : (Demo.singles (Demo.cfg check ndebug)).Fits Demo.env := ⟨rfl, rfl, trivial⟩
  obtain ⟨bs, k1, k2, k3, k4⟩ := C78_hierarchy_in_place (ds := Demo.singles _) (vs := Demo.singleUses _)
    (Q := Demo.overSingle (Demo.cfg check ndebug)) Demo.valid_contents (Demo.ti_valid (.cls 3))
    (Demo.ti_valid Demo.int) (Demo.ti_valid (.uptr (.cls 1))) (Demo.ti_valid (.cls 1))
    (.clean h1) hr (.cons 1 (.cons _ _ _ .nil) g1 (.cons 2 (.cons _ _ _ (.cons _ _ _ .nil)) g2 .nil)) (by
      intro p hp
      simp only [List.cons_append, List.nil_append, List.mem_cons, List.not_mem_nil, or_false] at hp
      rcases hp with rfl | rfl | rfl
      · exact .clean h1
      · exact .clean h1
      · exact .clean h2) hfit rfl (by simp [Demo.singles, DynTypes.classes])
    (show 3 ∈ Demo.env.objReg (Demo.env.root 1) by decide) rfl (Demo.scene_ok _)
  refine ⟨bs, k1, k2, k3, ?_⟩
  rintro _ rest rfl
  exact k4 _ rest (Demo.scene_over _)

end Ckpt
