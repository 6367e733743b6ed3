import Verif.Proofs.ComposeAll
import Verif.Proofs.ViewMoreTop
import Verif.Props.KokkosMore
import Verif.Props.KokkosConst
import Verif.Props.KokkosMap
/-!
# C65: containers, classes and Kokkos classes within each other
-/

set_option autoImplicit false

namespace Ckpt

section
variable {R : RelMode} {cfg : Cfg} {env : Env} {T : Type} {t : CppType T} {u : Usage T} {x : T}

/-- **C65**: an object of a type composed of containers, classes and Kokkos classes in any way is written as the same
bytes by all calls, in the size computed before, and is equal to what is read over any object that can be read over. -/
theorem C65_composed_roundtrip (hv : env.Valid R (· ∈ builtinKinds) cfg) (h : Composed R cfg env t u) (hx : u.ok x) :
    RoundTrips cfg t.elem x u.clean fun _ w => u.same x w := by
  obtain ⟨C, hC⟩ := h.composes hv
  obtain ⟨n0, h0⟩ := hC.ok x hx
  exact roundTrips_of (K := (· ∈ builtinKinds)) (fun _ h => h) hC.elem_le (n0 := n0) (C := fun _ => C n0)
    (fun _ => hC.law n0) (fun _ => h0 n0 (Nat.le_refl _)) (fun y hy => hC.prior n0 x y (h0 n0 (Nat.le_refl _)) hy)
    (fun _ w hw => hC.rel n0 x w hw)

/-- **C65**: so it is in the calls that make a new object; that object can be read over. -/
theorem C65_composed_deserialize (hv : env.Valid R (· ∈ builtinKinds) cfg) (h : Composed R cfg env t u) (hx : u.ok x)
    {bs : Bytes} (hs : Yields (fun n => serializeToStream cfg (t.elem n) x { data := [] }) (.ok (x, { data := bs })))
    (rest : Bytes) : u.clean t.fresh ∧
    (∃ w, u.same x w ∧ Yields (fun n => deserialize cfg (t.elem n) (bs ++ rest)) (.ok (w, bs.length))) ∧
    (∃ w, u.same x w ∧ Yields (fun n => deserializeFromStream cfg (t.elem n) (bs ++ rest)) (.ok (w, rest))) := by
  obtain ⟨C, hC⟩ := h.composes hv
  obtain ⟨bs', h1, _, _, h4⟩ := C65_composed_roundtrip hv h hx
  have : bs' = bs := by simpa using h1.unique hs
  subst this
  simp only [deserialize_eq, deserializeFromStream_eq]
  exact ⟨hC.fresh, h4 t.fresh rest hC.fresh⟩

/-- **C65**: a stream that ends within the object makes reading throw, memory that ends within it is read past its end. -/
theorem C65_composed_truncated (hv : env.Valid R (· ∈ builtinKinds) cfg) (h : Composed R cfg env t u) (hx : u.ok x)
    {bs inp : Bytes} (hs : Yields (fun n => serializeToStream cfg (t.elem n) x { data := [] }) (.ok (x, { data := bs })))
    (hpre : inp <+: bs) (hne : inp ≠ bs) {y : T} (hy : u.clean y) :
    Yields (fun n => deserializeInPlaceFromStream cfg (t.elem n) inp y) (.throw .streamShort) ∧
    Yields (fun n => deserializeInPlace cfg (t.elem n) inp y) (.ub .readOverflow) := by
  obtain ⟨C, hC⟩ := h.composes hv
  obtain ⟨n0, h0⟩ := hC.ok x hx
  have hP := h0 n0 (Nat.le_refl _)
  have hL := hC.law n0
  obtain ⟨tl, rfl⟩ := hpre
  have htl : tl ≠ [] := by rintro rfl; simp at hne
  have hb : topEnc cfg (t.elem n0).ti (C n0) x = inp ++ tl := by
    have h1 : Yields (fun n => serializeToStream cfg (t.elem n) x { data := [] })
        (.ok (x, { data := topEnc cfg (t.elem n0).ti (C n0) x })) := by
      have := toStream_law (e := t.elem n0) (K := Scope.quiet (· ∈ builtinKinds)) (fun _ h => h) hL hP ⟨[], none⟩ (by simp)
      refine ⟨n0, fun n hn => ?_⟩
      have hle := toStream_le (cfg := cfg) (hC.elem_le hn) x { data := [] }
      rw [this] at hle
      have := hle.eq_of_ne (by simp)
      simpa using this
    simpa using h1.unique hs
  constructor
  · refine ⟨n0, fun n hn => ?_⟩
    have := inStream_short (e := t.elem n0) (K := Scope.quiet (· ∈ builtinKinds)) (fun _ h => h) (fun _ h => h) hL hP
      (hC.prior n0 x y hP hy) htl hb
    have hle := inStream_le (cfg := cfg) (hC.elem_le hn) inp y
    rw [this] at hle
    exact hle.eq_of_ne (by simp)
  · refine ⟨n0, fun n hn => ?_⟩
    have := inPlace_short (e := t.elem n0) (K := Scope.quiet (· ∈ builtinKinds)) (fun _ h => h) (fun _ h => h) hL hP
      (hC.prior n0 x y hP hy) htl hb
    have hle := inPlace_le (cfg := cfg) (hC.elem_le hn) inp y
    rw [this] at hle
    exact hle.eq_of_ne (by simp)

end

/-! ### A class with a map of views, a view of vectors of views, and an optional view -/

namespace Demo
variable (c : Cfg)

def rowTy : ViewTy := ⟨.left, [none], true⟩

/-- `Kokkos::View<int*>`. -/
def rowType : CppType (View Val) := .view c viewTI rowTy (.base c Demo.env int)

/-- `std::pair<const int, Kokkos::View<int*>>`. -/
def entryType : CppType (Val × View Val) := .pair c (Demo.env.ti int) (.base c Demo.env int) (rowType c)

def entryLt (x y : Val × View Val) : Bool :=
  match x.1, y.1 with
  | .raw (a :: _), .raw (b :: _) => a < b
  | _, _ => false

/-- `std::map<int, Kokkos::View<int*>>`. -/
def viewMapType : CppType (List (Val × View Val)) := .ordered c (Demo.env.ti int) true .map entryLt (entryType c)

/-- `Kokkos::View<std::vector<Kokkos::View<int*>>*>`. -/
def nestedType : CppType (View (Vec (View Val))) :=
  .view c viewTI rowTy (.vector c (Demo.env.ti int) true (rowType c))

/-- The members. -/
def meshMembers : MemberTypes (List (Val × View Val) × View (Vec (View Val)) × Option (View Val) × Unit) :=
  .cons (viewMapType c) (.cons (nestedType c) (.cons (.optional c (Demo.env.ti int) (rowType c)) .nil))

/-- The class. -/
def meshType : CppType (List (Val × View Val) × View (Vec (View Val)) × Option (View Val) × Unit) :=
  .cls c (Demo.env.ti int) ([], rowTy.empty, none, ()) (some ([], rowTy.empty, none, ())) true (meshMembers c)

def rowUse : Usage (View Val) := .view rowTy (.base c Demo.env int) (.base .contents c Demo.env int)
def viewMapUse : Usage (List (Val × View Val)) :=
  .ordered .map entryLt (.pair (.base .contents c Demo.env int) (rowUse c))
def nestedUse : Usage (View (Vec (View Val))) :=
  .view rowTy (.vector c (Demo.env.ti int) true (rowType c)) (.vector (rowType c) (rowUse c))
def meshUses : MemberUsages (List (Val × View Val) × View (Vec (View Val)) × Option (View Val) × Unit) :=
  .cons (viewMapUse c) (.cons (nestedUse c) (.cons (.optional (rowUse c)) .nil))

/-- `{1: {0, 1}, 2: {0, 1, 2}}`, `{{{0}, {0, 1}}}`, `{0, 1, 2}`. -/
def mesh : List (Val × View Val) × View (Vec (View Val)) × Option (View Val) × Unit :=
  ([(num 1, row 2), (num 2, row 3)],
   { label := [], extents := [1], strides := [1], span := 1, alloc := true, data := [⟨4, [row 1, row 2]⟩] },
   some (row 3), ())

theorem row_use (n : Nat) (hn : n < 2 ^ 32) : (rowUse c).ok (row n) :=
  ⟨row_ok n hn, fun _ h => ints h, int_arr _⟩

theorem rowComposed : Composed .contents c Demo.env (rowType c) (rowUse c) :=
  .view viewTI_valid rfl (.base _)

theorem entryLt_respects (x y x' y' : Val × View Val)
    (hx : (Usage.pair (.base .contents c Demo.env int) (rowUse c)).same x x')
    (hy : (Usage.pair (.base .contents c Demo.env int) (rowUse c)).same y y') : entryLt x y = entryLt x' y' := by
  have key : ∀ {a b : Val}, Rel .contents Demo.env int a b → a = b := by
    intro a b h
    cases h
    rfl
  unfold entryLt
  rw [key hx.1, key hy.1]

/-- The class is composed so. -/
theorem meshComposed : Composed .contents c Demo.env (meshType c) (.cls (meshUses c)) := by
  refine .cls true (ti_valid _) (.cons _ _ (.cons _ _ (.cons _ _ .nil))) ?_ ⟨rfl, trivial, trivial, trivial⟩
    (fun d hd => by cases hd; exact ⟨rfl, trivial, trivial, trivial⟩)
  intro p hp
  have h1 : Composed .contents c Demo.env (viewMapType c) (viewMapUse c) :=
    .ordered true .map (ti_valid _) (.pair (ti_valid _) (.base _) (rowComposed c)) (entryLt_respects c)
  have h2 : Composed .contents c Demo.env (nestedType c) (nestedUse c) :=
    .view viewTI_valid rfl (.vector true (ti_valid _) (rowComposed c))
  have h3 : Composed .contents c Demo.env (.optional c (Demo.env.ti int) (rowType c)) (.optional (rowUse c)) :=
    .optional (ti_valid _) (rowComposed c)
  simp only [List.mem_cons, List.not_mem_nil, or_false] at hp
  rcases hp with rfl | rfl | rfl
  · exact h1
  · exact h2
  · exact h3

end Demo

theorem Demo.mesh_ok (c : Cfg) : (Usage.cls (Demo.meshUses c)).ok Demo.mesh := by
  refine ⟨⟨?_, by decide, ?_⟩, ⟨?_, ?_, trivial⟩, ?_, trivial⟩
  · intro x hx
    simp only [Demo.mesh, List.mem_cons, List.not_mem_nil, or_false] at hx
    rcases hx with rfl | rfl <;> exact ⟨⟨.prim rfl, trivial⟩, Demo.row_use _ _ (by decide)⟩
  · simp [Assoc.repeats, Demo.mesh, Demo.entryLt, Demo.num]
  · exact {
      rank_le := by decide
      extents := rfl
      strides := rfl
      static := fun i n h => by rcases i with _ | i <;> simp [Demo.rowTy] at h
      ext_lt := by decide
      str_lt := fun _ => by decide
      size_lt := by decide
      label_lt := by decide
      data := fun _ => rfl
      inside := fun idx h => by
        cases h with
        | cons h1 h2 => cases h2; simpa [View.offset, Demo.mesh] using h1
      span := fun h => by cases h
      compact := fun _ h _ => by simpa [Layout.compact, leftStrides, Demo.mesh, Demo.rowTy] using h
      scalar := fun h => by cases h }
  · intro x hx
    simp only [Demo.mesh, List.mem_cons, List.not_mem_nil, or_false] at hx
    subst hx
    refine ⟨?_, by decide, by decide, trivial⟩
    intro x hx
    simp only [List.mem_cons, List.not_mem_nil, or_false] at hx
    rcases hx with rfl | rfl <;> exact Demo.row_use _ _ (by decide)
  · intro v hv
    cases hv
    exact Demo.row_use _ _ (by decide)

/-- The hypotheses of the theorems are met by the class and the object. -/
example : Demo.env.Valid .contents (· ∈ builtinKinds) (Demo.cfg true true) ∧
    Composed .contents (Demo.cfg true true) Demo.env (Demo.meshType (Demo.cfg true true))
      (.cls (Demo.meshUses (Demo.cfg true true))) ∧
    (Usage.cls (Demo.meshUses (Demo.cfg true true))).ok Demo.mesh :=
  ⟨Demo.valid_contents, Demo.meshComposed _, Demo.mesh_ok _⟩

/-! ### A class with a tuple, a variant, a Kokkos map of views and a view of `const` elements -/

namespace Demo
variable (c : Cfg)

/-- `Kokkos::View<int const*>`. -/
def constRowType : CppType (View Val) := .constView c viewTI rowTy (.base c Demo.env int)
def constRowUse : Usage (View Val) := .constView rowTy (.base c Demo.env int) (.base .contents c Demo.env int)

/-- `Kokkos::UnorderedMap<int, Kokkos::View<int*>>`. -/
def tableType : CppType (KMap Val (View Val)) := .kmap c kmapTI hash (.base c Demo.env int) (rowType c)
def tableUse : Usage (KMap Val (View Val)) := .kmap hash (.base .contents c Demo.env int) (rowUse c)

/-- `std::tuple<int, Kokkos::View<int*>>`. -/
def tupleMembers : MemberTypes (Val × View Val × Unit) := .cons (.base c Demo.env int) (.cons (rowType c) .nil)
def tupleUses : MemberUsages (Val × View Val × Unit) := .cons (.base .contents c Demo.env int) (.cons (rowUse c) .nil)

/-- `std::variant<int, Kokkos::View<int*>>`. -/
def alternatives : AltTypes (Val ⊕ (View Val ⊕ Empty)) := .cons (.base c Demo.env int) (.cons (rowType c) .nil)
def alternativeUses : AltUsages (Val ⊕ (View Val ⊕ Empty)) := .cons (.base .contents c Demo.env int) (.cons (rowUse c) .nil)

/-- The values of the members. -/
abbrev Grid : Type :=
  (Val × View Val × Unit) × Option (Val ⊕ (View Val ⊕ Empty)) × KMap Val (View Val) × View Val × Unit

/-- The members. -/
def gridMembers : MemberTypes Grid :=
  .cons (.tuple c (Demo.env.ti int) (tupleMembers c)) (.cons (.variant c (Demo.env.ti int) (alternatives c))
    (.cons (tableType c) (.cons (constRowType c) .nil)))
def gridUses : MemberUsages Grid :=
  .cons (.cls (tupleUses c)) (.cons (.variant (alternativeUses c)) (.cons (tableUse c) (.cons (constRowUse c) .nil)))

/-- What the constructor makes. -/
def gridFresh : Grid := ((num 0, rowTy.empty, ()), some (.inl (num 0)), .make hash 0, rowTy.empty, ())

/-- The class. -/
def gridType : CppType Grid := .cls c (Demo.env.ti int) gridFresh (some gridFresh) true (gridMembers c)

/-- `{5: {0, 1}, 7: {0}}`. -/
def table : KMap Val (View Val) :=
  ⟨[(num 0, none), (num 5, some (row 2)), (num 0, none), (num 7, some (row 1))]⟩

def grid : Grid := ((num 3, row 2, ()), some (.inr (.inl (row 3))), table, row 2, ())

theorem int_same_size {check ndebug : Bool} : (CppType.base (cfg check ndebug) Demo.env int).SameSize (cfg check ndebug)
    (.base .contents (cfg check ndebug) Demo.env int) := by
  obtain ⟨k, h⟩ := fixedSize_prim (R := .contents) (cfg := cfg check ndebug) Demo.valid_contents _ _
  exact ⟨k, fun x hx => h x hx.1 hx.2⟩

theorem int_ok (n : UInt8) : (Usage.base .contents c Demo.env int).ok (num n) := ⟨.prim rfl, trivial⟩

/-- The class is composed so. -/
theorem gridComposed {check ndebug : Bool} : Composed .contents (cfg check ndebug) Demo.env
    (gridType (cfg check ndebug)) (.cls (gridUses (cfg check ndebug))) := by
  have hclean : (Usage.cls (gridUses (cfg check ndebug))).clean gridFresh :=
    ⟨⟨⟨.prim rfl, trivial⟩, trivial, trivial⟩, trivial, rfl, trivial, trivial⟩
  refine .cls true (ti_valid _) (.cons _ _ (.cons _ _ (.cons _ _ (.cons _ _ .nil)))) ?_ hclean
    (fun d hd => by cases hd; exact hclean)
  have hb : ∀ p ∈ ([⟨Val, .base (cfg check ndebug) Demo.env int, .base .contents (cfg check ndebug) Demo.env int⟩,
      ⟨View Val, rowType (cfg check ndebug), rowUse (cfg check ndebug)⟩] : List TypeUse),
      Composed .contents (cfg check ndebug) Demo.env p.2.1 p.2.2 := by
    intro p hp
    simp only [List.mem_cons, List.not_mem_nil, or_false] at hp
    rcases hp with rfl | rfl
    · exact .base _
    · exact rowComposed _
  intro p hp
  simp only [List.mem_cons, List.not_mem_nil, or_false] at hp
  rcases hp with rfl | rfl | rfl | rfl
  · exact .tuple (ti_valid _) (.cons _ _ (.cons _ _ .nil)) hb
  · exact .variant (ti_valid _) (by simp [alternatives, AltTypes.allBytes, rowType, CppType.view])
      (by simp [alternatives, AltTypes.length]) (.cons _ _ (.cons _ _ .nil)) hb
  · exact .kmap (encodeIndex_valid (by decide)) (encodeIndex_valid (by decide)) hash_lawful
      (fun x y q h => by cases h; rfl) (.base _) (rowComposed _)
  · exact .constView viewTI_valid int_same_size ⟨.prim rfl, trivial⟩ (.base _)

/-- The object can be written. -/
theorem grid_ok : (Usage.cls (gridUses c)).ok grid := by
  refine ⟨⟨int_ok c 3, row_use c _ (by decide), trivial⟩, ⟨_, rfl, row_use c _ (by decide)⟩, ⟨?_, ?_, ?_, ?_⟩,
    ⟨row_ok _ (by decide), fun _ h => ints h, int_arr _, .inl rfl⟩, trivial⟩
  · exact ⟨by simp [KMap.Distinct, grid, table, occupied, hash, rawEq, num], by decide⟩
  · intro a ha
    simp only [grid, table, List.mem_cons, Prod.mk.injEq, reduceCtorEq, and_false, and_true, List.not_mem_nil, or_false,
      false_or] at ha
    rcases ha with rfl | rfl <;> rfl
  · exact hash_room _ _ (by decide)
  · intro p hp
    simp only [grid, table, occupied, List.filterMap_cons, Option.map_some, Option.map_none, List.filterMap_nil,
      List.mem_cons, List.not_mem_nil, or_false] at hp
    rcases hp with rfl | rfl <;> exact ⟨int_ok c _, row_use c _ (by decide)⟩

end Demo

/-- The hypotheses of the theorems are met by the class and the object. -/
example : Demo.env.Valid .contents (· ∈ builtinKinds) (Demo.cfg true false) ∧
    Composed .contents (Demo.cfg true false) Demo.env (Demo.gridType (Demo.cfg true false))
      (.cls (Demo.gridUses (Demo.cfg true false))) ∧
    (Usage.cls (Demo.gridUses (Demo.cfg true false))).ok Demo.grid :=
  ⟨Demo.valid_contents, Demo.gridComposed, Demo.grid_ok _⟩

/-! ### Pointers to the root of a hierarchy the classes of which have views as members -/

namespace Demo
variable (c : Cfg)

/-- `struct Shape { Kokkos::View<int*> outline; }`, `struct Circle : Shape { int r; }`,
`struct Group : Shape { std::vector<Kokkos::View<int*>> parts; }`: the part of each class. -/
def shapePart : CppType (View Val × Unit) :=
  .cls c (Demo.env.ti (.cls 1)) (rowTy.empty, ()) none true (.cons (rowType c) .nil)
def circlePart : CppType (Val × Unit) :=
  .cls c (Demo.env.ti (.cls 2)) (num 0, ()) none true (.cons (.base c Demo.env int) .nil)
def groupPart : CppType (Vec (View Val) × Unit) :=
  .cls c (Demo.env.ti (.cls 3)) (⟨0, []⟩, ()) none true (.cons (.vector c (Demo.env.ti int) true (rowType c)) .nil)

def shapePartUse : Usage (View Val × Unit) := .cls (.cons (rowUse c) .nil)
def circlePartUse : Usage (Val × Unit) := .cls (.cons (.base .contents c Demo.env int) .nil)
def groupPartUse : Usage (Vec (View Val) × Unit) := .cls (.cons (.vector (rowType c) (rowUse c)) .nil)

/-- Objects of the three classes. -/
abbrev AnyShape : Type :=
  ((View Val × Unit) × Unit) ⊕ (((View Val × Unit) × (Val × Unit) × Unit) ⊕
    (((View Val × Unit) × (Vec (View Val) × Unit) × Unit) ⊕ Empty))

def shapeClasses : DynTypes AnyShape :=
  .cons 1 ((rowTy.empty, ()), ()) (.cons (shapePart c) .nil)
    (.cons 2 ((rowTy.empty, ()), (num 0, ()), ()) (.cons (shapePart c) (.cons (circlePart c) .nil))
      (.cons 3 ((rowTy.empty, ()), (⟨0, []⟩, ()), ()) (.cons (shapePart c) (.cons (groupPart c) .nil)) .nil))

def shapeUses : AltUsages AnyShape :=
  .cons (.cls (.cons (shapePartUse c) .nil)) (.cons (.cls (.cons (shapePartUse c) (.cons (circlePartUse c) .nil)))
    (.cons (.cls (.cons (shapePartUse c) (.cons (groupPartUse c) .nil))) .nil))

/-- `std::unique_ptr<Shape>`. -/
def shapePtr : CppType (Option AnyShape) :=
  .polyPtr c Demo.env (Demo.env.ti (.uptr (.cls 1))) 1 (Demo.env.ti (.cls 1)) (.inl ((rowTy.empty, ()), ())) (shapeClasses c)
def shapePtrUse : Usage (Option AnyShape) := .polyPtr Demo.env 1 (shapeClasses c) (shapeUses c)

/-- A circle with outline `{0, 1}` and a group of two. -/
def shapes : Vec (Option AnyShape) :=
  ⟨4, [some (.inr (.inl ((row 2, ()), (num 7, ()), ()))), none,
    some (.inr (.inr (.inl ((row 1, ()), (⟨2, [row 3, row 2]⟩, ()), ()))))]⟩

theorem partComposed {T : Type} {t : CppType T} {u : Usage T} (h : Composed .contents c Demo.env t u) (k : Nat)
    {fresh : T} (hf : u.clean fresh) : Composed .contents c Demo.env
      (.cls c (Demo.env.ti (.cls k)) (fresh, ()) none true (.cons t .nil)) (.cls (.cons u .nil)) := by
  refine .cls true (ti_valid _) (.cons _ _ .nil) (fun p hp => ?_) ⟨hf, trivial⟩ (fun d hd => by cases hd)
  simp only [List.mem_cons, List.not_mem_nil, or_false] at hp
  subst hp
  exact h

theorem shapePtrComposed : Composed .contents c Demo.env (shapePtr c) (shapePtrUse c) := by
  have h1 : Composed .contents c Demo.env (shapePart c) (shapePartUse c) := partComposed c (rowComposed c) 1 trivial
  have h2 : Composed .contents c Demo.env (circlePart c) (circlePartUse c) :=
    partComposed c (.base _) 2 ⟨.prim rfl, trivial⟩
  have h3 : Composed .contents c Demo.env (groupPart c) (groupPartUse c) :=
    partComposed c (.vector true (ti_valid _) (rowComposed c)) 3 ⟨(fun _ h => by cases h), fun _ _ => rfl, by decide⟩
  have hr : (shapePartUse c).clean (rowTy.empty, ()) := ⟨trivial, trivial⟩
  have hn : (circlePartUse c).clean (num 0, ()) := ⟨⟨.prim rfl, trivial⟩, trivial⟩
  have hg : (groupPartUse c).clean (⟨0, []⟩, ()) := ⟨⟨(fun _ h => by cases h), fun _ _ => rfl, by decide⟩, trivial⟩
  refine .polyPtr 1 _ (ti_valid _) (ti_valid _)
    (.cons 1 (.cons _ _ .nil) ⟨hr, trivial⟩ (.cons 2 (.cons _ _ (.cons _ _ .nil)) ⟨hr, hn, trivial⟩
      (.cons 3 (.cons _ _ (.cons _ _ .nil)) ⟨hr, hg, trivial⟩ .nil))) ?_ ⟨rfl, rfl, rfl, trivial⟩
    (by simp [shapeClasses, DynTypes.classes])
  intro p hp
  simp only [List.cons_append, List.nil_append, List.append_nil, List.mem_cons, List.not_mem_nil, or_false] at hp
  rcases hp with rfl | rfl | rfl | rfl | rfl
  · exact h1
  · exact h1
  · exact h2
  · exact h1
  · exact h3

end Demo

theorem Demo.shapes_ok (c : Cfg) : (Usage.vector (Demo.shapePtr c) (Demo.shapePtrUse c)).ok Demo.shapes := by
  refine ⟨?_, by decide, by decide, trivial⟩
  intro x hx v hv
  simp only [Demo.shapes, List.mem_cons, List.not_mem_nil, or_false] at hx
  rcases hx with rfl | rfl | rfl
  · cases hv
    exact ⟨⟨⟨Demo.row_use _ _ (by decide), trivial⟩, ⟨Demo.int_ok _ _, trivial⟩, trivial⟩, show 2 ∈ Demo.env.objReg (Demo.env.root 1) by decide, rfl⟩
  · cases hv
  · cases hv
    refine ⟨⟨⟨Demo.row_use _ _ (by decide), trivial⟩, ⟨⟨?_, by decide, by decide, trivial⟩, trivial⟩, trivial⟩,
      show 3 ∈ Demo.env.objReg (Demo.env.root 1) by decide, rfl⟩
    intro x hx
    simp only [List.mem_cons, List.not_mem_nil, or_false] at hx
    rcases hx with rfl | rfl <;> exact Demo.row_use _ _ (by decide)

/-- The hypotheses of the theorems are met by a vector of pointers to shapes. -/
example : Demo.env.Valid .contents (· ∈ builtinKinds) (Demo.cfg true false) ∧
    Composed .contents (Demo.cfg true false) Demo.env
      (.vector (Demo.cfg true false) (Demo.env.ti Demo.int) false (Demo.shapePtr (Demo.cfg true false)))
      (.vector (Demo.shapePtr (Demo.cfg true false)) (Demo.shapePtrUse (Demo.cfg true false))) ∧
    (Usage.vector (Demo.shapePtr (Demo.cfg true false)) (Demo.shapePtrUse (Demo.cfg true false))).ok Demo.shapes :=
  ⟨Demo.valid_contents, .vector _ (Demo.ti_valid _) (Demo.shapePtrComposed _), Demo.shapes_ok _⟩

end Ckpt
