import Verif.Proofs.SafeView
import Verif.Props.Compose
import Verif.Props.Safety
import Verif.Proofs.File
/-!
# C66: arbitrary bytes read as a composed type
-/

set_option autoImplicit false

namespace Ckpt

/-- How reading arbitrary bytes may end: with an object as `I` says, an exception, a failed assertion, or undefined
behaviour from the set `U`. -/
def EndsWell {T β : Type} (U : UB → Prop) (I : T → Prop) : Out (T × β) → Prop
  | .ok r => I r.1
  | .throw _ => True
  | .abort => True
  | .ub u => U u
  | .fuel => False

section
variable {cfg : Cfg} {env : Env} {U : UB → Prop} {T : Type} {t : CppType T} {I : T → Prop}

theorem Evtl.endsWell {β : Type} {m : Nat} {o : Nat → Out (T × Ser)} (f : Ser → β) (h : Evtl U m I o) :
    ∃ r, EndsWell U I r ∧ ∃ n0, ∀ n, n0 ≤ n → (o n >>= fun q => .ok (q.1, f q.2)) = r := by
  obtain ⟨r, hr, n0, h⟩ := h
  refine ⟨r >>= fun q => .ok (q.1, f q.2), ?_, n0, fun n hn => by rw [h n hn]⟩
  cases r with
  | ok q => exact hr.1
  | throw e => trivial
  | abort => trivial
  | ub u => exact hr
  | fuel => exact hr.elim

/-- **C66**: whatever bytes a stream delivers, reading them over a well-formed object of a type composed of containers,
classes and Kokkos classes ends: with a well-formed object, an exception, a failed assertion, or one of the hazards in
`U`.  These are those of C38 and, if the type has a `View` or `DynRankView` within (`Guarded`), access outside of the
memory of the view. -/
theorem C66_stream_in_place (hE : env.Sound cfg) (hU : ∀ u, Hazard cfg env u → U u) (h : Guarded U cfg env t I)
    (inp : Bytes) {y : T} (hy : I y) :
    ∃ o, EndsWell U I o ∧ ∃ n0, ∀ n, n0 ≤ n → deserializeInPlaceFromStream cfg (t.elem n) inp y = o :=
  (traverseTop_safe (m := inp.length + 1) (h.safe hE hU)
    ⟨Nat.lt_succ_self _, (fun h => by cases h), by simp [builtinKinds]⟩ hy).endsWell Ser.unread

/-- **C66**, for a new object, which is well-formed from the start. -/
theorem C66_stream (hE : env.Sound cfg) (hU : ∀ u, Hazard cfg env u → U u) (h : Guarded U cfg env t I) (inp : Bytes) :
    I t.fresh ∧ ∃ o, EndsWell U I o ∧ ∃ n0, ∀ n, n0 ≤ n → deserializeFromStream cfg (t.elem n) inp = o := by
  have hf : I t.fresh := (h.safe hE hU).makes.fresh
  simp only [deserializeFromStream_eq]
  exact ⟨hf, C66_stream_in_place hE hU h inp hf⟩

/-- **C66**, for bytes in memory: these can be read past their end. -/
theorem C66_memory (hE : env.Sound cfg) (hU : ∀ u, Hazard cfg env u → U u) (ho : U .readOverflow)
    (h : Guarded U cfg env t I) (mem : Bytes) {y : T} (hy : I y) :
    ∃ o, EndsWell U I o ∧ ∃ n0, ∀ n, n0 ≤ n → deserializeInPlace cfg (t.elem n) mem y = o :=
  (traverseTop_safe (m := mem.length + 1) (h.safe hE hU)
    ⟨Nat.lt_succ_of_le (Nat.sub_le _ _), fun _ => ho, by simp [builtinKinds]⟩ hy).endsWell Ser.count

/-- How reading a file with arbitrary contents may end. -/
def FileEndsWell (U : UB → Prop) (I : T → Prop) : Final T → Prop
  | .out o => EndsWell U I (o >>= fun v => .ok (v, ()))
  | .terminate => True

/-- **C66**, for files: whatever the file holds, whether it exists or not and whichever system calls fail, reading it
ends like reading memory, or with an exception because the file cannot be read, or with `std::terminate` because
closing it failed.  The last does not happen if no system call fails. -/
theorem C66_file (hE : env.Sound cfg) (hU : ∀ u, Hazard cfg env u → U u) (ho : U .readOverflow)
    (h : Guarded U cfg env t I) (F : Faults) (w : World) (file : Nat) {y : T} (hy : I y) :
    ∃ f, FileEndsWell U I f ∧ (w.Ok → F = noFaults → f ≠ .terminate) ∧
      ∃ n0, ∀ n, n0 ≤ n → (deserializeInPlaceFromFile cfg (t.elem n) F w file y).1 = f := by
  unfold deserializeInPlaceFromFile
  cases hr : setupForRead F w file with
  | mk b w' =>
  cases b with
  | none => exact ⟨.out (.throw .io), trivial, (fun _ _ h => by cases h), 0, fun _ _ => rfl⟩
  | some b =>
    obtain ⟨r, hr2, n0, h0⟩ := (traverseTop_safe (cfg := cfg) (m := ((w'.files file).getD []).length + 1) (h.safe hE hU) (s :=
        { core := .unpacker ((w'.files file).getD []) 0 0, kind := .unpackerIO })
      ⟨Nat.lt_succ_of_le (Nat.sub_le _ _), fun _ => ho, by simp [builtinKinds]⟩ hy).endsWell (fun _ => ())
    have hu : ∀ n, n0 ≤ n → (unpackIO cfg (t.elem n) ((w'.files file).getD []) y) = r >>= fun q => .ok q.1 := by
      intro n hn
      rw [← h0 n hn]
      simp [unpackIO, Out.bind_assoc]
    refine ⟨(leave F w' b (r >>= fun q => .ok q.1)).1, ?_, ?_, n0, fun n hn => by simp only [hu n hn]⟩
    · cases r <;> simp only [Out.bind_eq, Out.bind_ok, Out.bind_throw, Out.bind_abort, Out.bind_ub, Out.bind_fuel,
        leave] <;> (try split) <;> first | exact hr2 | trivial
    · rintro hw rfl
      have hc := setupForRead_cases noFaults w file
      rw [hr] at hc
      cases hc with
      | @done _ bs h0 h1 h2 h3 h4 h5 h6 =>
        by_cases ho : (∃ a, (r >>= fun q => .ok q.1) = .ok a) ∨ ∃ err, (r >>= fun q => Out.ok q.1) = .throw err
        · obtain ⟨w2, g, -⟩ := leave_noFaults (w := w')
            (b := { write := false, file := file, size := bs.length, buffer := w.nextMap, fd := some w.nextFd }) rfl h3 h4 hw.fds hw.maps ho
          rw [g]
          exact fun h => by cases h
        · cases r with
          | ok a => exact absurd (.inl ⟨_, rfl⟩) ho
          | throw e => exact absurd (.inr ⟨_, rfl⟩) ho
          | abort => exact fun h => by cases h
          | ub u => exact fun h => by cases h
          | fuel => exact fun h => by cases h

/-! ### The number of elements of a view -/

variable {k : ViewTI} {ty : ViewTy} {h : ViewHeader}

/-- **C66**: the number of elements in the bytes of a view is trusted.  If they say that the memory is contiguous and
name more elements than the extents they give to the view, memory outside of the view is accessed, whatever follows and
whatever the view read over. -/
theorem C66_view_count_trusted (hc : cfg.Valid) (hk : k.Valid) (hl : ty.layout ≠ .stride) (hh : h.Ok ty.layout)
    (hcont : h.contig = true) (hn : (ty.extentsOf h.layout).prod < h.num) (t : CppType T) (n : Nat) (rest : Bytes)
    (y : View T) :
    deserializeInPlaceFromStream cfg ((CppType.view cfg k ty t).elem n)
      (intBytes cfg.endian 4 k.view.idx ++ h.bytes cfg k ty.layout ++ rest) y = .ub .badRegion ∧
    deserializeInPlace cfg ((CppType.view cfg k ty t).elem n)
      (intBytes cfg.endian 4 k.view.idx ++ h.bytes cfg k ty.layout ++ rest) y = .ub .badRegion := by
  have key := top_ends (cfg := cfg) (K := Scope.quiet (· ∈ builtinKinds)) (fun _ h => h) (f := .ub .badRegion) trivial
    (e := (CppType.view cfg k ty t).elem n) hk.view
    (each_ends (serView_over (e := t.elem n) (fun _ h => h) hc hk hl hh hcont hn y))
  constructor
  · have he := key { core := .streamUnpacker (intBytes cfg.endian 4 k.view.idx ++ h.bytes cfg k ty.layout ++ rest) 0,
                          kind := .streamUnpacker } ⟨rfl, by simp [Scope.quiet, builtinKinds], trivial⟩ rest rfl
    simp only at he
    unfold deserializeInPlaceFromStream
    rw [he]
    rfl
  · have he := key { core := .unpacker (intBytes cfg.endian 4 k.view.idx ++ h.bytes cfg k ty.layout ++ rest) 0 0,
                          kind := .unpacker } ⟨rfl, by simp [Scope.quiet, builtinKinds], by simp⟩ rest rfl
    simp only at he
    unfold deserializeInPlace
    rw [he]
    rfl

/-- **C66**: otherwise all accesses are to the memory of the view.  `U` need not contain access outside of it. -/
theorem C66_view_within (hE : env.Sound cfg) (hU : ∀ u, Hazard cfg env u → U u) (ht : Guarded U cfg env t I)
    (hc : cfg.Valid) (hk : k.Valid) (hl : ty.layout ≠ .stride) (hrank : ty.rank ≤ 8) (hh : h.Ok ty.layout)
    (hn : h.contig = true → h.num ≤ (ty.extentsOf h.layout).prod) (rest : Bytes) (y : View T) :
    ∃ o, EndsWell U (View.Formed ty I) o ∧ ∃ n0, ∀ n, n0 ≤ n →
      deserializeInPlaceFromStream cfg ((CppType.view cfg k ty t).elem n)
        (intBytes cfg.endian 4 k.view.idx ++ h.bytes cfg k ty.layout ++ rest) y = o := by
  have key := top_evP (cfg := cfg) (K := Scope.quiet (· ∈ builtinKinds)) (U := U) (fun _ h => h) hk.view
    (e := (CppType.view cfg k ty t).elem) (fun _ => rfl)
    (each_evP (serView_within (fun _ h => h) hc hk hl hrank (ht.safe hE hU) hh hn y))
  exact (key ((intBytes cfg.endian 4 k.view.idx ++ h.bytes cfg k ty.layout ++ rest).length + 1)
    { core := .streamUnpacker _ 0, kind := .streamUnpacker } ⟨rfl, by simp [Scope.quiet, builtinKinds], trivial⟩
    ⟨Nat.lt_succ_self _, (fun h => by cases h), by simp [builtinKinds]⟩ rest rfl).endsWell Ser.unread

end

/-! ### Examples -/

namespace Demo

/-- `Kokkos::View<int**, Kokkos::LayoutStride>`. -/
def strideTy : ViewTy := ⟨.stride, [none, none], true⟩

/-- Two rows and two columns, both with a distance of 1: `span()` is 2. -/
def strideHeader : ViewHeader :=
  { label := [], rank := 2, layout := (2, 1) :: (2, 1) :: List.replicate 6 (invalidIndex, invalidIndex), num := 4,
    contig := false }

/-- Whether memory outside of an array is accessed. -/
def isBad {T : Type} : Out T → Bool
  | .ub .badRegion => true
  | _ => false

theorem isBad_iff {T : Type} (o : Out T) : isBad o = true ↔ o = .ub .badRegion := by
  unfold isBad
  split <;> simp_all

end Demo

/-- **C66**: with strides in the data, elements that are not read as one array can be outside of the memory, too:
element (1, 1) here is number 2 of 2. -/
theorem C66_strides_trusted : ∃ n, deserializeInPlaceFromStream (Demo.cfg false false)
    ((CppType.view (Demo.cfg false false) Demo.viewTI Demo.strideTy (.base (Demo.cfg false false) Demo.env Demo.int)).elem n)
    (intBytes .little 4 Demo.viewTI.view.idx ++
      Demo.strideHeader.bytes (Demo.cfg false false) Demo.viewTI .stride ++ List.replicate 16 7) Demo.strideTy.empty =
    .ub .badRegion := by
  exact ⟨1, (Demo.isBad_iff _).1 (by decide +kernel)⟩

namespace Demo

/-- One row of three elements, of which five are announced. -/
def rowHeader (num : Nat) : ViewHeader :=
  { label := [97], rank := 1, layout := (3, 0) :: List.replicate 7 (invalidIndex, invalidIndex), num := num,
    contig := true }

theorem rowHeader_ok {num : Nat} (h : num < 2 ^ 64) : (rowHeader num).Ok rowTy.layout :=
  { label := by simp [rowHeader]
    rank := by simp [rowHeader]
    entries := rfl
    layout := fun p hp => by
      simp only [rowHeader, List.mem_cons, List.mem_replicate] at hp
      rcases hp with rfl | ⟨_, rfl⟩ <;> exact ⟨by decide, fun h => by cases h⟩
    num := h }

/-- The hazards of types with views. -/
def viewHazard (c : Cfg) (u : UB) : Prop := Hazard c Demo.env u ∨ u = .badRegion

theorem rowGuarded (c : Cfg) : Guarded (viewHazard c) c Demo.env (rowType c)
    (View.Formed rowTy fun v => Formed Demo.env int v ∧ ByVal int v) :=
  .view _ (.inr rfl) (by decide) (.base _)

end Demo

/-- A `std::vector` of views, over two views: the hypotheses are met. -/
example (inp : Bytes) : ∃ o, EndsWell (Demo.viewHazard (Demo.cfg true false))
    (fun v : Vec (View Val) => v.elems.length ≤ v.cap ∧ ∀ x ∈ v.elems, View.Formed Demo.rowTy
      (fun v => Formed Demo.env Demo.int v ∧ ByVal Demo.int v) x) o ∧
    ∃ n0, ∀ n, n0 ≤ n → deserializeInPlaceFromStream (Demo.cfg true false)
      ((CppType.vector (Demo.cfg true false) (Demo.env.ti Demo.int) true (Demo.rowType (Demo.cfg true false))).elem n) inp
      ⟨2, [Demo.rowTy.empty, Demo.rowTy.empty]⟩ = o :=
  C66_stream_in_place Demo.sound (fun _ => .inl) (.vector _ _ (Demo.rowGuarded _)) inp
    ⟨by simp, by simp [empty_formed]⟩

/-- Without views the hazards are those of C38: a `std::map` from numbers to `DynamicView`s. -/
example (c : Cfg) : Guarded (Hazard c Demo.env) c Demo.env
    (.optional c (Demo.env.ti Demo.int) (.dynamic c Demo.dynamicTI (.base c Demo.env Demo.int)))
    (fun x => ∀ v, x = some v → DynamicView.Formed (fun v => Formed Demo.env Demo.int v ∧ ByVal Demo.int v) v) :=
  .optional _ (.dynamic _ (.base _))

namespace Demo

/-- Well-formed members of `Demo.gridType`. -/
def intFormed (v : Val) : Prop := Formed Demo.env int v ∧ ByVal int v
def rowFormed : View Val → Prop := View.Formed rowTy intFormed
def tupleShapes : MemberShapes (Val × View Val × Unit) := .cons intFormed (.cons rowFormed .nil)
def alternativeShapes : AltShapes (Val ⊕ (View Val ⊕ Empty)) := .cons intFormed (.cons rowFormed .nil)
def gridShapes : MemberShapes Grid :=
  .cons tupleShapes.All (.cons (fun v => ∀ x, v = some x → alternativeShapes.Holds x)
    (.cons (fun m => m.Distinct hash ∧ ∀ p ∈ occupied m.slots, intFormed p.1 ∧ rowFormed p.2) (.cons rowFormed .nil)))

theorem gridFresh_formed : gridShapes.All gridFresh :=
  have hint : intFormed (num 0) := ⟨.prim rfl, trivial⟩
  ⟨⟨hint, empty_formed _ _, trivial⟩, fun _ hx => by cases hx; exact hint, make_formed 0, empty_formed _ _, trivial⟩

theorem gridGuarded (c : Cfg) : Guarded (viewHazard c) c Demo.env (gridType c) gridShapes.All := by
  have hb : ∀ p ∈ ([⟨Val, .base c Demo.env int, intFormed⟩, ⟨View Val, rowType c, rowFormed⟩] : List TypeShape),
      Guarded (viewHazard c) c Demo.env p.2.1 p.2.2 := by
    intro p hp
    simp only [List.mem_cons, List.not_mem_nil, or_false] at hp
    rcases hp with rfl | rfl
    · exact .base _
    · exact rowGuarded _
  refine .cls _ _ (.cons _ _ (.cons _ _ (.cons _ _ (.cons _ _ .nil)))) ?_ gridFresh_formed
    (fun d hd => by cases hd; exact gridFresh_formed)
  intro p hp
  simp only [List.mem_cons, List.not_mem_nil, or_false] at hp
  rcases hp with rfl | rfl | rfl | rfl
  · exact .tuple _ (.cons _ _ (.cons _ _ .nil)) hb
  · exact .variant _ (by simp [alternatives, AltTypes.allBytes, rowType, CppType.view])
      (.cons _ _ (.cons _ _ .nil)) hb
  · exact .kmap _ hash_lawful (.base _) (rowGuarded _)
  · exact .constView _ (.inr rfl) (by decide) (.base _)

end Demo

/-- A class with a tuple, a variant, a Kokkos map and a view of `const` elements. -/
example (inp : Bytes) : ∃ o, EndsWell (Demo.viewHazard (Demo.cfg true false)) Demo.gridShapes.All o ∧
    ∃ n0, ∀ n, n0 ≤ n →
      deserializeFromStream (Demo.cfg true false) ((Demo.gridType (Demo.cfg true false)).elem n) inp = o :=
  (C66_stream Demo.sound (fun _ => .inl) (Demo.gridGuarded _) inp).2

namespace Demo

/-- Well-formed objects of the classes. -/
def shapePartFormed : MemberShapes (View Val × Unit) := .cons rowFormed .nil
def circlePartFormed : MemberShapes (Val × Unit) := .cons intFormed .nil
def groupPartFormed : MemberShapes (Vec (View Val) × Unit) :=
  .cons (fun v => v.elems.length ≤ v.cap ∧ ∀ x ∈ v.elems, rowFormed x) .nil
def shapeShapes1 : MemberShapes ((View Val × Unit) × Unit) := .cons shapePartFormed.All .nil
def shapeShapes2 : MemberShapes ((View Val × Unit) × (Val × Unit) × Unit) :=
  .cons shapePartFormed.All (.cons circlePartFormed.All .nil)
def shapeShapes3 : MemberShapes ((View Val × Unit) × (Vec (View Val) × Unit) × Unit) :=
  .cons shapePartFormed.All (.cons groupPartFormed.All .nil)
def shapeShapes : AltShapes AnyShape :=
  .cons shapeShapes1.All (.cons shapeShapes2.All (.cons shapeShapes3.All .nil))

theorem partGuarded {c : Cfg} {T : Type} {t : CppType T} {I : T → Prop} (h : Guarded (viewHazard c) c Demo.env t I)
    (ti : TI) {is : MemberShapes (T × Unit)} (hi : is = .cons I .nil) {fresh : T} (hf : I fresh) :
    Guarded (viewHazard c) c Demo.env (.cls c ti (fresh, ()) none true (.cons t .nil)) is.All := by
  subst hi
  refine .cls ti true (.cons _ _ .nil) (fun p hp => ?_) ⟨hf, trivial⟩ (fun d hd => by cases hd)
  simp only [List.mem_cons, List.not_mem_nil, or_false] at hp
  subst hp
  exact h

/-- A pointer to a class the constructor of which is deleted is not made: with assertions reading stops there, without
it is one of the hazards. -/
theorem shapePtrGuarded (c : Cfg) : Guarded (viewHazard c) c Demo.env (shapePtr c)
    (fun x => ∀ v, x = some v → shapeShapes.Holds v) := by
  have hint : intFormed (num 0) := ⟨.prim rfl, trivial⟩
  have h1 : Guarded (viewHazard c) c Demo.env (shapePart c) shapePartFormed.All :=
    partGuarded (rowGuarded c) _ rfl (empty_formed _ _)
  have h2 : Guarded (viewHazard c) c Demo.env (circlePart c) circlePartFormed.All :=
    partGuarded (I := intFormed) (.base _) _ rfl hint
  have h3 : Guarded (viewHazard c) c Demo.env (groupPart c) groupPartFormed.All :=
    partGuarded (.vector _ _ (rowGuarded c)) _ rfl ⟨Nat.le_refl _, by simp⟩
  have hr : shapePartFormed.All (rowTy.empty, ()) := ⟨empty_formed _ _, trivial⟩
  have hn : circlePartFormed.All (num 0, ()) := ⟨hint, trivial⟩
  have hg : groupPartFormed.All (⟨0, []⟩, ()) := ⟨⟨Nat.le_refl _, by simp⟩, trivial⟩
  have f1 : shapeShapes1.All ((rowTy.empty, ()), ()) := ⟨hr, trivial⟩
  have f2 : shapeShapes2.All ((rowTy.empty, ()), (num 0, ()), ()) := ⟨hr, hn, trivial⟩
  have f3 : shapeShapes3.All ((rowTy.empty, ()), (⟨0, []⟩, ()), ()) := ⟨hr, hg, trivial⟩
  refine .polyPtr _ 1 _ _ (is := shapeShapes)
    (.cons 1 (.cons _ _ .nil) f1 (.cons 2 (.cons _ _ (.cons _ _ .nil)) f2
      (.cons 3 (.cons _ _ (.cons _ _ .nil)) f3 .nil))) ?_ ⟨rfl, rfl, rfl, trivial⟩ ?_ ?_
  · intro p hp
    simp only [List.cons_append, List.nil_append, List.append_nil, List.mem_cons, List.not_mem_nil, or_false] at hp
    rcases hp with rfl | rfl | rfl | rfl | rfl
    · exact h1
    · exact h1
    · exact h2
    · exact h1
    · exact h3
  · intro d hd ha hn
    obtain ⟨i, hi⟩ := List.getElem?_of_mem hd
    exact .inl (.abstract hn (c := 1) rfl hi ha)
  · intro d hd ha hc
    have hd' : d ∈ [2, 1, 3, 5] := hd
    simp only [List.mem_cons, List.not_mem_nil, or_false] at hd'
    rcases hd' with rfl | rfl | rfl | rfl
    · simp [shapeClasses, DynTypes.classes] at hc
    · simp [shapeClasses, DynTypes.classes] at hc
    · simp [shapeClasses, DynTypes.classes] at hc
    · cases ha

end Demo

/-- Pointers to objects with virtual serialization and views. -/
example (inp : Bytes) : ∃ o, EndsWell (Demo.viewHazard (Demo.cfg true false))
    (fun v : Vec (Option Demo.AnyShape) => v.elems.length ≤ v.cap ∧ ∀ x ∈ v.elems, ∀ o, x = some o →
      Demo.shapeShapes.Holds o) o ∧
    ∃ n0, ∀ n, n0 ≤ n → deserializeFromStream (Demo.cfg true false)
      ((CppType.vector (Demo.cfg true false) (Demo.env.ti Demo.int) false (Demo.shapePtr (Demo.cfg true false))).elem n)
      inp = o :=
  (C66_stream Demo.sound (fun _ => .inl) (.vector _ _ (Demo.shapePtrGuarded _)) inp).2

/-- From memory, reading past the end is possible, too. -/
example (c : Cfg) : Guarded (fun u => Hazard c Demo.env u ∨ u = .readOverflow) c Demo.env
    (.optional c (Demo.env.ti Demo.int) (.dynamic c Demo.dynamicTI (.base c Demo.env Demo.int)))
    (fun x => ∀ v, x = some v → DynamicView.Formed (fun v => Formed Demo.env Demo.int v ∧ ByVal Demo.int v) v) :=
  .optional _ (.dynamic _ (.base _))

/-- Five elements for a view of three. -/
example (rest : Bytes) (y : View Val) : deserializeInPlace (Demo.cfg true false) ((Demo.rowType (Demo.cfg true false)).elem 1)
    (intBytes .little 4 Demo.viewTI.view.idx ++ (Demo.rowHeader 5).bytes (Demo.cfg true false) Demo.viewTI .left ++ rest) y =
    .ub .badRegion :=
  (C66_view_count_trusted (k := Demo.viewTI) (ty := Demo.rowTy) (h := Demo.rowHeader 5)
    (Demo.valid_contents (check := true) (ndebug := false)).cfgOk Demo.viewTI_valid (by decide)
    (Demo.rowHeader_ok (by decide)) rfl (by decide) _ 1 rest y).2

/-- Three elements for a view of three, followed by anything. -/
example (rest : Bytes) (y : View Val) : ∃ o, EndsWell (Hazard (Demo.cfg true false) Demo.env)
    (View.Formed Demo.rowTy fun v => Formed Demo.env Demo.int v ∧ ByVal Demo.int v) o ∧ ∃ n0, ∀ n, n0 ≤ n →
    deserializeInPlaceFromStream (Demo.cfg true false) ((Demo.rowType (Demo.cfg true false)).elem n)
    (intBytes .little 4 Demo.viewTI.view.idx ++ (Demo.rowHeader 3).bytes (Demo.cfg true false) Demo.viewTI .left ++ rest) y =
    o :=
  C66_view_within (k := Demo.viewTI) (ty := Demo.rowTy) (h := Demo.rowHeader 3) Demo.sound (fun _ => id) (.base _)
    (Demo.valid_contents (check := true) (ndebug := false)).cfgOk Demo.viewTI_valid (by decide) (by decide)
    (Demo.rowHeader_ok (by decide)) (fun _ => by decide) rest y

end Ckpt
