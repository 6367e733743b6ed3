import Verif.Proofs.CountsMore
import Verif.Props.Footprint
import Verif.Props.Program
/-!
# C70: memory footprints of types nested in any way
-/

set_option autoImplicit false

namespace Ckpt

section
variable {R : RelMode} {cfg : Cfg} {env : Env} {T A B O V : Type}

/-- **C70**: if `f` bytes are counted for the object, `getMemoryFootprint` returns `f` or the size of the class,
whichever is more, and the offset on top of it; the object stays as it is. -/
theorem C70_footprint {t : CppType T} {x : T} {f : Nat} (h : Counts cfg t x f) (off : Nat) :
    Yields (fun n => getMemoryFootprint cfg (t.elem n) x off)
      (.ok ((off + max (f % 2 ^ 64) t.ti.sizeof) % 2 ^ 64, x)) :=
  footprint_counts h off

/-- **C70**: for every object of a type nested in any way, some number of bytes is counted, and only one (as `size_t`). -/
theorem C70_counted {t : CppType T} {u : Usage T} {x : T} (hv : env.Valid R (· ∈ builtinKinds) cfg)
    (h : Composed R cfg env t u) (hx : u.ok x) :
    (∃ f < 2 ^ 64, Counts cfg t x f) ∧ ∀ f g, Counts cfg t x f → Counts cfg t x g → f % 2 ^ 64 = g % 2 ^ 64 := by
  obtain ⟨C, hC⟩ := h.composes hv
  obtain ⟨n0, h0⟩ := hC.ok x hx
  have hK : (Scope.quiet (· ∈ builtinKinds)).kinds .footprinter := by simp [Scope.quiet, builtinKinds]
  constructor
  · have hp := (pipe_fp (hC.elaw n0) (h0 n0 (Nat.le_refl _))).foot hK
    refine ⟨(C n0).fp x % 2 ^ 64, Nat.mod_lt _ (by decide), counts_iff.2 ⟨n0, fun n hn => ?_⟩⟩
    have h1 := hp.mod (g := (C n0).fp x % 2 ^ 64) (by simp)
    intro s hs
    have h2 : pipe cfg (t.elem n0) s x = _ := h1 s hs
    have h3 := pipe_le (cfg := cfg) (hC.elem_le hn) s x
    rcases h3 with h3 | h3
    · rw [h2] at h3
      cases h3
    · exact h3.symm.trans h2
  · rintro f g ⟨n1, h1⟩ ⟨n2, h2⟩
    have e := (h1 (max n1 n2) (by omega) 0 (by decide)).symm.trans (h2 (max n1 n2) (by omega) 0 (by decide))
    simpa [Ser.counted] using e

/-- **C70**: the types of the other footprint theorems (C42). -/
theorem C70_base (hv : env.Valid R (· ∈ builtinKinds) cfg) {t : Ty} {x : Val} (hx : WT R env t x) {f : Nat}
    (h : Counted cfg env t x f) : Counts cfg (.base cfg env t) x f := by
  obtain ⟨n1, h1⟩ := h.codec hv hx
  obtain ⟨bs, n0, h0⟩ := exists_enc hv (fun _ h => h) hx
  refine ⟨max n0 n1, fun n hn m hm => ?_⟩
  have := pipe_footprinter hv hm (h0 n (by omega)).1
  refine this.trans ?_
  have h2 := h1 n (by omega)
  simp only [Ser.counted, Out.ok.injEq, Prod.mk.injEq, true_and, Ser.mk.injEq, Core.footprinter.injEq, and_true]
  omega

/-- **C70**: for an array, what is counted for its elements. -/
theorem C70_arrays {t : CppType T} {u : Usage T} (hv : env.Valid R (· ∈ builtinKinds) cfg) (h : Composed R cfg env t u)
    {xs : List T} (hx : ∀ x ∈ xs, u.ok x) (hm : u.many xs.length) {f : T → Nat} (hf : ∀ x ∈ xs, Counts cfg t x (f x)) :
    CountsArray cfg t xs (xs.map f).sum := by
  obtain ⟨C, hC⟩ := h.composes hv
  exact hC.countsAll (by simp [Scope.quiet, builtinKinds]) hx hm hf

/-- **C70**: containers: the size of the container, what is counted for its elements, and for a vector the size of
the elements there is still room for.  What a queue or a stack holds is counted by the size of its elements only. -/
theorem C70_containers {t : CppType T} (ti : TI) (c : Bool) :
    (∀ v f, CountsArray cfg t v.elems f →
      Counts cfg (.vector cfg ti c t) v (ti.sizeof + f + t.ti.sizeof * (v.cap - v.elems.length))) ∧
    (∀ xs f, (∀ x ∈ xs, Counts cfg t x (f x)) → Counts cfg (.list cfg ti c t) xs (ti.sizeof + (xs.map f).sum)) ∧
    (∀ a lt xs f, (∀ x ∈ xs, Counts cfg t x (f x)) →
      Counts cfg (.ordered cfg ti c a lt t) xs (ti.sizeof + (xs.map f).sum)) ∧
    (∀ a eq arrange xs f, (∀ x ∈ xs, Counts cfg t x (f x)) →
      Counts cfg (.unordered cfg ti c a eq arrange t) xs (ti.sizeof + (xs.map f).sum)) ∧
    (∀ xs f, CountsArray cfg t xs f → Counts cfg (.array cfg ti xs.length t) xs f) ∧
    (∀ xs, Counts cfg (.queue cfg ti c t) xs (ti.sizeof + t.ti.sizeof * xs.length)) ∧
    ∀ xs, Counts cfg (.queueLike ti c t) xs (ti.sizeof + t.ti.sizeof * xs.length) := by
  refine ⟨fun v f h => ?_, fun xs f h => list_counts h, fun a lt xs f h => ?_, fun a eq arrange xs f h => ?_, fun xs f h => ?_,
    fun xs => ?_, fun xs => queueLike_counts⟩
  · rw [Nat.add_assoc]
    exact vector_counts h
  · obtain ⟨n0, h0⟩ := Counts.fps h
    exact counts_each (fun _ => rfl) ⟨n0, fun n hn => mapLike_counts (h0 n hn)⟩
  · obtain ⟨n0, h0⟩ := Counts.fps h
    exact counts_each (fun _ => rfl) ⟨n0, fun n hn => mapLike_counts (h0 n hn)⟩
  · obtain ⟨n0, h0⟩ := countsAll_iff.1 h
    exact counts_each (fun _ => rfl) ⟨n0, fun n hn => (h0 n hn).congr (fun _ _ => by simp [serArray]) rfl⟩
  · exact counts_each (fun _ => rfl) ⟨0, fun n _ => queue_fp⟩

/-- **C70**: pairs, tuples, classes, variants, optional objects and pointers.  For a class, a tuple and a variant its own
size is not counted; what an optional object holds is counted by its size only. -/
theorem C70_parts (hv : env.Valid R (· ∈ builtinKinds) cfg) (ti : TI) :
    (∀ (a : CppType A) (b : CppType B) x y f g, Counts cfg a x f → Counts cfg b y g →
      Counts cfg (.pair cfg ti a b) (x, y) (ti.sizeof + f + g)) ∧
    (∀ (ms : MemberTypes O) o fs, ms.Counts cfg o fs → Counts cfg (.tuple cfg ti ms) o fs.sum) ∧
    (∀ (ms : MemberTypes O) fresh dflt c o fs, ms.Counts cfg o fs → Counts cfg (.cls cfg ti fresh dflt c ms) o fs.sum) ∧
    (∀ (as : AltTypes V) v f, as.length ≤ 2 ^ 64 → as.Counts cfg v f → Counts cfg (.variant cfg ti as) (some v) (8 + f)) ∧
    (∀ t : CppType T, Counts cfg (.optional cfg ti t) none ti.sizeof) ∧
    (∀ (t : CppType T) x, Counts cfg (.optional cfg ti t) (some x) (ti.sizeof + t.ti.sizeof)) ∧
    (∀ t : CppType T, Counts cfg (.uniquePtr cfg ti t) none ti.sizeof) ∧
    ∀ (t : CppType T) x f, Counts cfg t x f → Counts cfg (.uniquePtr cfg ti t) (some x) (ti.sizeof + f) := by
  refine ⟨fun a b x y f g hx hy => ?_, fun ms o fs h => tuple_counts hv.order h, fun ms _ _ _ o fs h => cls_counts h,
    fun as v f hl h => variant_counts hv.cfgOk hl h, fun t => optional_counts, fun t x => optional_counts,
    fun t => uniquePtr_null, fun t x f h => uniquePtr_counts h⟩
  rw [Nat.add_assoc]
  exact pair_counts hx hy

/-- **C70**: objects of classes with virtual serialization: what is counted for each of their classes; and pointers to
such objects. -/
theorem C70_classes (hv : env.Valid R (· ∈ builtinKinds) cfg) (ti : TI) :
    (∀ d (ms : MemberTypes O) fresh dflt c o fs, ms.length = (env.chain d).length → ms.Counts cfg o fs →
      Counts cfg (.object cfg env d ti fresh dflt c ms) o fs.sum) ∧
    (∀ (ds : DynTypes V) k cti any, Counts cfg (.polyPtr cfg env ti k cti any ds) none ti.sizeof) ∧
    ∀ (ds : DynTypes V) k cti any v fs, ds.Fits env → ds.Counts cfg v fs →
      Counts cfg (.polyPtr cfg env ti k cti any ds) (some v) (ti.sizeof + fs.sum) :=
  ⟨fun _ _ _ _ _ _ _ hf h => object_counts hv.toUsable hf h, fun _ _ _ _ => polyPtr_null,
    fun _ _ _ _ _ _ hf h => polyPtr_counts hv.toUsable hf h⟩

/-- **C70**: a class with any `serialize` function: what is counted for all it visits, and what it adds itself. -/
theorem C70_program (hv : env.Valid R (· ∈ builtinKinds) cfg) {p : Prog O} {x : O} {f : Nat} (h : p.Counts cfg x f)
    (ti : TI) (fresh : O) (dflt : Option O) (c : Bool) : Counts cfg (.program cfg ti fresh dflt c p) x f :=
  counts_each (fun _ => rfl) (prog_counts hv.cfgOk h)

/-- **C70**: Kokkos views in host memory: the label (as a string), the rank, the layout, the size and two flags, and
what is counted for the elements.  The size of the view object itself is not counted, nor is memory between the
elements. -/
theorem C70_views {t : CppType T} {u : Usage T} (hv : env.Valid R (· ∈ builtinKinds) cfg) (h : Composed R cfg env t u)
    {f : T → Nat} (hf : ∀ x, u.ok x → Counts cfg t x (f x)) :
    (∀ (k : ViewTI) ty v, k.Valid → ty.host = true → (Usage.view ty t u).ok v → Counts cfg (.view cfg k ty t) v
      (k.str.sizeof + cfg.grow v.label.length + 4 + ty.layout.counted + 10 + v.counted f)) ∧
    (∀ (k : DynTI) l v, k.Valid → (Usage.dynRank l t u).ok v → Counts cfg (.dynRank cfg k l t) v
      (k.str.sizeof + cfg.grow v.view.label.length + 4 + l.counted + 8 + if v.made then 2 + v.view.counted f else 0)) ∧
    ∀ (k : DynamicTI) v, k.Valid → (Usage.dynamic u).ok v → Counts cfg (.dynamic cfg k t) v
      (k.str.sizeof + cfg.grow v.label.length + 24 + (v.elems.map f).sum) := by
  obtain ⟨C, hC⟩ := h.composes hv
  have hK : (Scope.quiet (· ∈ builtinKinds)).kinds .footprinter := by simp [Scope.quiet, builtinKinds]
  exact ⟨fun k ty v hk hh ho => view_counts hv.cfgOk hC hK hk hh ho fun x hx => hf x (ho.2.1 x hx),
    fun k l v hk ho => dynRank_counts hv.cfgOk hC hK hk ho fun x hx => hf x (ho.2.1 x hx),
    fun k v hk ho => dynamic_counts hv.cfgOk hC hK hk ho fun x hx => hf x (ho.2 x hx)⟩

/-- **C70**: views of memory the host can not access and views of `const` elements are counted as if all elements were
value-initialised. -/
theorem C70_copied_views {t : CppType T} {u : Usage T} (hv : env.Valid R (· ∈ builtinKinds) cfg)
    (h : Composed R cfg env t u) (hs : t.SameSize cfg u) (hz : u.ok t.zero) {f : Nat} (hf : Counts cfg t t.zero f) :
    (∀ (k : ViewTI) ty v, k.Valid → ty.host = false → (Usage.view ty t u).ok v → Counts cfg (.view cfg k ty t) v
      (k.str.sizeof + cfg.grow v.label.length + 4 + ty.layout.counted + 10 + if v.alloc then v.size * f else 0)) ∧
    ∀ (k : ViewTI) ty v, k.Valid → (Usage.constView ty t u).ok v → Counts cfg (.constView cfg k ty t) v
      (k.str.sizeof + cfg.grow v.label.length + 4 + ty.layout.counted + 10 + v.size * f) := by
  obtain ⟨C, hC⟩ := h.composes hv
  exact ⟨fun k ty v hk hh ho => deviceView_counts (fun _ => Iff.rfl) hv.cfgOk hC hk hh hs hz ho hf,
    fun k ty v hk ho => constView_counts (fun _ => Iff.rfl) hv.cfgOk hC hk hs hz ho hf⟩

/-- **C70**: Kokkos maps: the size of the class, a key for each slot and a value for each entry, by their sizes. -/
theorem C70_kokkos_map (k : KMapTI) (h : KHash A B) (a : CppType A) (b : CppType B) (m : KMap A B) :
    Counts cfg (.kmap cfg k h a b) m (k.map.sizeof + (m.capacity * a.ti.sizeof + m.size * b.ti.sizeof)) :=
  kmap_counts

end

/-! ### The mesh of C65, the classes with control flow of C68 -/

namespace Demo
variable {check ndebug : Bool}

theorem prim_counts {id size : Nat} {x : Val} (hx : WT .contents Demo.env (.prim id size) x) :
    Counts (cfg check ndebug) (.base (cfg check ndebug) Demo.env (.prim id size)) x size := by
  cases hx with
  | prim h => exact C70_base (R := .contents) valid_contents (.prim h) (C42_fundamental (R := .contents) valid_contents (.prim h))

/-- The footprint of a row. -/
def rowFp (v : View Val) : Nat := viewTI.str.sizeof + v.label.length + 4 + 64 + 10 + v.counted fun _ => 4

theorem row_counts (v : View Val) (hv : (rowUse (cfg check ndebug)).ok v) :
    Counts (cfg check ndebug) (rowType (cfg check ndebug)) v (rowFp v) :=
  (C70_views (R := .contents) valid_contents (.base int) (f := fun _ => 4) fun _ hx => prim_counts hx.1).1
    viewTI rowTy v viewTI_valid rfl hv

theorem row_two (c : Cfg) {x : View Val} {a b : Nat} (ha : a < 2 ^ 32) (hb : b < 2 ^ 32) (hx : x ∈ [row a, row b]) :
    (rowUse c).ok x := by
  simp only [List.mem_cons, List.not_mem_nil, or_false] at hx
  rcases hx with rfl | rfl
  · exact row_use c a ha
  · exact row_use c b hb

/-- 836 bytes are counted for the mesh: a map with two entries of 29 + 4 + 95 and 29 + 4 + 99 bytes, a view of one vector
of two rows that has room for two more, an optional row, which is counted by the size of its class. -/
theorem mesh_counts : Counts (cfg check ndebug) (meshType (cfg check ndebug)) mesh 836 := by
  have hv : env.Valid .contents (· ∈ builtinKinds) (cfg check ndebug) := valid_contents
  have h1 : Counts (cfg check ndebug) (viewMapType (cfg check ndebug)) mesh.1 _ :=
    (C70_containers (env.ti int) true).2.2.1 .map entryLt _ (fun p => (env.ti int).sizeof + 4 + rowFp p.2) fun x hx => by
      simp only [mesh, List.mem_cons, List.not_mem_nil, or_false] at hx
      rcases hx with rfl | rfl <;>
        exact (C70_parts (A := Val) (B := View Val) (O := Unit) (V := Unit) (T := Unit) hv _).1 _ _ _ _ _ _
          (prim_counts (.prim rfl)) (row_counts _ (row_use _ _ (by decide)))
  have h2 : Counts (cfg check ndebug) (nestedType (cfg check ndebug)) mesh.2.1 _ :=
    (C70_views hv (.vector true (ti_valid _) (rowComposed _))
      (f := fun v => (env.ti int).sizeof + (v.elems.map rowFp).sum + 72 * (v.cap - v.elems.length)) fun v ho =>
        (C70_containers (env.ti int) true).1 _ _ (C70_arrays hv (rowComposed _) ho.1 ho.2.2.2 fun x hx =>
          row_counts x (ho.1 x hx))).1 viewTI rowTy _ viewTI_valid rfl (mesh_ok (cfg check ndebug)).2.1
  have h3 := (C70_parts (A := Unit) (B := Unit) (O := Unit) (V := Unit) (T := View Val) hv (env.ti int)).2.2.2.2.2.1
    (rowType (cfg check ndebug)) (row 3)
  have h : (meshMembers (cfg check ndebug)).Counts (cfg check ndebug) mesh _ := .cons h1 (.cons h2 (.cons h3 .nil))
  have h4 := (C70_parts (A := Unit) (B := Unit) (V := Unit) (T := Unit) hv (env.ti int)).2.2.1 _
    ([], rowTy.empty, none, ()) (some ([], rowTy.empty, none, ())) true mesh _ h
  refine (congrArg (Counts (cfg check ndebug) (meshType (cfg check ndebug)) mesh) ?_).mp h4
  simp only [cfg, viewTI, mesh, rowType, CppType.view]
  decide +kernel

/-- A class with control flow: the number of rows, for each a flag and, unless it is null, what is counted for it. -/
theorem rows_counts : Counts (cfg check ndebug) (rowsType (cfg check ndebug)) rows (8 + (1 + 87 + (1 + 95 + 1))) := by
  have hv : env.Valid .contents (· ∈ builtinKinds) (cfg check ndebug) := valid_contents
  have p1 : ∀ n < 2 ^ 32, (Prog.owned (rowType (cfg check ndebug)) rowTy.empty).Counts (cfg check ndebug) (some (row n))
      (1 + (rowFp (row n) + 0)) :=
    fun n hn => .flag (.mode (.visit (a := row n) rfl rfl (row_counts _ (row_use _ n hn)) .done))
  have p2 : (Prog.owned (rowType (cfg check ndebug)) rowTy.empty).Counts (cfg check ndebug) none (1 + 0) :=
    .flag (.mode .done)
  have h1 : ∀ n < 2 ^ 32, Counts (cfg check ndebug) (ownedRow (cfg check ndebug)) (some (row n)) _ :=
    fun n hn => C70_program hv (p1 n hn) _ _ _ _
  have h2 : Counts (cfg check ndebug) (ownedRow (cfg check ndebug)) none _ := C70_program hv p2 _ _ _ _
  have p3 : (Prog.resized (ownedRow (cfg check ndebug)) none).Counts (cfg check ndebug) rows _ :=
    .count (by decide) (.update rfl (.visit rfl rfl (h1 0 (by decide)) (.visit rfl rfl (h1 2 (by decide))
      (.visit rfl rfl h2 .done))))
  exact C70_program hv p3 _ _ _ _

/-- What is counted for the pointers to shapes. -/
def shapeFp : Option AnyShape → Nat
  | none => (env.ti (.uptr (.cls 1))).sizeof
  | some (.inl (x, _)) => (env.ti (.uptr (.cls 1))).sizeof + rowFp x.1
  | some (.inr (.inl (x, _, _))) => (env.ti (.uptr (.cls 1))).sizeof + (rowFp x.1 + 4)
  | some (.inr (.inr (.inl (x, v, _)))) => (env.ti (.uptr (.cls 1))).sizeof + (rowFp x.1 +
      ((env.ti int).sizeof + (v.1.elems.map rowFp).sum + 72 * (v.1.cap - v.1.elems.length)))

theorem shape_counts (x : Option AnyShape) (hx : (shapePtrUse (cfg check ndebug)).ok x) :
    Counts (cfg check ndebug) (shapePtr (cfg check ndebug)) x (shapeFp x) := by
  have hv : env.Valid .contents (· ∈ builtinKinds) (cfg check ndebug) := valid_contents
  have hp := (C70_classes (O := Unit) (V := AnyShape) hv (env.ti (.uptr (.cls 1)))).2
  have hfit : (shapeClasses (cfg check ndebug)).Fits env := ⟨rfl, rfl, rfl, trivial⟩
  have part : ∀ {T : Type} (t : CppType T) k fresh x f, Counts (cfg check ndebug) t x f →
      Counts (cfg check ndebug) (.cls (cfg check ndebug) (env.ti (.cls k)) (fresh, ()) none true (.cons t .nil)) (x, ()) f :=
    fun t k fresh x f h => (C70_parts (A := Unit) (B := Unit) (V := Unit) (T := Unit) hv _).2.2.1 _ _ _ _ _ [f] (.cons h .nil)
  match x, hx with
  | none, _ => exact hp.1 _ _ _ _
  | some (.inl ((r, ()), ())), hx =>
    obtain ⟨h, -⟩ := hx _ rfl
    exact hp.2 _ _ _ _ _ [rowFp r] hfit (.here (.cons (part _ 1 _ _ _ (row_counts _ h.1.1)) .nil))
  | some (.inr (.inl ((r, ()), (n, ()), ()))), hx =>
    obtain ⟨h, -⟩ := hx _ rfl
    exact hp.2 _ _ _ _ _ [rowFp r, 4] hfit (.there (.here (.cons (part _ 1 _ _ _ (row_counts _ h.1.1))
      (.cons (part _ 2 _ _ _ (prim_counts h.2.1.1.1)) .nil))))
  | some (.inr (.inr (.inl ((r, ()), (v, ()), ())))), hx =>
    obtain ⟨h, -⟩ := hx _ rfl
    exact hp.2 _ _ _ _ _ [rowFp r, _] hfit (.there (.there (.here (.cons (part _ 1 _ _ _ (row_counts _ h.1.1))
      (.cons (part _ 3 _ _ _ ((C70_containers (env.ti int) true).1 _ _ (C70_arrays hv (rowComposed _) h.2.1.1.1
        h.2.1.1.2.2.2 fun x hx => row_counts x (h.2.1.1.1 x hx)))) .nil)))))

/-- A vector of pointers to shapes, with room for one more. -/
theorem shapes_counts : Counts (cfg check ndebug) (.vector (cfg check ndebug) (env.ti int) false (shapePtr (cfg check ndebug)))
    shapes 1094 := by
  have hv : env.Valid .contents (· ∈ builtinKinds) (cfg check ndebug) := valid_contents
  have ho := shapes_ok (cfg check ndebug)
  have h := (C70_containers (env.ti int) false).1 shapes _ (C70_arrays hv (shapePtrComposed (cfg check ndebug)) ho.1 ho.2.2.2
    fun x hx => shape_counts x (ho.1 x hx))
  refine (congrArg (Counts _ _ _) ?_).mp h
  simp only [shapePtr, CppType.polyPtr]
  decide +kernel

end Demo

/-- The hypotheses of the theorems are met, and so much is returned. -/
example (check ndebug : Bool) (off : Nat) :
    Yields (fun n => getMemoryFootprint (Demo.cfg check ndebug) ((Demo.meshType (Demo.cfg check ndebug)).elem n) Demo.mesh off)
      (.ok ((off + 836) % 2 ^ 64, Demo.mesh)) :=
  C70_footprint Demo.mesh_counts off

/-- `std::stack<std::vector<..>>` is counted by the size of the vectors. -/
example (check ndebug : Bool) (xs : List (Vec (View Val))) :
    Counts (Demo.cfg check ndebug) (.queueLike (Demo.env.ti Demo.int) true
      (.vector (Demo.cfg check ndebug) (Demo.env.ti .str) true (Demo.rowType (Demo.cfg check ndebug)))) xs (29 + 9 * xs.length) :=
  (C70_containers (Demo.env.ti Demo.int) true).2.2.2.2.2.2 xs

end Ckpt
