import Verif.Proofs.ViewTop
import Verif.Props.RoundTrip
/-!
# Kokkos views (C47, C48, C53)
-/

set_option autoImplicit false

namespace Ckpt

variable {R : RelMode} {cfg : Cfg} {env : Env} {t : Ty}

/-! ## C47 -/

/-- Type `View<T.., ..>` of a program. -/
def viewOf (cfg : Cfg) (env : Env) (k : ViewTI) (ty : ViewTy) (const : Bool) (t : Ty) (n : Nat) : Elem (View Val) :=
  viewElem cfg k ty const (elem cfg env n t)

theorem prior_zero (hv : env.Valid R (· ∈ builtinKinds) cfg) (n : Nat) (x : Val)
    (hp : ((codec R cfg env n t).byVal t).P x) :
    ((codec R cfg env n t).byVal t).prior x (elem cfg env n t).zero := by
  have F := codec_fresh hv.toUsable n t
  unfold Elem.zero
  cases hd : (elem cfg env n t).dflt with
  | none => exact F.fresh x hp
  | some d => exact F.dflt d hd x hp

theorem multi_of {n m : Nat} {t : Ty} (h : env.ArrOk t m) : (codec R cfg env n t).multi m := by
  cases n with
  | zero => trivial
  | succ n => cases t <;> first | trivial | exact codec_variant_multi _ _ | exact h

/-- C47: a view in memory the host can access is written and read back, over any view: label, extents, the
strides of a strided layout, and the element at every index. -/
theorem C47_view_roundtrip (hv : env.Valid R (· ∈ builtinKinds) cfg) {k : ViewTI} (hk : k.Valid) {ty : ViewTy}
    (hh : ty.host = true) {v : View Val} (ok : v.Ok ty) (hx : ∀ x ∈ v.data, WT R env t x ∧ ByVal t x)
    (hm : env.ArrOk t v.size) :
    ∃ bs, Yields (fun n => serializeToStream cfg (viewOf cfg env k ty false t n) v { data := [] })
        (.ok (v, { data := bs })) ∧
      Yields (fun n => getSize cfg (viewOf cfg env k ty false t n) v) (.ok (bs.length % 2 ^ 64, v)) ∧
      (bs.length < 2 ^ 64 → Yields (fun n => serialize cfg (viewOf cfg env k ty false t n) none v)
        (.ok ({ mem := bs, size := bs.length, managed := true, calls := [] }, v))) ∧
      ∀ (y : View Val) (rest : Bytes),
        (∃ w, (v.Copy ty ((env.dflt t).getD (env.fresh t)) (Rel R env t) w ∧ w.Ok ty) ∧
          Yields (fun n => deserializeInPlace cfg (viewOf cfg env k ty false t n) (bs ++ rest) y)
            (.ok (w, bs.length))) ∧
        (∃ w, (v.Copy ty ((env.dflt t).getD (env.fresh t)) (Rel R env t) w ∧ w.Ok ty) ∧
          Yields (fun n => deserializeInPlaceFromStream cfg (viewOf cfg env k ty false t n) (bs ++ rest) y)
            (.ok (w, rest))) := by
  obtain ⟨n0, h0⟩ := eventually_list (xs := v.data) (Q := fun x n => (codec R cfg env n t).P x)
    (fun x hx' => codec_P (hx x hx').1)
  have := family_roundtrip (K := (· ∈ builtinKinds)) (cfg := cfg) (fun _ h => h) (E := viewOf cfg env k ty false t)
    (C := fun n => viewCodec cfg k ty (elem cfg env n t) ((codec R cfg env n t).byVal t))
    (fun hnm => viewElem_le (elem_le cfg env hnm t) k ty false)
    (viewLaw hv.cfgOk hk ((law hv n0 t).byVal t) (prior_zero hv n0) (by simp [hh])) (x := v)
    ⟨ok, fun x hx' => ⟨h0 n0 (Nat.le_refl _) x hx', (hx x hx').2⟩, fun _ => multi_of hm⟩
    (ok := fun _ => True) (fun _ _ => trivial) (rel := fun v w => v.Copy ty ((env.dflt t).getD (env.fresh t)) (Rel R env t) w ∧ w.Ok ty)
    (fun w hw => ⟨⟨hw.1.label, hw.1.extents, hw.1.alloc, hw.1.strides, fun ha idx hi => by
      obtain ⟨x, y, h1, h2, h3⟩ := hw.1.elements ha idx hi
      exact ⟨x, y, h1, h2, codec_rel _ _ _ _ h3⟩, fun ha idx hi => hw.1.fresh ha idx hi,
      fun y hy => (hw.1.memory y hy).imp_right fun ⟨x, hx, hr⟩ => ⟨x, hx, codec_rel _ _ _ _ hr⟩⟩, hw.2⟩)
  obtain ⟨bs, h1, h2, h3, h4⟩ := this
  exact ⟨bs, h1, h2, h3, fun y rest => h4 y rest trivial⟩

/-- Type information of views. -/
def Demo.viewTI : ViewTI :=
  { str := Demo.env.ti .str, layout := { name := 7, idx := encodeIndex 7, sizeof := 64 },
    view := { name := 8, idx := encodeIndex 8, sizeof := 72 } }

theorem Demo.viewTI_valid : Demo.viewTI.Valid :=
  ⟨Demo.ti_valid _, encodeIndex_valid (by decide), encodeIndex_valid (by decide)⟩

theorem forall2_two {P : List Nat → Prop} {a b : Nat} (h : ∀ i < a, ∀ j < b, P [i, j]) :
    ∀ idx, InRange idx [a, b] → P idx := by
  intro idx hi
  cases hi with
  | cons h1 h2 => cases h2 with
    | cons h3 h4 => cases h4; exact h _ h1 _ h3

/-- `View<int**, LayoutStride>` of 2 by 2 elements, 1 and 3 apart. -/
def Demo.strided : View Val :=
  { label := [65], extents := [2, 2], strides := [1, 3], span := 6, alloc := true,
    data := (List.range 6).map fun i => .raw [i.toUInt8, 0, 0, 0] }

/-- `View<int*[3], LayoutRight>` with rows padded to 4 elements. -/
def Demo.padded : View Val :=
  { label := [], extents := [2, 3], strides := [4, 1], span := 8, alloc := true,
    data := (List.range 8).map fun i => .raw [i.toUInt8, 0, 0, 0] }

theorem Demo.strided_ok : Demo.strided.Ok ⟨.stride, [none, none], true⟩ where
  rank_le := by decide
  extents := rfl
  strides := rfl
  static i n h := by
    rcases i with _ | _ | i <;> simp at h
  ext_lt := by decide
  str_lt _ := by decide
  size_lt := by decide
  label_lt := by decide
  data _ := rfl
  inside := forall2_two (by decide)
  span _ := rfl
  compact _ h := by cases h
  scalar h := by cases h

theorem Demo.padded_ok : Demo.padded.Ok ⟨.right, [none, some 3], true⟩ where
  rank_le := by decide
  extents := rfl
  strides := rfl
  static i n h := by
    rcases i with _ | _ | i <;> simp at h
    subst h; rfl
  ext_lt := by decide
  str_lt _ := by decide
  size_lt := by decide
  label_lt := by decide
  data _ := rfl
  inside := forall2_two (by decide)
  span h := by cases h
  compact _ _ h := by exact absurd h (by decide)
  scalar h := by cases h

theorem Demo.ints {n : Nat} {x : Val} (hx : x ∈ (List.range n).map fun i => Val.raw [i.toUInt8, 0, 0, 0]) :
    WT .contents Demo.env Demo.int x ∧ ByVal Demo.int x := by
  obtain ⟨i, _, rfl⟩ := List.mem_map.1 hx
  exact ⟨.prim rfl, trivial⟩

theorem Demo.int_arr (n : Nat) : Demo.env.ArrOk Demo.int n := ⟨nofun, fun h => h.elim⟩

example : Demo.env.Valid .contents (· ∈ builtinKinds) (Demo.cfg true true) ∧ Demo.viewTI.Valid ∧
    Demo.strided.contig = false ∧ Demo.strided.Ok ⟨.stride, [none, none], true⟩ ∧
    (∀ x ∈ Demo.strided.data, WT .contents Demo.env Demo.int x ∧ ByVal Demo.int x) ∧
    Demo.env.ArrOk Demo.int Demo.strided.size :=
  ⟨Demo.valid_contents, Demo.viewTI_valid, rfl, Demo.strided_ok, fun _ h => Demo.ints h, Demo.int_arr _⟩

example : Demo.padded.contig = false ∧ Demo.padded.Ok ⟨.right, [none, some 3], true⟩ ∧
    (∀ x ∈ Demo.padded.data, WT .contents Demo.env Demo.int x ∧ ByVal Demo.int x) ∧
    Demo.env.ArrOk Demo.int Demo.padded.size :=
  ⟨rfl, Demo.padded_ok, fun _ h => Demo.ints h, Demo.int_arr _⟩

/-! ## C48 -/

/-- C48: the traversal for serialization visits every index tuple within the extents exactly once, in
lexicographic order (the last index changes fastest), whatever is done there. -/
theorem C48_traversal_order (extents : List Nat) :
    ∃ order : List (List Nat), (∀ idx, idx ∈ order ↔ InRange idx extents) ∧ order.Nodup ∧
      order.Pairwise (List.Lex (· < ·)) ∧
      ∀ (σ : Type) (body : List Nat → σ → Out σ) (st : σ),
        traverseManual body extents [] st = order.foldlM (fun st idx => body idx st) st := by
  refine ⟨allIdx extents, fun _ => mem_allIdx, ?_, allIdx_sorted _, fun σ body st => ?_⟩
  · exact (allIdx_sorted extents).imp fun {a b} h he => by subst he; exact lex_irrefl _ h
  · rw [traverseManual_eq]
    simp only [List.nil_append, runAll_foldlM]

/-- C48: so does the traversal for comparison. -/
theorem C48_comparison_order (extents : List Nat) :
    ∃ order : List (List Nat), (∀ idx, idx ∈ order ↔ InRange idx extents) ∧ order.Nodup ∧
      order.Pairwise (List.Lex (· < ·)) ∧
      ∀ (σ : Type) (call : List Nat → σ → Out (Bool × σ)) (st : σ),
        (traverseRecur call extents [] st).bind (fun r => .ok r.2) =
          order.foldlM (fun st idx => (call idx st).bind fun r => .ok r.2) st := by
  refine ⟨allIdx extents, fun _ => mem_allIdx, ?_, allIdx_sorted _, fun σ body st => ?_⟩
  · exact (allIdx_sorted extents).imp fun {a b} h he => by subst he; exact lex_irrefl _ h
  · rw [traverseRecur_visits]
    simp only [List.nil_append]
    rw [runAll_foldlM (fun idx st => (body idx st).bind fun r => Out.ok r.2)]

example : traverseManual (fun idx (st : List (List Nat)) => .ok (st ++ [idx])) [2, 3] [] [] =
    .ok [[0, 0], [0, 1], [0, 2], [1, 0], [1, 1], [1, 2]] := rfl

end Ckpt
