import Verif.Props.Kokkos
/-!
# Kokkos views whose elements are written from a temporary copy (C53)

A view of `const` elements is serialized through a temporary view, a view in memory the host cannot access
through a mirror.  Both are filled only when packing: sizes are computed from value-initialised elements.
-/

set_option autoImplicit false

namespace Ckpt

variable {R : RelMode} {cfg : Cfg} {env : Env} {t : Ty}

/-- All values of type `t` are written with the same number of bytes. -/
def FixedSize (R : RelMode) (cfg : Cfg) (env : Env) (t : Ty) : Prop :=
  ∃ k, ∀ x, WT R env t x → ByVal t x → ∃ bs, StreamForm cfg env t x bs ∧ bs.length = k

theorem enc_length_of_stream (hv : env.Valid R (· ∈ builtinKinds) cfg) {n : Nat} {x : Val}
    (hx : (codec R cfg env n t).P x) {bs : Bytes} (hs : StreamForm cfg env t x bs) :
    bs = topEnc cfg (env.ti t) (codec R cfg env n t) x := by
  have h := toStream_law (K := Scope.quiet (· ∈ builtinKinds)) (fun _ h => h) (law hv n t) hx ⟨[], none⟩ (by simp)
  have hy : Yields (fun n => serializeToStream cfg (elem cfg env n t) x { data := [] })
      (.ok (x, { data := topEnc cfg (env.ti t) (codec R cfg env n t) x })) := by
    refine ⟨n, fun m hm => ?_⟩
    have := (toStream_le (cfg := cfg) (elem_le cfg env hm t) x { data := [] }).eq_of_ne (by rw [h]; simp)
    dsimp only
    rw [this, h]
    simp only [List.nil_append]
    rfl
  have := hs.unique hy
  simpa using this

theorem uniform_of_fixed (hv : env.Valid R (· ∈ builtinKinds) cfg) (hf : FixedSize R cfg env t) {n : Nat}
    (hz : (((codec R cfg env n t).byVal t).on (WT R env t)).P (elem cfg env n t).zero) :
    Uniform (Scope.quiet (· ∈ builtinKinds)) cfg (elem cfg env n t) (((codec R cfg env n t).byVal t).on (WT R env t)) where
  zero := hz
  len x hx := by
    obtain ⟨k, hk⟩ := hf
    obtain ⟨bs, h1, h2⟩ := hk x hx.2 hx.1.2
    obtain ⟨bs', h1', h2'⟩ := hk _ hz.2 hz.1.2
    have e1 := enc_length_of_stream hv hx.1.1 h1
    have e2 := enc_length_of_stream hv hz.1.1 h1'
    exact topEnc_length (ti := env.ti t) (c := codec R cfg env n t) (by rw [← e1, ← e2, h2, h2'])
  library := by simp [Scope.quiet, builtinKinds]

/-- C53: a view of `const` elements or in memory the host cannot access is written and read back if all
values of the element type are written with the same number of bytes.  (A view of `const` elements
without memory can not be copied unless it has no elements.) -/
theorem C53_fixed_size_roundtrip (hv : env.Valid R (· ∈ builtinKinds) cfg) {k : ViewTI} (hk : k.Valid) {ty : ViewTy}
    {const : Bool} (hf : FixedSize R cfg env t)
    (hz : WT R env t ((env.dflt t).getD (env.fresh t)) ∧ ByVal t ((env.dflt t).getD (env.fresh t)))
    {v : View Val} (ok : v.Ok ty) (hx : ∀ x ∈ v.data, WT R env t x ∧ ByVal t x)
    (hm : env.ArrOk t v.size) (ha : const = true → v.alloc = true ∨ v.size = 0) :
    ∃ bs, Yields (fun n => serializeToStream cfg (viewOf cfg env k ty const t n) v { data := [] })
        (.ok (v, { data := bs })) ∧
      Yields (fun n => getSize cfg (viewOf cfg env k ty const t n) v) (.ok (bs.length % 2 ^ 64, v)) ∧
      (bs.length < 2 ^ 64 → Yields (fun n => serialize cfg (viewOf cfg env k ty const t n) none v)
        (.ok ({ mem := bs, size := bs.length, managed := true, calls := [] }, v))) ∧
      ∀ (y : View Val) (rest : Bytes),
        (∃ w, (v.Copy ty ((env.dflt t).getD (env.fresh t)) (Rel R env t) w ∧ w.Ok ty) ∧
          Yields (fun n => deserializeInPlace cfg (viewOf cfg env k ty const t n) (bs ++ rest) y)
            (.ok (w, bs.length))) ∧
        (∃ w, (v.Copy ty ((env.dflt t).getD (env.fresh t)) (Rel R env t) w ∧ w.Ok ty) ∧
          Yields (fun n => deserializeInPlaceFromStream cfg (viewOf cfg env k ty const t n) (bs ++ rest) y)
            (.ok (w, rest))) := by
  obtain ⟨n0, h0⟩ := eventually_list (xs := (env.dflt t).getD (env.fresh t) :: v.data)
    (Q := fun x n => (codec R cfg env n t).P x) (fun x hx' => codec_P (by
      rcases List.mem_cons.1 hx' with rfl | h
      · exact hz.1
      · exact (hx x h).1))
  have h0 := h0 n0 (Nat.le_refl _)
  have hzero : (elem cfg env n0 t).zero = (env.dflt t).getD (env.fresh t) := rfl
  have u := uniform_of_fixed hv hf (n := n0)
    ⟨⟨by rw [hzero]; exact h0 _ (by simp), by rw [hzero]; exact hz.2⟩, by rw [hzero]; exact hz.1⟩
  have hel : ∀ x ∈ v.data, (((codec R cfg env n0 t).byVal t).on (WT R env t)).P x := fun x hx' =>
    ⟨⟨h0 x (by simp [hx']), (hx x hx').2⟩, (hx x hx').1⟩
  have hpr : ∀ x, (((codec R cfg env n0 t).byVal t).on (WT R env t)).P x →
      (((codec R cfg env n0 t).byVal t).on (WT R env t)).prior x (elem cfg env n0 t).zero :=
    fun x hp => prior_zero hv n0 x hp.1
  have L := ((law hv n0 t).byVal t).on (WT R env t)
  have hrel : ∀ w, viewRel ty (elem cfg env n0 t).zero (((codec R cfg env n0 t).byVal t).on (WT R env t)) v w →
      v.Copy ty ((env.dflt t).getD (env.fresh t)) (Rel R env t) w ∧ w.Ok ty :=
    fun w hw => ⟨⟨hw.1.label, hw.1.extents, hw.1.alloc, hw.1.strides, fun ha idx hi => by
      obtain ⟨x, y, h1, h2, h3⟩ := hw.1.elements ha idx hi
      exact ⟨x, y, h1, h2, codec_rel _ _ _ _ h3⟩, fun ha idx hi => hw.1.fresh ha idx hi,
      fun y hy => (hw.1.memory y hy).imp_right fun ⟨x, hx, hr⟩ => ⟨x, hx, codec_rel _ _ _ _ hr⟩⟩, hw.2⟩
  cases const with
  | false =>
    obtain ⟨bs, h1, h2, h3, h4⟩ := family_roundtrip (K := (· ∈ builtinKinds)) (cfg := cfg) (fun _ h => h)
      (E := viewOf cfg env k ty false t)
      (C := fun n => viewCodec cfg k ty (elem cfg env n t) (((codec R cfg env n t).byVal t).on (WT R env t)))
      (fun hnm => viewElem_le (elem_le cfg env hnm t) k ty false) (n0 := n0)
      (viewLaw hv.cfgOk hk L hpr (fun _ => u)) (x := v) ⟨ok, hel, fun _ => multi_of hm⟩
      (ok := fun _ => True) (fun _ _ => trivial)
      (rel := fun v w => v.Copy ty ((env.dflt t).getD (env.fresh t)) (Rel R env t) w ∧ w.Ok ty) hrel
    exact ⟨bs, h1, h2, h3, fun y rest => h4 y rest trivial⟩
  | true =>
    obtain ⟨bs, h1, h2, h3, h4⟩ := family_roundtrip (K := (· ∈ builtinKinds)) (cfg := cfg) (fun _ h => h)
      (E := viewOf cfg env k ty true t)
      (C := fun n => constCodec cfg k ty (elem cfg env n t) (((codec R cfg env n t).byVal t).on (WT R env t)))
      (fun hnm => viewElem_le (elem_le cfg env hnm t) k ty true) (n0 := n0)
      (constLaw hv.cfgOk hk L hpr u) (x := v) ⟨ok, hel, multi_of hm, ha rfl⟩
      (ok := fun _ => True) (fun _ _ => trivial)
      (rel := fun v w => v.Copy ty ((env.dflt t).getD (env.fresh t)) (Rel R env t) w ∧ w.Ok ty) hrel
    exact ⟨bs, h1, h2, h3, fun y rest => h4 y rest trivial⟩

theorem flatMap_length_le {α : Type} (f g : α → Bytes) : ∀ (l : List α), (∀ x ∈ l, (g x).length ≤ (f x).length) →
    (l.flatMap g).length ≤ (l.flatMap f).length
  | [], _ => Nat.le_refl _
  | x :: l, h => by
    have := flatMap_length_le f g l fun y hy => h y (by simp [hy])
    have := h x (by simp)
    simp only [List.flatMap_cons, List.length_append]
    omega

theorem flatMap_length_lt {α : Type} (f g : α → Bytes) : ∀ (l : List α), (∀ x ∈ l, (g x).length ≤ (f x).length) →
    (∃ x ∈ l, (g x).length < (f x).length) → (l.flatMap g).length < (l.flatMap f).length
  | x :: l, h, ⟨y, hy, hlt⟩ => by
    have h1 := h x (by simp)
    have h2 := flatMap_length_le f g l fun y hy => h y (by simp [hy])
    simp only [List.flatMap_cons, List.length_append]
    rcases List.mem_cons.1 hy with rfl | hy
    · omega
    · have := flatMap_length_lt f g l (fun y hy => h y (by simp [hy])) ⟨y, hy, hlt⟩
      omega

theorem node_length_lt {w : Bool} {ti : TI} {n : Nat} {p q : Bytes} (h : p.length < q.length) :
    (node cfg w ti n p).length < (node cfg w ti n q).length := by
  unfold node; split <;> simp [h]

/-- More bytes for longer elements. -/
theorem dataEnc_lt {T : Type} {e : Elem T} {c : Codec T} {v : View T} {d : List T}
    (hle : ∀ x ∈ d, (c.enc cfg.check e.zero).length ≤ (c.enc cfg.check x).length)
    {idx : List Nat} (hi : InRange idx v.extents) {x : T} (hx : d[v.offset idx]? = some x)
    (hlt : (c.enc cfg.check e.zero).length < (c.enc cfg.check x).length) :
    (dataEnc cfg cfg.check e c v (List.replicate d.length e.zero)).length < (dataEnc cfg cfg.check e c v d).length := by
  have hxd := List.mem_of_getElem? hx
  have hpos : 0 < d.length := List.length_pos_of_mem hxd
  unfold dataEnc
  split
  · unfold arrEnc
    rw [List.length_replicate, if_pos hpos, if_pos hpos]
    apply node_length_lt
    rw [flatMap_replicate_eq]
    exact flatMap_length_lt _ _ _ hle ⟨x, hxd, hlt⟩
  · apply flatMap_length_lt
    · intro j _
      unfold nodeEnc
      rw [List.getElem?_replicate]
      cases hj : d[v.offset j]? with
      | none =>
        have := List.getElem?_eq_none_iff.1 hj
        rw [if_neg (by omega)]
        exact Nat.le_refl _
      | some y =>
        rw [if_pos (List.getElem?_eq_some_iff.1 hj).1]
        have := hle y (List.mem_of_getElem? hj)
        unfold node; split <;> simpa using this
    · refine ⟨idx, mem_allIdx.2 hi, ?_⟩
      unfold nodeEnc
      apply node_length_lt
      rw [hx, List.getElem?_replicate, if_pos (List.getElem?_eq_some_iff.1 hx).1]
      exact hlt

theorem const_prepare (hv : env.Valid R (· ∈ builtinKinds) cfg) {k : ViewTI} (hk : k.Valid) {ty : ViewTy}
    (hh : ty.host = true) (hz : WT R env t ((env.dflt t).getD (env.fresh t)) ∧ ByVal t ((env.dflt t).getD (env.fresh t)))
    {v : View Val} (ok : v.Ok ty) (hx : ∀ x ∈ v.data, WT R env t x ∧ ByVal t x)
    (hm : env.ArrOk t v.size) (ha : v.alloc = true ∨ v.size = 0) :
    ∃ n0, ∀ n, n0 ≤ n → ConstP ty ((codec R cfg env n t).byVal t) v ∧
      ((codec R cfg env n t).byVal t).P (elem cfg env n t).zero ∧
      ∀ (s : Ser), s.Writer (Scope.quiet (· ∈ builtinKinds)) → s.headers = true →
        traverseTop cfg (viewOf cfg env k ty true t n) s v =
          (s.emit (node cfg true k.view 1 (viewEnc cfg k ty cfg.check (elem cfg env n t) ((codec R cfg env n t).byVal t)
            (if s.isPacking then constCopy ty (elem cfg env n t).zero v
             else constTmp ty (elem cfg env n t).zero v)))).bind fun s' => .ok (v, s') := by
  obtain ⟨n0, h0⟩ := eventually_list (xs := (env.dflt t).getD (env.fresh t) :: v.data)
    (Q := fun x n => (codec R cfg env n t).P x) (fun x hx' => codec_P (by
      rcases List.mem_cons.1 hx' with rfl | h
      · exact hz.1
      · exact (hx x h).1))
  refine ⟨n0, fun n hn => ?_⟩
  have h0 := h0 n hn
  have hP : ConstP ty ((codec R cfg env n t).byVal t) v :=
    ⟨ok, fun x hx' => ⟨h0 x (by simp [hx']), (hx x hx').2⟩, multi_of hm, ha⟩
  have hz0 : ((codec R cfg env n t).byVal t).P (elem cfg env n t).zero :=
    ⟨h0 ((elem cfg env n t).zero) (by simp [show (elem cfg env n t).zero = (env.dflt t).getD (env.fresh t) from rfl]), hz.2⟩
  exact ⟨hP, hz0, fun s hs hd => const_traverse hv.cfgOk hk ((law hv n t).byVal t) hh hP hz0 hs hd⟩

/-- C53: the size computed for a view of `const` elements does not depend on its elements. -/
theorem C53_size_ignores_elements (hv : env.Valid R (· ∈ builtinKinds) cfg) {k : ViewTI} (hk : k.Valid) {ty : ViewTy}
    (hh : ty.host = true) (hz : WT R env t ((env.dflt t).getD (env.fresh t)) ∧ ByVal t ((env.dflt t).getD (env.fresh t)))
    {v w : View Val} (okv : v.Ok ty) (okw : w.Ok ty) (hxv : ∀ x ∈ v.data, WT R env t x ∧ ByVal t x)
    (hxw : ∀ x ∈ w.data, WT R env t x ∧ ByVal t x) (hm : env.ArrOk t v.size)
    (hav : v.alloc = true) (haw : w.alloc = true) (h1 : v.label = w.label) (h2 : v.extents = w.extents)
    (h3 : v.strides = w.strides) :
    ∃ m, Yields (fun n => getSize cfg (viewOf cfg env k ty true t n) v) (.ok (m, v)) ∧
      Yields (fun n => getSize cfg (viewOf cfg env k ty true t n) w) (.ok (m, w)) := by
  obtain ⟨n1, p1⟩ := const_prepare hv hk hh hz okv hxv hm (.inl hav)
  obtain ⟨n2, p2⟩ := const_prepare hv hk hh hz okw hxw (by rw [View.size, ← h2]; exact hm) (.inl haw)
  have hw : Ser.Writer (Scope.quiet (· ∈ builtinKinds)) { core := .sizer 0, kind := .sizer } :=
    ⟨rfl, by simp [Scope.quiet, builtinKinds], by decide⟩
  have ht : ∀ z : Val, constTmp ty z v = constTmp ty z w := by
    intro z; simp only [constTmp, View.layoutVal, h1, h2, h3]
  have key : ∀ (u : View Val) n, getSize cfg (viewOf cfg env k ty true t n) u = 
      (traverseTop cfg (viewOf cfg env k ty true t n) { core := .sizer 0, kind := .sizer } u).bind
        fun p => .ok (p.2.count, p.1) := fun _ _ => rfl
  have le : ∀ (u : View Val) {n m}, n ≤ m → Out.Le (getSize cfg (viewOf cfg env k ty true t n) u)
      (getSize cfg (viewOf cfg env k ty true t m) u) := fun u n m hnm =>
    (traverseTop_le (viewElem_le (elem_le cfg env hnm t) k ty true) _ _).bind fun _ => .refl _
  obtain ⟨q1, -, r1⟩ := p1 (max n1 n2) (Nat.le_max_left _ _)
  obtain ⟨q2, -, r2⟩ := p2 (max n1 n2) (Nat.le_max_right _ _)
  have g1 := (key v _).trans (by rw [r1 _ hw rfl])
  have g2 := (key w _).trans (by rw [r2 _ hw rfl])
  simp only [Ser.isPacking, Ser.mode, Ser.emit, Out.bind_ok, ← ht] at g1 g2
  exact ⟨_, ⟨_, fun n hn => ((le v hn).eq_of_ne (by rw [g1]; simp)).trans g1⟩,
    ⟨_, fun n hn => ((le w hn).eq_of_ne (by rw [g2]; simp)).trans g2⟩⟩

/-- C53: if no element of a view of `const` elements is written with fewer bytes than a value-initialised one, and one with
more, then `serialize` writes past the end of its memory. -/
theorem C53_variable_size_overflows (hv : env.Valid R (· ∈ builtinKinds) cfg) {k : ViewTI} (hk : k.Valid) {ty : ViewTy}
    (hh : ty.host = true) (hz : WT R env t ((env.dflt t).getD (env.fresh t)) ∧ ByVal t ((env.dflt t).getD (env.fresh t)))
    {v : View Val} (ok : v.Ok ty) (hx : ∀ x ∈ v.data, WT R env t x ∧ ByVal t x) (hm : env.ArrOk t v.size)
    (ha : v.alloc = true) {zs : Bytes} (hzs : StreamForm cfg env t ((env.dflt t).getD (env.fresh t)) zs)
    (hle : ∀ x ∈ v.data, ∃ bs, StreamForm cfg env t x bs ∧ zs.length ≤ bs.length)
    {idx : List Nat} (hi : InRange idx v.extents) {x : Val} (hg : v.get? idx = some x) {bs : Bytes}
    (hbs : StreamForm cfg env t x bs) (hlt : zs.length < bs.length) :
    Yields (fun n => serialize cfg (viewOf cfg env k ty true t n) none v) (.ub .packOverflow) := by
  obtain ⟨n1, p1⟩ := const_prepare hv hk hh hz ok hx hm (.inl ha)
  refine ⟨n1, fun n hn => ?_⟩
  obtain ⟨hP, hz0, ht⟩ := p1 n hn
  have m := ok.madeTmp (elem cfg env n t).zero
  obtain ⟨d, h1, h2, h3, h4, h5, h6, h7⟩ := hP.copy hz0
  obtain ⟨d', h1', h2', -, h4'⟩ := deepCopy_tmp ok (elem cfg env n t).zero (.inl ha)
  have hdd : d' = d := by
    have := h1'.symm.trans h1
    simpa using this
  subst hdd
  -- lengths of the elements
  have len : ∀ y bs', (codec R cfg env n t).P y → StreamForm cfg env t y bs' →
      bs'.length = 12 + ((codec R cfg env n t).enc cfg.check y).length := by
    intro y bs' hy hs
    rw [enc_length_of_stream hv hy hs]
    simp [topEnc, node]; omega
  have lz := len _ _ hz0.1 hzs
  have hle' : ∀ y ∈ d', ((codec R cfg env n t).enc cfg.check (elem cfg env n t).zero).length ≤
      ((codec R cfg env n t).enc cfg.check y).length := by
    intro y hy
    rcases h4' y hy with rfl | h
    · exact Nat.le_refl _
    · obtain ⟨bs', hb, hl⟩ := hle y h
      have := len y bs' (hP.elems y h).1 hb
      omega
  have hlt' : ((codec R cfg env n t).enc cfg.check (elem cfg env n t).zero).length <
      ((codec R cfg env n t).enc cfg.check x).length := by
    have := len x bs (hP.elems x (List.mem_of_getElem? hg)).1 hbs
    omega
  have hd := dataEnc_lt (cfg := cfg) (e := elem cfg env n t) (c := (codec R cfg env n t).byVal t)
    (v := constTmp ty (elem cfg env n t).zero v) (d := d') hle' (idx := idx) (by rw [m.extents]; exact hi)
    (by rw [h7.1 idx hi]; exact hg) hlt'
  have hvl : (viewEnc cfg k ty cfg.check (elem cfg env n t) ((codec R cfg env n t).byVal t)
      (constTmp ty (elem cfg env n t).zero v)).length <
      (viewEnc cfg k ty cfg.check (elem cfg env n t) ((codec R cfg env n t).byVal t)
        { constTmp ty (elem cfg env n t).zero v with data := d' }).length := by
    rw [h3, ← m.data] at hd
    simp only [viewEnc, bodyEnc, List.length_append, m.alloc, if_true]
    exact Nat.add_lt_add_left (Nat.add_lt_add_left (Nat.add_lt_add_left (Nat.add_lt_add_left
      (Nat.add_lt_add_left (Nat.add_lt_add_left hd _) _) _) _) _) _
  have hnl := node_length_lt (cfg := cfg) (w := true) (ti := k.view) (n := 1) hvl
  have hw1 : Ser.Writer (Scope.quiet (· ∈ builtinKinds)) { core := .sizer 0, kind := .sizer } :=
    ⟨rfl, by simp [Scope.quiet, builtinKinds], by decide⟩
  have g1 : getSize cfg (viewOf cfg env k ty true t n) v = .ok ((0 + (node cfg true k.view 1
      (viewEnc cfg k ty cfg.check (elem cfg env n t) ((codec R cfg env n t).byVal t)
        (constTmp ty (elem cfg env n t).zero v))).length) % sizeMod, v) := by
    unfold getSize
    rw [ht _ hw1 rfl]
    rfl
  show serialize cfg (viewOf cfg env k ty true t n) none v = _
  unfold serialize
  rw [g1]
  simp only [Out.bind_eq, Out.bind_ok, packBuffer, packMem]
  rw [ht _ ⟨rfl, by simp [Scope.quiet, builtinKinds], by simp⟩ rfl]
  simp only [Ser.isPacking, Ser.mode, Ser.emit, h2, List.length_replicate]
  rw [if_neg]
  · rfl
  · have := Nat.mod_le (0 + (node cfg true k.view 1 (viewEnc cfg k ty cfg.check (elem cfg env n t)
      ((codec R cfg env n t).byVal t) (constTmp ty (elem cfg env n t).zero v))).length) sizeMod
    simp at *
    omega

/-- Numbers are written with their size. -/
theorem fixedSize_prim (hv : env.Valid R (· ∈ builtinKinds) cfg) (i sz : Nat) : FixedSize R cfg env (.prim i sz) := by
  refine ⟨12 + sz, fun x hx _ => ?_⟩
  obtain ⟨bs, hs⟩ := StreamForm.exists hv hx
  obtain ⟨n, hn⟩ := codec_P (cfg := cfg) hx
  have h1 := enc_length_of_stream hv (hn (n + 1) (by omega)) hs
  cases hx with
  | prim hl =>
    refine ⟨bs, hs, ?_⟩
    rw [h1]
    simp only [topEnc, node, if_true, List.length_append, intBytes_length, codec, rawCodec]
    omega

example : Demo.strided.Ok ⟨.stride, [none, none], true⟩ ∧ FixedSize .contents (Demo.cfg true true) Demo.env Demo.int ∧
    WT .contents Demo.env Demo.int ((Demo.env.dflt Demo.int).getD (Demo.env.fresh Demo.int)) :=
  ⟨Demo.strided_ok, fixedSize_prim Demo.valid_contents _ _, .prim rfl⟩

/-- `View<std::string const*>` of two strings. -/
def Demo.names : View Val :=
  { label := [], extents := [2], strides := [1], span := 2, alloc := true,
    data := [.str ⟨15, []⟩, .str ⟨15, [65]⟩] }

theorem Demo.names_ok : Demo.names.Ok ⟨.left, [none], true⟩ where
  rank_le := by decide
  extents := rfl
  strides := rfl
  static i n h := by
    rcases i with _ | i <;> simp at h
  ext_lt := by decide
  str_lt _ := by decide
  size_lt := by decide
  label_lt := by decide
  data _ := rfl
  inside idx h := by
    cases h with
    | cons h1 h2 => cases h2; simpa [View.offset, Demo.names] using h1
  span h := by cases h
  compact _ h _ := by simpa [Layout.compact, leftStrides, Demo.names] using h
  scalar h := by cases h

theorem Demo.str_wt {cs : Bytes} (h : cs.length ≤ 15) : WT .contents Demo.env .str (.str ⟨15, cs⟩) := by
  constructor <;> simp_all
  omega

theorem Demo.str_form (cs : Bytes) (h : cs.length ≤ 15) :
    ∃ bs, StreamForm (Demo.cfg false true) Demo.env .str (.str ⟨15, cs⟩) bs ∧ bs.length = 12 + (8 + cs.length) := by
  obtain ⟨bs, hs⟩ := StreamForm.exists (Demo.valid_contents (check := false) (ndebug := true)) (Demo.str_wt h)
  obtain ⟨n, hn⟩ := codec_P (cfg := Demo.cfg false true) (Demo.str_wt h)
  refine ⟨bs, hs, ?_⟩
  rw [enc_length_of_stream Demo.valid_contents (hn (n + 1) (by omega)) hs]
  simp only [topEnc, node, if_true, codec, strEnc, sizeNode, Demo.cfg, Bool.false_eq_true, if_false,
    List.length_append, intBytes_length]
  split
  · omega
  · have : cs.length = 0 := by omega
    simp [this]

/-- One string that is not empty is enough. -/
example : Yields (fun n => serialize (Demo.cfg false true) (viewOf (Demo.cfg false true) Demo.env Demo.viewTI ⟨.left, [none], true⟩ true .str n)
    none Demo.names) (.ub .packOverflow) := by
  obtain ⟨zs, hz, lz⟩ := Demo.str_form [] (by simp)
  obtain ⟨as, ha, la⟩ := Demo.str_form [65] (by simp)
  refine C53_variable_size_overflows Demo.valid_contents Demo.viewTI_valid rfl ⟨Demo.str_wt (by simp), trivial⟩ Demo.names_ok
    ?_ ⟨nofun, fun h => h.elim⟩ rfl hz ?_ (idx := [1]) (.cons (by decide) .nil) (x := .str ⟨15, [65]⟩) rfl ha (by simp [lz, la])
  · intro x hx
    simp only [Demo.names, List.mem_cons, List.not_mem_nil, or_false] at hx
    rcases hx with rfl | rfl <;> exact ⟨Demo.str_wt (by simp), trivial⟩
  · intro x hx
    simp only [Demo.names, List.mem_cons, List.not_mem_nil, or_false] at hx
    rcases hx with rfl | rfl
    · exact ⟨zs, hz, Nat.le_refl _⟩
    · exact ⟨as, ha, by simp [lz, la]⟩

end Ckpt
