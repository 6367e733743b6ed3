import Verif.Proofs.Counts
import Verif.Model.Adaptors
/-!
What the footprinter counts: pairs, tuples, pointers, Kokkos classes, the API.
-/

set_option autoImplicit false

namespace Ckpt

variable {R : RelMode} {cfg : Cfg} {env : Env} {T A B O V : Type}

/-! ### Parts -/

theorem pair_counts {a : CppType A} {b : CppType B} {ti : TI} {x : A} {y : B} {f g : Nat} (hx : Counts cfg a x f)
    (hy : Counts cfg b y g) : Counts cfg (.pair cfg ti a b) (x, y) (ti.sizeof + (f + g)) := by
  obtain ⟨n1, h1⟩ := counts_iff.1 hx
  obtain ⟨n2, h2⟩ := counts_iff.1 hy
  refine counts_each (fun _ => rfl) ⟨max n1 n2, fun n hn => ?_⟩
  have h3 := ((h1 n (by omega)).bind (k := fun p => pipe cfg (b.elem n) p.2 y >>= fun q => .ok ((p.1, q.1), q.2))
    (c := (x, y)) ((h2 n (by omega)).map fun r => (x, r))).addBytes_pre (k := ti.sizeof)
  refine h3.congr (fun s hs => ?_) rfl
  simp [serPair]

theorem tuple_counts (ho : OrderOk cfg) {ms : MemberTypes O} {ti : TI} {o : O} {fs : List Nat} (h : ms.Counts cfg o fs) :
    Counts cfg (.tuple cfg ti ms) o fs.sum := by
  obtain ⟨n0, h0⟩ := part_counts h
  refine counts_each (fun _ => rfl) ⟨n0, fun n hn => ?_⟩
  have hl := h.length
  refine (order_counts (g := fun i => fs.getD i 0) fun i hi => h0 n hn i ?_).congr (fun _ _ => rfl) ?_
  · rw [hl]; exact List.mem_range.1 ((ho _).mem_iff.1 hi)
  · rw [((ho ms.length).map _).sum_nat, ← hl]
    congr 1
    apply List.ext_getElem
    · simp
    · intro i h1 h2
      have h1 : i < fs.length := by simpa using h1
      simp [List.getElem?_eq_getElem h1]

theorem cls_counts {ms : MemberTypes O} {ti : TI} {fresh : O} {dflt : Option O} {c : Bool} {o : O} {fs : List Nat}
    (h : ms.Counts cfg o fs) : Counts cfg (.cls cfg ti fresh dflt c ms) o fs.sum :=
  counts_each (fun _ => rfl) (members_counts h)

theorem variant_counts (hc : cfg.Valid) {as : AltTypes V} (hl : as.length ≤ 2 ^ 64) {ti : TI} {v : V} {f : Nat}
    (h : as.Counts cfg v f) : Counts cfg (.variant cfg ti as) (some v) (8 + f) := by
  obtain ⟨n0, h0⟩ := alt_counts h
  refine counts_each (fun _ => rfl) ⟨n0, fun n hn => ?_⟩
  unfold AltTypes.serialize
  have hlt := h.at_lt
  exact (pipeSize_fp hc (show as.index (some v) < 2 ^ 64 by simp only [AltTypes.index]; omega)).bind (h0 n hn)

theorem optional_counts {t : CppType T} {ti : TI} {x : Option T} :
    Counts cfg (.optional cfg ti t) x (ti.sizeof + match x with | none => 0 | some _ => t.ti.sizeof) :=
  counts_each (fun _ => rfl) ⟨0, fun _ _ => (opt_fp).congr (fun _ _ => rfl) (by cases x <;> rfl)⟩

theorem uptr_counts {K : Scope} {e : Elem T} {sz : Nat} {virt : Option (Virt T)} {x : Option T} {f : Nat}
    (h : match x with | none => f = 0 | some v => Fp K (fun s => pipe cfg e s v) f v) :
    Fp K (fun s => serUniquePtr cfg sz e virt s x) (sz + f) x := by
  cases x with
  | none =>
    obtain rfl : f = 0 := h
    refine (Fp.addBytes_post none sz).congr ?_ rfl
    intro s hs
    simp [serUniquePtr, hs.footprinting]
  | some v =>
    have h : Fp K (fun s => pipe cfg e s v) f v := h
    refine ((h.map some).addBytes_pre (k := sz)).congr ?_ rfl
    intro s hs
    have hs' := hs.addBytes sz
    cases virt <;> simp [serUniquePtr, hs.footprinting, reconstructPointedTo, hs'.not_unpacking,
      hs'.footprinting, Out.assertThat]

theorem queueLike_counts {t : CppType T} {ti : TI} {c : Bool} {xs : List T} :
    Counts cfg (.queueLike ti c t) xs (ti.sizeof + t.ti.sizeof * xs.length) := by
  refine counts_each (fun _ => rfl) ⟨0, fun n _ => ?_⟩
  refine (queue_fp (cfg := cfg) (e := t.elem n) (sz := ti.sizeof) (xs := xs)).congr (fun s hs => ?_) rfl
  simp [serQueueLike, serQueue, hs.footprinting]

/-! ### Kokkos classes -/

section
variable {K : Scope} {t : CppType T} {u : Usage T} {C : Nat → Codec T}

theorem indices_eq : ∀ (ns : List Nat), indices ns = allIdx ns
  | [] => rfl
  | n :: ns => by simp only [indices, allIdx, indices_eq ns]

theorem dataFp_counts (hC : Composes K cfg t u C) (hK : K.kinds .footprinter) {n : Nat} {f : T → Nat} {ty : ViewTy} {v : View T}
    (ok : v.Ok ty) (ha : v.alloc = true) (hP : ∀ x ∈ v.data, (C n).P x)
    (hf : ∀ x ∈ v.data, Fp footScope (fun s => pipe cfg (t.elem n) s x) (f x) x) :
    dataFp (C n) (t.elem n) v v.data % 2 ^ 64 = (v.counted f) % 2 ^ 64 := by
  unfold dataFp View.counted
  rw [indices_eq]
  simp only [ha, if_true]
  cases v.contig
  · simp only [Bool.false_eq_true, if_false]
    apply sum_mod_congr
    intro idx hi
    have hlt : v.offset idx < v.data.length := by rw [ok.data ha]; exact ok.inside _ (mem_allIdx.1 hi)
    simp only [View.get?, List.getElem?_eq_getElem hlt, Option.getD_some, Option.map_some]
    exact hC.fp_eq hK (hP _ (List.getElem_mem hlt)) (hf _ (List.getElem_mem hlt))
  · simp only [if_true]
    exact sum_mod_congr fun x hx => hC.fp_eq hK (hP x hx) (hf x hx)

theorem view_counts (hc : cfg.Valid) (hC : Composes K cfg t u C) (hK : K.kinds .footprinter) {k : ViewTI} (hk : k.Valid)
    {ty : ViewTy} (hh : ty.host = true) {v : View T} (hv : (Usage.view ty t u).ok v) {f : T → Nat}
    (hf : ∀ x ∈ v.data, Counts cfg t x (f x)) :
    Counts cfg (.view cfg k ty t) v (k.str.sizeof + cfg.grow v.label.length + 4 + ty.layout.counted + 10 + v.counted f) := by
  have hV := view_composes hc hC hk hh
  obtain ⟨n0, h0⟩ := hV.ok v hv
  obtain ⟨n1, h1⟩ := Counts.fps hf
  refine hV.counts hK ⟨max n0 n1, fun n hn => ⟨h0 n (by omega), ?_⟩⟩
  have hl : v.layoutVal.length = 8 := by
    have := hv.1.rank_le
    have := hv.1.extents
    have := hv.1.strides
    simp [View.layoutVal]
    omega
  show ((k.str.sizeof + cfg.grow v.label.length) + (4 + (v.layoutVal.length * _ + bodyFp ty (t.elem n) (C n) v))) % _ = _
  rw [hl, bodyFp]
  cases ha : v.alloc
  · simp only [View.counted, ha, Layout.counted]
    cases ty.layout <;> simp <;> omega
  · have h2 := dataFp_counts hC hK hv.1 ha ((h0 n (by omega)).elems) (h1 n (by omega))
    simp only [sizedData, hh, if_true]
    simp only [Layout.counted]
    cases ty.layout <;> simp <;> omega

theorem dataFp_zero {c : Codec T} {e : Elem T} {v : View T} {d : Nat} (hd : d = v.span) :
    dataFp c e v (List.replicate d e.zero) = v.size * c.fp e.zero := by
  unfold dataFp
  cases hcg : v.contig
  · have h : ∀ idx, ((List.replicate d e.zero)[v.offset idx]?).getD e.zero = e.zero := by
      intro idx
      rw [List.getElem?_replicate]
      split <;> rfl
    simp only [Bool.false_eq_true, if_false, h, List.map_const', List.sum_replicate_nat, allIdx_length, View.size]
  · have hs : v.span = v.size := by simpa [View.contig] using hcg
    simp only [if_true, List.map_replicate, List.sum_replicate_nat, hd, hs]

theorem layoutVal_length {ty : ViewTy} {v : View T} (ok : v.Ok ty) : v.layoutVal.length = 8 := by
  have := ok.rank_le
  have := ok.extents
  have := ok.strides
  simp [View.layoutVal]
  omega

theorem mul_mod_congr {a b k : Nat} (h : a % 2 ^ 64 = b % 2 ^ 64) : k * a % 2 ^ 64 = k * b % 2 ^ 64 := by
  rw [Nat.mul_mod, h, ← Nat.mul_mod]

theorem deviceView_counts (hK : ∀ k, K.kinds k ↔ k ∈ builtinKinds) (hc : cfg.Valid) (hC : Composes K cfg t u C)
    {k : ViewTI} (hk : k.Valid) {ty : ViewTy} (hh : ty.host = false) (hss : t.SameSize cfg u) (hz : u.ok t.zero) {v : View T}
    (hv : (Usage.view ty t u).ok v) {f : Nat} (hf : Counts cfg t t.zero f) :
    Counts cfg (.view cfg k ty t) v (k.str.sizeof + cfg.grow v.label.length + 4 + ty.layout.counted + 10 +
      if v.alloc then v.size * f else 0) := by
  have hV := deviceView_composes hK hc hC hk (ty := ty) hss hz
  have hK' : K.kinds .footprinter := (hK _).2 (by decide)
  obtain ⟨n0, h0⟩ := hV.ok v hv
  obtain ⟨n1, h1⟩ := counts_iff.1 hf
  obtain ⟨n2, h2⟩ := hC.ok _ hz
  refine hV.counts hK' ⟨max n0 (max n1 n2), fun n hn => ⟨h0 n (by omega), ?_⟩⟩
  have hl := layoutVal_length hv.1
  show ((k.str.sizeof + cfg.grow v.label.length) + (4 + (v.layoutVal.length * _ +
    bodyFp ty (t.elem n) ((C n).on u.ok) v))) % _ = _
  rw [hl, bodyFp]
  cases ha : v.alloc
  · simp only [Layout.counted]
    cases ty.layout <;> simp <;> omega
  · have h3 : (C n).fp t.zero % 2 ^ 64 = f % 2 ^ 64 := hC.fp_eq hK' (h2 n (by omega)) (h1 n (by omega))
    simp only [sizedData, hh, if_true, Bool.false_eq_true, if_false, dataFp_zero (hv.1.data ha)]
    have h4 := mul_mod_congr (k := v.size) h3
    have h5 : ((C n).on u.ok).fp (t.elem n).zero = (C n).fp t.zero := rfl
    rw [h5]
    simp only [Layout.counted]
    cases ty.layout <;> simp <;> omega

theorem constView_counts (hK : ∀ k, K.kinds k ↔ k ∈ builtinKinds) (hc : cfg.Valid) (hC : Composes K cfg t u C)
    {k : ViewTI} (hk : k.Valid) {ty : ViewTy} (hss : t.SameSize cfg u) (hz : u.ok t.zero) {v : View T}
    (hv : (Usage.constView ty t u).ok v) {f : Nat} (hf : Counts cfg t t.zero f) :
    Counts cfg (.constView cfg k ty t) v (k.str.sizeof + cfg.grow v.label.length + 4 + ty.layout.counted + 10 +
      v.size * f) := by
  have hV := constView_composes hK hc hC hk (ty := ty) hss hz
  have hK' : K.kinds .footprinter := (hK _).2 (by decide)
  obtain ⟨n0, h0⟩ := hV.ok v hv
  obtain ⟨n1, h1⟩ := counts_iff.1 hf
  obtain ⟨n2, h2⟩ := hC.ok _ hz
  refine hV.counts hK' ⟨max n0 (max n1 n2), fun n hn => ⟨h0 n (by omega), ?_⟩⟩
  have m := hv.1.madeTmp (t.elem n).zero
  have h6 := (h0 n (by omega)).1.copy (e := t.elem n) ⟨h2 n (by omega), hz⟩
  obtain ⟨d, _, _, _, _, _, h6, _⟩ := h6
  have hl := layoutVal_length h6.ok
  have hsz : (constTmp ty (t.elem n).zero v).size = v.size := by simp only [View.size, m.extents]
  show ((k.str.sizeof + cfg.grow v.label.length) + (4 + ((constTmp ty (t.elem n).zero v).layoutVal.length * _ +
    bodyFp ty (t.elem n) ((C n).on u.ok) (constTmp ty (t.elem n).zero v)))) % _ = _
  rw [hl, bodyFp]
  have h3 : (C n).fp t.zero % 2 ^ 64 = f % 2 ^ 64 := hC.fp_eq hK' (h2 n (by omega)) (h1 n (by omega))
  have h7 : sizedData ty (t.elem n) (constTmp ty (t.elem n).zero v) =
      List.replicate (constTmp ty (t.elem n).zero v).span (t.elem n).zero := by
    unfold sizedData
    rw [m.data]
    simp
  have h4 := mul_mod_congr (k := v.size) h3
  have h5 : ((C n).on u.ok).fp (t.elem n).zero = (C n).fp t.zero := rfl
  rw [h7, m.alloc, dataFp_zero rfl, h5, hsz]
  simp only [Layout.counted]
  cases ty.layout <;> simp <;> omega

theorem dynRank_counts (hc : cfg.Valid) (hC : Composes K cfg t u C) (hK : K.kinds .footprinter) {k : DynTI} (hk : k.Valid)
    {l : Layout} {v : DynRank T} (hv : (Usage.dynRank l t u).ok v) {f : T → Nat}
    (hf : ∀ x ∈ v.view.data, Counts cfg t x (f x)) :
    Counts cfg (.dynRank cfg k l t) v (k.str.sizeof + cfg.grow v.view.label.length + 4 + l.counted + 8 +
      if v.made then 2 + v.view.counted f else 0) := by
  have hV := dynRank_composes hc hC hk l
  obtain ⟨n0, h0⟩ := hV.ok v hv
  obtain ⟨n1, h1⟩ := Counts.fps hf
  refine hV.counts hK ⟨max n0 n1, fun n hn => ⟨h0 n (by omega), ?_⟩⟩
  have hl := (h0 n (by omega)).layout.2.1
  show ((k.str.sizeof + cfg.grow v.view.label.length) + (4 + (v.view.layoutVal.length * _ + (8 + _)))) % _ = _
  rw [hl]
  cases hm : v.made
  · simp only [Layout.counted]
    cases l <;> simp <;> omega
  rcases hv.1 with rfl | ⟨_, ok, _⟩
  · cases hm
  cases ha : v.view.alloc
  · simp only [View.counted, ha, Layout.counted]
    cases l <;> simp <;> omega
  · have h2 := dataFp_counts hC hK ok ha ((h0 n (by omega)).elems) (h1 n (by omega))
    simp only [Layout.counted]
    cases l <;> simp <;> omega

theorem dynamic_counts (hc : cfg.Valid) (hC : Composes K cfg t u C) (hK : K.kinds .footprinter) {k : DynamicTI} (hk : k.Valid)
    {v : DynamicView T} (hv : (Usage.dynamic u).ok v) {f : T → Nat} (hf : ∀ x ∈ v.elems, Counts cfg t x (f x)) :
    Counts cfg (.dynamic cfg k t) v (k.str.sizeof + cfg.grow v.label.length + 24 + (v.elems.map f).sum) := by
  have hV := dynamic_composes hc hC hk
  obtain ⟨n0, h0⟩ := hV.ok v hv
  obtain ⟨n1, h1⟩ := Counts.fps hf
  refine hV.counts hK ⟨max n0 n1, fun n hn => ⟨h0 n (by omega), ?_⟩⟩
  have h2 := sum_mod_congr (xs := v.elems) fun x hx => hC.fp_eq hK ((h0 n (by omega)).2 x hx) (h1 n (by omega) x hx)
  show ((k.str.sizeof + cfg.grow v.label.length) + (8 + (8 + (8 + (v.elems.map (C n).fp).sum)))) % _ = _
  omega

end

theorem kmap_counts {k : KMapTI} {h : KHash A B} {a : CppType A} {b : CppType B} {m : KMap A B} :
    Counts cfg (.kmap cfg k h a b) m (k.map.sizeof + (m.capacity * a.ti.sizeof + m.size * b.ti.sizeof)) := by
  refine counts_each (t := .kmap cfg k h a b) (fun _ => rfl) ⟨0, fun n _ => ?_⟩
  refine (serKMap_fp (cfg := cfg)).mod ?_
  simp only [kmapFp, sizeMod, CppType.elem]
  omega

/-! ### Classes with virtual serialization -/

theorem object_counts (hv : env.Usable R (· ∈ builtinKinds) cfg) {d : Nat} {ms : MemberTypes O} {ti : TI} {fresh : O}
    {dflt : Option O} {c : Bool} (hfit : ms.length = (env.chain d).length) {o : O} {fs : List Nat} (h : ms.Counts cfg o fs) :
    Counts cfg (.object cfg env d ti fresh dflt c ms) o fs.sum := by
  obtain ⟨n0, h0⟩ := chain_counts (reg := env.serReg) (root := env.root d) h (env.chain d) hfit.symm fun k hk =>
    chain_lookup (K := Scope.quiet (· ∈ builtinKinds)) (fun _ => Iff.rfl) hv d k hk .footprinter (by simp [Scope.quiet, builtinKinds])
  exact counts_iff.2 ⟨n0, fun n hn => first_fp rfl (h0 n hn)⟩

theorem polyPtr_counts (hv : env.Usable R (· ∈ builtinKinds) cfg) {ds : DynTypes V} (hfit : ds.Fits env) {ti cti : TI}
    {k : Nat} {any : V} {v : V} {fs : List Nat} (h : ds.Counts cfg v fs) :
    Counts cfg (.polyPtr cfg env ti k cti any ds) (some v) (ti.sizeof + fs.sum) := by
  obtain ⟨n0, h0⟩ := dyn_counts h (fun d _ k hk =>
    chain_lookup (K := Scope.quiet (· ∈ builtinKinds)) (fun _ => Iff.rfl) hv d k hk .footprinter (by simp [Scope.quiet, builtinKinds])) hfit
  refine counts_each (fun _ => rfl) ⟨n0, fun n hn => uptr_counts (x := some v) ?_⟩
  show Fp footScope (fun s => pipe cfg (ds.elem cfg env cti any n) s v) fs.sum v
  exact first_fp (t := { ti := cti, apply := fun n => dispatchFirst (ds.serialize cfg env n), fresh := any, dflt := none, copyable := false })
    rfl (h0 n hn)

theorem polyPtr_null {ds : DynTypes V} {ti cti : TI} {k : Nat} {any : V} :
    Counts cfg (.polyPtr cfg env ti k cti any ds) none ti.sizeof :=
  counts_each (fun _ => rfl) ⟨0, fun _ _ => uptr_counts (x := none) rfl⟩

theorem uniquePtr_counts {t : CppType T} {ti : TI} {x : T} {f : Nat} (h : Counts cfg t x f) :
    Counts cfg (.uniquePtr cfg ti t) (some x) (ti.sizeof + f) := by
  obtain ⟨n0, h0⟩ := counts_iff.1 h
  exact counts_each (fun _ => rfl) ⟨n0, fun n hn => uptr_counts (x := some x) (h0 n hn)⟩

theorem uniquePtr_null {t : CppType T} {ti : TI} : Counts cfg (.uniquePtr cfg ti t) none ti.sizeof :=
  counts_each (fun _ => rfl) ⟨0, fun _ _ => uptr_counts (x := none) rfl⟩

/-! ### The API -/

theorem footprint_counts {t : CppType T} {x : T} {f : Nat} (h : Counts cfg t x f) (off : Nat) :
    Yields (fun n => getMemoryFootprint cfg (t.elem n) x off) (.ok ((off + max (f % 2 ^ 64) t.ti.sizeof) % 2 ^ 64, x)) := by
  obtain ⟨n0, h0⟩ := h
  refine ⟨n0, fun n hn => ?_⟩
  have hp : pipe cfg (t.elem n) (.counted 0) x = .ok (x, .counted (f % 2 ^ 64)) := by
    rw [h0 n hn 0 (by decide), Nat.zero_add]
  have hF : ∀ m < 2 ^ 64, (Ser.counted m).Footer footScope := fun m hm => footScope_iff.2 ⟨m, hm, rfl⟩
  have ht : traverseTop cfg (t.elem n) (.counted 0) x = .ok (x, .counted (f % 2 ^ 64)) := by
    unfold traverseTop
    cases cfg.check with
    | true => exact hp
    | false =>
      simp only [Bool.false_eq_true, if_false, withTypeIdx_fp (hF 0 (by decide)), Out.bind_eq, Out.bind_ok, hp,
        withMemUsed_fp (hF _ (Nat.mod_lt f (by decide)))]
  show (traverseTop cfg (t.elem n) (.counted 0) x >>= _) = _
  rw [ht]
  rfl

end Ckpt
