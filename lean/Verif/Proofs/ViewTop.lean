import Verif.Proofs.View
import Verif.Proofs.Api
/-!
Views at the entry points.
-/

set_option autoImplicit false

namespace Ckpt

/-! ### Families of element types that refine each other -/

section
variable {T : Type} {cfg : Cfg} {K : Kind → Prop}

/-- What the entry points do with an object that has laws. -/
theorem family_roundtrip (hK : ∀ k, k ∈ builtinKinds → K k) {E : Nat → Elem T} {C : Nat → Codec T}
    (hE : ∀ {n m : Nat}, n ≤ m → Elem.Le (E n) (E m))
    {n0 : Nat} (hL : Law (Scope.quiet K) cfg (E n0).ti (E n0).apply (C n0)) {x : T} (hP : (C n0).P x)
    {ok : T → Prop} (hpr : ∀ y, ok y → (C n0).prior x y) {rel : T → T → Prop} (hrel : ∀ z, (C n0).rel x z → rel x z) :
    ∃ bs, Yields (fun n => serializeToStream cfg (E n) x { data := [] }) (.ok (x, { data := bs })) ∧
      Yields (fun n => getSize cfg (E n) x) (.ok (bs.length % 2 ^ 64, x)) ∧
      (bs.length < 2 ^ 64 → Yields (fun n => serialize cfg (E n) none x)
        (.ok ({ mem := bs, size := bs.length, managed := true, calls := [] }, x))) ∧
      ∀ y rest, ok y →
        (∃ z, rel x z ∧ Yields (fun n => deserializeInPlace cfg (E n) (bs ++ rest) y) (.ok (z, bs.length))) ∧
        (∃ z, rel x z ∧ Yields (fun n => deserializeInPlaceFromStream cfg (E n) (bs ++ rest) y) (.ok (z, rest))) := by
  have at' : ∀ {α : Type} {f : Nat → Out α} {a : α}, (∀ {n m}, n ≤ m → Out.Le (f n) (f m)) → f n0 = .ok a →
      Yields f (.ok a) := by
    intro α f a hm h
    exact ⟨n0, fun n hn => ((hm hn).eq_of_ne (by rw [h]; simp)).trans h⟩
  have hser : ∀ {n m : Nat}, n ≤ m → Out.Le (serialize cfg (E n) none x) (serialize cfg (E m) none x) := by
    intro n m hnm
    refine Out.Le.bind ((traverseTop_le (hE hnm) _ _).bind fun _ => .refl _) fun _ => ?_
    exact Out.Le.bind ((traverseTop_le (hE hnm) _ _).bind fun _ => .refl _) fun _ => .refl _
  refine ⟨topEnc cfg (E n0).ti (C n0) x, ?_, ?_, ?_, ?_⟩
  · exact at' (fun hnm => toStream_le (hE hnm) _ _)
      (by simpa using toStream_law (K := Scope.quiet K) hK hL hP ⟨[], none⟩ (by simp))
  · exact at' (fun hnm => (traverseTop_le (hE hnm) _ _).bind fun _ => .refl _)
      (getSize_law (K := Scope.quiet K) hK hL hP)
  · intro hfit
    refine at' hser ?_
    rw [serialize_law (K := Scope.quiet K) hK hL hP hfit none]
    rfl
  · intro y rest hy
    obtain ⟨z, hz, he⟩ := inPlace_law (K := Scope.quiet K) hK (fun _ h => h) hL hP (hpr y hy) rest
    obtain ⟨z', hz', he'⟩ := inStream_law (K := Scope.quiet K) hK (fun _ h => h) hL hP (hpr y hy) rest
    exact ⟨⟨z, hrel z hz, at' (fun hnm => inPlace_le (hE hnm) _ _) he⟩,
      ⟨z', hrel z' hz', at' (fun hnm => inStream_le (hE hnm) _ _) he'⟩⟩

end

/-! ### Views of refining element types -/

section
variable {T : Type} {cfg : Cfg} {e e' : Elem T} {fl : Failure}

theorem runAll_le {α σ : Type} {f g : α → σ → Out σ} (h : ∀ a st, Out.Or fl (f a st) (g a st)) :
    ∀ (l : List α) (st : σ), Out.Or fl (runAll f l st) (runAll g l st)
  | [], _ => .refl _
  | a :: l, st => Out.Or.bind (h a st) fun st => runAll_le h l st

theorem zero_of_le (h : Elem.Or fl e e') : e'.zero = e.zero := by
  rw [h.1]; rfl

theorem viewElement_le (h : Elem.Or fl e e') (v : View T) (idx : List Nat) (st : List T × Ser) :
    Out.Or fl (viewElement cfg e v idx st) (viewElement cfg e' v idx st) := by
  unfold viewElement
  rw [zero_of_le h]
  split
  · exact .refl _
  · split
    · exact (pipe_le h _ _).bind fun _ => .refl _
    · split
      · exact (pipe_le h _ _).bind fun _ => .refl _
      · exact (pipe_le h _ _).bind fun _ => .refl _

theorem serViewElems_le (h : Elem.Or fl e e') (num : Nat) (contig : Bool) (v : View T) (st : List T × Ser) :
    Out.Or fl (serViewElems cfg e num contig v st) (serViewElems cfg e' num contig v st) := by
  unfold serViewElems
  split
  · unfold viewArray
    split
    · exact (serializeArray_le h _ _).bind fun _ => .refl _
    · exact .refl _
  · rw [traverseManual_eq, traverseManual_eq]
    exact runAll_le (fun idx st => viewElement_le h v _ st) _ _

theorem serView_le (h : Elem.Or fl e e') (k : ViewTI) (ty : ViewTy) (s : Ser) (v : View T) :
    Out.Or fl (serView cfg k ty e s v) (serView cfg k ty e' s v) := by
  unfold serView
  rw [zero_of_le h]
  refine Out.Or.bind (.refl _) fun _ => Out.Or.bind (.refl _) fun _ => Out.Or.bind (.refl _) fun p => ?_
  unfold serViewBody
  refine Out.Or.bind (.refl _) fun _ => Out.Or.bind (.refl _) fun _ => Out.Or.bind (.refl _) fun p => ?_
  dsimp only
  split
  · unfold serViewData
    rw [zero_of_le h]
    exact (serViewElems_le h _ _ _ _).bind fun _ => .refl _
  · exact .refl _

theorem serConstView_le (h : Elem.Or fl e e') (k : ViewTI) (ty : ViewTy) (s : Ser) (v : View T) :
    Out.Or fl (serConstView cfg k ty e s v) (serConstView cfg k ty e' s v) := by
  unfold serConstView
  rw [zero_of_le h]
  exact Out.Or.bind (.refl _) fun _ => (serView_le h k ty _ _).bind fun _ => .refl _

theorem viewElem_le (h : Elem.Or fl e e') (k : ViewTI) (ty : ViewTy) (const : Bool) :
    Elem.Or fl (viewElem cfg k ty const e) (viewElem cfg k ty const e') := by
  refine ⟨rfl, ?_⟩
  refine dispatchEach_le fun s x => ?_
  cases const
  · exact serView_le h k ty s x
  · exact serConstView_le h k ty s x

end

/-! ### Serializers that do not all see the same bytes -/

section
variable {T : Type} {cfg : Cfg} {K : Scope} {e e' : Elem T} {x : T}

/-- `top_wr` without the other laws. -/
theorem top_wr_of (hti : e.ti.Valid) {enc : Bool → Bytes} (hw : Wr K cfg (fun s => e.apply s [x]) enc [x]) {s : Ser}
    (hs : s.Writer K) (hh : s.headers = true) :
    traverseTop cfg e s x = (s.emit (node cfg true e.ti 1 (enc cfg.check))).bind fun s' => .ok (x, s') := by
  have hp : Wr K cfg (fun s => pipe cfg e s x) (fun w => node cfg w e.ti 1 (enc w)) x :=
    (only_wr (traverse_wr hti hw)).congr (fun _ _ => pipe_eq _ _ _) (fun w => rfl)
  unfold traverseTop
  cases hc : cfg.check with
  | true =>
    simp only [if_true]
    rw [show pipe cfg e s x = _ from hp s hs]
    simp [hc, hh]
  | false =>
    simp only [Bool.false_eq_true, if_false, Out.bind_eq]
    rw [withTypeIdx_emit hti hs, hh]
    simp only [if_true, node]
    rw [Ser.emit_append, Ser.emit_append]
    rcases Ser.emit_cases s (intBytes cfg.endian 4 e.ti.idx) with ⟨s1, h1⟩ | h1
    · obtain ⟨w1, e1, -, -⟩ := Ser.emit_ok hs h1
      simp only [h1, Out.bind_ok]
      rw [show pipe cfg e s1 x = _ from hp s1 w1]
      simp only [hc, Bool.false_and, node, Bool.false_eq_true, if_false]
      rcases Ser.emit_cases s1 (enc false) with ⟨s2, h2⟩ | h2
      · obtain ⟨w2, e2, -, -⟩ := Ser.emit_ok w1 h2
        simp only [h2, Out.bind_ok]
        rw [withMemUsed_emit w2, e2, e1, hh]
        simp
      · simp [h2]
    · simp [h1]

theorem emit_packing {s s' : Ser} {bs : Bytes} (h : s.emit bs = .ok s') : s'.isPacking = s.isPacking := by
  obtain ⟨core, kind, vdis⟩ := s
  cases core <;> simp only [Ser.emit] at h
  case packer =>
    split at h
    · cases h; rfl
    · cases h
  all_goals (cases h; rfl)

/-- Only serializers of the same mode matter. -/
theorem traverseTop_mode (hti : e'.ti = e.ti) (hv : e.ti.Valid) {s : Ser} (hs : s.Writer K)
    (h : ∀ s', s'.Writer K → s'.isPacking = s.isPacking → e.apply s' [x] = e'.apply s' [x]) :
    traverseTop cfg e s x = traverseTop cfg e' s x := by
  have hp : ∀ s1, s1.Writer K → s1.isPacking = s.isPacking → pipe cfg e s1 x = pipe cfg e' s1 x := by
    intro s1 w1 m1
    unfold pipe traverse
    rw [hti]
    split
    · rw [withTypeIdx_emit hv w1]
      rcases Ser.emit_cases s1 (if s1.headers then intBytes cfg.endian 4 e.ti.idx else []) with ⟨s2, h2⟩ | h2
      · simp only [h2, Out.bind_eq, Out.bind_ok]
        rw [h s2 (Ser.emit_ok w1 h2).1 ((emit_packing h2).trans m1)]
      · simp [h2]
    · rw [h s1 w1 m1]
  unfold traverseTop
  rw [hti]
  split
  · exact hp s hs rfl
  · rw [withTypeIdx_emit hv hs]
    rcases Ser.emit_cases s (if s.headers then intBytes cfg.endian 4 e.ti.idx else []) with ⟨s2, h2⟩ | h2
    · simp only [h2, Out.bind_eq, Out.bind_ok]
      rw [hp s2 (Ser.emit_ok hs h2).1 (emit_packing h2)]
    · simp [h2]

end

section
variable {T : Type} {cfg : Cfg} {K : Scope} {e : Elem T} {c : Codec T} {v : View T}

/-- What is written for a view of `const` elements depends on the mode. -/
theorem const_traverse (hc : cfg.Valid) {k : ViewTI} (hk : k.Valid) (L : Law K cfg e.ti e.apply c) {ty : ViewTy}
    (hh : ty.host = true) (h : ConstP ty c v) (hz0 : c.P e.zero) {s : Ser} (hs : s.Writer K) (hd : s.headers = true) :
    traverseTop cfg (viewElem cfg k ty true e) s v =
      (s.emit (node cfg true k.view 1 (viewEnc cfg k ty cfg.check e c
        (if s.isPacking then constCopy ty e.zero v else constTmp ty e.zero v)))).bind fun s' => .ok (v, s') := by
  obtain ⟨d, h1, h2, -, -, h5, h6, -⟩ := h.copy hz0
  have hu : ty.host = false → Uniform K cfg e c := by simp [hh]
  have hview : ViewP ty c (if s.isPacking then constCopy ty e.zero v else constTmp ty e.zero v) := by
    split
    · rw [h2]; exact h5
    · exact h6
  generalize hw : (if s.isPacking then constCopy ty e.zero v else constTmp ty e.zero v) = w at hview
  have e1 : ∀ s' : Ser, s'.Writer K → ((serView cfg k ty e s' w).bind fun p => Out.ok (v, p.2)) =
      (s'.emit (viewEnc cfg k ty (cfg.check && s'.headers) e c w)).bind fun s'' => .ok (v, s'') := by
    intro s' hs'
    rw [show serView cfg k ty e s' w = _ from serView_wr hc hk L hview hu s' hs', Out.bind_assoc]
    rfl
  have hwr : Wr K cfg (fun s' => (serView cfg k ty e s' w).bind fun p => Out.ok (v, p.2))
      (fun b => viewEnc cfg k ty b e c w) v := fun s' hs' => e1 s' hs'
  refine (traverseTop_mode (e := viewElem cfg k ty true e) (e' := { viewElem cfg k ty true e with
    apply := dispatchEach fun s' x => (serView cfg k ty e s' w).bind fun p => Out.ok (x, p.2) }) rfl hk.view hs ?_).trans
      ?_
  rotate_left
  · refine top_wr_of (enc := fun b => viewEnc cfg k ty b e c w) hk.view ?_ hs hd
    refine (hwr.map fun x => [x]).congr (fun s' _ => ?_) (fun _ => rfl)
    simp only [dispatchEach, Out.bind_eq, Out.bind_assoc, Out.bind_ok]
  · intro s' hs' hm
    have hfill : (constTmp ty e.zero v).fillFrom s' v = .ok w := by
      unfold View.fillFrom
      rw [hm, ← hw]
      split
      · rw [h1, h2]
      · rfl
    have : serConstView cfg k ty e s' v = (serView cfg k ty e s' w).bind fun p => Out.ok (v, p.2) := by
      unfold serConstView
      show ((constTmp ty e.zero v).fillFrom s' v).bind _ = _
      rw [hfill, Out.bind_ok, e1 s' hs']
      show (serView cfg k ty e s' w).bind _ = _
      rw [show serView cfg k ty e s' w = _ from serView_wr hc hk L hview hu s' hs', Out.bind_assoc]
      rcases Ser.emit_cases s' (viewEnc cfg k ty (cfg.check && s'.headers) e c w) with ⟨s'', he⟩ | he
      · simp [he, (Ser.emit_ok hs' he).1.not_unpacking]
      · simp [he]
    simp only [viewElem, if_true, dispatchEach, Out.bind_eq, this]

end
end Ckpt
