import Verif.Proofs.Shared
import Verif.Proofs.Ends
/-!
Shared pointers of refining element types; reading over owners, writing null pointers.
-/

set_option autoImplicit false

namespace Ckpt

section
variable {T : Type} {cfg : Cfg} {e e' : Elem T} {virt : Option (Virt T)} {fl : Failure}

theorem serShared_le (h : Elem.Or fl e e') (s : Ser) (m : SHeap T) (a : SPtr) :
    Out.Or fl (serShared cfg e virt s m a) (serShared cfg e' virt s m a) := by
  have hf : e'.fresh = e.fresh := by rw [h.1]
  have hr : ∀ s t, reconstructPointedTo cfg e' virt s t = reconstructPointedTo cfg e virt s t := by
    intro s t
    unfold reconstructPointedTo
    rw [hf]
  unfold serShared
  simp only [hr]
  refine Out.Or.bind (.refl _) fun raw => Out.Or.bind (.refl _) fun p => Out.Or.bind (.refl _) fun q => ?_
  obtain ⟨m, a⟩ := q
  unfold pipeTarget
  refine Out.Or.bind (.refl _) fun t => ?_
  match a, t with
  | none, _ => exact .refl _
  | some _, none => exact .refl _
  | some (b, o), some x => exact Out.Or.bind (pipe_le h _ _) fun _ => .refl _

theorem serSharedEach_le (h : Elem.Or fl e e') : ∀ (as : List SPtr) (s : Ser) (m : SHeap T),
    Out.Or fl (serSharedEach cfg e virt s m as) (serSharedEach cfg e' virt s m as)
  | [], _, _ => .refl _
  | a :: as, s, m => Out.Or.bind (serShared_le h s m a) fun _ =>
      Out.Or.bind (serSharedEach_le h as _ _) fun _ => .refl _

theorem sharedElem_le {ti : TI} (h : Elem.Or fl e e') : Elem.Or fl (sharedElem cfg ti e virt) (sharedElem cfg ti e' virt) :=
  ⟨rfl, dispatchEach_le fun _ _ => Out.Or.bind (.refl _) fun _ => Out.Or.bind (.refl _) fun _ =>
    serSharedEach_le h _ _ _⟩

end

section
variable {T : Type} {K : Scope} {cfg : Cfg} {e : Elem T} {virt : Option (Virt T)}

/-- An object is given a second owner of its own and the first one goes. -/
theorem reset_sole {h : SHeap T} {b o : Nat} {t : Option T} (hb : h.blocks[b]? = some (o, 1))
    (ho : ∃ y, h.objs[o]? = some (some y)) :
    h.reset (some (b, o)) t =
      .ok ({ objs := h.objs.set o none, blocks := h.blocks.set b (o, 0) ++ [(o, 1)] }, some (h.blocks.length, o)) := by
  obtain ⟨y, ho⟩ := ho
  have hlt : b < h.blocks.length := by
    rcases Nat.lt_or_ge b h.blocks.length with h' | h'
    · exact h'
    · rw [List.getElem?_eq_none h'] at hb; cases hb
  simp [SHeap.reset, SHeap.adopt, SHeap.release, List.getElem?_append_left hlt, hb, ho,
    List.set_append_left _ _ hlt]

theorem reset_shared {h : SHeap T} {b o n : Nat} {t : Option T} (hb : h.blocks[b]? = some (o, n + 2)) :
    h.reset (some (b, o)) t =
      .ok ({ objs := h.objs, blocks := h.blocks.set b (o, n + 1) ++ [(o, 1)] }, some (h.blocks.length, o)) := by
  have hlt : b < h.blocks.length := by
    rcases Nat.lt_or_ge b h.blocks.length with h' | h'
    · exact h'
    · rw [List.getElem?_eq_none h'] at hb; cases hb
  simp [SHeap.reset, SHeap.adopt, SHeap.release, List.getElem?_append_left hlt, hb,
    List.set_append_left _ _ hlt]

theorem recon_over (hc : cfg.Valid) {v y : T} (hd : ∀ vi, virt = some vi → vi.dynIdx v < 2 ^ 32)
    (hy : ∀ vi, virt = some vi → vi.dynIdx y = vi.dynIdx v) :
    Rd K (fun s => reconstructPointedTo cfg e virt s (some y)) (virtEnc cfg cfg.check virt v) (fun q => q = some y) := by
  cases virt with
  | none => exact (Rd.pure (b := some y) (Q := fun q => q = some y) rfl).congr (fun s hs => rfl) rfl (fun _ h => h)
  | some vi =>
    refine ((intPipe_rd (K := K) hc (m := 2 ^ 32 - 1) (hd vi rfl)).bind (bs' := [])
      (k := fun p => Out.assertThat cfg.ndebug (p.1 == vi.dynIdx y) >>= fun _ => .ok (some y, p.2))
      (Q' := fun q => q = some y) ?_).congr ?_ (by simp [virtEnc]) (fun _ h => h)
    · rintro _ rfl
      refine (Rd.pure (b := some y) (Q := fun q => q = some y) rfl).congr ?_ rfl (fun _ h => h)
      intro s hs
      simp [Out.assertThat, hy vi rfl]
    · intro s hs
      simp [reconstructPointedTo, hs.unpacking, hs.not_footprinting]

/-- Reading over the only owner of an object. -/
theorem shared_ends_sole (hE : ∀ x, ¬ K.errs x) (hc : cfg.Valid) {h : SHeap T} {b o : Nat} {v y : T}
    (hd : ∀ vi, virt = some vi → vi.dynIdx v < 2 ^ 32) (hy : ∀ vi, virt = some vi → vi.dynIdx y = vi.dynIdx v)
    (hb : h.blocks[b]? = some (o, 1)) (ho : h.objs[o]? = some (some y)) :
    Ends K (fun s => serShared cfg e virt s h (some (b, o))) (virtEnc cfg cfg.check virt v) (.ub .deadObject) := by
  have hlt : o < h.objs.length := by
    rcases Nat.lt_or_ge o h.objs.length with h' | h'
    · exact h'
    · rw [List.getElem?_eq_none h'] at ho; cases ho
  have := (recon_over (K := K) (e := e) hc hd hy).ends hE (p := []) (f := .ub .deadObject)
    (k := fun p => resetIfReading p.2 h (some (b, o)) p.1 >>= fun q => pipeTarget cfg e p.2 q.1 q.2) (by
      rintro _ rfl
      refine Ends.of fun s hs => ?_
      simp [resetIfReading, hs.unpacking, reset_sole hb ⟨y, ho⟩, pipeTarget, SHeap.target, hlt, Fin.out])
  rw [List.append_nil] at this
  refine this.congr fun s _ => ?_
  simp [serShared, SHeap.target, ho]

theorem vec_ends_sole (hE : ∀ x, ¬ K.errs x) (hc : cfg.Valid) {h : SHeap T} {b o : Nat} {v y : T} {as : List SPtr} {n : Nat}
    (hn : n < 2 ^ 64) (has : as.length < n)
    (hd : ∀ vi, virt = some vi → vi.dynIdx v < 2 ^ 32) (hy : ∀ vi, virt = some vi → vi.dynIdx y = vi.dynIdx v)
    (hb : h.blocks[b]? = some (o, 1)) (ho : h.objs[o]? = some (some y)) :
    Ends K (fun s => serSharedVec cfg e virt s (h, some (b, o) :: as))
      (sizeNode cfg cfg.check n ++ virtEnc cfg cfg.check virt v) (.ub .deadObject) := by
  refine ((pipeSize_rd (K := K) hc (n := n) hn).ends hE (f := .ub .deadObject)
    (k := fun p => h.resize (some (b, o) :: as) p.1 >>= fun x => serSharedEach cfg e virt p.2 x.1 x.2) ?_).congr
    (fun s _ => rfl)
  rintro n rfl
  refine ((shared_ends_sole hE hc (e := e) hd hy hb ho).bind
    (fun p => serSharedEach cfg e virt p.2 p.1.1 (as ++ List.replicate (n - (as.length + 1)) none) >>=
      fun q => .ok ((q.1.1, p.1.2 :: q.1.2), q.2))).congr fun s _ => ?_
  have h1 : (some (b, o) :: as).drop n = [] := List.drop_eq_nil_of_le (by simp; omega)
  have h2 : (some (b, o) :: as).take n = some (b, o) :: as := List.take_of_length_le (by simp; omega)
  simp [SHeap.resize, h1, h2, SHeap.releaseAll, serSharedEach]

/-- The bytes of a non-empty vector. -/
theorem sharedTop_starts (ti : TI) (c : Codec T) (x y : SHeap T × List SPtr) (v : T) (vs : List T) : ∃ r,
    topEnc cfg ti (sharedCodec cfg e c virt x y (v :: vs)) x =
      intBytes cfg.endian 4 ti.idx ++ (sizeNode cfg cfg.check (v :: vs).length ++ virtEnc cfg cfg.check virt v) ++ r := by
  refine ⟨nodeEnc cfg cfg.check e.ti c v ++ vs.flatMap (sharedEnc cfg cfg.check e.ti c virt) ++
    intBytes cfg.endian 8 (ti.sizeof * 1 % 2 ^ 64), ?_⟩
  simp [topEnc, node, sharedCodec, sharedEnc]

/-- Reading over one of several owners of an object. -/
theorem shared_rd_over (hc : cfg.Valid) {c : Codec T} (L : Law K cfg e.ti e.apply c) {h : SHeap T} {b o n : Nat} {v y : T}
    (hP : c.P v) (hp : c.prior v y)
    (hd : ∀ vi, virt = some vi → vi.dynIdx v < 2 ^ 32) (hy : ∀ vi, virt = some vi → vi.dynIdx y = vi.dynIdx v)
    (hb : h.blocks[b]? = some (o, n + 2)) (ho : h.objs[o]? = some (some y)) :
    Rd K (fun s => serShared cfg e virt s h (some (b, o))) (sharedEnc cfg cfg.check e.ti c virt v)
      (fun w => ∃ z, c.rel v z ∧ w = ({ objs := h.objs.set o (some z), blocks := h.blocks.set b (o, n + 1) ++ [(o, 1)] },
        some (h.blocks.length, o))) := by
  refine ((recon_over (K := K) (e := e) hc hd hy).bind
    (k := fun p => resetIfReading p.2 h (some (b, o)) p.1 >>= fun q => pipeTarget cfg e p.2 q.1 q.2)
    (bs' := nodeEnc cfg cfg.check e.ti c v)
    (Q' := fun w => ∃ z, c.rel v z ∧ w = ({ objs := h.objs.set o (some z), blocks := h.blocks.set b (o, n + 1) ++ [(o, 1)] },
        some (h.blocks.length, o))) ?_).congr ?_ rfl (fun _ h => h)
  · rintro _ rfl
    refine ((pipe_rd L hP hp).map (fun z => ((⟨h.objs.set o (some z),
      h.blocks.set b (o, n + 1) ++ [(o, 1)]⟩ : SHeap T), (some (h.blocks.length, o) : SPtr)))
      (fun z hz => ⟨z, hz, rfl⟩)).congr (fun s hs => ?_) rfl (fun _ h => h)
    simp only [resetIfReading, hs.unpacking, if_true, reset_shared hb, Out.bind_eq, Out.bind_ok]
    exact pipeTarget_holds (h := ⟨h.objs, h.blocks.set b (o, n + 1) ++ [(o, 1)]⟩) (v := y) ho s
  · intro s hs
    simp [serShared, SHeap.target, ho]

/-- One pointer is written and read over one of several owners. -/
def overCodec (cfg : Cfg) (e : Elem T) (c : Codec T) (virt : Option (Virt T)) (x y : SHeap T × List SPtr) (v : T) :
    Codec (SHeap T × List SPtr) where
  P x' := x' = x ∧ List.Forall₂ x.1.Holds x.2 [v] ∧ c.P v ∧ ∀ vi, virt = some vi → vi.dynIdx v < 2 ^ 32
  enc w _ := sizeNode cfg w 1 ++ sharedEnc cfg w e.ti c virt v
  prior _ y' := y' = y ∧ ∃ b o n u, y.2 = [some (b, o)] ∧ y.1.blocks[b]? = some (o, n + 2) ∧
    y.1.objs[o]? = some (some u) ∧ c.prior v u ∧ ∀ vi, virt = some vi → vi.dynIdx u = vi.dynIdx v
  rel _ w := ∃ b o n z, y.2 = [some (b, o)] ∧ y.1.blocks[b]? = some (o, n + 2) ∧ c.rel v z ∧
    w = ({ objs := y.1.objs.set o (some z), blocks := y.1.blocks.set b (o, n + 1) ++ [(o, 1)] },
      [some (y.1.blocks.length, o)])
  fp _ := 8 + c.fp v
  multi _ := True

theorem overLaw (hc : cfg.Valid) {ti : TI} (hti : ti.Valid) {c : Codec T} (L : Law K cfg e.ti e.apply c)
    (x y : SHeap T × List SPtr) (v : T) :
    Law K cfg (sharedElem cfg ti e virt).ti (sharedElem cfg ti e virt).apply (overCodec cfg e c virt x y v) := by
  refine Law.ofEach hti trivial (fun x' h => ?_) (fun x' y' h hp => ?_) (fun x' h => ?_)
  · obtain ⟨rfl, h1, h2, h3⟩ := h
    have hl := h1.length_eq
    refine ((pipeSize_wr (K := K) hc (n := 1) (by decide)).bind
      (k := fun p => x'.1.resize x'.2 p.1 >>= fun x => serSharedEach cfg e virt p.2 x.1 x.2) (c := x') ?_).congr
      (fun s _ => by rw [← show _ = 1 from hl]; rfl) (fun _ => rfl)
    refine (sharedEach_wr (K := K) (virt := virt) hc L h1 fun v hm => ?_).congr (fun s _ => ?_) (fun _ => by simp)
    · cases List.mem_singleton.1 hm
      exact ⟨h2, h3⟩
    · have := resize_self x'.1 x'.2
      rw [hl] at this
      simp [show x'.1.resize x'.2 1 = _ from this]
  · obtain ⟨rfl, h1, h2, h3⟩ := h
    obtain ⟨rfl, b, o, n, u, hy, hb, ho, hpu, hdu⟩ := hp
    refine ((pipeSize_rd (K := K) hc (n := 1) (by decide)).bind
      (k := fun p => y'.1.resize y'.2 p.1 >>= fun x => serSharedEach cfg e virt p.2 x.1 x.2)
      (Q' := (overCodec cfg e c virt x' y' v).rel x') ?_).congr
      (fun s _ => rfl) rfl (fun _ h => h)
    rintro _ rfl
    refine ((shared_rd_over (K := K) (e := e) hc L h2 hpu h3 hdu hb ho).map
      (fun r => (r.1, [r.2])) (Q' := (overCodec cfg e c virt x' y' v).rel x') ?_).congr (fun s _ => ?_) rfl (fun _ h => h)
    · rintro _ ⟨z, hz, rfl⟩
      exact ⟨b, o, n, z, hy, hb, hz, rfl⟩
    · simp [hy, SHeap.resize, SHeap.releaseAll, serSharedEach]
  · obtain ⟨rfl, h1, h2, h3⟩ := h
    have hl := h1.length_eq
    refine ((pipeSize_fp (K := K) hc (n := 1) (by decide)).bind
      (k := fun p => x'.1.resize x'.2 p.1 >>= fun x => serSharedEach cfg e virt p.2 x.1 x.2) (c := x')
      (n' := c.fp v) ?_).congr
      (fun s _ => by rw [← show _ = 1 from hl]; rfl) rfl
    refine (sharedEach_fp (K := K) (virt := virt) L h1 fun v hm => ?_).congr (fun s _ => ?_) (by simp)
    · cases List.mem_singleton.1 hm
      exact h2
    · have := resize_self x'.1 x'.2
      rw [hl] at this
      simp [show x'.1.resize x'.2 1 = _ from this]

/-! ### Destroying the owners -/

theorem releaseAll_copies {h : SHeap T} {b o : Nat} : ∀ {n : Nat}, h.blocks[b]? = some (o, n + 1) → h.objs[o]? = some none →
    h.releaseAll (List.replicate (n + 1) (some (b, o))) = .ub .deadObject
  | 0, hb, ho => by simp [SHeap.releaseAll, SHeap.release, hb, ho]
  | n + 1, hb, ho => by
    have hlt : b < h.blocks.length := by
      rcases Nat.lt_or_ge b h.blocks.length with h' | h'
      · exact h'
      · rw [List.getElem?_eq_none h'] at hb; cases hb
    rw [List.replicate_succ, SHeap.releaseAll]
    have : h.release (some (b, o)) = .ok { h with blocks := h.blocks.set b (o, n + 1) } := by
      simp [SHeap.release, hb]
    rw [this]
    exact releaseAll_copies (h := { h with blocks := h.blocks.set b (o, n + 1) }) (by simp [hlt]) ho

theorem releaseAll_twice {h : SHeap T} {b b' o n : Nat} (hne : b' ≠ b) (hb : h.blocks[b]? = some (o, n + 1))
    (hb' : h.blocks[b']? = some (o, 1)) {z : T} (ho : h.objs[o]? = some (some z)) :
    h.releaseAll (some (b', o) :: List.replicate (n + 1) (some (b, o))) = .ub .deadObject := by
  have hlt : o < h.objs.length := by
    rcases Nat.lt_or_ge o h.objs.length with h' | h'
    · exact h'
    · rw [List.getElem?_eq_none h'] at ho; cases ho
  have : h.release (some (b', o)) = .ok ⟨h.objs.set o none, h.blocks.set b' (o, 0)⟩ := by
    simp [SHeap.release, hb', ho]
  rw [SHeap.releaseAll, this]
  exact releaseAll_copies (h := ⟨h.objs.set o none, h.blocks.set b' (o, 0)⟩)
    (by simp [List.getElem?_set_ne hne, hb]) (by simp [hlt])

/-! ### Null pointers -/

/-- A sizer. -/
def IsSizer (s : Ser) : Prop := ∃ n, n < sizeMod ∧ s = { core := .sizer n, kind := .sizer }

theorem IsSizer.writer (hK : K.kinds .sizer) {s : Ser} (h : IsSizer s) : s.Writer K := by
  obtain ⟨n, hn, rfl⟩ := h
  exact ⟨rfl, hK, hn⟩

theorem IsSizer.emit {s : Ser} (h : IsSizer s) (bs : Bytes) : ∃ s', s.emit bs = .ok s' ∧ IsSizer s' := by
  obtain ⟨n, hn, rfl⟩ := h
  exact ⟨_, rfl, _, Nat.mod_lt _ (by decide), rfl⟩

theorem Wr.sizer_ub {B C : Type} (hK : K.kinds .sizer) {m : Ser → Out (B × Ser)} {bs : Bool → Bytes} {b : B} {u : UB}
    (h : Wr K cfg m bs b) {k : B × Ser → Out C} (hk : ∀ s, IsSizer s → k (b, s) = .ub u) {s : Ser} (hs : IsSizer s) :
    (m s >>= k) = .ub u := by
  rw [h s (hs.writer hK)]
  obtain ⟨s', e1, e2⟩ := hs.emit (bs (cfg.check && s.headers))
  simp [e1, hk s' e2]

theorem sharedEach_null (hK : K.kinds .sizer) (hc : cfg.Valid) {c : Codec T} (L : Law K cfg e.ti e.apply c) {h : SHeap T} :
    ∀ {as : List SPtr} {vs : List T} {bs : List SPtr}, List.Forall₂ h.Holds as vs →
    (∀ v ∈ vs, c.P v ∧ ∀ vi, virt = some vi → vi.dynIdx v < 2 ^ 32) → ∀ {s : Ser}, IsSizer s →
    serSharedEach cfg e virt s h (as ++ none :: bs) = .ub .nullDeref
  | _, _, bs, .nil, _, s, hs => by
    have h1 : s.isUnpacking = false := (hs.writer hK).not_unpacking
    cases virt <;> simp [serSharedEach, serShared, SHeap.target, reconstructPointedTo, h1, resetIfReading, pipeTarget]
  | a :: as, v :: vs, bs, .cons h1 h2, hv, s, hs =>
    (shared_wr (K := K) hc L h1 (hv v (.head _)).1 (hv v (.head _)).2).sizer_ub hK
      (k := fun p => serSharedEach cfg e virt p.2 p.1.1 (as ++ none :: bs) >>= fun q =>
        .ok ((q.1.1, p.1.2 :: q.1.2), q.2))
      (fun s' hs' => by
        simp only [sharedEach_null hK hc L h2 (fun v hm => hv v (.tail _ hm)) hs']
        rfl) hs

theorem getSize_null (hK : K.kinds .sizer) (hc : cfg.Valid) {ti : TI} (hti : ti.Valid) {c : Codec T}
    (L : Law K cfg e.ti e.apply c) {h : SHeap T} {as : List SPtr} {vs : List T} {bs : List SPtr}
    (ha : List.Forall₂ h.Holds as vs) (hn : (as ++ none :: bs).length < 2 ^ 64)
    (hP : ∀ v ∈ vs, c.P v ∧ ∀ vi, virt = some vi → vi.dynIdx v < 2 ^ 32) :
    getSize cfg (sharedElem cfg ti e virt) (h, as ++ none :: bs) = .ub .nullDeref := by
  have h1 : ∀ s, IsSizer s → serSharedVec cfg e virt s (h, as ++ none :: bs) = .ub .nullDeref := by
    intro s hs
    refine (pipeSize_wr (K := K) hc hn).sizer_ub hK
      (k := fun p => h.resize (as ++ none :: bs) p.1 >>= fun x => serSharedEach cfg e virt p.2 x.1 x.2) (fun s hs => ?_) hs
    simp only [resize_self, Out.bind_eq, Out.bind_ok, sharedEach_null hK hc L ha hP hs]
  have h2 : ∀ s, IsSizer s → (sharedElem cfg ti e virt).apply s [(h, as ++ none :: bs)] = .ub .nullDeref := by
    intro s hs
    simp only [sharedElem, dispatchEach, h1 s hs, Out.bind_eq]
    rfl
  have h4 : ∀ s, IsSizer s → ∃ s', withTypeIdx cfg ti s = .ok s' ∧ IsSizer s' := by
    intro s hs
    rw [withTypeIdx_emit hti (hs.writer hK)]
    exact hs.emit _
  have h3 : ∀ s, IsSizer s → pipe cfg (sharedElem cfg ti e virt) s (h, as ++ none :: bs) = .ub .nullDeref := by
    intro s hs
    rw [pipe_eq, traverse]
    cases cfg.check with
    | true =>
      obtain ⟨s', e1, e2⟩ := h4 s hs
      have : withTypeIdx cfg (sharedElem cfg ti e virt).ti s = .ok s' := e1
      simp only [if_true, this, Out.bind_eq, Out.bind_ok, h2 s' e2]
      rfl
    | false =>
      simp only [Bool.false_eq_true, if_false, h2 s hs, Out.bind_eq]
      rfl
  have h0 : IsSizer { core := .sizer 0, kind := .sizer } := ⟨0, by decide, rfl⟩
  unfold getSize traverseTop
  cases cfg.check with
  | true =>
    simp only [if_true, h3 _ h0, Out.bind_eq]
    rfl
  | false =>
    obtain ⟨s', e1, e2⟩ := h4 _ h0
    have : withTypeIdx cfg (sharedElem cfg ti e virt).ti { core := .sizer 0, kind := .sizer } = .ok s' := e1
    simp only [Bool.false_eq_true, if_false, this, Out.bind_eq, Out.bind_ok, h3 s' e2]
    rfl

end
end Ckpt
