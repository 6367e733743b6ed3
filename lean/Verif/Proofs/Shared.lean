import Verif.Spec.Shared
import Verif.Proofs.ViewMoreTop
/-!
Laws of the code for shared pointers.
-/

set_option autoImplicit false

namespace Ckpt

section
variable {T : Type} {K : Scope} {cfg : Cfg} {e : Elem T} {c : Codec T} {virt : Option (Virt T)}

/-- The type index written before an object. -/
def virtEnc (cfg : Cfg) (w : Bool) (virt : Option (Virt T)) (v : T) : Bytes :=
  match virt with
  | none => []
  | some vi => node cfg w cfg.tiInt 1 (intBytes cfg.endian 4 (vi.dynIdx v))

theorem recon_wr (hc : cfg.Valid) {v : T} (hd : ∀ vi, virt = some vi → vi.dynIdx v < 2 ^ 32) :
    Wr K cfg (fun s => reconstructPointedTo cfg e virt s (some v)) (fun w => virtEnc cfg w virt v) (some v) := by
  cases virt with
  | none => exact (Wr.pure (some v)).congr (fun _ _ => rfl) (fun _ => rfl)
  | some vi =>
    refine ((intPipe_wr (K := K) hc (hd vi rfl)).bind (bs' := fun _ => [])
      (k := fun p => Out.assertThat cfg.ndebug (p.1 == vi.dynIdx v) >>= fun _ => .ok (some v, p.2)) (c := some v) ?_).congr
      ?_ (by simp [virtEnc])
    · refine (Wr.pure (some v)).congr (fun _ _ => ?_) (fun _ => rfl)
      simp [Out.assertThat]
    · intro s hs
      simp [reconstructPointedTo, hs.not_unpacking, hs.not_footprinting]

theorem recon_fp {v : T} : Fp K (fun s => reconstructPointedTo cfg e virt s (some v)) 0 (some v) := by
  cases virt with
  | none => exact (Fp.pure (some v)).congr (fun _ _ => rfl) rfl
  | some vi =>
    refine (Fp.pure (some v)).congr (fun s hs => ?_) rfl
    simp [reconstructPointedTo, hs.not_unpacking, hs.footprinting, Out.assertThat]

theorem recon_rd (hc : cfg.Valid) {v : T} (hd : ∀ vi, virt = some vi → vi.dynIdx v < 2 ^ 32)
    (hp : PtrPrior e c virt (some v) none) : ∃ t, c.prior v t ∧
    Rd K (fun s => reconstructPointedTo cfg e virt s none) (virtEnc cfg cfg.check virt v) (fun q => q = some t) := by
  cases virt with
  | none =>
    refine ⟨e.fresh, hp.made v rfl rfl rfl, (Rd.pure (b := some e.fresh) (Q := fun q => q = some e.fresh) rfl).congr
      (fun s hs => ?_) rfl (fun _ h => h)⟩
    simp [reconstructPointedTo, hs.unpacking]
  | some vi =>
    obtain ⟨t, ht, hpt⟩ := hp.madeVirt v vi rfl rfl rfl
    refine ⟨t, hpt, ?_⟩
    refine ((intPipe_rd (K := K) hc (m := 2 ^ 32 - 1) (hd vi rfl)).bind (bs' := [])
      (k := fun p => if p.2.isUnpacking then
        vi.construct p.1 >>= fun t => .ok (t, p.2) else .ok (none, p.2))
      (Q' := fun q => q = some t) ?_).congr ?_ (by simp [virtEnc]) (fun _ h => h)
    · rintro _ rfl
      refine (Rd.pure (b := some t) (Q := fun q => q = some t) rfl).congr ?_ rfl (fun _ h => h)
      intro s hs
      simp [hs.unpacking, ht]
    · intro s hs
      simp [reconstructPointedTo, hs.unpacking, hs.not_footprinting]

theorem SHeap.store_same {h : SHeap T} {o : Nat} {v : T} (ho : h.objs[o]? = some (some v)) : h.store o v = h := by
  have hlt : o < h.objs.length := by
    rcases Nat.lt_or_ge o h.objs.length with h' | h'
    · exact h'
    · rw [List.getElem?_eq_none h'] at ho; cases ho
  rw [List.getElem?_eq_getElem hlt] at ho
  unfold SHeap.store
  congr
  refine List.ext_getElem (by simp) fun i h1 h2 => ?_
  rw [List.getElem_set]
  split
  · rename_i he
    subst he
    exact (Option.some.inj ho).symm
  · rfl

/-- What is written for one pointer. -/
def sharedEnc (cfg : Cfg) (w : Bool) (ti : TI) (c : Codec T) (virt : Option (Virt T)) (v : T) : Bytes :=
  virtEnc cfg w virt v ++ nodeEnc cfg w ti c v

theorem target_holds {h : SHeap T} {a : SPtr} {v : T} (ha : h.Holds a v) : h.target a = .ok (some v) := by
  obtain ⟨b, o, rfl, ho⟩ := ha
  simp [SHeap.target, ho]

theorem pipeTarget_holds {h : SHeap T} {b o : Nat} {v : T} (ho : h.objs[o]? = some (some v)) (s : Ser) :
    pipeTarget cfg e s h (some (b, o)) =
      (pipe cfg e s v >>= fun p => .ok ((h.store o p.1, some (b, o)), p.2)) := by
  simp [pipeTarget, SHeap.target, ho]

theorem shared_wr (hc : cfg.Valid) (L : Law K cfg e.ti e.apply c) {h : SHeap T} {a : SPtr} {v : T} (ha : h.Holds a v)
    (hP : c.P v) (hd : ∀ vi, virt = some vi → vi.dynIdx v < 2 ^ 32) :
    Wr K cfg (fun s => serShared cfg e virt s h a) (fun w => sharedEnc cfg w e.ti c virt v) (h, a) := by
  refine ((recon_wr (K := K) (e := e) hc hd).bind
    (k := fun p => resetIfReading p.2 h a p.1 >>= fun q => pipeTarget cfg e p.2 q.1 q.2) (c := (h, a)) ?_).congr ?_
    (fun _ => rfl)
  · obtain ⟨b, o, rfl, ho⟩ := ha
    have := (pipe_wr L hP).map fun y => (h.store o y, (some (b, o) : SPtr))
    rw [SHeap.store_same ho] at this
    refine this.congr (fun s hs => ?_) (fun _ => rfl)
    simp [resetIfReading, hs.not_unpacking, pipeTarget_holds ho]
  · intro s hs
    simp [serShared, target_holds ha]

theorem shared_fp (L : Law K cfg e.ti e.apply c) {h : SHeap T} {a : SPtr} {v : T} (ha : h.Holds a v) (hP : c.P v) :
    Fp K (fun s => serShared cfg e virt s h a) (c.fp v) (h, a) := by
  refine ((recon_fp (K := K) (cfg := cfg) (e := e) (virt := virt) (v := v)).bind
    (k := fun p => resetIfReading p.2 h a p.1 >>= fun q => pipeTarget cfg e p.2 q.1 q.2) (c := (h, a)) (n' := c.fp v)
    ?_).congr ?_ (Nat.zero_add _).symm
  · obtain ⟨b, o, rfl, ho⟩ := ha
    have := (pipe_fp L hP).map fun y => (h.store o y, (some (b, o) : SPtr))
    rw [SHeap.store_same ho] at this
    refine this.congr (fun s hs => ?_) rfl
    simp [resetIfReading, hs.not_unpacking, pipeTarget_holds ho]
  · intro s hs
    simp [serShared, target_holds ha]

/-- The memory with one more object and its owner. -/
def SHeap.plus (h : SHeap T) (z : T) : SHeap T := (h.make z).adopt h.objs.length

theorem SHeap.plus_get (h : SHeap T) (z : T) : (h.plus z).objs[h.objs.length]? = some (some z) := by
  simp [SHeap.plus, SHeap.make, SHeap.adopt]

theorem SHeap.plus_store (h : SHeap T) (z y : T) : (h.plus z).store h.objs.length y = h.plus y := by
  simp [SHeap.plus, SHeap.make, SHeap.adopt, SHeap.store]

theorem shared_rd (hc : cfg.Valid) (L : Law K cfg e.ti e.apply c) {h : SHeap T} {v : T}
    (hP : c.P v) (hd : ∀ vi, virt = some vi → vi.dynIdx v < 2 ^ 32) (hp : PtrPrior e c virt (some v) none) :
    Rd K (fun s => serShared cfg e virt s h none) (sharedEnc cfg cfg.check e.ti c virt v)
      (fun w => ∃ z, c.rel v z ∧ w = (h.plus z, some (h.blocks.length, h.objs.length))) := by
  obtain ⟨t, ht, hR⟩ := recon_rd (K := K) hc hd hp
  refine (hR.bind (k := fun p => resetIfReading p.2 h none p.1 >>= fun q => pipeTarget cfg e p.2 q.1 q.2)
    (bs' := nodeEnc cfg cfg.check e.ti c v)
    (Q' := fun w => ∃ z, c.rel v z ∧ w = (h.plus z, some (h.blocks.length, h.objs.length))) ?_).congr ?_ rfl
    (fun _ h => h)
  · rintro _ rfl
    refine ((pipe_rd L hP ht).map (fun y => (h.plus y, (some (h.blocks.length, h.objs.length) : SPtr)))
      (fun z hz => ⟨z, hz, rfl⟩)).congr (fun s hs => ?_) rfl (fun _ h => h)
    have : h.reset none (some t) = .ok (h.plus t, some (h.blocks.length, h.objs.length)) := rfl
    simp [resetIfReading, hs.unpacking, this, pipeTarget_holds (SHeap.plus_get h t), SHeap.plus_store]
  · intro s hs
    simp [serShared, SHeap.target]

theorem sharedEach_wr (hc : cfg.Valid) (L : Law K cfg e.ti e.apply c) {h : SHeap T} : ∀ {as : List SPtr} {vs : List T},
    List.Forall₂ h.Holds as vs → (∀ v ∈ vs, c.P v ∧ ∀ vi, virt = some vi → vi.dynIdx v < 2 ^ 32) →
    Wr K cfg (fun s => serSharedEach cfg e virt s h as) (fun w => vs.flatMap (sharedEnc cfg w e.ti c virt)) (h, as)
  | _, _, .nil, _ => Wr.pure (h, [])
  | a :: as, v :: vs, .cons h1 h2, hv => by
    have hv1 := hv v (.head _)
    refine ((shared_wr (K := K) hc L h1 hv1.1 hv1.2).bind
      (k := fun p => serSharedEach cfg e virt p.2 p.1.1 as >>= fun q => .ok ((q.1.1, p.1.2 :: q.1.2), q.2))
      (c := (h, a :: as))
      ((sharedEach_wr hc L h2 fun v hm => hv v (.tail _ hm)).map fun q => (q.1, a :: q.2))).congr
      (fun s hs => ?_) (fun _ => by simp)
    simp [serSharedEach]

theorem sharedEach_fp (L : Law K cfg e.ti e.apply c) {h : SHeap T} : ∀ {as : List SPtr} {vs : List T},
    List.Forall₂ h.Holds as vs → (∀ v ∈ vs, c.P v) →
    Fp K (fun s => serSharedEach cfg e virt s h as) (vs.map c.fp).sum (h, as)
  | _, _, .nil, _ => Fp.pure (h, [])
  | a :: as, v :: vs, .cons h1 h2, hv => by
    refine ((shared_fp (K := K) (virt := virt) L h1 (hv v (.head _))).bind
      (k := fun p => serSharedEach cfg e virt p.2 p.1.1 as >>= fun q => .ok ((q.1.1, p.1.2 :: q.1.2), q.2))
      (c := (h, a :: as))
      ((sharedEach_fp L h2 fun v hm => hv v (.tail _ hm)).map fun q => (q.1, a :: q.2))).congr
      (fun s hs => ?_) (by simp)
    simp [serSharedEach]

theorem SHeap.Gains.cons {h h' : SHeap T} {z : T} {zs : List T} {as : List SPtr} (g : (h.plus z).Gains zs h' as) :
    h.Gains (z :: zs) h' (some (h.blocks.length, h.objs.length) :: as) := by
  obtain ⟨h1, h2, h3⟩ := g
  have e1 : (h.plus z).objs = h.objs ++ [some z] := rfl
  have e2 : (h.plus z).blocks = h.blocks ++ [(h.objs.length, 1)] := rfl
  refine ⟨by rw [h1, e1]; simp, ?_, ?_⟩
  · rw [h2, e1, e2]
    simp only [List.length_append, List.length_cons, List.length_nil, List.append_assoc, List.singleton_append,
      List.range_succ_eq_map, List.map_cons, List.map_map, Nat.add_zero]
    congr 2
    refine List.map_congr_left fun i _ => ?_
    simp only [Function.comp]
    congr 1; omega
  · rw [h3, e1, e2]
    simp only [List.length_append, List.length_cons, List.length_nil,
      List.range_succ_eq_map, List.map_cons, List.map_map, Nat.add_zero]
    congr 1
    refine List.map_congr_left fun i _ => ?_
    simp only [Function.comp]
    congr 2 <;> omega

theorem sharedEach_rd (hc : cfg.Valid) (L : Law K cfg e.ti e.apply c) : ∀ {vs : List T} {h : SHeap T},
    (∀ v ∈ vs, c.P v ∧ (∀ vi, virt = some vi → vi.dynIdx v < 2 ^ 32) ∧ PtrPrior e c virt (some v) none) →
    Rd K (fun s => serSharedEach cfg e virt s h (List.replicate vs.length none))
      (vs.flatMap (sharedEnc cfg cfg.check e.ti c virt))
      (fun w => ∃ zs, List.Forall₂ c.rel vs zs ∧ h.Gains zs w.1 w.2)
  | [], h, _ => Rd.pure ⟨[], .nil, by simp [SHeap.Gains]⟩
  | v :: vs, h, hv => by
    obtain ⟨h1, h2, h3⟩ := hv v (.head _)
    refine ((shared_rd (K := K) (h := h) hc L h1 h2 h3).bind
      (k := fun p => serSharedEach cfg e virt p.2 p.1.1 (List.replicate vs.length none) >>=
        fun q => .ok ((q.1.1, p.1.2 :: q.1.2), q.2)) (bs' := vs.flatMap (sharedEnc cfg cfg.check e.ti c virt))
      (Q' := fun w => ∃ zs, List.Forall₂ c.rel (v :: vs) zs ∧ h.Gains zs w.1 w.2) ?_).congr
      (fun s hs => ?_) (by simp) (fun _ h => h)
    · rintro _ ⟨z, hz, rfl⟩
      exact (sharedEach_rd hc L (h := h.plus z) fun v hm => hv v (.tail _ hm)).map
        (fun q => (q.1, some (h.blocks.length, h.objs.length) :: q.2)) fun w ⟨zs, hzs, hg⟩ =>
          ⟨z :: zs, .cons hz hzs, hg.cons⟩
    · simp [serSharedEach, List.replicate_succ]

theorem releaseAll_null (h : SHeap T) : ∀ (as : List SPtr), (∀ a ∈ as, a = none) → h.releaseAll as = .ok h
  | [], _ => rfl
  | a :: as, ha => by
    rw [SHeap.releaseAll, ha a (.head _)]
    simpa [SHeap.release] using releaseAll_null h as fun a hm => ha a (.tail _ hm)

theorem resize_null (h : SHeap T) {as : List SPtr} (ha : ∀ a ∈ as, a = none) (n : Nat) :
    h.resize as n = .ok (h, List.replicate n none) := by
  rw [SHeap.resize, releaseAll_null h _ fun a hm => ha a (List.mem_of_mem_drop hm)]
  have : as = List.replicate as.length none := List.eq_replicate_iff.2 ⟨rfl, ha⟩
  simp only [Out.bind_eq, Out.bind_ok]
  congr 2
  rw [this]
  simp only [List.take_replicate, List.length_replicate, ← List.replicate_add]
  congr 1; omega

theorem resize_self (h : SHeap T) (as : List SPtr) : h.resize as as.length = .ok (h, as) := by
  simp [SHeap.resize, SHeap.releaseAll]

/-- The vector `x`, which points to objects with values `vs`. -/
def sharedCodec (cfg : Cfg) (e : Elem T) (c : Codec T) (virt : Option (Virt T)) (x y : SHeap T × List SPtr) (vs : List T) :
    Codec (SHeap T × List SPtr) where
  P x' := x' = x ∧ List.Forall₂ x.1.Holds x.2 vs ∧ vs.length < 2 ^ 64 ∧
    ∀ v ∈ vs, c.P v ∧ (∀ vi, virt = some vi → vi.dynIdx v < 2 ^ 32) ∧ PtrPrior e c virt (some v) none
  enc w _ := sizeNode cfg w vs.length ++ vs.flatMap (sharedEnc cfg w e.ti c virt)
  prior _ y' := y' = y ∧ ∀ a ∈ y.2, a = none
  rel _ w := ∃ zs, List.Forall₂ c.rel vs zs ∧ y.1.Gains zs w.1 w.2
  fp _ := 8 + (vs.map c.fp).sum
  multi _ := True

theorem sharedLaw (hc : cfg.Valid) {ti : TI} (hti : ti.Valid) (L : Law K cfg e.ti e.apply c) (x y : SHeap T × List SPtr)
    (vs : List T) :
    Law K cfg (sharedElem cfg ti e virt).ti (sharedElem cfg ti e virt).apply (sharedCodec cfg e c virt x y vs) := by
  refine Law.ofEach hti trivial (fun x' h => ?_) (fun x' y' h hp => ?_) (fun x' h => ?_)
  · obtain ⟨rfl, h1, h2, h3⟩ := h
    have hl := h1.length_eq
    refine ((pipeSize_wr (K := K) hc (n := vs.length) h2).bind
      (k := fun p => x'.1.resize x'.2 p.1 >>= fun x => serSharedEach cfg e virt p.2 x.1 x.2) (c := x') ?_).congr
      (fun s _ => by rw [← hl]; rfl) (fun _ => rfl)
    refine (sharedEach_wr (K := K) hc L h1 fun v hm => ⟨(h3 v hm).1, (h3 v hm).2.1⟩).congr (fun s _ => ?_) (fun _ => rfl)
    simp [← hl, resize_self]
  · obtain ⟨rfl, h1, h2, h3⟩ := h
    obtain ⟨rfl, hy⟩ := hp
    refine ((pipeSize_rd (K := K) hc (n := vs.length) h2).bind
      (k := fun p => y'.1.resize y'.2 p.1 >>= fun x => serSharedEach cfg e virt p.2 x.1 x.2)
      (Q' := fun w => ∃ zs, List.Forall₂ c.rel vs zs ∧ y'.1.Gains zs w.1 w.2) ?_).congr
      (fun s _ => rfl) rfl (fun _ h => h)
    rintro _ rfl
    refine (sharedEach_rd (K := K) hc L (h := y'.1) h3).congr (fun s _ => ?_) rfl (fun _ h => h)
    simp [resize_null _ hy]
  · obtain ⟨rfl, h1, h2, h3⟩ := h
    have hl := h1.length_eq
    refine ((pipeSize_fp (K := K) hc (n := vs.length) h2).bind
      (k := fun p => x'.1.resize x'.2 p.1 >>= fun x => serSharedEach cfg e virt p.2 x.1 x.2) (c := x')
      (n' := (vs.map c.fp).sum) ?_).congr
      (fun s _ => by rw [← hl]; rfl) rfl
    refine (sharedEach_fp (K := K) (virt := virt) L h1 fun v hm => (h3 v hm).1).congr (fun s _ => ?_) rfl
    simp [← hl, resize_self]

end
end Ckpt
