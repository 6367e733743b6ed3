import Verif.Proofs.ElemLaws
import Verif.Model.Containers
/-!
Laws of the container serializers, given the laws of the element types.
-/

set_option autoImplicit false

namespace Ckpt

section
variable {K : Scope} {cfg : Cfg} {T : Type} {e : Elem T} {c : Codec T}

/-! ### vector -/

def vecEnc (cfg : Cfg) (w : Bool) (ti : TI) (c : Codec T) (v : Vec T) : Bytes :=
  sizeNode cfg w v.cap ++ (sizeNode cfg w v.elems.length ++ arrEnc cfg w ti c v.elems)

structure VecOk (c : Codec T) (v : Vec T) : Prop where
  all : ∀ x ∈ v.elems, c.P x
  cap : v.elems.length ≤ v.cap
  lt : v.cap < 2 ^ 64
  multi : c.multi v.elems.length

structure VecPrior (e : Elem T) (c : Codec T) (x y : Vec T) : Prop where
  prior : ∀ (i : Nat) a b, x.elems[i]? = some a → y.elems[i]? = some b → c.prior a b
  empty : e.dflt = none → e.copyable = false → y.elems = []

theorem Vec.reserve_elems (v : Vec T) (n : Nat) : (v.reserve cfg n).elems = v.elems := by
  unfold Vec.reserve; split <;> rfl

theorem Vec.le_reserve_cap (hc : cfg.Valid) (v : Vec T) (n : Nat) : n ≤ (v.reserve cfg n).cap := by
  unfold Vec.reserve; split
  · assumption
  · exact hc.grow n

theorem Vec.reserve_of_le {v : Vec T} {n : Nat} (h : n ≤ v.cap) : v.reserve cfg n = v := by
  unfold Vec.reserve; simp [h]

/-- Meta data of a vector as one computation. -/
def vecMeta (cfg : Cfg) (v : Vec T) (s : Ser) : Out ((Nat × Vec T) × Ser) :=
  serializeVectorMeta cfg s v >>= fun p => .ok ((p.1, p.2.1), p.2.2)

theorem vecMeta_wr (hc : cfg.Valid) {v : Vec T} (hl : v.elems.length ≤ v.cap)
    (h : v.cap < 2 ^ 64) :
    Wr K cfg (vecMeta cfg v) (fun w => sizeNode cfg w v.cap ++ sizeNode cfg w v.elems.length)
      (v.elems.length, v) := by
  have h1 := (pipeSize_wr (K := K) hc h).bind (b := v.cap)
    (k := fun p => pipeSize cfg p.2 ((v.reserve cfg p.1).elems.length) >>= fun q =>
      .ok ((q.1, v.reserve cfg p.1), q.2))
    (bs' := fun w => sizeNode cfg w v.elems.length) (c := (v.elems.length, v)) (by
      have := (pipeSize_wr (K := K) hc (n := v.elems.length) (by omega)).map (fun n => (n, v))
      refine this.congr ?_ (fun _ => rfl)
      intro s _
      rw [Vec.reserve_of_le (Nat.le_refl _)])
  refine h1.congr ?_ (fun _ => rfl)
  intro s _
  simp [vecMeta, serializeVectorMeta, Out.bind_assoc]

theorem vecMeta_rd (hc : cfg.Valid) {x y : Vec T} (hl : x.elems.length ≤ x.cap)
    (h : x.cap < 2 ^ 64) :
    Rd K (vecMeta cfg y) (sizeNode cfg cfg.check x.cap ++ sizeNode cfg cfg.check x.elems.length)
      (fun p => p = (x.elems.length, y.reserve cfg x.cap)) := by
  have h1 := (pipeSize_rd (K := K) hc (m := y.cap) h).bind
    (k := fun p => pipeSize cfg p.2 ((y.reserve cfg p.1).elems.length) >>= fun q =>
      .ok ((q.1, y.reserve cfg p.1), q.2))
    (bs' := sizeNode cfg cfg.check x.elems.length)
    (Q' := fun p => p = (x.elems.length, y.reserve cfg x.cap)) (by
      rintro _ rfl
      have hlt : x.elems.length < 2 ^ 64 := by omega
      dsimp only
      exact (pipeSize_rd (K := K) hc (m := (y.reserve cfg x.cap).elems.length) hlt).map
        (Q' := fun p => p = (x.elems.length, y.reserve cfg x.cap))
        (fun n => (n, y.reserve cfg x.cap)) (by rintro _ rfl; rfl))
  refine h1.congr ?_ rfl (fun _ h => h)
  intro s _
  simp [vecMeta, serializeVectorMeta, Out.bind_assoc]

theorem forall₂_take_replicate {R : T → T → Prop} : ∀ (xs ys : List T) (d : T),
    (∀ (i : Nat) a b, xs[i]? = some a → ys[i]? = some b → R a b) → (∀ x ∈ xs, R x d) →
    List.Forall₂ R xs (ys.take xs.length ++ List.replicate (xs.length - ys.length) d)
  | [], ys, d, _, _ => by simp
  | x :: xs, [], d, h, hd => by
    have ih := forall₂_take_replicate xs [] d (by simp) (fun y hy => hd y (by simp [hy]))
    simp at ih
    simp [List.replicate_succ, ih, hd]
  | x :: xs, y :: ys, d, h, hd => by
    have ih := forall₂_take_replicate xs ys d (fun i a b ha hb => h (i + 1) a b (by simpa using ha)
      (by simpa using hb)) (fun y hy => hd y (by simp [hy]))
    simp [ih, h 0 x y]

theorem constructVectorData_prior (F : Fresh e c) {x y v : Vec T} (hx : VecOk c x)
    (hp : VecPrior e c x y) (hv : v.elems = y.elems) (hcap : x.elems.length ≤ v.cap) :
    List.Forall₂ c.prior x.elems (constructVectorData cfg e x.elems.length v).elems ∧
    (constructVectorData cfg e x.elems.length v).cap = v.cap := by
  unfold constructVectorData
  cases hd : e.dflt with
  | some d =>
    simp only [Vec.resize, Vec.reserve_of_le hcap, hv, and_true]
    exact forall₂_take_replicate _ _ _ hp.prior (fun a ha => F.dflt d hd a (hx.all a ha))
  | none =>
    cases hcp : e.copyable with
    | true =>
      simp only [Vec.resize, Vec.reserve_of_le hcap, hv, if_true, and_true]
      exact forall₂_take_replicate _ _ _ hp.prior (fun a ha => F.fresh a (hx.all a ha))
    | false =>
      have hy := hp.empty hd hcp
      have := forall₂_take_replicate x.elems [] e.fresh (R := c.prior) (by simp)
        (fun a ha => F.fresh a (hx.all a ha))
      simp at this
      simp [hv, hy, Vec.reserve_of_le hcap, this]

theorem vector_wr (hc : cfg.Valid) (L : Law K cfg e.ti e.apply c) {sz : Nat} {v : Vec T}
    (hv : VecOk c v) :
    Wr K cfg (fun s => serVector cfg sz e s v) (fun w => vecEnc cfg w e.ti c v) v := by
  have h1 := (vecMeta_wr (K := K) hc hv.cap hv.lt).bind (k := fun p =>
      let v' := if p.2.isUnpacking then constructVectorData cfg e p.1.1 p.1.2 else p.1.2
      serializeArray cfg e p.2 v'.elems >>= fun q => .ok ({ v' with elems := q.1 }, q.2))
      (bs' := fun w => arrEnc cfg w e.ti c v.elems) (c := v) (by
      refine ((serializeArray_wr L hv.all hv.multi).map (fun es => { v with elems := es })).congr
        ?_ (fun _ => rfl)
      intro s hs
      simp [hs.not_unpacking])
  refine h1.congr ?_ (fun w => by simp [vecEnc])
  intro s hs
  simp [serVector, hs.not_footprinting, vecMeta, Out.bind_assoc]

theorem vector_rd (hc : cfg.Valid) (L : Law K cfg e.ti e.apply c) (F : Fresh e c) {sz : Nat}
    {x y : Vec T} (hx : VecOk c x) (hp : VecPrior e c x y) :
    Rd K (fun s => serVector cfg sz e s y) (vecEnc cfg cfg.check e.ti c x)
      (fun z => List.Forall₂ c.rel x.elems z.elems ∧
        z.cap = if x.cap ≤ y.cap then y.cap else cfg.grow x.cap) := by
  have h1 := (vecMeta_rd (K := K) hc (y := y) hx.cap hx.lt).bind (k := fun p =>
      let v' := if p.2.isUnpacking then constructVectorData cfg e p.1.1 p.1.2 else p.1.2
      serializeArray cfg e p.2 v'.elems >>= fun q => .ok ({ v' with elems := q.1 }, q.2))
      (bs' := arrEnc cfg cfg.check e.ti c x.elems) (Q' := fun z =>
        List.Forall₂ c.rel x.elems z.elems ∧
        z.cap = if x.cap ≤ y.cap then y.cap else cfg.grow x.cap) (by
      rintro _ rfl
      obtain ⟨hA, hB⟩ := constructVectorData_prior (cfg := cfg) F hx hp
        (Vec.reserve_elems (cfg := cfg) y x.cap)
        (Nat.le_trans hx.cap (Vec.le_reserve_cap hc y x.cap))
      refine ((serializeArray_rd L hx.all hA hx.multi).map
        (Q' := fun z : Vec T => List.Forall₂ c.rel x.elems z.elems ∧
        z.cap = if x.cap ≤ y.cap then y.cap else cfg.grow x.cap)
        (fun es => { (constructVectorData cfg e x.elems.length (y.reserve cfg x.cap)) with
          elems := es }) ?_).congr ?_ rfl (fun _ h => h)
      · intro es hes
        refine ⟨hes, ?_⟩
        show (constructVectorData cfg e x.elems.length (y.reserve cfg x.cap)).cap = _
        rw [hB]
        unfold Vec.reserve
        split <;> rfl
      · intro s hs
        simp [hs.unpacking])
  refine h1.congr ?_ (by simp [vecEnc]) (fun _ h => h)
  intro s hs
  simp [serVector, hs.not_footprinting, vecMeta, Out.bind_assoc]

theorem Fp.addBytes_pre {B : Type} {m : Ser → Out (B × Ser)} {n k : Nat} {b : B} (h : Fp K m n b) :
    Fp K (fun s => m (s.addBytes k)) (k + n) b := by
  intro s hs
  have := h _ (hs.addBytes k)
  simpa [Ser.addBytes_addBytes] using this

theorem Fp.addBytes_post {B : Type} (b : B) (k : Nat) :
    Fp K (fun s => .ok (b, s.addBytes k)) k b := by
  intro s hs; rfl

theorem vector_fp (L : Law K cfg e.ti e.apply c) {sz : Nat} {v : Vec T} (hv : VecOk c v) :
    Fp K (fun s => serVector cfg sz e s v)
      (sz + ((v.elems.map c.fp).sum + e.ti.sizeof * (v.cap - v.elems.length))) v := by
  have h1 := ((serializeArray_fp (K := K) L hv.all hv.multi).bind (b := v.elems) (k := fun p =>
      .ok ({ v with elems := p.1 }, p.2.addBytes (e.ti.sizeof * (v.cap - v.elems.length))))
      (c := v) (Fp.addBytes_post v _)).addBytes_pre (k := sz)
  refine h1.congr ?_ rfl
  intro s hs
  simp [serVector, hs.footprinting]

/-! ### vector of bool -/

def vboolEnc (cfg : Cfg) (w : Bool) (v : Vec Bool) : Bytes :=
  sizeNode cfg w v.cap ++ (sizeNode cfg w v.elems.length ++ v.elems.flatMap (boolNode cfg w))

theorem packBools_wr (hc : cfg.Valid) : ∀ (bs : List Bool),
    Wr K cfg (fun s => packBools cfg s bs >>= fun s => .ok ((), s))
      (fun w => bs.flatMap (boolNode cfg w)) ()
  | [] => Wr.pure ()
  | b :: bs => by
    have ih := packBools_wr hc bs
    have h1 := (rawBool_wr (K := K) hc (b := b)).bind (b := b.toNat)
      (k := fun p => packBools cfg p.2 bs >>= fun s => .ok ((), s)) ih
    refine h1.congr ?_ (by simp)
    intro s _
    simp [packBools, Out.bind_assoc]

theorem unpackBools_rd (hc : cfg.Valid) : ∀ (bs bs' : List Bool), bs'.length = bs.length →
    Rd K (fun s => unpackBools cfg s bs') (bs.flatMap (boolNode cfg cfg.check)) (fun r => r = bs)
  | [], [], _ => Rd.pure rfl
  | b :: bs, _ :: bs', h => by
    have ih := unpackBools_rd hc bs bs' (by simpa using h)
    simp only [unpackBools, List.flatMap_cons]
    refine (pipeBool_rd hc).bind ?_
    rintro _ rfl
    exact ih.map (fun zs => _ :: zs) (by rintro _ rfl; rfl)
  | [], _ :: _, h => by simp at h
  | _ :: _, [], h => by simp at h

theorem vbool_wr (hc : cfg.Valid) {sz : Nat} {v : Vec Bool} (hl : v.elems.length ≤ v.cap)
    (h : v.cap < 2 ^ 64) :
    Wr K cfg (fun s => serVectorBool cfg sz s v) (fun w => vboolEnc cfg w v) v := by
  have h1 := (vecMeta_wr (K := K) hc hl h).bind (k := fun p =>
      if p.2.isUnpacking then
        unpackBools cfg p.2 (p.1.2.resize cfg p.1.1 false).elems >>= fun q =>
          .ok ({ (p.1.2.resize cfg p.1.1 false) with elems := q.1 }, q.2)
      else packBools cfg p.2 p.1.2.elems >>= fun s => .ok (p.1.2, s))
      (bs' := fun w => v.elems.flatMap (boolNode cfg w)) (c := v) (by
      refine ((packBools_wr hc v.elems).map (fun _ => v)).congr ?_ (fun _ => rfl)
      intro s hs
      simp [hs.not_unpacking, Out.bind_assoc])
  refine h1.congr ?_ (fun w => by simp [vboolEnc])
  intro s hs
  simp [serVectorBool, hs.not_footprinting, vecMeta, Out.bind_assoc]

theorem vbool_rd (hc : cfg.Valid) {sz : Nat} {x y : Vec Bool} (hl : x.elems.length ≤ x.cap)
    (h : x.cap < 2 ^ 64) :
    Rd K (fun s => serVectorBool cfg sz s y) (vboolEnc cfg cfg.check x)
      (fun z => z.elems = x.elems ∧ z.cap = if x.cap ≤ y.cap then y.cap else cfg.grow x.cap) := by
  have h1 := (vecMeta_rd (K := K) hc (y := y) hl h).bind (k := fun p =>
      if p.2.isUnpacking then
        unpackBools cfg p.2 (p.1.2.resize cfg p.1.1 false).elems >>= fun q =>
          .ok ({ (p.1.2.resize cfg p.1.1 false) with elems := q.1 }, q.2)
      else packBools cfg p.2 p.1.2.elems >>= fun s => .ok (p.1.2, s))
      (bs' := x.elems.flatMap (boolNode cfg cfg.check))
      (Q' := fun z => z.elems = x.elems ∧
        z.cap = if x.cap ≤ y.cap then y.cap else cfg.grow x.cap) (by
      rintro _ rfl
      have hcap : x.elems.length ≤ (y.reserve cfg x.cap).cap :=
        Nat.le_trans hl (Vec.le_reserve_cap hc y x.cap)
      refine ((unpackBools_rd hc x.elems
        ((y.reserve cfg x.cap).resize cfg x.elems.length false).elems (by
          simp [Vec.resize]; omega)).map
        (Q' := fun z : Vec Bool => z.elems = x.elems ∧
          z.cap = if x.cap ≤ y.cap then y.cap else cfg.grow x.cap)
        (fun bs => { ((y.reserve cfg x.cap).resize cfg x.elems.length false) with
          elems := bs }) ?_).congr ?_ rfl (fun _ h => h)
      · rintro _ rfl
        refine ⟨rfl, ?_⟩
        show ((y.reserve cfg x.cap).resize cfg x.elems.length false).cap = _
        simp only [Vec.resize, Vec.reserve_of_le hcap]
        unfold Vec.reserve
        split <;> rfl
      · intro s hs
        simp [hs.unpacking])
  refine h1.congr ?_ (by simp [vboolEnc]) (fun _ h => h)
  intro s hs
  simp [serVectorBool, hs.not_footprinting, vecMeta, Out.bind_assoc]

theorem vbool_fp {sz : Nat} {v : Vec Bool} :
    Fp K (fun s => serVectorBool cfg sz s v) sz v := by
  refine (Fp.addBytes_post v sz).congr ?_ rfl
  intro s hs
  simp [serVectorBool, hs.footprinting]

/-! ### string -/

def strEnc (cfg : Cfg) (w : Bool) (cs : Bytes) : Bytes :=
  sizeNode cfg w cs.length ++ (if cs.length > 0 then node cfg w cfg.tiChar cs.length cs else [])

theorem map_singleton_flatMap (cs : Bytes) : (cs.map fun c => [c]).flatMap (fun x => x) = cs := by
  induction cs with
  | nil => rfl
  | cons a as ih => simpa using ih

theorem map_singleton_flatten (cs : Bytes) : (cs.map fun c => [c]).flatten = cs := by
  induction cs with
  | nil => rfl
  | cons a as ih => simpa using ih

theorem chars_wr (hc : cfg.Valid) (cs : Bytes) :
    Wr K cfg (fun s => serializeChars cfg s cs)
      (fun w => if cs.length > 0 then node cfg w cfg.tiChar cs.length cs else []) cs := by
  have h1 := (serializeArray_wr (K := K) (cfg := cfg) (e := charElem cfg) (byteLaw (size := 1) hc.char)
    (xs := cs.map fun c => [c]) (by simp [byteCodec]) trivial).map List.flatten
  rw [map_singleton_flatten] at h1
  refine h1.congr (fun _ _ => rfl) ?_
  intro w
  simp [arrEnc, byteCodec, charElem, map_singleton_flatten]

theorem chars_rd (hc : cfg.Valid) (cs cs' : Bytes) (h : cs'.length = cs.length) :
    Rd K (fun s => serializeChars cfg s cs')
      (if cs.length > 0 then node cfg cfg.check cfg.tiChar cs.length cs else []) (fun r => r = cs) := by
  have h1 := (serializeArray_rd (K := K) (cfg := cfg) (e := charElem cfg) (byteLaw (size := 1) hc.char)
    (xs := cs.map fun c => [c]) (ys := cs'.map fun c => [c]) (by simp [byteCodec]) (by
      rw [List.forall₂_map_left_iff, List.forall₂_map_right_iff]
      rw [List.forall₂_iff_get]
      exact ⟨h.symm, by simp [byteCodec]⟩) trivial).map (Q' := fun r => r = cs) List.flatten
      (by
        intro b hb
        have := eq_of_forall₂ hb
        rw [this, map_singleton_flatten])
  refine h1.congr (fun _ _ => rfl) ?_ (fun _ h => h)
  simp [arrEnc, byteCodec, charElem, map_singleton_flatten]

theorem chars_fp (hc : cfg.Valid) (cs : Bytes) :
    Fp K (fun s => serializeChars cfg s cs) cs.length cs := by
  have h1 := (serializeArray_fp (K := K) (cfg := cfg) (e := charElem cfg) (byteLaw (size := 1) hc.char)
    (xs := cs.map fun c => [c]) (by simp [byteCodec]) trivial).map List.flatten
  rw [map_singleton_flatten] at h1
  refine h1.congr (fun _ _ => rfl) ?_
  simp [byteCodec, Function.comp_def]

theorem Str.resize_self (x : Str) :
    x.resize cfg x.chars.length = x := by
  cases x; simp [Str.resize]

theorem string_wr (hc : cfg.Valid) {sz : Nat} {x : Str} (h : x.chars.length < 2 ^ 64) :
    Wr K cfg (fun s => serString cfg sz s x) (fun w => strEnc cfg w x.chars) x := by
  have h1 := (pipeSize_wr (K := K) hc (n := x.chars.length) (by omega)).bind (k := fun p =>
    serializeChars cfg p.2 (x.resize cfg p.1).chars >>= fun q =>
      .ok ({ x.resize cfg p.1 with chars := q.1 }, q.2)) (c := x)
    (bs' := fun w => if x.chars.length > 0 then node cfg w cfg.tiChar x.chars.length x.chars else [])
    (by
      dsimp only
      rw [Str.resize_self x]
      exact (chars_wr hc x.chars).map (fun cs => { x with chars := cs }))
  refine h1.congr ?_ (fun _ => rfl)
  intro s hs
  simp [serString, hs.not_footprinting]

theorem string_rd (hc : cfg.Valid) {sz : Nat} {x y : Str} (h : x.chars.length < 2 ^ 64) :
    Rd K (fun s => serString cfg sz s y) (strEnc cfg cfg.check x.chars)
      (fun z => z.chars = x.chars ∧
        z.cap = if x.chars.length ≤ y.cap ∨ x.chars.length ≤ y.chars.length then y.cap else cfg.grow x.chars.length) := by
  have h1 := (pipeSize_rd (K := K) hc (n := x.chars.length) (m := y.chars.length) h).bind
    (k := fun p => serializeChars cfg p.2 (y.resize cfg p.1).chars >>= fun q =>
      .ok ({ y.resize cfg p.1 with chars := q.1 }, q.2))
    (bs' := if x.chars.length > 0 then
      node cfg cfg.check cfg.tiChar x.chars.length x.chars else [])
    (Q' := fun z => z.chars = x.chars ∧
        z.cap = if x.chars.length ≤ y.cap ∨ x.chars.length ≤ y.chars.length then y.cap else cfg.grow x.chars.length)
    (by
      rintro _ rfl
      exact (chars_rd hc x.chars (y.resize cfg x.chars.length).chars (by
          simp [Str.resize]; omega)).map
        (Q' := fun z : Str => z.chars = x.chars ∧
          z.cap = if x.chars.length ≤ y.cap ∨ x.chars.length ≤ y.chars.length then y.cap else cfg.grow x.chars.length)
        (fun cs => { y.resize cfg x.chars.length with chars := cs }) (by
          rintro _ rfl; exact ⟨rfl, rfl⟩))
  refine h1.congr ?_ rfl (fun _ h => h)
  intro s hs
  simp [serString, hs.not_footprinting]

theorem string_fp (hc : cfg.Valid) {sz : Nat} {x : Str} :
    Fp K (fun s => serString cfg sz s x) (sz + x.cap) x := by
  have h1 := ((chars_fp (K := K) hc
    (x.chars.take x.cap ++ List.replicate (x.cap - x.chars.length) 0)).map
    (fun _ => x)).addBytes_pre (k := sz)
  refine h1.congr ?_ (by simp; omega)
  intro s hs
  simp [serString, hs.footprinting]

/-! ### element loops -/

theorem contSize_wr (hc : cfg.Valid) {sz n : Nat} (h : n < 2 ^ 64) :
    Wr K cfg (fun s => serializeContainerSize cfg sz s n) (fun w => sizeNode cfg w n) n :=
  (pipeSize_wr hc h).congr (fun s hs => by simp [serializeContainerSize, hs.not_footprinting])
    (fun _ => rfl)

theorem contSize_rd (hc : cfg.Valid) {sz n m : Nat} (h : n < 2 ^ 64) :
    Rd K (fun s => serializeContainerSize cfg sz s m) (sizeNode cfg cfg.check n)
      (fun k => k = n) :=
  (pipeSize_rd hc (m := m) h).congr
    (fun s hs => by simp [serializeContainerSize, hs.not_footprinting]) rfl (fun _ h => h)

theorem contSize_fp {sz n : Nat} :
    Fp K (fun s => serializeContainerSize cfg sz s n) sz n :=
  (Fp.addBytes_post n sz).congr (fun s hs => by simp [serializeContainerSize, hs.footprinting]) rfl

/-- Encoding of list-like containers: the size, then each element. -/
def seqEnc (cfg : Cfg) (w : Bool) (ti : TI) (c : Codec T) (xs : List T) : Bytes :=
  sizeNode cfg w xs.length ++ xs.flatMap (nodeEnc cfg w ti c)

theorem unpackLoop_rd (L : Law K cfg e.ti e.apply c) (F : Fresh e c) {add : List T → T → List T} :
    ∀ {xs : List T} {acc : List T}, (∀ x ∈ xs, c.P x) →
    Rd K (fun s => unpackLoop cfg e add xs.length s acc) (xs.flatMap (nodeEnc cfg cfg.check e.ti c))
      (fun r => ∃ zs, List.Forall₂ c.rel xs zs ∧ r = zs.foldl add acc)
  | [], acc, _ => Rd.pure ⟨[], .nil, rfl⟩
  | x :: xs, acc, h => by
    simp only [List.length_cons, unpackLoop, List.flatMap_cons]
    refine (pipe_rd L (h x (by simp)) (F.fresh x (h x (by simp)))).bind fun z hz => ?_
    refine (unpackLoop_rd L F (add := add) (acc := add acc z) (xs := xs) (fun y hy => h y (by simp [hy]))).mono ?_
    rintro _ ⟨zs, hzs, rfl⟩
    exact ⟨z :: zs, .cons hz hzs, rfl⟩

theorem foldl_append_singleton (acc zs : List T) :
    zs.foldl (fun acc y => acc ++ [y]) acc = acc ++ zs := by
  induction zs generalizing acc with
  | nil => simp
  | cons z zs ih => simp [ih]

/-! ### list and deque -/

structure SeqOk (c : Codec T) (xs : List T) : Prop where
  all : ∀ x ∈ xs, c.P x
  lt : xs.length < 2 ^ 64

structure SeqPrior (e : Elem T) (c : Codec T) (xs ys : List T) : Prop where
  prior : e.copyable = true → ∀ (i : Nat) a b, xs[i]? = some a → ys[i]? = some b → c.prior a b
  empty : e.copyable = false → ys = []

theorem list_wr (hc : cfg.Valid) (L : Law K cfg e.ti e.apply c) {sz : Nat} {xs : List T}
    (h : SeqOk c xs) :
    Wr K cfg (fun s => serList cfg sz e s xs) (fun w => seqEnc cfg w e.ti c xs) xs := by
  unfold serList
  refine (contSize_wr hc h.lt).bind ?_
  refine (pipeEach_wr L h.all).congr ?_ (fun _ => rfl)
  intro s hs
  simp [hs.not_unpacking]

theorem list_rd (hc : cfg.Valid) (L : Law K cfg e.ti e.apply c) (F : Fresh e c) {sz : Nat}
    {xs ys : List T} (h : SeqOk c xs) (hp : SeqPrior e c xs ys) :
    Rd K (fun s => serList cfg sz e s ys) (seqEnc cfg cfg.check e.ti c xs)
      (List.Forall₂ c.rel xs) := by
  unfold serList
  refine (contSize_rd hc h.lt).bind ?_
  rintro _ rfl
  cases hcp : e.copyable with
  | true =>
    refine (pipeEach_rd L h.all (forall₂_take_replicate xs ys e.fresh (hp.prior hcp)
      (fun x hx => F.fresh x (h.all x hx)))).congr ?_ rfl (fun _ h => h)
    intro s hs
    simp [hs.unpacking, deserializeOrderedElems, hcp, seqResize]
  | false =>
    have hy := hp.empty hcp
    subst hy
    refine (unpackLoop_rd L F h.all (add := fun acc y => acc ++ [y]) (acc := [])).congr ?_ rfl ?_
    · intro s hs
      simp [hs.unpacking, deserializeOrderedElems, hcp]
    · rintro _ ⟨zs, hz, rfl⟩
      rw [foldl_append_singleton]
      simpa using hz

theorem list_fp (L : Law K cfg e.ti e.apply c) {sz : Nat} {xs : List T} (h : ∀ x ∈ xs, c.P x) :
    Fp K (fun s => serList cfg sz e s xs) (sz + (xs.map c.fp).sum) xs := by
  unfold serList
  refine (contSize_fp).bind ?_
  refine (pipeEach_fp L h).congr ?_ rfl
  intro s hs
  simp [hs.not_unpacking]

/-! ### associative containers -/

theorem mapLike_wr (hc : cfg.Valid) (L : Law K cfg e.ti e.apply c) {sz : Nat}
    {em : List T → T → List T} {xs : List T} (h : SeqOk c xs) :
    Wr K cfg (fun s => serMapLike cfg sz em e s xs) (fun w => seqEnc cfg w e.ti c xs) xs := by
  unfold serMapLike
  refine (contSize_wr hc h.lt).bind ?_
  refine (pipeEach_wr L h.all).congr ?_ (fun _ => rfl)
  intro s hs
  simp [hs.not_unpacking]

theorem mapLike_rd (hc : cfg.Valid) (L : Law K cfg e.ti e.apply c) (F : Fresh e c) {sz : Nat}
    {em : List T → T → List T} {xs ys : List T} (h : SeqOk c xs) :
    Rd K (fun s => serMapLike cfg sz em e s ys) (seqEnc cfg cfg.check e.ti c xs)
      (fun r => ∃ zs, List.Forall₂ c.rel xs zs ∧ r = zs.foldl em ys) := by
  unfold serMapLike
  refine (contSize_rd hc h.lt).bind ?_
  rintro _ rfl
  refine (unpackLoop_rd L F h.all).congr ?_ rfl (fun _ h => h)
  intro s hs
  simp [hs.unpacking]

theorem mapLike_fp (L : Law K cfg e.ti e.apply c) {sz : Nat}
    {em : List T → T → List T} {xs : List T} (h : ∀ x ∈ xs, c.P x) :
    Fp K (fun s => serMapLike cfg sz em e s xs) (sz + (xs.map c.fp).sum) xs := by
  unfold serMapLike
  refine (contSize_fp).bind ?_
  refine (pipeEach_fp L h).congr ?_ rfl
  intro s hs
  simp [hs.not_unpacking]

/-! ### queue -/

theorem queueElems_wr (L : Law K cfg e.ti e.apply c) : ∀ {xs : List T}, (∀ x ∈ xs, c.P x) →
    Wr K cfg (fun s => serializeQueueElems cfg e s xs >>= fun s => .ok ((), s))
      (fun w => xs.flatMap (nodeEnc cfg w e.ti c)) ()
  | [], _ => Wr.pure ()
  | x :: xs, h => by
    have ih := queueElems_wr L (xs := xs) (fun y hy => h y (by simp [hy]))
    have h1 := (pipe_wr L (h x (by simp))).bind
      (k := fun p => serializeQueueElems cfg e p.2 xs >>= fun s => .ok ((), s)) ih
    refine h1.congr ?_ (by simp)
    intro s _
    simp [serializeQueueElems, Out.bind_assoc]

theorem queue_wr (hc : cfg.Valid) (L : Law K cfg e.ti e.apply c) {sz : Nat} {xs : List T}
    (h : SeqOk c xs) :
    Wr K cfg (fun s => serQueue cfg sz e s xs) (fun w => seqEnc cfg w e.ti c xs) xs := by
  have h1 := (contSize_wr (K := K) hc (sz := sz) h.lt).bind (k := fun p =>
    if p.2.isUnpacking then unpackLoop cfg e (fun acc y => acc ++ [y]) p.1 p.2 xs
    else serializeQueueElems cfg e p.2 xs >>= fun s => .ok (xs, s)) (c := xs)
    (bs' := fun w => xs.flatMap (nodeEnc cfg w e.ti c)) (by
      refine ((queueElems_wr L h.all).map (fun _ => xs)).congr ?_ (fun _ => rfl)
      intro s hs
      simp [hs.not_unpacking, Out.bind_assoc])
  refine h1.congr ?_ (fun _ => rfl)
  intro s hs
  simp [serQueue, hs.not_footprinting]

theorem queue_rd (hc : cfg.Valid) (L : Law K cfg e.ti e.apply c) (F : Fresh e c) {sz : Nat}
    {xs ys : List T} (h : SeqOk c xs) :
    Rd K (fun s => serQueue cfg sz e s ys) (seqEnc cfg cfg.check e.ti c xs)
      (fun r => ∃ zs, List.Forall₂ c.rel xs zs ∧ r = ys ++ zs) := by
  have h1 := (contSize_rd (K := K) hc (sz := sz) (m := ys.length) h.lt).bind (k := fun p =>
    if p.2.isUnpacking then unpackLoop cfg e (fun acc y => acc ++ [y]) p.1 p.2 ys
    else serializeQueueElems cfg e p.2 ys >>= fun s => .ok (ys, s))
    (bs' := xs.flatMap (nodeEnc cfg cfg.check e.ti c))
    (Q' := fun r => ∃ zs, List.Forall₂ c.rel xs zs ∧ r = ys ++ zs) (by
      rintro _ rfl
      refine (unpackLoop_rd L F h.all (add := fun acc y => acc ++ [y]) (acc := ys)).congr ?_ rfl ?_
      · intro s hs
        simp [hs.unpacking]
      · rintro _ ⟨zs, hz, rfl⟩
        exact ⟨zs, hz, foldl_append_singleton _ _⟩)
  refine h1.congr ?_ rfl (fun _ h => h)
  intro s hs
  simp [serQueue, hs.not_footprinting]

theorem queue_fp {sz : Nat} {xs : List T} :
    Fp K (fun s => serQueue cfg sz e s xs) (sz + e.ti.sizeof * xs.length) xs := by
  have h1 := ((contiguousBytes_fp (K := K) (size := e.ti.sizeof) (num := xs.length)
    (data := [])).map (fun _ => xs)).addBytes_pre (k := sz)
  refine h1.congr ?_ rfl
  intro s hs
  simp [serQueue, hs.footprinting]

/-! ### optional -/

def optEnc (cfg : Cfg) (w : Bool) (ti : TI) (c : Codec T) : Option T → Bytes
  | none => boolNode cfg w false
  | some x => boolNode cfg w true ++ nodeEnc cfg w ti c x

theorem opt_wr (hc : cfg.Valid) (L : Law K cfg e.ti e.apply c) {sz : Nat} {x : Option T}
    (h : ∀ v, x = some v → c.P v) :
    Wr K cfg (fun s => serOptional cfg sz e s x) (fun w => optEnc cfg w e.ti c x) x := by
  cases x with
  | none =>
    refine ((rawBool_wr (K := K) hc (b := false)).map (fun _ => none)).congr ?_ (fun _ => rfl)
    intro s hs
    simp [serOptional, hs.not_footprinting, hs.not_unpacking]
  | some v =>
    have h1 := (rawBool_wr (K := K) hc (b := true)).bind (k := fun p =>
      pipe cfg e p.2 v >>= fun q => .ok (some q.1, q.2)) (c := some v)
      ((pipe_wr L (h v rfl)).map some)
    refine h1.congr ?_ (fun _ => rfl)
    intro s hs
    simp [serOptional, hs.not_footprinting, hs.not_unpacking]

theorem opt_rd (hc : cfg.Valid) (L : Law K cfg e.ti e.apply c) (F : Fresh e c) {sz : Nat}
    {x y : Option T} (h : ∀ v, x = some v → c.P v) :
    Rd K (fun s => serOptional cfg sz e s y) (optEnc cfg cfg.check e.ti c x)
      (fun z => (x = none ∧ z = none) ∨ ∃ a b, x = some a ∧ z = some b ∧ c.rel a b) := by
  cases x with
  | none =>
    have h1 := (pipeBool_rd (K := K) hc (b := false) (b' := false)).bind (k := fun p =>
      if p.1 then pipe cfg e p.2 e.fresh >>= fun q => .ok (some q.1, q.2) else .ok (none, p.2))
      (bs' := []) (Q' := fun z => ((none : Option T) = none ∧ z = none) ∨
        ∃ a b, none = some a ∧ z = some b ∧ c.rel a b) (by
        rintro _ rfl
        exact Rd.pure (Or.inl ⟨rfl, rfl⟩))
    refine h1.congr ?_ (by simp [optEnc]) (fun _ h => h)
    intro s hs
    simp [serOptional, hs.not_footprinting, hs.unpacking]
  | some v =>
    have h1 := (pipeBool_rd (K := K) hc (b := true) (b' := false)).bind (k := fun p =>
      if p.1 then pipe cfg e p.2 e.fresh >>= fun q => .ok (some q.1, q.2) else .ok (none, p.2))
      (bs' := nodeEnc cfg cfg.check e.ti c v) (Q' := fun z => (some v = none ∧ z = none) ∨
        ∃ a b, some v = some a ∧ z = some b ∧ c.rel a b) (by
        rintro _ rfl
        exact (pipe_rd L (h v rfl) (F.fresh v (h v rfl))).map some
          (fun b hb => Or.inr ⟨v, b, rfl, rfl, hb⟩))
    refine h1.congr ?_ (by simp [optEnc]) (fun _ h => h)
    intro s hs
    simp [serOptional, hs.not_footprinting, hs.unpacking]

theorem opt_fp {sz : Nat} {x : Option T} :
    Fp K (fun s => serOptional cfg sz e s x)
      (sz + match x with | some _ => e.ti.sizeof | none => 0) x := by
  cases x with
  | none =>
    refine (Fp.addBytes_post none sz).congr ?_ rfl
    intro s hs
    simp [serOptional, hs.footprinting]
  | some v =>
    refine ((Fp.addBytes_post (some v) e.ti.sizeof).addBytes_pre (k := sz)).congr ?_ rfl
    intro s hs
    simp [serOptional, hs.footprinting]

/-! ### unique_ptr -/

def uptrEnc (cfg : Cfg) (w : Bool) (ti : TI) (c : Codec T) (dyn : Option (T → Nat)) :
    Option T → Bytes
  | none => boolNode cfg w true
  | some x => boolNode cfg w false ++
      ((match dyn with
        | none => []
        | some d => node cfg w cfg.tiInt 1 (intBytes cfg.endian 4 (d x))) ++
       nodeEnc cfg w ti c x)

theorem intPipe_wr (hc : cfg.Valid) {n : Nat} (h : n < 2 ^ 32) :
    Wr K cfg (fun s => pipe cfg (intElem cfg) s n)
      (fun w => node cfg w cfg.tiInt 1 (intBytes cfg.endian 4 n)) n :=
  pipe_wr (e := intElem cfg) (intLaw hc.int) (x := n) h

theorem intPipe_rd (hc : cfg.Valid) {n m : Nat} (h : n < 2 ^ 32) :
    Rd K (fun s => pipe cfg (intElem cfg) s m)
      (node cfg cfg.check cfg.tiInt 1 (intBytes cfg.endian 4 n)) (fun k => k = n) :=
  pipe_rd (e := intElem cfg) (intLaw hc.int) (x := n) (y := m) h trivial

/-- What an in-place target must satisfy: nothing if one of the pointers is null, otherwise it must
be a valid prior of the pointee and have the same dynamic type. -/
structure PtrPrior (e : Elem T) (c : Codec T) (virt : Option (Virt T)) (x y : Option T) : Prop where
  both : ∀ a b, x = some a → y = some b →
    c.prior a b ∧ ∀ vi, virt = some vi → vi.dynIdx b = vi.dynIdx a
  made : ∀ a, x = some a → y = none → virt = none → c.prior a e.fresh
  madeVirt : ∀ a vi, x = some a → y = none → virt = some vi →
    ∃ t, vi.construct (vi.dynIdx a) = .ok (some t) ∧ c.prior a t

theorem uptr_wr (hc : cfg.Valid) (L : Law K cfg e.ti e.apply c) {sz : Nat}
    {virt : Option (Virt T)} {x : Option T} (h : ∀ v, x = some v → c.P v)
    (hd : ∀ v vi, x = some v → virt = some vi → vi.dynIdx v < 2 ^ 32) :
    Wr K cfg (fun s => serUniquePtr cfg sz e virt s x)
      (fun w => uptrEnc cfg w e.ti c (virt.map (·.dynIdx)) x) x := by
  cases x with
  | none =>
    refine ((pipeBool_wr (K := K) hc (b := true)).bind (b := true) (k := fun p =>
      if p.1 then .ok (none, p.2) else .ub .badBool) (c := none) (bs' := fun _ => [])
      (Wr.pure none)).congr ?_ (by simp [uptrEnc])
    intro s hs
    have h1 := pipeBool_wr (K := K) hc (b := true) s hs
    simp only [serUniquePtr, hs.not_footprinting, Option.isNone, Out.bind_eq, h1, Out.bind_assoc,
      Out.bind_ok]
    rcases Ser.emit_cases s (boolNode cfg (cfg.check && s.headers) true) with ⟨s', he⟩ | he <;>
      simp [he]
  | some v =>
    cases virt with
    | none =>
      refine ((pipeBool_wr (K := K) hc (b := false)).bind (b := false) (k := fun p =>
        pipe cfg e p.2 v >>= fun q => .ok (some q.1, q.2)) (c := some v)
        (bs' := fun w => nodeEnc cfg w e.ti c v)
        ((pipe_wr L (h v rfl)).map some)).congr ?_ (by simp [uptrEnc])
      intro s hs
      have h1 := pipeBool_wr (K := K) hc (b := false) s hs
      simp only [serUniquePtr, hs.not_footprinting, Option.isNone, Out.bind_eq, h1, Out.bind_assoc,
        Out.bind_ok]
      rcases Ser.emit_cases s (boolNode cfg (cfg.check && s.headers) false) with ⟨s', he⟩ | he <;>
        simp [he, reconstructPointedTo]
    | some vi =>
      have hdi := hd v vi rfl rfl
      refine ((pipeBool_wr (K := K) hc (b := false)).bind (b := false) (k := fun p =>
        pipe cfg (intElem cfg) p.2 (vi.dynIdx v) >>= fun r =>
        pipe cfg e r.2 v >>= fun q => .ok (some q.1, q.2)) (c := some v)
        (bs' := fun w => node cfg w cfg.tiInt 1 (intBytes cfg.endian 4 (vi.dynIdx v)) ++
          nodeEnc cfg w e.ti c v)
        ((intPipe_wr hc hdi).bind (k := fun r => pipe cfg e r.2 v >>= fun q => .ok (some q.1, q.2))
          ((pipe_wr L (h v rfl)).map some))).congr ?_ (by simp [uptrEnc])
      intro s hs
      have h1 := pipeBool_wr (K := K) hc (b := false) s hs
      simp only [serUniquePtr, hs.not_footprinting, Option.isNone, Out.bind_eq, h1, Out.bind_assoc,
        Out.bind_ok]
      rcases Ser.emit_cases s (boolNode cfg (cfg.check && s.headers) false) with ⟨s', he⟩ | he
      · have hs' := (Ser.emit_ok hs he).1
        have h2 := intPipe_wr (K := K) hc hdi s' hs'
        simp only [he, Out.bind_ok, reconstructPointedTo, hs'.not_unpacking, hs'.not_footprinting]
        simp only [Bool.false_eq_true, if_false, Out.bind_eq, Out.bind_ok, h2, Out.bind_assoc]
        rcases Ser.emit_cases s' (node cfg (cfg.check && s'.headers) cfg.tiInt 1
          (intBytes cfg.endian 4 (vi.dynIdx v))) with ⟨s'', he'⟩ | he' <;>
          simp [he', Out.assertThat]
      · simp [he]

theorem uptr_rd (hc : cfg.Valid) (L : Law K cfg e.ti e.apply c) {sz : Nat}
    {virt : Option (Virt T)} {x y : Option T} (h : ∀ v, x = some v → c.P v)
    (hd : ∀ v vi, x = some v → virt = some vi → vi.dynIdx v < 2 ^ 32)
    (hp : PtrPrior e c virt x y) :
    Rd K (fun s => serUniquePtr cfg sz e virt s y)
      (uptrEnc cfg cfg.check e.ti c (virt.map (·.dynIdx)) x)
      (fun z => (x = none ∧ z = none) ∨ ∃ a b, x = some a ∧ z = some b ∧ c.rel a b) := by
  have key : Rd K (fun s => serUniquePtr cfg sz e virt s y)
      (boolNode cfg cfg.check x.isNone ++ (match x with
        | none => []
        | some x => ((match virt with
          | none => []
          | some d => node cfg cfg.check cfg.tiInt 1 (intBytes cfg.endian 4 (d.dynIdx x))) ++
          nodeEnc cfg cfg.check e.ti c x)))
      (fun z => (x = none ∧ z = none) ∨ ∃ a b, x = some a ∧ z = some b ∧ c.rel a b) := by
    refine ((pipeBool_rd (K := K) hc (b := x.isNone) (b' := y.isNone)).bind (k := fun p =>
      if p.1 then .ok (if p.2.isUnpacking then none else y, p.2) else
        reconstructPointedTo cfg e virt p.2 y >>= fun q =>
          match q.1 with
          | none => .ub .nullDeref
          | some t => pipe cfg e q.2 t >>= fun r => .ok (some r.1, r.2)) ?_).congr ?_ rfl
        (fun _ h => h)
    · rintro _ rfl
      cases x with
      | none =>
        refine (Rd.pure (b := none) (Or.inl ⟨rfl, rfl⟩)).congr ?_ rfl (fun _ h => h)
        intro s hs
        simp [hs.unpacking]
      | some a =>
        simp only [Option.isNone, Bool.false_eq_true, if_false]
        cases virt with
        | none =>
          cases y with
          | none =>
            refine ((pipe_rd L (h a rfl) (hp.made a rfl rfl rfl)).map some
              (fun b hb => Or.inr ⟨a, b, rfl, rfl, hb⟩)).congr ?_ (by simp) (fun _ h => h)
            intro s hs
            simp [reconstructPointedTo, hs.unpacking]
          | some b =>
            refine ((pipe_rd L (h a rfl) (hp.both a b rfl rfl).1).map some
              (fun b hb => Or.inr ⟨a, b, rfl, rfl, hb⟩)).congr ?_ (by simp) (fun _ h => h)
            intro s hs
            simp [reconstructPointedTo]
        | some vi =>
          have hdi := hd a vi rfl rfl
          have hrec : ∃ t, c.prior a t ∧ Rd K (fun s => reconstructPointedTo cfg e (some vi) s y)
              (node cfg cfg.check cfg.tiInt 1 (intBytes cfg.endian 4 (vi.dynIdx a)))
              (fun q => q = some t) := by
            cases y with
            | none =>
              obtain ⟨t, ht, hpt⟩ := hp.madeVirt a vi rfl rfl rfl
              refine ⟨t, hpt, ?_⟩
              refine ((intPipe_rd (K := K) hc (m := 2 ^ 32 - 1) hdi).bind (bs' := [])
                (k := fun p => if p.2.isUnpacking then
                  vi.construct p.1 >>= fun t => .ok (t, p.2) else .ok (none, p.2))
                (Q' := fun q => q = some t) ?_).congr ?_ (by simp) (fun _ h => h)
              · rintro _ rfl
                refine (Rd.pure (b := some t) (Q := fun q => q = some t) rfl).congr ?_ rfl (fun _ h => h)
                intro s hs
                simp [hs.unpacking, ht]
              · intro s hs
                simp [reconstructPointedTo, hs.unpacking, hs.not_footprinting]
            | some b =>
              obtain ⟨hpb, hdy⟩ := hp.both a b rfl rfl
              refine ⟨b, hpb, ?_⟩
              refine ((intPipe_rd (K := K) hc (m := 2 ^ 32 - 1) hdi).bind (bs' := [])
                (k := fun p => Out.assertThat cfg.ndebug (p.1 == vi.dynIdx b) >>= fun _ =>
                  .ok (some b, p.2))
                (Q' := fun q => q = some b) ?_).congr ?_ (by simp) (fun _ h => h)
              · rintro _ rfl
                refine (Rd.pure (b := some b) (Q := fun q => q = some b) rfl).congr ?_ rfl (fun _ h => h)
                intro s hs
                simp [Out.assertThat, hdy vi rfl]
              · intro s hs
                simp [reconstructPointedTo, hs.unpacking, hs.not_footprinting]
          obtain ⟨t, hpt, hR⟩ := hrec
          refine hR.bind ?_
          rintro _ rfl
          exact (pipe_rd L (h a rfl) hpt).map some (fun b hb => Or.inr ⟨a, b, rfl, rfl, hb⟩)
    · intro s hs
      simp only [serUniquePtr, hs.not_footprinting, Bool.false_eq_true, if_false]
      cases pipeBool cfg s y.isNone with
      | ok p =>
        simp only [Out.bind_eq, Out.bind_ok]
        split
        · rfl
        · cases reconstructPointedTo cfg e virt p.2 y with
          | ok q =>
            obtain ⟨q1, q2⟩ := q
            cases q1 <;> rfl
          | _ => rfl
      | _ => rfl
  refine key.congr (fun _ _ => rfl) ?_ (fun _ h => h)
  cases x <;> cases virt <;> simp [uptrEnc]

theorem uptr_fp (L : Law K cfg e.ti e.apply c) {sz : Nat}
    {virt : Option (Virt T)} {x : Option T} (h : ∀ v, x = some v → c.P v) :
    Fp K (fun s => serUniquePtr cfg sz e virt s x)
      (sz + match x with | none => 0 | some v => c.fp v) x := by
  cases x with
  | none =>
    refine (Fp.addBytes_post none sz).congr ?_ rfl
    intro s hs
    simp [serUniquePtr, hs.footprinting]
  | some v =>
    refine (((pipe_fp L (h v rfl)).map some).addBytes_pre (k := sz)).congr ?_ rfl
    intro s hs
    have hs' := hs.addBytes sz
    cases virt <;> simp [serUniquePtr, hs.footprinting, reconstructPointedTo, hs'.not_unpacking,
      hs'.footprinting, Out.assertThat]

/-! ### enumerations, durations -/

theorem under_wr (L : Law K cfg e.ti e.apply c) {x : T} (h : c.P x) :
    Wr K cfg (fun s => serUnderlying cfg e s x) (fun w => nodeEnc cfg w e.ti c x) x :=
  (pipe_wr L h).map id

theorem under_rd (L : Law K cfg e.ti e.apply c) {x y : T} (h : c.P x) (hp : c.prior x y) :
    Rd K (fun s => serUnderlying cfg e s y) (nodeEnc cfg cfg.check e.ti c x) (c.rel x) :=
  (pipe_rd L h hp).map id (fun _ h => h)

theorem under_fp (L : Law K cfg e.ti e.apply c) {x : T} (h : c.P x) :
    Fp K (fun s => serUnderlying cfg e s x) (c.fp x) x :=
  (pipe_fp L h).map id

end

/-! ### members, tuples, variants: families of types -/

section
variable {K : Scope} {cfg : Cfg} {T ι : Type} {E : ι → Elem T} {C : ι → Codec T}

/-- Pointwise condition on three lists of the same length. -/
def All3 (R : ι → T → T → Prop) : List ι → List T → List T → Prop
  | [], [], [] => True
  | t :: ts, x :: xs, y :: ys => R t x y ∧ All3 R ts xs ys
  | _, _, _ => False

/-- Pointwise condition on a list of types and a list of values. -/
def All2 (R : ι → T → Prop) : List ι → List T → Prop
  | [], [] => True
  | t :: ts, x :: xs => R t x ∧ All2 R ts xs
  | _, _ => False

def membersEnc (cfg : Cfg) (w : Bool) (E : ι → Elem T) (C : ι → Codec T) :
    List ι → List T → Bytes
  | t :: ts, x :: xs => nodeEnc cfg w (E t).ti (C t) x ++ membersEnc cfg w E C ts xs
  | _, _ => []

def membersFp (C : ι → Codec T) : List ι → List T → Nat
  | t :: ts, x :: xs => (C t).fp x + membersFp C ts xs
  | _, _ => 0

theorem members_wr : ∀ {ts : List ι} {xs : List T},
    (∀ t ∈ ts, Law K cfg (E t).ti (E t).apply (C t)) → All2 (fun t x => (C t).P x) ts xs →
    Wr K cfg (fun s => serMembers cfg (ts.map E) s xs) (fun w => membersEnc cfg w E C ts xs) xs
  | [], [], _, _ => Wr.pure []
  | t :: ts, x :: xs, hL, h => by
    have ih := members_wr (ts := ts) (xs := xs) (fun t' ht => hL t' (by simp [ht])) h.2
    simp only [List.map_cons, serMembers, membersEnc]
    exact (pipe_wr (hL t (by simp)) h.1).bind (ih.map (fun ys => x :: ys))
  | [], _ :: _, _, h => by simp [All2] at h
  | _ :: _, [], _, h => by simp [All2] at h

theorem members_rd : ∀ {ts : List ι} {xs ys : List T},
    (∀ t ∈ ts, Law K cfg (E t).ti (E t).apply (C t)) → All2 (fun t x => (C t).P x) ts xs →
    All3 (fun t x y => (C t).prior x y) ts xs ys →
    Rd K (fun s => serMembers cfg (ts.map E) s ys) (membersEnc cfg cfg.check E C ts xs)
      (All3 (fun t x y => (C t).rel x y) ts xs)
  | [], [], [], _, _, _ => Rd.pure trivial
  | t :: ts, x :: xs, y :: ys, hL, h, hp => by
    have ih := members_rd (ts := ts) (xs := xs) (ys := ys) (fun t' ht => hL t' (by simp [ht]))
      h.2 hp.2
    simp only [List.map_cons, serMembers, membersEnc]
    exact (pipe_rd (hL t (by simp)) h.1 hp.1).bind fun z hz =>
      ih.map (fun zs => z :: zs) (fun zs hzs => ⟨hz, hzs⟩)
  | [], _ :: _, _, _, h, _ => by simp [All2] at h
  | _ :: _, [], _, _, h, _ => by simp [All2] at h
  | [], [], _ :: _, _, _, h => by simp [All3] at h
  | _ :: _, _ :: _, [], _, _, h => by simp [All3] at h

theorem members_fp : ∀ {ts : List ι} {xs : List T},
    (∀ t ∈ ts, Law K cfg (E t).ti (E t).apply (C t)) → All2 (fun t x => (C t).P x) ts xs →
    Fp K (fun s => serMembers cfg (ts.map E) s xs) (membersFp C ts xs) xs
  | [], [], _, _ => Fp.pure []
  | t :: ts, x :: xs, hL, h => by
    have ih := members_fp (ts := ts) (xs := xs) (fun t' ht => hL t' (by simp [ht])) h.2
    simp only [List.map_cons, serMembers, membersFp]
    exact (pipe_fp (hL t (by simp)) h.1).bind (ih.map (fun ys => x :: ys))
  | [], _ :: _, _, h => by simp [All2] at h
  | _ :: _, [], _, h => by simp [All2] at h

/-! tuple -/

/-- Encoding of member `i`. -/
def memberEnc (cfg : Cfg) (w : Bool) (E : ι → Elem T) (C : ι → Codec T) (ts : List ι) (xs : List T)
    (i : Nat) : Bytes :=
  match ts[i]?, xs[i]? with
  | some t, some x => nodeEnc cfg w (E t).ti (C t) x
  | _, _ => []

def tupleEnc (cfg : Cfg) (w : Bool) (E : ι → Elem T) (C : ι → Codec T) (ts : List ι)
    (xs : List T) : Bytes :=
  (cfg.argOrder ts.length).flatMap (memberEnc cfg w E C ts xs)

/-- Footprint of member `i`. -/
def memberFp (C : ι → Codec T) (ts : List ι) (xs : List T) (i : Nat) : Nat :=
  match ts[i]?, xs[i]? with
  | some t, some x => (C t).fp x
  | _, _ => 0

theorem All2.get {R : ι → T → Prop} : ∀ {ts : List ι} {xs : List T}, All2 R ts xs →
    ts.length = xs.length ∧ ∀ (i : Nat) t x, ts[i]? = some t → xs[i]? = some x → R t x
  | [], [], _ => by simp
  | t :: ts, x :: xs, h => by
    obtain ⟨h1, h2⟩ := All2.get h.2
    refine ⟨by simp [h1], ?_⟩
    intro i t' x' ht hx
    cases i with
    | zero => simp at ht hx; subst ht hx; exact h.1
    | succ i => exact h2 i t' x' (by simpa using ht) (by simpa using hx)
  | [], _ :: _, h => by simp [All2] at h
  | _ :: _, [], h => by simp [All2] at h

theorem All3.get {R : ι → T → T → Prop} : ∀ {ts : List ι} {xs ys : List T}, All3 R ts xs ys →
    (ts.length = xs.length ∧ xs.length = ys.length) ∧
    ∀ (i : Nat) t x y, ts[i]? = some t → xs[i]? = some x → ys[i]? = some y → R t x y
  | [], [], [], _ => by simp
  | t :: ts, x :: xs, y :: ys, h => by
    obtain ⟨h1, h2⟩ := All3.get h.2
    refine ⟨by simp [h1], ?_⟩
    intro i t' x' y' ht hx hy
    cases i with
    | zero => simp at ht hx hy; subst ht hx hy; exact h.1
    | succ i => exact h2 i t' x' y' (by simpa using ht) (by simpa using hx) (by simpa using hy)
  | [], [], _ :: _, h => by simp [All3] at h
  | [], _ :: _, _, h => by simp [All3] at h
  | _ :: _, [], _, h => by simp [All3] at h
  | _ :: _, _ :: _, [], h => by simp [All3] at h

theorem All3.of_get {R : ι → T → T → Prop} : ∀ {ts : List ι} {xs ys : List T},
    ts.length = xs.length → xs.length = ys.length →
    (∀ (i : Nat) t x y, ts[i]? = some t → xs[i]? = some x → ys[i]? = some y → R t x y) → All3 R ts xs ys
  | [], [], [], _, _, _ => trivial
  | t :: ts, x :: xs, y :: ys, h1, h2, h => by
    refine ⟨h 0 t x y rfl rfl rfl, All3.of_get (by simpa using h1) (by simpa using h2) ?_⟩
    intro i t' x' y' ht hx hy
    exact h (i + 1) t' x' y' (by simpa using ht) (by simpa using hx) (by simpa using hy)
  | [], _ :: _, _, h, _, _ => by simp at h
  | _ :: _, [], _, h, _, _ => by simp at h
  | _, [], _ :: _, _, h, _ => by simp at h
  | _, _ :: _, [], _, h, _ => by simp at h

theorem visit_wr {ts : List ι} {xs : List T}
    (hL : ∀ t ∈ ts, Law K cfg (E t).ti (E t).apply (C t))
    (h : All2 (fun t x => (C t).P x) ts xs) : ∀ {is : List Nat}, (∀ i ∈ is, i < ts.length) →
    Wr K cfg (fun s => visitMembers cfg (ts.map E) is s xs)
      (fun w => is.flatMap (memberEnc cfg w E C ts xs)) xs
  | [], _ => Wr.pure xs
  | i :: is, hi => by
    have ih := visit_wr hL h (is := is) (fun j hj => hi j (by simp [hj]))
    have hlt := hi i (by simp)
    obtain ⟨hlen, hget⟩ := All2.get h
    have ht : ts[i]? = some ts[i] := List.getElem?_eq_getElem hlt
    have hx : xs[i]? = some (xs[i]'(by omega)) := List.getElem?_eq_getElem (by omega)
    simp only [visitMembers, List.getElem?_map, ht, hx, Option.map_some, List.flatMap_cons]
    refine ((pipe_wr (hL _ (List.getElem_mem hlt)) (hget i _ _ ht hx)).bind
      (bs' := fun w => is.flatMap (memberEnc cfg w E C ts xs)) ?_).congr (fun _ _ => rfl) ?_
    · simpa using ih
    · intro w
      simp [memberEnc, ht, hx]

theorem visit_rd {ts : List ι} {xs : List T}
    (hL : ∀ t ∈ ts, Law K cfg (E t).ti (E t).apply (C t))
    (h : All2 (fun t x => (C t).P x) ts xs) : ∀ {is : List Nat} {ys : List T},
    (∀ i ∈ is, i < ts.length) → is.Nodup → ys.length = ts.length →
    (∀ i ∈ is, ∀ t x y, ts[i]? = some t → xs[i]? = some x → ys[i]? = some y → (C t).prior x y) →
    Rd K (fun s => visitMembers cfg (ts.map E) is s ys)
      (is.flatMap (memberEnc cfg cfg.check E C ts xs))
      (fun zs => zs.length = ts.length ∧
        (∀ i ∈ is, ∀ t x z, ts[i]? = some t → xs[i]? = some x → zs[i]? = some z → (C t).rel x z) ∧
        (∀ i, i ∉ is → zs[i]? = ys[i]?))
  | [], ys, _, _, hl, _ => Rd.pure ⟨hl, by simp, by simp⟩
  | i :: is, ys, hi, hn, hl, hp => by
    have hlt := hi i (by simp)
    obtain ⟨hlen, hget⟩ := All2.get h
    have ht : ts[i]? = some ts[i] := List.getElem?_eq_getElem hlt
    have hx : xs[i]? = some (xs[i]'(by omega)) := List.getElem?_eq_getElem (by omega)
    have hy : ys[i]? = some (ys[i]'(by omega)) := List.getElem?_eq_getElem (by omega)
    have hni : i ∉ is := (List.nodup_cons.1 hn).1
    simp only [visitMembers, List.getElem?_map, ht, hy, Option.map_some, List.flatMap_cons]
    have hme : memberEnc cfg cfg.check E C ts xs i =
        nodeEnc cfg cfg.check (E ts[i]).ti (C ts[i]) (xs[i]'(by omega)) := by
      simp [memberEnc, ht, hx]
    rw [hme]
    refine (pipe_rd (hL _ (List.getElem_mem hlt)) (hget i _ _ ht hx)
      (hp i (by simp) _ _ _ ht hx hy)).bind fun z hz => ?_
    refine (visit_rd hL h (is := is)
        (ys := ys.set i z) (fun j hj => hi j (by simp [hj])) (List.nodup_cons.1 hn).2
        (by simp [hl]) ?_).mono ?_
    · intro j hj t x y htj hxj hyj
      have hne : i ≠ j := by rintro rfl; exact hni hj
      rw [List.getElem?_set_ne hne] at hyj
      exact hp j (by simp [hj]) t x y htj hxj hyj
    · rintro zs ⟨h1, h2, h3⟩
      refine ⟨h1, ?_, ?_⟩
      · intro j hj t x w htj hxj hwj
        rcases List.mem_cons.1 hj with rfl | hj
        · rw [h3 j hni, List.getElem?_set_self (by omega)] at hwj
          rw [ht] at htj; rw [hx] at hxj
          cases htj; cases hxj; cases hwj
          exact hz
        · exact h2 j hj t x w htj hxj hwj
      · intro j hj
        simp only [List.mem_cons, not_or] at hj
        rw [h3 j hj.2, List.getElem?_set_ne (fun h => hj.1 h.symm)]

theorem visit_fp {ts : List ι} {xs : List T}
    (hL : ∀ t ∈ ts, Law K cfg (E t).ti (E t).apply (C t))
    (h : All2 (fun t x => (C t).P x) ts xs) : ∀ {is : List Nat}, (∀ i ∈ is, i < ts.length) →
    Fp K (fun s => visitMembers cfg (ts.map E) is s xs) ((is.map (memberFp C ts xs)).sum) xs
  | [], _ => Fp.pure xs
  | i :: is, hi => by
    have ih := visit_fp hL h (is := is) (fun j hj => hi j (by simp [hj]))
    have hlt := hi i (by simp)
    obtain ⟨hlen, hget⟩ := All2.get h
    have ht : ts[i]? = some ts[i] := List.getElem?_eq_getElem hlt
    have hx : xs[i]? = some (xs[i]'(by omega)) := List.getElem?_eq_getElem (by omega)
    simp only [visitMembers, List.getElem?_map, ht, hx, Option.map_some, List.map_cons, List.sum_cons]
    refine ((pipe_fp (hL _ (List.getElem_mem hlt)) (hget i _ _ ht hx)).bind
      (n' := (is.map (memberFp C ts xs)).sum) ?_).congr (fun _ _ => rfl) ?_
    · simpa using ih
    · simp [memberFp, ht, hx]

/-- The compiler evaluates every argument exactly once. -/
def OrderOk (cfg : Cfg) : Prop := ∀ n, (cfg.argOrder n).Perm (List.range n)

theorem tuple_wr (ho : OrderOk cfg) {ts : List ι} {xs : List T}
    (hL : ∀ t ∈ ts, Law K cfg (E t).ti (E t).apply (C t))
    (h : All2 (fun t x => (C t).P x) ts xs) :
    Wr K cfg (fun s => serTuple cfg (ts.map E) s xs) (fun w => tupleEnc cfg w E C ts xs) xs := by
  refine (visit_wr hL h (is := cfg.argOrder ts.length) ?_).congr ?_ (fun _ => rfl)
  · intro i hi
    exact List.mem_range.1 ((ho _).mem_iff.1 hi)
  · intro s _
    simp [serTuple]

theorem tuple_rd (ho : OrderOk cfg) {ts : List ι} {xs ys : List T}
    (hL : ∀ t ∈ ts, Law K cfg (E t).ti (E t).apply (C t))
    (h : All2 (fun t x => (C t).P x) ts xs) (hp : All3 (fun t x y => (C t).prior x y) ts xs ys) :
    Rd K (fun s => serTuple cfg (ts.map E) s ys) (tupleEnc cfg cfg.check E C ts xs)
      (All3 (fun t x y => (C t).rel x y) ts xs) := by
  obtain ⟨⟨hl1, hl2⟩, hg⟩ := All3.get hp
  refine (visit_rd hL h (is := cfg.argOrder ts.length) (ys := ys) ?_ ?_ ?_ ?_).congr ?_ rfl ?_
  · intro i hi
    exact List.mem_range.1 ((ho _).mem_iff.1 hi)
  · exact (ho _).nodup_iff.2 List.nodup_range
  · omega
  · intro i _ t x y a b c
    exact hg i t x y a b c
  · intro s _
    simp [serTuple]
  · rintro zs ⟨h1, h2, _⟩
    refine All3.of_get hl1 (by omega) ?_
    intro i t x z a b c
    refine h2 i ?_ t x z a b c
    rw [(ho _).mem_iff, List.mem_range]
    exact (List.getElem?_eq_some_iff.1 a).1

theorem tuple_fp (ho : OrderOk cfg) {ts : List ι} {xs : List T}
    (hL : ∀ t ∈ ts, Law K cfg (E t).ti (E t).apply (C t))
    (h : All2 (fun t x => (C t).P x) ts xs) :
    Fp K (fun s => serTuple cfg (ts.map E) s xs)
      (((cfg.argOrder ts.length).map (memberFp C ts xs)).sum) xs := by
  refine (visit_fp hL h (is := cfg.argOrder ts.length) ?_).congr ?_ rfl
  · intro i hi
    exact List.mem_range.1 ((ho _).mem_iff.1 hi)
  · intro s _
    simp [serTuple]

/-! pair -/

theorem pair_wr {A B : Type} {e1 : Elem A} {e2 : Elem B} {c1 : Codec A} {c2 : Codec B} {sz : Nat} {x : A × B}
    (L1 : Law K cfg e1.ti e1.apply c1) (L2 : Law K cfg e2.ti e2.apply c2)
    (h1 : c1.P x.1) (h2 : c2.P x.2) :
    Wr K cfg (fun s => serPair cfg sz e1 e2 s x)
      (fun w => nodeEnc cfg w e1.ti c1 x.1 ++ nodeEnc cfg w e2.ti c2 x.2) x := by
  refine ((pipe_wr L1 h1).bind (k := fun p => pipe cfg e2 p.2 x.2 >>= fun q => .ok ((p.1, q.1), q.2))
    (c := x) ((pipe_wr L2 h2).map (fun b => (x.1, b)))).congr ?_ (fun _ => rfl)
  intro s hs
  simp [serPair, hs.addBytes]

theorem pair_rd {A B : Type} {e1 : Elem A} {e2 : Elem B} {c1 : Codec A} {c2 : Codec B} {sz : Nat} {x y : A × B}
    (L1 : Law K cfg e1.ti e1.apply c1) (L2 : Law K cfg e2.ti e2.apply c2)
    (h1 : c1.P x.1) (h2 : c2.P x.2) (p1 : c1.prior x.1 y.1) (p2 : c2.prior x.2 y.2) :
    Rd K (fun s => serPair cfg sz e1 e2 s y)
      (nodeEnc cfg cfg.check e1.ti c1 x.1 ++ nodeEnc cfg cfg.check e2.ti c2 x.2)
      (fun z => c1.rel x.1 z.1 ∧ c2.rel x.2 z.2) := by
  refine ((pipe_rd L1 h1 p1).bind
    (k := fun p => pipe cfg e2 p.2 y.2 >>= fun q => .ok ((p.1, q.1), q.2))
    (Q' := fun z => c1.rel x.1 z.1 ∧ c2.rel x.2 z.2) (fun a ha =>
      (pipe_rd L2 h2 p2).map (fun b => (a, b)) (fun b hb => ⟨ha, hb⟩))).congr ?_ rfl (fun _ h => h)
  intro s hs
  simp [serPair, hs.addBytes]

theorem pair_fp {A B : Type} {e1 : Elem A} {e2 : Elem B} {c1 : Codec A} {c2 : Codec B} {sz : Nat} {x : A × B}
    (L1 : Law K cfg e1.ti e1.apply c1) (L2 : Law K cfg e2.ti e2.apply c2)
    (h1 : c1.P x.1) (h2 : c2.P x.2) :
    Fp K (fun s => serPair cfg sz e1 e2 s x) (sz + (c1.fp x.1 + c2.fp x.2)) x := by
  refine (((pipe_fp L1 h1).bind
    (k := fun p => pipe cfg e2 p.2 x.2 >>= fun q => .ok ((p.1, q.1), q.2))
    (c := x) ((pipe_fp L2 h2).map (fun b => (x.1, b)))).addBytes_pre (k := sz)).congr ?_ rfl
  intro s hs
  simp [serPair]

/-! variant -/

def variantEnc (cfg : Cfg) (w : Bool) (E : ι → Elem T) (C : ι → Codec T) (ts : List ι)
    (i : Nat) (x : T) : Bytes :=
  sizeNode cfg w i ++
    match ts[i]? with
    | some t => nodeEnc cfg w (E t).ti (C t) x
    | none => []

theorem entry_wr : ∀ {ts : List ι} {cur i : Nat} {t : ι} {x : T},
    ts[i]? = some t → Law K cfg (E t).ti (E t).apply (C t) → (C t).P x →
    Wr K cfg (fun s => serializeEntry cfg (ts.map E) s (.holds (cur + i) x) (cur + i) cur)
      (fun w => nodeEnc cfg w (E t).ti (C t) x) (.holds (cur + i) x)
  | [], _, _, _, _, h, _, _ => by simp at h
  | t' :: ts, cur, 0, t, x, h, L, hx => by
    simp at h
    subst h
    refine ((pipe_wr L hx).map (fun y => Variant.holds cur y)).congr ?_ (fun _ => rfl)
    intro s hs
    simp [serializeEntry, hs.not_unpacking]
  | t' :: ts, cur, i + 1, t, x, h, L, hx => by
    have ih := entry_wr (ts := ts) (cur := cur + 1) (i := i) (by simpa using h) L hx
    have : cur + (i + 1) = cur + 1 + i := by omega
    have hne : ¬ (cur + 1 + i = cur) := by omega
    simp only [this, List.map_cons, serializeEntry, hne, if_false]
    exact ih

theorem entry_rd : ∀ {ts : List ι} {cur i : Nat} {t : ι} {x : T} {v : Variant T},
    ts[i]? = some t → Law K cfg (E t).ti (E t).apply (C t) → (C t).P x →
    (C t).prior x (E t).fresh →
    Rd K (fun s => serializeEntry cfg (ts.map E) s v (cur + i) cur)
      (nodeEnc cfg cfg.check (E t).ti (C t) x)
      (fun z => ∃ b, z = .holds (cur + i) b ∧ (C t).rel x b)
  | [], _, _, _, _, _, h, _, _, _ => by simp at h
  | t' :: ts, cur, 0, t, x, v, h, L, hx, hf => by
    simp at h
    subst h
    refine ((pipe_rd L hx hf).map (Q' := fun z => ∃ b, z = Variant.holds (cur + 0) b ∧ (C t').rel x b)
      (fun y => Variant.holds cur y) (fun b hb => ⟨b, rfl, hb⟩)).congr ?_ rfl (fun _ h => h)
    intro s hs
    simp [serializeEntry, hs.unpacking]
  | t' :: ts, cur, i + 1, t, x, v, h, L, hx, hf => by
    have ih := entry_rd (ts := ts) (cur := cur + 1) (i := i) (v := v) (by simpa using h) L hx hf
    have : cur + (i + 1) = cur + 1 + i := by omega
    have hne : ¬ (cur + 1 + i = cur) := by omega
    simp only [this, List.map_cons, serializeEntry, hne, if_false]
    exact ih

theorem entry_fp : ∀ {ts : List ι} {cur i : Nat} {t : ι} {x : T},
    ts[i]? = some t → Law K cfg (E t).ti (E t).apply (C t) → (C t).P x →
    Fp K (fun s => serializeEntry cfg (ts.map E) s (.holds (cur + i) x) (cur + i) cur)
      ((C t).fp x) (.holds (cur + i) x)
  | [], _, _, _, _, h, _, _ => by simp at h
  | t' :: ts, cur, 0, t, x, h, L, hx => by
    simp at h
    subst h
    refine ((pipe_fp L hx).map (fun y => Variant.holds cur y)).congr ?_ rfl
    intro s hs
    simp [serializeEntry, hs.not_unpacking]
  | t' :: ts, cur, i + 1, t, x, h, L, hx => by
    have ih := entry_fp (ts := ts) (cur := cur + 1) (i := i) (by simpa using h) L hx
    have : cur + (i + 1) = cur + 1 + i := by omega
    have hne : ¬ (cur + 1 + i = cur) := by omega
    simp only [this, List.map_cons, serializeEntry, hne, if_false]
    exact ih

theorem variant_wr (hc : cfg.Valid) {ts : List ι} {i : Nat} {t : ι} {x : T}
    (ht : ts[i]? = some t) (hi : i < 2 ^ 64)
    (L : Law K cfg (E t).ti (E t).apply (C t)) (hx : (C t).P x) :
    Wr K cfg (fun s => serVariant cfg (ts.map E) s (.holds i x))
      (fun w => variantEnc cfg w E C ts i x) (.holds i x) := by
  unfold serVariant
  refine ((pipeSize_wr hc hi).bind ?_).congr (fun _ _ => rfl) (fun _ => rfl)
  have := entry_wr (K := K) (cfg := cfg) (cur := 0) ht L hx
  simp only [Nat.zero_add] at this
  simpa [ht] using this

theorem variant_rd (hc : cfg.Valid) {ts : List ι} {i : Nat} {t : ι} {x : T} {v : Variant T}
    (ht : ts[i]? = some t) (hi : i < 2 ^ 64)
    (L : Law K cfg (E t).ti (E t).apply (C t)) (hx : (C t).P x) (hf : (C t).prior x (E t).fresh) :
    Rd K (fun s => serVariant cfg (ts.map E) s v) (variantEnc cfg cfg.check E C ts i x)
      (fun z => ∃ b, z = .holds i b ∧ (C t).rel x b) := by
  unfold serVariant variantEnc
  simp only [ht]
  refine (pipeSize_rd hc hi).bind ?_
  rintro _ rfl
  have := entry_rd (K := K) (cfg := cfg) (cur := 0) (v := v) ht L hx hf
  simp only [Nat.zero_add] at this
  exact this

theorem pipeSize_fp (hc : cfg.Valid) {n : Nat} (h : n < 2 ^ 64) :
    Fp K (fun s => pipeSize cfg s n) 8 n :=
  pipe_fp (e := sizeElem cfg) (intLaw hc.size) (x := n) h

theorem variant_fp (hc : cfg.Valid) {ts : List ι} {i : Nat} {t : ι} {x : T}
    (ht : ts[i]? = some t) (hi : i < 2 ^ 64)
    (L : Law K cfg (E t).ti (E t).apply (C t)) (hx : (C t).P x) :
    Fp K (fun s => serVariant cfg (ts.map E) s (.holds i x)) (8 + (C t).fp x) (.holds i x) := by
  unfold serVariant
  refine (pipeSize_fp hc hi).bind ?_
  have := entry_fp (K := K) (cfg := cfg) (cur := 0) ht L hx
  simp only [Nat.zero_add] at this
  exact this

end
end Ckpt
