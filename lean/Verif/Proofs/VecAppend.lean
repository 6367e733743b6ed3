import Verif.Proofs.Merge
/-!
Restoring over a non-empty vector whose elements are neither default nor copy constructible.
-/

set_option autoImplicit false

namespace Ckpt

/-! ### Dispatch keeps the number of objects -/

theorem Out.bind_ok_inv {α β : Type} {o : Out α} {f : α → Out β} {b : β} (h : Out.bind o f = .ok b) :
    ∃ a, o = .ok a ∧ f a = .ok b := by
  cases o with
  | ok a => exact ⟨a, rfl, h⟩
  | _ => simp at h

theorem dispatchEach_length {T : Type} {f : Ser → T → Out (T × Ser)} : ∀ {xs : List T} {s s' : Ser} {r : List T},
    dispatchEach f s xs = .ok (r, s') → r.length = xs.length
  | [], s, s', r, h => by simp [dispatchEach] at h; simp [← h.1]
  | x :: xs, s, s', r, h => by
    simp only [dispatchEach, Out.bind_eq] at h
    cases h1 : f s x with
    | ok p =>
      simp only [h1, Out.bind_ok] at h
      cases h2 : dispatchEach f p.2 xs with
      | ok q =>
        simp only [h2, Out.bind_ok, Out.ok.injEq, Prod.mk.injEq] at h
        rw [← h.1]
        simp [dispatchEach_length (xs := xs) (by rw [h2])]
      | _ => simp [h2] at h
    | _ => simp [h1] at h

theorem mapM_raw_length : ∀ {xs : List Val} {ys : List Bytes}, xs.mapM Val.raw? = some ys →
    ys.length = xs.length := by
  intro xs
  induction xs with
  | nil => intro ys h; simp at h; simp [← h]
  | cons x xs ih =>
    intro ys h
    rw [List.mapM_cons] at h
    cases hx : x.raw? with
    | none => simp [hx] at h
    | some b =>
      cases hxs : xs.mapM Val.raw? with
      | none => simp [hx, hxs] at h
      | some bs =>
        simp [hx, hxs] at h
        rw [← h]
        simp [ih hxs]

theorem onRaw_length {size : Nat} {s s' : Ser} {xs r : List Val}
    (h : onRaw (dispatchByte size) s xs = .ok (r, s')) : r.length = xs.length := by
  unfold onRaw at h
  cases hm : xs.mapM Val.raw? with
  | none => simp [hm] at h
  | some ys =>
    simp only [hm, Out.bind_eq] at h
    unfold dispatchByte at h
    simp only [Out.bind_eq] at h
    cases hb : s.contiguousBytes size ys.length ys.flatten with
    | ok p =>
      simp [hb] at h
      rw [← h.1]
      simp [chunks_length, mapM_raw_length hm]
    | _ => simp [hb] at h

theorem dispatch_length {cfg : Cfg} {env : Env} {n : Nat} {t : Ty} {s s' : Ser} {xs r : List Val}
    (h : dispatch cfg env n t s xs = .ok (r, s')) : r.length = xs.length := by
  cases n with
  | zero => simp [dispatch] at h
  | succ n =>
    cases t with
    | prim id size => exact onRaw_length h
    | variant ts =>
      rcases Bool.eq_false_or_eq_true (Ty.allOnlyBytes ts) with hb | hb
      · rw [dispatch_variantBytes hb] at h; exact onRaw_length h
      · rw [dispatch_variant hb] at h; exact dispatchEach_length h
    | cls c =>
      simp only [dispatch, dispatchStep] at h
      split at h
      · change (if s.vdis then _ else _) = _ at h
        split at h
        · exact dispatchEach_length h
        · split at h
          · obtain ⟨p, _, h⟩ := Out.bind_ok_inv h
            simp only [Out.ok.injEq, Prod.mk.injEq] at h
            simp [← h.1]
          · simp at h
      · exact dispatchEach_length h
    | _ => exact dispatchEach_length h

theorem catchDepth_ok {α : Type} {ti : TI} {o : Out α} {a : α} (h : catchDepth ti o = .ok a) : o = .ok a := by
  cases o with
  | throw e => cases e <;> simp [catchDepth] at h
  | ok b => exact h
  | _ => simp [catchDepth] at h

theorem traverse_ok_inv {T : Type} {cfg : Cfg} {ti : TI} {h : Handler T} {s s' : Ser} {xs r : List T}
    (hr : traverse cfg ti h s xs = .ok (r, s')) : ∃ s1 s2, h s1 xs = .ok (r, s2) := by
  unfold traverse at hr
  split at hr
  · simp only [Out.bind_eq] at hr
    obtain ⟨s1, _, hr⟩ := Out.bind_ok_inv hr
    obtain ⟨p, hp, hr⟩ := Out.bind_ok_inv hr
    obtain ⟨s3, _, hr⟩ := Out.bind_ok_inv hr
    simp only [Out.ok.injEq, Prod.mk.injEq] at hr
    exact ⟨s1, p.2, by rw [catchDepth_ok hp, ← hr.1]⟩
  · exact ⟨s, s', hr⟩

theorem serializeArray_length {cfg : Cfg} {env : Env} {n : Nat} {t : Ty} {s s' : Ser} {xs r : List Val}
    (h : serializeArray cfg (elem cfg env n t) s xs = .ok (r, s')) : r.length = xs.length := by
  unfold serializeArray at h
  split at h
  · obtain ⟨s1, s2, h⟩ := traverse_ok_inv h
    exact dispatch_length h
  · simp only [Out.ok.injEq, Prod.mk.injEq] at h
    rw [h.1]

/-- What a top-level call that returns did. -/
theorem top_ok_inv {T : Type} {K : Scope} (hE : ∀ e, ¬ K.errs e) {cfg : Cfg} {e : Elem T} (hti : e.ti.Valid)
    {s s' : Ser} {y z : T}
    (hs : s.Reader K) {r : Bytes} (hr : s.remaining = intBytes cfg.endian 4 e.ti.idx ++ r)
    (h : traverseTop cfg e s y = .ok (z, s')) : ∃ s2, e.apply (s.advance 4) [y] = .ok ([z], s2) := by
  have h4 : withTypeIdx cfg e.ti s = .ok (s.advance 4) := by
    obtain ⟨_, _, hw⟩ := ((withTypeIdx_rd (K := K) (cfg := cfg) hti).ok hE hs).1 r hr
    unfold withTypeIdx' at hw
    simp only [Out.bind_eq] at hw
    obtain ⟨a, ha, hb⟩ := Out.bind_ok_inv hw
    simp only [Out.ok.injEq, Prod.mk.injEq, intBytes_length] at hb
    rw [ha, hb.2]
  have only_inv : ∀ {p : List T × Ser} {z : T} {s' : Ser}, only p = .ok (z, s') → p = ([z], s') := by
    intro p z s' h
    obtain ⟨l, s0⟩ := p
    unfold only at h
    split at h
    · rename_i hl
      simp only [Out.ok.injEq, Prod.mk.injEq] at h
      simp only at hl
      rw [hl, h.1, h.2]
    · simp at h
  unfold traverseTop at h
  split at h
  · rename_i hc
    rw [pipe_eq] at h
    unfold traverse at h
    simp only [hc, if_true, Out.bind_eq, h4, Out.bind_ok, Out.bind_assoc] at h
    obtain ⟨p, hp, h⟩ := Out.bind_ok_inv h
    obtain ⟨s3, _, h⟩ := Out.bind_ok_inv h
    have := only_inv h
    simp only [Prod.mk.injEq] at this
    exact ⟨p.2, by rw [catchDepth_ok hp, ← this.1]⟩
  · rename_i hc
    simp only [Out.bind_eq, h4, Out.bind_ok] at h
    obtain ⟨p, hp, h⟩ := Out.bind_ok_inv h
    obtain ⟨s3, _, h⟩ := Out.bind_ok_inv h
    rw [pipe_eq] at hp
    unfold traverse at hp
    simp only [if_neg hc, Out.bind_eq] at hp
    obtain ⟨q, hq, hp⟩ := Out.bind_ok_inv hp
    have := only_inv (z := p.1) (s' := p.2) hp
    simp only [Out.ok.injEq, Prod.mk.injEq] at h
    exact ⟨q.2, by rw [hq, this, h.1]⟩

section
variable {R : RelMode} {K : Kind → Prop} {cfg : Cfg} {env : Env} {t : Ty} {cap : Nat} {xs : List Val} {bs : Bytes}

theorem constructVectorData_append {T : Type} {e : Elem T} (hd : e.dflt = none) (hcp : e.copyable = false)
    (n : Nat) (v : Vec T) :
    (constructVectorData cfg e n v).elems = v.elems ++ List.replicate n e.fresh := by
  simp [constructVectorData, hd, hcp]

/-- A call that returns has appended as many elements as were serialized. -/
theorem vec_append_length (hv : env.Valid R K cfg) (hd : env.dflt t = none) (hcp : env.copyable t = false)
    {n : Nat} (hP : (codec R cfg env (n + 1) (.vec t)).P (.vec cap xs)) {c0 : Nat} {old : List Val}
    {s s' : Ser} {z : Val} {r : Bytes} (hs : s.Reader (Scope.quiet K))
    (hr : s.remaining = topEnc cfg (env.ti (.vec t)) (codec R cfg env (n + 1) (.vec t)) (.vec cap xs) ++ r)
    (h : traverseTop cfg (elem cfg env (n + 1) (.vec t)) s (.vec c0 old) = .ok (z, s')) :
    ∃ c1 ys, z = .vec c1 ys ∧ ys.length = old.length + xs.length := by
  simp only [topEnc, node, if_true, List.append_assoc] at hr
  obtain ⟨s2, h2⟩ := top_ok_inv (K := Scope.quiet K) (fun _ h => h) (e := elem cfg env (n + 1) (.vec t)) (hv.ti _)
    hs hr h
  have hs1 : (s.advance 4).Reader (Scope.quiet K) := hs.advance (by rw [hr]; simp [intBytes_length])
  have hr1 : (s.advance 4).remaining = (codec R cfg env (n + 1) (.vec t)).enc cfg.check (.vec cap xs) ++
      (intBytes cfg.endian 8 ((env.ti (.vec t)).sizeof * 1 % 2 ^ 64) ++ r) := by
    rw [Ser.remaining_advance, hr, List.drop_left' (by simp [intBytes_length])]
  have h3 : dispatchEach (fun s v =>
      match v with
      | .vec cap xs => do
        let (v, s) ← serVector cfg (env.ti (.vec t)).sizeof (elem cfg env n t) s ⟨cap, xs⟩
        .ok (.vec v.cap v.elems, s)
      | _ => .ub .typeConfusion) (s.advance 4) [.vec c0 old] = .ok ([z], s2) := h2
  simp only [dispatchEach, Out.bind_eq, Out.bind_assoc, Out.bind_ok] at h3
  obtain ⟨p, hp, h3⟩ := Out.bind_ok_inv h3
  simp only [Out.ok.injEq, Prod.mk.injEq, List.cons.injEq, and_true] at h3
  refine ⟨_, _, h3.1.symm, ?_⟩
  have hP' : VecOk ((codec R cfg env n t).byVal t) ⟨cap, xs⟩ := hP
  have hr2 : (s.advance 4).remaining = (sizeNode cfg cfg.check cap ++ sizeNode cfg cfg.check xs.length) ++
      (arrEnc cfg cfg.check (env.ti t) ((codec R cfg env n t).byVal t) xs ++
      (intBytes cfg.endian 8 ((env.ti (.vec t)).sizeof * 1 % 2 ^ 64) ++ r)) := by
    rw [hr1]
    simp [codec, vecEnc]
  obtain ⟨_, rfl, hm⟩ := ((vecMeta_rd (K := Scope.quiet K) hv.cfgOk (x := ⟨cap, xs⟩) (y := ⟨c0, old⟩)
    hP'.cap hP'.lt).ok (fun _ h => h) hs1).1 _ hr2
  have hsv : serVector cfg (env.ti (.vec t)).sizeof (elem cfg env n t) (s.advance 4) ⟨c0, old⟩ =
      vecMeta cfg (⟨c0, old⟩ : Vec Val) (s.advance 4) >>= fun p =>
      let v' := if p.2.isUnpacking then constructVectorData cfg (elem cfg env n t) p.1.1 p.1.2 else p.1.2
      serializeArray cfg (elem cfg env n t) p.2 v'.elems >>= fun q => .ok ({ v' with elems := q.1 }, q.2) := by
    simp [serVector, hs1.not_footprinting, vecMeta, Out.bind_assoc]
  rw [hsv, hm] at hp
  have hs3 := hs1.advance (n := (sizeNode cfg cfg.check cap ++ sizeNode cfg cfg.check xs.length).length)
    (by rw [hr2]; simp)
  simp only [Out.bind_eq, Out.bind_ok] at hp
  rw [hs3.unpacking] at hp
  simp only [if_true] at hp
  obtain ⟨q, hq, hp⟩ := Out.bind_ok_inv hp
  simp only [Out.ok.injEq] at hp
  rw [← hp]
  simp only
  rw [serializeArray_length (s' := q.2) hq, constructVectorData_append (e := elem cfg env n t) hd hcp,
    Vec.reserve_elems]
  simp

/-! ### Over-reading -/

theorem trailer_short {K : Scope} (hE : ∀ e, ¬ K.errs e) {ti : TI} {len : Nat} {s : Ser} (hs : s.Reader K)
    (h : s.remaining.length < 8) : withMemUsed cfg ti s len = s.short := by
  have hl : (s.remaining ++ List.replicate (8 - s.remaining.length) 0).length = 8 := by simp; omega
  have h1 := ((rawInt_rd (K := K) (cfg := cfg) (n := 8)
    (v := intVal cfg.endian (s.remaining ++ List.replicate (8 - s.remaining.length) 0)) (v0 := 0)
    (by have := intVal_lt cfg.endian (s.remaining ++ List.replicate (8 - s.remaining.length) 0)
        rw [hl] at this; exact this)).ok hE hs).2 (List.replicate (8 - s.remaining.length) 0)
    (by intro h0; have := congrArg List.length h0; simp at this; omega)
    (by have := intBytes_intVal cfg.endian (s.remaining ++ List.replicate (8 - s.remaining.length) 0)
        rw [hl] at this; exact this)
  simp [withMemUsed, hs.not_packing, hs.unpacking, h1, Ser.short_bind]

variable {c m id : Nat}

/-- Objects of a class with one arithmetic member, from their bytes. -/
def boxes (c m k : Nat) (bs : Bytes) : List Val := (chunks m k bs).map fun b => .obj c [[.raw b]]

theorem boxes_P (hb : (env.cls c).bases = []) (hf : (env.cls c).fields = [.prim id m]) (n k : Nat) {bs : Bytes}
    (hl : bs.length = m * k) : ∀ x ∈ boxes c m k bs, ((codec R cfg env (n + 2) (.cls c)).byVal (.cls c)).P x := by
  intro x hx
  obtain ⟨b, hb', rfl⟩ := List.mem_map.1 hx
  have hbl := chunks_mem_length m k bs hl b hb'
  have hch : env.chain c = [c] := by simp [Env.chain, hb]
  refine ⟨⟨?_, fun _ => rfl, ?_⟩, rfl⟩
  · simp [hch]
  · rw [hch]
    refine ⟨?_, trivial⟩
    simp only [hf]
    exact ⟨⟨hbl, trivial⟩, trivial⟩

theorem chunks_flatten_of (size : Nat) : ∀ (k : Nat) (bs : Bytes), bs.length = size * k →
    (chunks size k bs).flatten = bs
  | 0, bs, h => by simp at h; simp [chunks, h]
  | k + 1, bs, h => by
    rw [Nat.mul_succ] at h
    simp [chunks, chunks_flatten_of size k (bs.drop size) (by simp; omega)]

theorem boxes_enc (hf : (env.cls c).fields = [.prim id m])
    (hvirt : (env.cls c).virt = false) (hc : cfg.check = false) (n k : Nat) {bs : Bytes}
    (hl : bs.length = m * k) :
    arrEnc cfg cfg.check (env.ti (.cls c)) ((codec R cfg env (n + 2) (.cls c)).byVal (.cls c)) (boxes c m k bs) =
      bs := by
  have h1 : (boxes c m k bs).flatMap (((codec R cfg env (n + 2) (.cls c)).byVal (.cls c)).enc false) = bs := by
    unfold boxes
    rw [List.flatMap_map]
    have : ∀ b : Bytes, ((codec R cfg env (n + 2) (.cls c)).byVal (.cls c)).enc false (.obj c [[.raw b]]) = b := by
      intro b
      simp [Codec.byVal, codec, rawCodec, hvirt, hf, membersEnc, nodeEnc, node]
    simp only [this]
    have h2 := chunks_flatten_of m k bs hl
    simpa [List.flatMap_id] using h2
  unfold arrEnc
  rw [hc, h1]
  split
  · simp [node]
  · rename_i h0
    simp only [boxes, List.length_map, chunks_length] at h0
    have : k = 0 := by omega
    subst this
    simp at hl
    exact hl.symm

/-- Reading the vector's own data, if there is enough of it. -/
theorem boxVec_rd (hv : env.Valid R K cfg) (hd : env.dflt (.cls c) = none) (hcp : env.copyable (.cls c) = false)
    (hf : (env.cls c).fields = [.prim id m])
    (hvirt : (env.cls c).virt = false) (hc : cfg.check = false) {n : Nat}
    (hl : xs.length ≤ cap) (hcap : cap < 2 ^ 64) {c0 : Nat} {old : List Val}
    (hold : ∀ o ∈ old, Clean R cfg env (.cls c) o ∧ ByVal (.cls c) o) {E : Bytes}
    (hE : E.length = m * (old.length + xs.length)) :
    Rd (Scope.quiet K) (fun s => withTypeIdx' cfg (env.ti (.vec (.cls c))) s >>= fun p =>
        pipe cfg (elem cfg env (n + 3) (.vec (.cls c))) p.2 (.vec c0 old))
      (intBytes cfg.endian 4 (env.ti (.vec (.cls c))).idx ++
        ((sizeNode cfg cfg.check cap ++ sizeNode cfg cfg.check xs.length) ++ E)) (fun _ => True) := by
  have hb := hv.plain c hvirt
  refine (withTypeIdx_rd (hv.ti _)).bind fun _ _ => ?_
  have harr : Rd (Scope.quiet K) (fun s => serializeArray cfg (elem cfg env (n + 2) (.cls c)) s
      (old ++ List.replicate xs.length (env.fresh (.cls c)))) E (fun _ => True) := by
    have hPs := boxes_P (R := R) (cfg := cfg) hb hf n (old.length + xs.length) hE
    have hlen : (boxes c m (old.length + xs.length) E).length = old.length + xs.length := by
      simp [boxes, chunks_length]
    have h1 := serializeArray_rd (e := elem cfg env (n + 2) (.cls c)) (law_byVal (R := R) hv (n + 2) (.cls c))
      (xs := boxes c m (old.length + xs.length) E)
      (ys := old ++ List.replicate xs.length (env.fresh (.cls c))) hPs (by
        rw [List.forall₂_iff_get]
        refine ⟨by simp [hlen], fun i h1 h2 => ?_⟩
        have hx := hPs _ (List.getElem_mem h1)
        have hy : Clean R cfg env (.cls c) ((old ++ List.replicate xs.length (env.fresh (.cls c)))[i]'h2) ∧
            ByVal (.cls c) ((old ++ List.replicate xs.length (env.fresh (.cls c)))[i]'h2) := by
          rcases List.mem_append.1 (List.getElem_mem h2) with h | h
          · exact hold _ h
          · rw [(List.mem_replicate.1 h).2]; exact hv.fresh _
        refine codec_prior hv.toUsable (n + 2) (.cls c) _ _ hx.1 hy.1 ?_
        rintro c' _
        exact sameDyn_of_byVal hx.2 hy.2)
      ⟨by simp [Env.isVirt, hvirt], fun ha => absurd (hv.sym c) ha⟩
    refine h1.congr (fun _ _ => rfl) ?_ (fun _ _ => trivial)
    exact (boxes_enc hf hvirt hc n _ hE).symm
  have hser : Rd (Scope.quiet K) (fun s => serVector cfg (env.ti (.vec (.cls c))).sizeof
      (elem cfg env (n + 2) (.cls c)) s ⟨c0, old⟩)
      ((sizeNode cfg cfg.check cap ++ sizeNode cfg cfg.check xs.length) ++ E) (fun _ => True) := by
    refine ((vecMeta_rd (K := Scope.quiet K) hv.cfgOk (x := ⟨cap, xs⟩) (y := ⟨c0, old⟩) hl hcap).bind
      (k := fun p =>
      let v' := if p.2.isUnpacking then constructVectorData cfg (elem cfg env (n + 2) (.cls c)) p.1.1 p.1.2 else p.1.2
      serializeArray cfg (elem cfg env (n + 2) (.cls c)) p.2 v'.elems >>= fun q =>
        .ok ({ v' with elems := q.1 }, q.2)) (bs' := E) (Q' := fun _ => True) ?_).congr ?_ rfl (fun _ h => h)
    · rintro _ rfl
      refine (harr.map (fun es => ({ (constructVectorData cfg (elem cfg env (n + 2) (.cls c)) xs.length
        (Vec.reserve cfg ⟨c0, old⟩ cap)) with elems := es } : Vec Val)) (Q' := fun _ => True)
        (fun _ _ => trivial)).congr ?_ rfl (fun _ h => h)
      intro s hs
      simp only [hs.unpacking, if_true]
      rw [constructVectorData_append (e := elem cfg env (n + 2) (.cls c)) hd hcp, Vec.reserve_elems]
      rfl
    · intro s hs
      simp [serVector, hs.not_footprinting, vecMeta, Out.bind_assoc]
  have hev := each_rd (T := Val) (y := .vec c0 old) (f := fun s v =>
      match v with
      | .vec cap xs => do
        let (v, s) ← serVector cfg (env.ti (.vec (.cls c))).sizeof (elem cfg env (n + 2) (.cls c)) s ⟨cap, xs⟩
        .ok (.vec v.cap v.elems, s)
      | _ => .ub .typeConfusion) (hser.map (fun v => Val.vec v.cap v.elems) (Q' := fun _ => True)
        (fun _ _ => trivial))
  refine (only_rd (Q' := fun _ => True) hev (fun l hl => ?_)).congr ?_ rfl (fun _ h => h)
  · obtain ⟨z, rfl, _⟩ := hl
    exact ⟨z, rfl, trivial⟩
  · intro s _
    rw [pipe_eq]
    unfold traverse
    simp only [hc, Bool.false_eq_true, if_false]
    rfl

/-- The data ends before `k + n` elements and the trailer have been read. -/
theorem boxVec_short (hv : env.Valid R K cfg) (hd : env.dflt (.cls c) = none) (hcp : env.copyable (.cls c) = false)
    (hf : (env.cls c).fields = [.prim id m]) (hm : 0 < m)
    (hvirt : (env.cls c).virt = false) (hc : cfg.check = false) {n : Nat}
    (hP : (codec R cfg env (n + 3) (.vec (.cls c))).P (.vec cap xs)) {c0 : Nat} {old : List Val} (hne : old ≠ [])
    (hold : ∀ o ∈ old, Clean R cfg env (.cls c) o ∧ ByVal (.cls c) o) {s : Ser}
    (hs : s.Reader (Scope.quiet K))
    (hr : s.remaining = topEnc cfg (env.ti (.vec (.cls c))) (codec R cfg env (n + 3) (.vec (.cls c))) (.vec cap xs)) :
    traverseTop cfg (elem cfg env (n + 3) (.vec (.cls c))) s (.vec c0 old) = s.short := by
  have hP' : VecOk ((codec R cfg env (n + 2) (.cls c)).byVal (.cls c)) ⟨cap, xs⟩ := hP
  have hb := hv.plain c hvirt
  have hch : env.chain c = [c] := by simp [Env.chain, hb]
  -- the elements take `m` bytes each
  have hbody : ∀ ys : List Val, (∀ x ∈ ys, ((codec R cfg env (n + 2) (.cls c)).byVal (.cls c)).P x) →
      (ys.flatMap (((codec R cfg env (n + 2) (.cls c)).byVal (.cls c)).enc false)).length = m * ys.length := by
    intro ys hys
    induction ys with
    | nil => simp
    | cons x ys ih =>
      rw [List.flatMap_cons, List.length_append, ih (fun y hy => hys y (by simp [hy])), List.length_cons,
        Nat.mul_succ, Nat.add_comm]
      congr 1
      have hx := hys x (by simp)
      cases x with
      | obj d ps =>
        obtain ⟨⟨_, h2, h3⟩, _⟩ := hx
        have := h2 hvirt
        subst this
        rw [hch] at h3
        match ps, h3 with
        | [p], h3 =>
          have h4 := h3.1
          simp only [hf] at h4
          match p, h4 with
          | [v], h4 =>
            have h5 := h4.1.1
            cases v with
            | raw b =>
              have : b.length = m := h5
              simp [Codec.byVal, codec, rawCodec, hvirt, hf, membersEnc, nodeEnc, node, this]
            | _ => exact h5.elim
      | _ => exact hx.1.elim
  let tl := intBytes cfg.endian 8 ((env.ti (.vec (.cls c))).sizeof * 1 % 2 ^ 64)
  have htl : tl.length = 8 := intBytes_length _ _ _
  let hd4 := intBytes cfg.endian 4 (env.ti (.vec (.cls c))).idx
  let mt := sizeNode cfg cfg.check cap ++ sizeNode cfg cfg.check xs.length
  let body := xs.flatMap (((codec R cfg env (n + 2) (.cls c)).byVal (.cls c)).enc false)
  have hbl : body.length = m * xs.length := hbody xs hP'.all
  have hbody' : arrEnc cfg cfg.check (env.ti (.cls c)) ((codec R cfg env (n + 2) (.cls c)).byVal (.cls c)) xs =
      body := by
    unfold arrEnc
    rw [hc]
    split
    · simp [node, body]
    · rename_i h0
      have : xs = [] := List.length_eq_zero_iff.1 (by omega)
      simp [this, body]
  have hr' : s.remaining = hd4 ++ (mt ++ body) ++ tl := by
    rw [hr, ← hbody']
    simp [topEnc, node, codec, vecEnc, hd4, mt, tl]
  have hk : 0 < old.length := List.length_pos_of_ne_nil hne
  have htop : traverseTop cfg (elem cfg env (n + 3) (.vec (.cls c))) s (.vec c0 old) =
      (withTypeIdx' cfg (env.ti (.vec (.cls c))) s >>= fun p =>
        pipe cfg (elem cfg env (n + 3) (.vec (.cls c))) p.2 (.vec c0 old)) >>= fun q =>
      withMemUsed cfg (env.ti (.vec (.cls c))) q.2 1 >>= fun s' => .ok (q.1, s') := by
    simp only [traverseTop, hc, Bool.false_eq_true, if_false, withTypeIdx', Out.bind_eq, Out.bind_assoc, Out.bind_ok]
    rfl
  have hmul : m * (old.length + xs.length) = m * old.length + m * xs.length := Nat.mul_add ..
  have hmk : 0 < m * old.length := Nat.mul_pos hm hk
  have rd := fun E hE => boxVec_rd (xs := xs) (n := n) (c0 := c0) (E := E) hv hd hcp hf hvirt hc hP'.cap hP'.lt hold hE
  rw [htop]
  by_cases hlong : 8 < m * old.length
  · have h1 := ((rd (body ++ tl ++ List.replicate (m * old.length - 8) 0) (by
      simp only [List.length_append, hbl, htl, List.length_replicate, hmul]; omega)).ok (fun _ h => h) hs).2
      (List.replicate (m * old.length - 8) 0)
      (by intro h0; have := congrArg List.length h0; simp at this; omega)
      (by rw [hr']; simp [hd4, mt])
    rw [h1]
    exact Ser.short_bind _ _
  · have hr2 : s.remaining = (hd4 ++ (mt ++ (body ++ tl.take (m * old.length)))) ++ tl.drop (m * old.length) := by
      rw [hr']; simp [List.take_append_drop]
    obtain ⟨z, _, h1⟩ := ((rd (body ++ tl.take (m * old.length)) (by
      simp only [List.length_append, hbl, List.length_take, htl, hmul]; omega)).ok (fun _ h => h) hs).1
      (tl.drop (m * old.length)) hr2
    rw [h1]
    simp only [Out.bind_eq, Out.bind_ok]
    have hs2 := hs.advance (n := (hd4 ++ (mt ++ (body ++ tl.take (m * old.length)))).length)
      (by rw [hr2]; exact (List.sublist_append_left _ _).length_le)
    have hrem := Ser.remaining_advance s (hd4 ++ (mt ++ (body ++ tl.take (m * old.length)))).length
    rw [hr2, List.drop_left] at hrem
    rw [show withMemUsed cfg (env.ti (.vec (.cls c))) (s.advance _) 1 = _ from
      trailer_short (K := Scope.quiet K) (fun _ h => h) hs2 (by rw [hrem]; simp [htl]; omega)]
    rw [Ser.short_advance]
    exact Ser.short_bind _ _

end
end Ckpt
