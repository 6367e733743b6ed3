import Verif.Proofs.Asym
/-!
`codec_law`: the dispatch of every type obeys the codec of that type.
-/

set_option autoImplicit false

namespace Ckpt

variable {R : RelMode} {K : Scope} {cfg : Cfg} {env : Env}

/-! ### Chains of classes -/

theorem lookup_ok (hv : env.Usable R K.kinds cfg) {d k : Nat} (hk : k ∈ env.chain d) {kd : Kind}
    (hvirt : ∃ c, (env.cls c).virt = true) (hK : K.kinds kd) :
    env.serReg.lookup cfg.ndebug k (env.root d) kd = .ok kd := by
  rw [← hv.hier d k hk]
  exact SerReg.lookup_eq hv.serRegOk _ _ (hv.kinds hvirt kd hK)

/-- Every class reads the members it writes, or its reading is checked. -/
def Env.AsymOk (K : Scope) (cfg : Cfg) (env : Env) : Prop :=
  ∀ c, Ckpt.AsymOk K cfg (fun t => env.elemOf (fun _ _ => .fuel) t) (env.ti (.cls c)) (env.cls c).fields
    (env.cls c).rfields

/-- Reading may end with a `serialization_error`. -/
def checkedScope : Scope where
  kinds k := k ∈ builtinKinds
  errs e := ∃ k d tr, e = .ser k d tr
  closed k d tr nm _ := ⟨k, d + 1, tr ++ [nm], rfl⟩

theorem asymOk_checked (hc : cfg.check = true) (hd : env.Distinguishable) : env.AsymOk checkedScope cfg :=
  fun c h => ⟨hc, fun k d tr => ⟨k, d, tr, rfl⟩, (hd c h).1, (hd c h).2⟩

/-- A type whose objects are those of another type in a different form. -/
theorem Law.wrap {A : Type} {ti : TI} {h : Handler A} {c : Codec A} (L : Law K cfg ti h c) {h' : Handler Val}
    {c' : Codec Val} {f : A → Val}
    (hh : ∀ s xs, h' s (xs.map f) = h s xs >>= fun r => .ok (r.1.map f, r.2))
    (hP : ∀ b, c'.P b → ∃ a, b = f a ∧ c.P a)
    (hp : ∀ a b, c'.prior (f a) b → ∃ a', b = f a' ∧ c.prior a a')
    (hr : ∀ a a', c.rel a a' → c'.rel (f a) (f a'))
    (he : ∀ w a, c'.enc w (f a) = c.enc w a) (hfp : ∀ a, c'.fp (f a) = c.fp a)
    (hm : ∀ n, c'.multi n → c.multi n) (hone : c'.multi 1) : Law K cfg ti h' c' := by
  have hxs : ∀ xs : List Val, (∀ x ∈ xs, c'.P x) → ∃ as : List A, xs = as.map f ∧ ∀ a ∈ as, c.P a := by
    intro xs
    induction xs with
    | nil => intro _; exact ⟨[], rfl, by simp⟩
    | cons x xs ih =>
      intro h
      obtain ⟨a, rfl, ha⟩ := hP x (h x (by simp))
      obtain ⟨as, rfl, has⟩ := ih (fun y hy => h y (by simp [hy]))
      exact ⟨a :: as, rfl, by
        intro b hb
        rcases List.mem_cons.1 hb with rfl | hb
        · exact ha
        · exact has b hb⟩
  have hys : ∀ (as : List A) (ys : List Val), List.Forall₂ c'.prior (as.map f) ys →
      ∃ bs : List A, ys = bs.map f ∧ List.Forall₂ c.prior as bs := by
    intro as
    induction as with
    | nil => intro ys h; cases h; exact ⟨[], rfl, .nil⟩
    | cons a as ih =>
      intro ys h
      cases h with
      | cons h1 h2 =>
        obtain ⟨b, rfl, hb⟩ := hp _ _ h1
        obtain ⟨bs, rfl, hbs⟩ := ih _ h2
        exact ⟨b :: bs, rfl, .cons hb hbs⟩
  have hrel : ∀ (as bs : List A), List.Forall₂ c.rel as bs → List.Forall₂ c'.rel (as.map f) (bs.map f) := by
    intro as bs h
    induction h with
    | nil => exact .nil
    | cons h1 _ ih => exact .cons (hr _ _ h1) ih
  have htr : ∀ (s : Ser) (xs : List A), traverse cfg ti h' s (xs.map f) =
      traverse cfg ti h s xs >>= fun r => .ok (r.1.map f, r.2) := by
    intro s xs
    unfold traverse
    split
    · simp only [Out.bind_eq, Out.bind_assoc, List.length_map, Out.bind_ok]
      congr 1
      funext s1
      rw [hh]
      cases h s1 xs with
      | throw e => cases e <;> rfl
      | _ => rfl
    · exact hh s xs
  have henc : ∀ w (as : List A), (as.map f).flatMap (c'.enc w) = as.flatMap (c.enc w) := by
    intro w as
    rw [List.flatMap_map]
    congr 1
    funext a
    exact he w a
  refine ⟨L.ti_valid, hone, ?_, ?_, ?_⟩
  · intro xs hx hl hmu
    obtain ⟨as, rfl, has⟩ := hxs xs hx
    rw [List.length_map] at hl hmu
    exact ((L.wr as has hl (hm _ hmu)).map (List.map f)).congr (fun s _ => hh s as) (fun w => henc w as)
  · intro xs ys hx hy hl hmu
    obtain ⟨as, rfl, has⟩ := hxs xs hx
    obtain ⟨bs, rfl, hbs⟩ := hys as ys hy
    rw [List.length_map] at hl hmu
    refine ((L.rd as bs has hbs hl (hm _ hmu)).map (List.map f) (hrel as)).congr (fun s _ => htr s bs)
      ?_ (fun _ h => h)
    rw [henc, List.length_map]
  · intro xs hx hl hmu
    obtain ⟨as, rfl, has⟩ := hxs xs hx
    rw [List.length_map] at hl hmu
    refine ((L.fp as has hl (hm _ hmu)).map (List.map f)).congr (fun s _ => hh s as) ?_
    rw [List.map_map]
    congr 1
    apply List.map_congr_left
    intro a _
    exact hfp a

section
variable {E : Ty → Elem Val} {C : Ty → Codec Val}

theorem cls_law (hti : ∀ t, (env.ti t).Valid) (hE : ∀ t, (E t).ti = env.ti t)
    (hL : ∀ t, Law K cfg (E t).ti (E t).apply (C t)) (hA : env.AsymOk K cfg) (k : Nat) :
    Law K cfg (env.ti (.cls k))
      (dispatchEach (fun s p => serMembers cfg (((env.cls k).visited s).map E) s p))
      (partCodec E C cfg (env.ti (.cls k)) (env.cls k).fields (env.cls k).rfields) :=
  part_law (hti _) hL (fun h => by
    obtain ⟨h1, h2, h3, h4⟩ := hA k h
    refine ⟨h1, h2, h3, fun p hp u hu hi => h4 p hp u hu ?_⟩
    simpa [hE, Env.elemOf] using hi)

/-- The chain as `dispatch` calls it. -/
def chainOf (cfg : Cfg) (env : Env) (E : Ty → Elem Val) (root : Nat) (ks : List Nat) (s : Ser)
    (ps : List (List Val)) : Out (List (List Val) × Ser) :=
  serChain cfg env.serReg root
    (fun k => partElem (env.ti (.cls k))
      (fun s ps => dispatchEach (fun s p => serMembers cfg (((env.cls k).visited s).map E) s p)
        (s.setVdis false) ps) []) ks s ps

theorem chain_wr (hti : ∀ t, (env.ti t).Valid) (hE : ∀ t, (E t).ti = env.ti t)
    (hL : ∀ t, Law K cfg (E t).ti (E t).apply (C t)) (hA : env.AsymOk K cfg)
    {root : Nat} : ∀ {ks : List Nat} {ps : List (List Val)},
    (∀ k ∈ ks, ∀ kd, K.kinds kd → env.serReg.lookup cfg.ndebug k root kd = .ok kd) →
    All2 (fun k p => All2 (fun t x => (C t).P x) (env.cls k).fields p) ks ps →
    Wr K cfg (fun s => chainOf cfg env E root ks s ps)
      (fun w => chainEnc cfg w (fun k => env.ti (.cls k))
        (fun k p => membersEnc cfg w E C (env.cls k).fields p) ks ps) ps
  | [], [], _, _ => Wr.pure []
  | k :: ks, p :: ps, hk, h => by
    have ih := chain_wr hti hE hL hA (root := root) (ks := ks) (ps := ps)
      (fun k' hk' => hk k' (by simp [hk'])) h.2
    have h1 := pipe_wr (e := partElem (env.ti (.cls k))
      (dispatchEach (fun s p => serMembers cfg (((env.cls k).visited s).map E) s p)) [])
      (cls_law hti hE hL hA k) (x := p) h.1
    refine (h1.bind (k := fun r => chainOf cfg env E root ks r.2 ps >>= fun q =>
      .ok (r.1 :: q.1, q.2)) (ih.map (fun qs => p :: qs))).congr ?_ (fun w => rfl)
    intro s hs
    exact serChain_eq _ _ _ hs.1 (hk k (by simp) _ hs.2.1)
  | [], _ :: _, _, h => by simp [All2] at h
  | _ :: _, [], _, h => by simp [All2] at h

theorem chain_rd (hti : ∀ t, (env.ti t).Valid) (hE : ∀ t, (E t).ti = env.ti t)
    (hL : ∀ t, Law K cfg (E t).ti (E t).apply (C t)) (hA : env.AsymOk K cfg)
    {root : Nat} : ∀ {ks : List Nat} {ps qs : List (List Val)},
    (∀ k ∈ ks, ∀ kd, K.kinds kd → env.serReg.lookup cfg.ndebug k root kd = .ok kd) →
    All2 (fun k p => All2 (fun t x => (C t).P x) (env.cls k).fields p) ks ps →
    All3 (fun k p q => (partCodec E C cfg (env.ti (.cls k)) (env.cls k).fields (env.cls k).rfields).prior p q) ks ps qs →
    Rd K (fun s => chainOf cfg env E root ks s qs)
      (chainEnc cfg cfg.check (fun k => env.ti (.cls k))
        (fun k p => membersEnc cfg cfg.check E C (env.cls k).fields p) ks ps)
      (All3 (fun k p q => (partCodec E C cfg (env.ti (.cls k)) (env.cls k).fields (env.cls k).rfields).rel p q) ks ps)
  | [], [], [], _, _, _ => Rd.pure trivial
  | k :: ks, p :: ps, q :: qs, hk, h, hp => by
    have ih := chain_rd hti hE hL hA (root := root) (ks := ks) (ps := ps) (qs := qs)
      (fun k' hk' => hk k' (by simp [hk'])) h.2 hp.2
    have h1 := pipe_rd (e := partElem (env.ti (.cls k))
      (dispatchEach (fun s p => serMembers cfg (((env.cls k).visited s).map E) s p)) [])
      (cls_law hti hE hL hA k)
      (x := p) (y := q) h.1 hp.1
    refine (h1.bind (k := fun r => chainOf cfg env E root ks r.2 qs >>= fun q =>
      .ok (r.1 :: q.1, q.2)) (fun r hr => ih.map (Q' := All3 (fun k p q =>
        (partCodec E C cfg (env.ti (.cls k)) (env.cls k).fields (env.cls k).rfields).rel p q) (k :: ks) (p :: ps)) (fun rs => r :: rs) (fun rs hrs => ⟨hr, hrs⟩))).congr
      ?_ rfl (fun _ h => h)
    intro s hs
    exact serChain_eq _ _ _ hs.1 (hk k (by simp) _ hs.2.1)
  | [], _ :: _, _, _, h, _ => by simp [All2] at h
  | _ :: _, [], _, _, h, _ => by simp [All2] at h
  | [], [], _ :: _, _, _, h => by simp [All3] at h
  | _ :: _, _ :: _, [], _, _, h => by simp [All3] at h

theorem chain_fp (hti : ∀ t, (env.ti t).Valid) (hE : ∀ t, (E t).ti = env.ti t)
    (hL : ∀ t, Law K cfg (E t).ti (E t).apply (C t)) (hA : env.AsymOk K cfg)
    {root : Nat} : ∀ {ks : List Nat} {ps : List (List Val)},
    (∀ k ∈ ks, ∀ kd, K.kinds kd → env.serReg.lookup cfg.ndebug k root kd = .ok kd) →
    All2 (fun k p => All2 (fun t x => (C t).P x) (env.cls k).fields p) ks ps →
    Fp K (fun s => chainOf cfg env E root ks s ps)
      (chainFp (fun k p => membersFp C (env.cls k).fields p) ks ps) ps
  | [], [], _, _ => Fp.pure []
  | k :: ks, p :: ps, hk, h => by
    have ih := chain_fp hti hE hL hA (root := root) (ks := ks) (ps := ps)
      (fun k' hk' => hk k' (by simp [hk'])) h.2
    have h1 := pipe_fp (e := partElem (env.ti (.cls k))
      (dispatchEach (fun s p => serMembers cfg (((env.cls k).visited s).map E) s p)) [])
      (cls_law hti hE hL hA k) (x := p) h.1
    refine (h1.bind (k := fun r => chainOf cfg env E root ks r.2 ps >>= fun q =>
      .ok (r.1 :: q.1, q.2)) (ih.map (fun qs => p :: qs))).congr ?_ rfl
    intro s hs
    exact serChain_eq _ _ _ hs.1 (hk k (by simp) _ hs.2.1)
  | [], _ :: _, _, h => by simp [All2] at h
  | _ :: _, [], _, h => by simp [All2] at h

end

theorem root_eq (hv : env.Usable R K.kinds cfg) {c d : Nat} (h : c ∈ env.chain d) : env.root c = env.root d :=
  hv.hier d c h

/-! ### The law -/

theorem mapM_raw : ∀ (xs : List Bytes),
    (xs.map Val.raw).mapM Val.raw? = some xs
  | [] => rfl
  | x :: xs => by
    simp [List.mapM_cons, mapM_raw xs, Val.raw?]

theorem onRaw_raw (h : Handler Bytes) (s : Ser) (xs : List Bytes) :
    onRaw h s (xs.map Val.raw) = h s xs >>= fun r => .ok (r.1.map Val.raw, r.2) := by
  unfold onRaw
  rw [mapM_raw]

theorem raw_law {ti : TI} (hti : ti.Valid) (size : Nat) :
    Law K cfg ti (onRaw (dispatchByte size)) (rawCodec size) := by
  have L : Law K cfg ti (dispatchByte size) (byteCodec size) := byteLaw hti
  refine L.wrap (f := Val.raw) (fun s xs => onRaw_raw _ s xs) ?_ ?_ ?_ ?_ ?_ (fun _ _ => trivial) trivial
  · intro b hb
    cases b <;> try exact hb.elim
    exact ⟨_, rfl, hb⟩
  · intro a b hb
    cases b <;> try exact hb.elim
    exact ⟨_, rfl, hb⟩
  · intro a b h
    exact h
  · intro w a; rfl
  · intro a; rfl

theorem under_law (hti : ∀ t, (env.ti t).Valid) {ti : TI} (ht : ti.Valid) (pid size : Nat) :
    Law K cfg ti (dispatchEach fun s v =>
        match v with
        | .raw bs => do
          let (bs, s) ← serUnderlying cfg (primElem env pid size) s bs
          .ok (.raw bs, s)
        | _ => .ub .typeConfusion)
      (underCodec (env.ti (.prim pid size)) cfg size) := by
  have L : Law K cfg (primElem env pid size).ti (primElem env pid size).apply (byteCodec size) :=
    byteLaw (hti _)
  refine Law.ofEach ht trivial ?_ ?_ ?_
  · intro x hx
    cases x <;> try exact hx.elim
    rename_i bs
    exact (under_wr L (x := bs) hx).map Val.raw
  · intro x y hx hy
    cases x <;> try exact hx.elim
    cases y <;> try exact hy.elim
    rename_i bs cs
    exact (under_rd L (x := bs) (y := cs) hx hy).map Val.raw (fun b hb => hb)
  · intro x hx
    cases x <;> try exact hx.elim
    rename_i bs
    exact (under_fp L (x := bs) hx).map Val.raw

/-- The length-one list behind an array of virtual objects. -/
theorem length_one {α : Type} {xs : List α} (h : xs.length = 1) : ∃ x, xs = [x] := by
  match xs, h with
  | [x], _ => exact ⟨x, rfl⟩

theorem codec_law (hv : env.Usable R K.kinds cfg) (hA : env.AsymOk K cfg) : ∀ (n : Nat) (t : Ty),
    Law K cfg (env.ti t) (dispatch cfg env n t) (codec R cfg env n t) := by
  intro n
  induction n with
  | zero =>
    intro t
    refine ⟨hv.ti t, trivial, ?_, ?_, ?_⟩
    · intro xs hx hl _
      obtain ⟨x, hx'⟩ := List.exists_mem_of_length_pos hl
      exact (hx x hx').elim
    · intro xs ys hx _ hl _
      obtain ⟨x, hx'⟩ := List.exists_mem_of_length_pos hl
      exact (hx x hx').elim
    · intro xs hx hl _
      obtain ⟨x, hx'⟩ := List.exists_mem_of_length_pos hl
      exact (hx x hx').elim
  | succ n ih =>
    have hc := hv.cfgOk
    have ihv : ∀ t, Law K cfg (elem cfg env n t).ti (elem cfg env n t).apply
        ((codec R cfg env n t).byVal t) := fun t => (ih t).byVal t
    have hF : ∀ t, Fresh (elem cfg env n t) ((codec R cfg env n t).byVal t) := codec_fresh hv n
    let cv (t : Ty) : Codec Val := (codec R cfg env n t).byVal t
    intro t
    cases t with
    | prim id size => exact raw_law (hv.ti _) size
    | enm id pid size => exact under_law hv.ti (hv.ti _) pid size
    | chrono id pid size => exact under_law hv.ti (hv.ti _) pid size
    | str =>
      refine Law.ofEach (hv.ti _) trivial ?_ ?_ ?_
      · intro x hx
        cases x <;> try exact hx.elim
        exact (string_wr hc hx).map Val.str
      · intro x y hx hy
        cases x <;> try exact hx.elim
        cases y <;> try exact hy.elim
        rename_i x y
        exact (string_rd hc (x := x) (y := y) hx).map Val.str
          (fun z hz => hz.1.symm)
      · intro x hx
        cases x <;> try exact hx.elim
        exact (string_fp hc).map Val.str
    | vec t =>
      refine Law.ofEach (hv.ti _) trivial ?_ ?_ ?_
      · intro x hx
        cases x <;> try exact hx.elim
        exact (vector_wr hc (ihv t) hx).map (fun v => Val.vec v.cap v.elems)
      · intro x y hx hy
        cases x <;> try exact hx.elim
        cases y <;> try exact hy.elim
        exact (vector_rd hc (ihv t) (hF t) hx hy.1).map (fun v => Val.vec v.cap v.elems)
          (fun z hz => ⟨hz.1, by rw [hz.2]; exact hy.2⟩)
      · intro x hx
        cases x <;> try exact hx.elim
        exact (vector_fp (ihv t) hx).map (fun v => Val.vec v.cap v.elems)
    | vecBool =>
      refine Law.ofEach (hv.ti _) trivial ?_ ?_ ?_
      · intro x hx
        cases x <;> try exact hx.elim
        rename_i c bs
        exact (vbool_wr hc (v := ⟨c, bs⟩) hx.1 hx.2).map (fun v => Val.vbool v.cap v.elems)
      · intro x y hx hy
        cases x <;> try exact hx.elim
        cases y <;> try exact hy.elim
        rename_i c bs c' bs'
        exact (vbool_rd hc (x := ⟨c, bs⟩) (y := ⟨c', bs'⟩) hx.1 hx.2).map
          (fun v => Val.vbool v.cap v.elems) (fun z hz => ⟨hz.1, by rw [hz.2]; exact hy⟩)
      · intro x hx
        cases x <;> try exact hx.elim
        rename_i c bs
        exact (vbool_fp (v := ⟨c, bs⟩)).map (fun v => Val.vbool v.cap v.elems)
    | seq k t =>
      refine Law.ofEach (hv.ti _) trivial ?_ ?_ ?_
      · intro x hx
        cases x <;> try exact hx.elim
        exact (list_wr hc (ihv t) hx).map Val.coll
      · intro x y hx hy
        cases x <;> try exact hx.elim
        cases y <;> try exact hy.elim
        exact (list_rd hc (ihv t) (hF t) hx hy).map Val.coll (fun z hz => hz)
      · intro x hx
        cases x <;> try exact hx.elim
        exact (list_fp (ihv t) hx.all).map Val.coll
    | queue t =>
      refine Law.ofEach (hv.ti _) trivial ?_ ?_ ?_
      · intro x hx
        cases x <;> try exact hx.elim
        exact (queue_wr hc (ihv t) hx).map Val.coll
      · intro x y hx hy
        cases x <;> try exact hx.elim
        cases y <;> try exact hy.elim
        have hy' : _ = [] := hy
        subst hy'
        exact (queue_rd hc (ihv t) (hF t) hx).map Val.coll (fun z hz => by
          obtain ⟨zs, h1, rfl⟩ := hz
          exact h1)
      · intro x hx
        cases x <;> try exact hx.elim
        exact queue_fp.map Val.coll
    | oset a cmp t =>
      refine Law.ofEach (hv.ti _) trivial ?_ ?_ ?_
      · intro x hx
        cases x <;> try exact hx.elim
        exact (mapLike_wr hc (ihv t) hx.1).map Val.coll
      · intro x y hx hy
        cases x <;> try exact hx.elim
        cases y <;> try exact hy.elim
        have hy' : _ = [] := hy
        subst hy'
        exact (mapLike_rd hc (ihv t) (hF t) hx.1).map Val.coll (fun z hz => by
          obtain ⟨zs, h1, rfl⟩ := hz
          have hs : env.Sorted a cmp zs := by
            have h2 := hx.2.2
            unfold Env.Sorted at h2 ⊢
            split at h2
            · rename_i hm
              simp only [hm, if_true]
              exact pairwise_respects (f := fun x y => env.lt cmp y x)
                (fun x y x' y' h h' => hx.2.1 y x y' x' (codec_rel n t _ _ h') (codec_rel n t _ _ h)) h1 h2
            · rename_i hm
              simp only [hm]
              exact pairwise_respects (f := fun x y => env.lt cmp x y)
                (fun x y x' y' h h' => hx.2.1 x y x' y' (codec_rel n t _ _ h) (codec_rel n t _ _ h')) h1 h2
          rw [foldl_emplaceO hs]
          exact h1)
      · intro x hx
        cases x <;> try exact hx.elim
        exact (mapLike_fp (ihv t) hx.1.all).map Val.coll
    | uset a eq t =>
      refine Law.ofEach (hv.ti _) trivial ?_ ?_ ?_
      · intro x hx
        cases x <;> try exact hx.elim
        exact (mapLike_wr hc (ihv t) hx.1).map Val.coll
      · intro x y hx hy
        cases x <;> try exact hx.elim
        cases y <;> try exact hy.elim
        rename_i xs ys
        have hy' : _ = [] := hy
        subst hy'
        exact (mapLike_rd hc (ihv t) (hF t) hx.1).map Val.coll (fun z hz => by
          obtain ⟨zs, h1, rfl⟩ := hz
          obtain ⟨_, hr, hpw, ho⟩ := hx
          have hp : (zs.foldl (env.emplaceU a eq) []).Perm zs := by
            refine foldl_emplaceUnordered (hv.arrange eq) zs [] (fun hm => ⟨by simp, ?_⟩)
            exact pairwise_respects
              (fun x y x' y' h h' => hr x y x' y' (codec_rel n t _ _ h) (codec_rel n t _ _ h')) h1 (hpw ((multi_eq a).symm.trans hm))
          refine ⟨zs, h1, hp.symm, ho.imp id (fun hl => ?_)⟩
          rw [h1.length_eq] at hl
          match zs, hl with
          | [], _ => exact (List.perm_nil.1 hp).symm
          | [z], _ => exact (List.perm_singleton.1 hp).symm)
      · intro x hx
        cases x <;> try exact hx.elim
        exact (mapLike_fp (ihv t) hx.1.all).map Val.coll
    | pair a b =>
      refine Law.ofEach (hv.ti _) trivial ?_ ?_ ?_
      · intro x hx
        simp only [codec] at hx
        split at hx
        · rename_i x y
          exact (pair_wr (x := (x, y)) (ihv a) (ihv b) hx.1 hx.2).map (fun p => Val.coll [p.1, p.2])
        · exact hx.elim
      · intro x y hx hy
        simp only [codec] at hy
        split at hy
        · rename_i x y x' y'
          exact (pair_rd (x := (x, y)) (y := (x', y')) (ihv a) (ihv b) hx.1 hx.2 hy.1 hy.2).map
            (fun p => Val.coll [p.1, p.2]) (fun z hz => hz)
        · exact hy.elim
      · intro x hx
        simp only [codec] at hx
        split at hx
        · rename_i x y
          exact (pair_fp (x := (x, y)) (ihv a) (ihv b) hx.1 hx.2).map (fun p => Val.coll [p.1, p.2])
        · exact hx.elim
    | tuple ts =>
      refine Law.ofEach (hv.ti _) trivial ?_ ?_ ?_
      · intro x hx
        cases x <;> try exact hx.elim
        exact (tuple_wr (E := elem cfg env n) hv.order (fun t _ => ihv t) hx).map Val.coll
      · intro x y hx hy
        cases x <;> try exact hx.elim
        cases y <;> try exact hy.elim
        exact (tuple_rd (E := elem cfg env n) hv.order (fun t _ => ihv t) hx hy).map Val.coll
          (fun z hz => hz)
      · intro x hx
        cases x <;> try exact hx.elim
        exact (tuple_fp (E := elem cfg env n) hv.order (fun t _ => ihv t) hx).map Val.coll
    | opt t =>
      refine Law.ofEach (hv.ti _) trivial ?_ ?_ ?_
      · intro x hx
        cases x <;> try exact hx.elim
        exact (opt_wr hc (ihv t) hx).map Val.opt
      · intro x y hx hy
        cases x <;> try exact hx.elim
        cases y <;> try exact hy.elim
        exact (opt_rd hc (ihv t) (hF t) hx).map Val.opt (fun z hz => hz)
      · intro x hx
        cases x <;> try exact hx.elim
        rename_i x
        refine ((opt_fp (e := elem cfg env n t) (cfg := cfg) (x := x)
          (sz := (env.ti (.opt t)).sizeof)).map Val.opt).congr (fun s _ => rfl) ?_
        cases x <;> rfl
    | variant ts =>
      rcases Bool.eq_false_or_eq_true (Ty.allOnlyBytes ts) with hb | hb
      · rw [codec_variantBytes hb, dispatch_variantBytes hb]
        exact raw_law (hv.ti _) _
      rw [codec_variant hb, dispatch_variant hb]
      refine Law.ofEach (hv.ti _) trivial ?_ ?_ ?_
      · intro x hx
        cases x <;> try exact hx.elim
        obtain ⟨hi, t, ht, hx⟩ := hx
        refine ((variant_wr (E := elem cfg env n) (C := cv) hc ht hi (ihv t) hx).bind
          (bs' := fun _ => []) (k := fun p => match p.1 with
            | .holds i x => .ok (Val.variant i x, p.2)
            | .valueless => .ok (Val.valueless, p.2)) (Wr.pure _)).congr ?_ (fun w => by rw [List.append_nil]; rfl)
        intro s _
        rfl
      · intro x y hx hy
        cases x <;> try exact hx.elim
        obtain ⟨hi, t, ht, hx⟩ := hx
        have hfr := (hF t).fresh _ hx
        cases y <;> try exact hy.elim
        · rename_i j w
          refine ((variant_rd (E := elem cfg env n) (C := cv) (v := .holds j w) hc ht hi (ihv t) hx hfr).bind
            (bs' := []) (k := fun p => match p.1 with
              | .holds i x => .ok (Val.variant i x, p.2)
              | .valueless => .ok (Val.valueless, p.2)) ?_).congr ?_ (by rw [List.append_nil]; rfl) (fun _ h => h)
          · rintro _ ⟨b, rfl, hb⟩
            exact Rd.pure ⟨rfl, t, ht, hb⟩
          · intro s _
            rfl
        · refine ((variant_rd (E := elem cfg env n) (C := cv) (v := .valueless) hc ht hi (ihv t) hx hfr).bind
            (bs' := []) (k := fun p => match p.1 with
              | .holds i x => .ok (Val.variant i x, p.2)
              | .valueless => .ok (Val.valueless, p.2)) ?_).congr ?_ (by rw [List.append_nil]; rfl) (fun _ h => h)
          · rintro _ ⟨b, rfl, hb⟩
            exact Rd.pure ⟨rfl, t, ht, hb⟩
          · intro s _
            rfl
      · intro x hx
        cases x <;> try exact hx.elim
        obtain ⟨hi, t, ht, hx⟩ := hx
        refine ((variant_fp (E := elem cfg env n) (C := cv) hc ht hi (ihv t) hx).bind
          (n' := 0) (k := fun p => match p.1 with
            | .holds i x => .ok (Val.variant i x, p.2)
            | .valueless => .ok (Val.valueless, p.2)) (Fp.pure _)).congr ?_ (by simp [variantCodec, ht, cv])
        intro s _
        rfl
    | uptr t =>
      have hdyn : ∀ (x : Option Val), (codec R cfg env (n + 1) (.uptr t)).P (.ptr x) →
          ∀ v vi, x = some v → env.virt cfg t = some vi → vi.dynIdx v < 2 ^ 32 := by
        intro x hx v vi hxv hvi
        obtain ⟨h1, h2, h3⟩ := hx v hxv
        cases t <;> simp only [Env.virt] at hvi <;> try cases hvi
        rename_i c
        split at hvi
        · rename_i hvt
          cases hvi
          cases v <;> try (simp [Env.dynIdx]; done)
          rename_i d ps
          obtain ⟨hreg, _⟩ := h3 c d ps rfl rfl hvt
          simp only [Env.dynIdx, ObjReg.idxOf]
          have := List.idxOf_lt_length_iff.2 hreg
          have := hv.regSize (env.root c)
          omega
        · cases hvi
      refine Law.ofEach (hv.ti _) trivial ?_ ?_ ?_
      · intro x hx
        cases x <;> try exact hx.elim
        exact (uptr_wr (e := elem cfg env n t) hc (ih t) (fun v hv' => (hx v hv').1) (hdyn _ hx)).map Val.ptr
      · intro x y hx hy
        cases x <;> try exact hx.elim
        cases y <;> try exact hy.elim
        exact (uptr_rd (e := elem cfg env n t) hc (ih t) (fun v hv' => (hx v hv').1) (hdyn _ hx) hy).map
          Val.ptr (fun z hz => hz)
      · intro x hx
        cases x <;> try exact hx.elim
        rename_i x
        refine ((uptr_fp (e := elem cfg env n t) (sz := (env.ti (.uptr t)).sizeof)
          (virt := env.virt cfg t) (ih t) (fun v hv' => (hx v hv').1)).map Val.ptr).congr
          (fun s _ => rfl) ?_
        cases x <;> rfl
    | arr k t =>
      refine Law.ofEach (hv.ti _) trivial ?_ ?_ ?_
      · intro x hx
        cases x <;> try exact hx.elim
        obtain ⟨hl, hx, hm⟩ := hx
        refine ((serializeArray_wr (ihv t) hx hm).map Val.coll).congr ?_ (fun _ => rfl)
        intro s _
        simp only [hl, if_true]
        rfl
      · intro x y hx hy
        cases x <;> try exact hx.elim
        cases y <;> try exact hy.elim
        obtain ⟨hl, hx, hm⟩ := hx
        rename_i xs ys
        have hly : ys.length = k := by rw [← hl]; exact hy.length_eq.symm
        refine ((serializeArray_rd (ihv t) hx hy hm).map
          (Q' := (codec R cfg env (n + 1) (.arr k t)).rel (.coll xs)) Val.coll
          (fun z hz => ⟨by rw [← hl]; exact hz.length_eq.symm, hz⟩)).congr ?_ rfl (fun _ h => h)
        intro s _
        simp only [hly, if_true]
        rfl
      · intro x hx
        cases x <;> try exact hx.elim
        obtain ⟨hl, hx, hm⟩ := hx
        refine ((serializeArray_fp (ihv t) hx hm).map Val.coll).congr ?_ rfl
        intro s _
        simp only [hl, if_true]
        rfl
    | cls c =>
      have hmone : (codec R cfg env (n + 1) (.cls c)).multi 1 :=
        ⟨fun _ => Nat.le_refl 1, fun ha => by
          rw [Nat.mul_one]
          exact (hA c ha).2.2.1⟩
      by_cases hvt : (env.cls c).virt = true
      · -- virtual dispatch: one object
        have hone : ∀ xs : List Val, 0 < xs.length → (codec R cfg env (n + 1) (.cls c)).multi xs.length →
            ∃ x, xs = [x] := by
          intro xs h h2
          have := h2.1 hvt
          exact length_one (by omega)
        have hdisp : ∀ (s : Ser) (d : Nat) (ps : List (List Val)), s.vdis = false →
            dispatch cfg env (n + 1) (.cls c) s [.obj d ps] =
              chainOf cfg env (elem cfg env n) (env.root d) (env.chain d) s ps >>= fun r =>
                .ok ([.obj d r.1], r.2) := by
          intro s d ps hs
          simp only [dispatch, dispatchStep, hvt, if_true, hs, Bool.false_eq_true, if_false]
          rfl
        refine Law.ofRd (hv.ti _) hmone ?_ ?_ ?_
        · intro xs hx hl hm
          obtain ⟨x, rfl⟩ := hone xs hl hm
          replace hx := hx x (by simp)
          cases x <;> try exact hx.elim
          rename_i d ps
          refine ((chain_wr (E := elem cfg env n) hv.ti (fun _ => rfl) ihv hA
            (fun k hk kd hkd => lookup_ok hv hk ⟨c, hvt⟩ hkd) hx.2.2).map
            (fun ps => [Val.obj d ps])).congr (fun s hs => hdisp s d ps hs.1) ?_
          intro w
          simp [codec, hvt]
        · intro xs ys hx hp hl hm
          obtain ⟨x, rfl⟩ := hone xs hl hm
          replace hx := hx x (by simp)
          cases hp with
          | cons h1 h2 =>
          cases h2
          rename_i y
          cases x <;> try exact hx.elim
          cases y <;> try exact h1.elim
          rename_i d ps d' qs
          obtain ⟨hdd, h1⟩ := h1
          subst hdd
          refine ((chain_rd (E := elem cfg env n) hv.ti (fun _ => rfl) ihv hA
            (fun k hk kd hkd => lookup_ok hv hk ⟨c, hvt⟩ hkd) hx.2.2 h1).map
            (Q' := List.Forall₂ (codec R cfg env (n + 1) (.cls c)).rel [Val.obj d' ps])
            (fun ps => [Val.obj d' ps]) (fun r hr => .cons ⟨rfl, hr⟩ .nil)).congr
            (fun s hs => hdisp s d' qs hs.1) ?_ (fun _ h => h)
          simp [codec, hvt]
        · intro xs hx hl hm
          obtain ⟨x, rfl⟩ := hone xs hl hm
          replace hx := hx x (by simp)
          cases x <;> try exact hx.elim
          rename_i d ps
          refine ((chain_fp (E := elem cfg env n) hv.ti (fun _ => rfl) ihv hA
            (fun k hk kd hkd => lookup_ok hv hk ⟨c, hvt⟩ hkd) hx.2.2).map
            (fun ps => [Val.obj d ps])).congr (fun s hs => hdisp s d ps hs.1) ?_
          simp [codec]
      · have hvf : (env.cls c).virt = false := by simpa using hvt
        have hch : env.chain c = [c] := by simp [Env.chain, hv.plain c hvf]
        have hL := cls_law (E := elem cfg env n) hv.ti (fun _ => rfl) ihv hA c
        refine hL.wrap (f := fun p => Val.obj c [p]) ?_ ?_ ?_ ?_ ?_ ?_ (fun n hm => hm.2) hmone
        · intro s xs
          have hdisp : dispatch cfg env (n + 1) (.cls c) =
              dispatchEach (onPart env c (fun s p => serMembers cfg (((env.cls c).visited s).map
                (elem cfg env n)) s p)) := by
            simp only [dispatch, dispatchStep, hvf, Bool.false_eq_true, if_false]
            rfl
          rw [hdisp]
          induction xs generalizing s with
          | nil => rfl
          | cons p ps ihp =>
            simp only [List.map_cons, dispatchEach]
            have hon : onPart env c (fun s p => serMembers cfg (((env.cls c).visited s).map
                (elem cfg env n)) s p) s (.obj c [p]) =
                serMembers cfg (((env.cls c).visited s).map (elem cfg env n)) s p >>= fun r =>
                  .ok (.obj c [r.1], r.2) := by
              simp [onPart, hch]
            rw [hon]
            simp only [Out.bind_eq, Out.bind_assoc, Out.bind_ok]
            congr 1
            funext r
            have := ihp r.2
            simp only [Out.bind_eq] at this
            rw [this]
            simp [Out.bind_assoc]
        · intro x hx
          cases x <;> try exact hx.elim
          rename_i d ps
          obtain ⟨_, h2, h3⟩ := hx
          have := h2 hvf
          subst this
          rw [hch] at h3
          match ps, h3 with
          | [p], h3 => exact ⟨p, rfl, h3.1⟩
        · intro p y hy
          cases y <;> try exact hy.elim
          obtain ⟨hdd, hy⟩ := hy
          subst hdd
          rename_i d' qs
          rw [hch] at hy
          match qs, hy with
          | [q], hy => exact ⟨q, rfl, hy.1⟩
        · intro p q h
          exact ⟨rfl, by rw [hch]; exact ⟨h, trivial⟩⟩
        · intro w p
          simp [codec, hvf, partCodec]
        · intro p
          simp [codec, hch, chainFp, partCodec]

end Ckpt
