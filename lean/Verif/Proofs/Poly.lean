import Verif.Proofs.Ends
/-!
Polymorphic objects: bytes of each class level, arrays, dynamic type index.
-/

set_option autoImplicit false

namespace Ckpt

variable {R : RelMode} {K : Kind → Prop} {cfg : Cfg} {env : Env}

/-! ### Reading a pointer up to the dynamic type index -/

section
variable {T : Type} {S : Scope} {e : Elem T} {f : Fin}

/-- A pointer whose data say "not null, dynamic type `i`" and whose reconstruction fails. -/
theorem uptr_ends_null (hE : ∀ e, ¬ S.errs e) (hc : cfg.Valid) {sz : Nat} {vi : Virt T} {i : Nat}
    (hi : i < 2 ^ 32) {g : Fin}
    (hcon : (vi.construct i : Out (Option T)) = g.out ∨ (vi.construct i = .ok none ∧ g = .ub .nullDeref)) :
    Ends S (fun s => serUniquePtr cfg sz e (some vi) s none)
      (boolNode cfg cfg.check false ++ node cfg cfg.check cfg.tiInt 1 (intBytes cfg.endian 4 i)) g := by
  refine ((pipeBool_rd (K := S) hc (b := false) (b' := true)).ends hE (k := fun p =>
      if p.1 then .ok (if p.2.isUnpacking then none else none, p.2) else
        reconstructPointedTo cfg e (some vi) p.2 none >>= fun q =>
          match q.1 with
          | none => .ub .nullDeref
          | some t => pipe cfg e q.2 t >>= fun r => .ok (some r.1, r.2)) ?_).congr ?_
  · rintro _ rfl
    simp only [Bool.false_eq_true, if_false]
    have h2 : Ends S (fun s => (pipe cfg (intElem cfg) s (2 ^ 32 - 1) >>= fun p =>
        (if p.2.isUnpacking then vi.construct p.1 >>= fun t => .ok (t, p.2) else .ok (none, p.2))) >>= fun q =>
          match q.1 with
          | none => (.ub .nullDeref : Out (Option T × Ser))
          | some t => pipe cfg e q.2 t >>= fun r => .ok (some r.1, r.2))
        (node cfg cfg.check cfg.tiInt 1 (intBytes cfg.endian 4 i) ++ []) g := by
      refine ((intPipe_rd (K := S) hc (m := 2 ^ 32 - 1) hi).ends hE (k := fun p =>
        (if p.2.isUnpacking then vi.construct p.1 >>= fun t => .ok (t, p.2) else .ok (none, p.2)) >>= fun q =>
          match q.1 with
          | none => (.ub .nullDeref : Out (Option T × Ser))
          | some t => pipe cfg e q.2 t >>= fun r => .ok (some r.1, r.2)) ?_).congr ?_
      · rintro _ rfl
        refine Ends.of (fun s hs => ?_)
        rcases hcon with h | ⟨h, rfl⟩
        · simp only [hs.unpacking, if_true, h, Out.bind_eq, Fin.out_bind]
        · simp only [hs.unpacking, if_true, h, Out.bind_eq, Out.bind_ok, Fin.out]
      · intro s _
        simp only [Out.bind_eq, Out.bind_assoc]
    rw [List.append_nil] at h2
    refine h2.congr ?_
    intro s hs
    simp [reconstructPointedTo, hs.unpacking, hs.not_footprinting, Out.bind_assoc]
  · intro s hs
    simp [serUniquePtr, hs.not_footprinting]
    rfl

/-- A pointer to an object of another dynamic type than the data say. -/
theorem uptr_ends_mismatch (hE : ∀ e, ¬ S.errs e) (hc : cfg.Valid) {sz : Nat} {vi : Virt T} {i : Nat}
    (hi : i < 2 ^ 32) {y : T} (hy : vi.dynIdx y ≠ i) (hnd : cfg.ndebug = false) :
    Ends S (fun s => serUniquePtr cfg sz e (some vi) s (some y))
      (boolNode cfg cfg.check false ++ node cfg cfg.check cfg.tiInt 1 (intBytes cfg.endian 4 i)) .abort := by
  refine ((pipeBool_rd (K := S) hc (b := false) (b' := false)).ends hE (k := fun p =>
      if p.1 then .ok (if p.2.isUnpacking then none else some y, p.2) else
        reconstructPointedTo cfg e (some vi) p.2 (some y) >>= fun q =>
          match q.1 with
          | none => .ub .nullDeref
          | some t => pipe cfg e q.2 t >>= fun r => .ok (some r.1, r.2)) ?_).congr ?_
  · rintro _ rfl
    simp only [Bool.false_eq_true, if_false]
    have h2 : Ends S (fun s => (pipe cfg (intElem cfg) s (2 ^ 32 - 1) >>= fun p =>
          Out.assertThat cfg.ndebug (p.1 == vi.dynIdx y) >>= fun _ => .ok (some y, p.2)) >>= fun q =>
          match q.1 with
          | none => (.ub .nullDeref : Out (Option T × Ser))
          | some t => pipe cfg e q.2 t >>= fun r => .ok (some r.1, r.2))
        (node cfg cfg.check cfg.tiInt 1 (intBytes cfg.endian 4 i) ++ []) .abort := by
      refine ((intPipe_rd (K := S) hc (m := 2 ^ 32 - 1) hi).ends hE (k := fun p => (
          Out.assertThat cfg.ndebug (p.1 == vi.dynIdx y) >>= fun _ => .ok (some y, p.2)) >>= fun q =>
          match q.1 with
          | none => (.ub .nullDeref : Out (Option T × Ser))
          | some t => pipe cfg e q.2 t >>= fun r => .ok (some r.1, r.2)) ?_).congr ?_
      · intro j hj
        subst hj
        refine Ends.of (fun s _ => ?_)
        have : (j == vi.dynIdx y) = false := by simpa using fun h => hy h.symm
        simp [this, hnd, Out.assertThat, Fin.out]
      · intro s _
        simp only [Out.bind_eq, Out.bind_assoc]
    rw [List.append_nil] at h2
    refine h2.congr ?_
    intro s hs
    simp [reconstructPointedTo, hs.unpacking, hs.not_footprinting, Out.bind_assoc]
  · intro s hs
    simp [serUniquePtr, hs.not_footprinting]
    rfl

end

/-! ### Objects of a polymorphic class, any number -/

section
variable {c : Nat} (hv : env.Valid R K cfg) (hvt : (env.cls c).virt = true) (n : Nat)
include hvt

omit hv in
theorem dispatch_virt (s : Ser) (d : Nat) (ps : List (List Val)) (rest : List Val) (hs : s.vdis = false) :
    dispatch cfg env (n + 1) (.cls c) s (.obj d ps :: rest) =
      chainOf cfg env (elem cfg env n) (env.root d) (env.chain d) s ps >>= fun r =>
        .ok (.obj d r.1 :: rest, r.2) := by
  simp only [dispatch, dispatchStep, hvt, if_true, hs, Bool.false_eq_true, if_false]
  rfl

include hv

theorem head_wr {x : Val} (hx : (codec R cfg env (n + 1) (.cls c)).P x) (rest : List Val) :
    Wr (Scope.quiet K) cfg (fun s => dispatch cfg env (n + 1) (.cls c) s (x :: rest))
      (fun w => (codec R cfg env (n + 1) (.cls c)).enc w x) (x :: rest) := by
  cases x <;> try exact hx.elim
  rename_i d ps
  have hA : env.AsymOk (Scope.quiet K) cfg := fun k h => (h (hv.sym k)).elim
  refine ((chain_wr (E := elem cfg env n) (C := fun t => (codec R cfg env n t).byVal t) hv.ti (fun _ => rfl)
    (fun t => (law hv n t).byVal t) hA
    (fun k hk kd hkd => lookup_ok (K := Scope.quiet K) hv.toUsable hk ⟨c, hvt⟩ hkd) hx.2.2).map
    (fun ps => Val.obj d ps :: rest)).congr (fun s hs => dispatch_virt hvt n s d ps rest hs.1) ?_
  intro w
  simp [codec, hvt]

theorem head_rd {x y : Val} (hx : (codec R cfg env (n + 1) (.cls c)).P x)
    (hp : (codec R cfg env (n + 1) (.cls c)).prior x y) (rest : List Val) :
    Rd (Scope.quiet K) (fun s => dispatch cfg env (n + 1) (.cls c) s (y :: rest))
      ((codec R cfg env (n + 1) (.cls c)).enc cfg.check x)
      (fun l => ∃ z, l = z :: rest ∧ (codec R cfg env (n + 1) (.cls c)).rel x z) := by
  cases x <;> try exact hx.elim
  cases y <;> try exact hp.elim
  rename_i d ps d' qs
  obtain ⟨hdd, hp⟩ := hp
  subst hdd
  have hA : env.AsymOk (Scope.quiet K) cfg := fun k h => (h (hv.sym k)).elim
  refine ((chain_rd (E := elem cfg env n) (C := fun t => (codec R cfg env n t).byVal t) hv.ti (fun _ => rfl)
    (fun t => (law hv n t).byVal t) hA
    (fun k hk kd hkd => lookup_ok (K := Scope.quiet K) hv.toUsable hk ⟨c, hvt⟩ hkd) hx.2.2 hp).map
    (Q' := fun l => ∃ z, l = z :: rest ∧ (codec R cfg env (n + 1) (.cls c)).rel (Val.obj d' ps) z)
    (fun ps => Val.obj d' ps :: rest) (fun r hr => ⟨_, rfl, rfl, hr⟩)).congr
    (fun s hs => dispatch_virt hvt n s d' qs rest hs.1) ?_ (fun _ h => h)
  simp [codec, hvt]

theorem head_fp {x : Val} (hx : (codec R cfg env (n + 1) (.cls c)).P x) (rest : List Val) :
    Fp (Scope.quiet K) (fun s => dispatch cfg env (n + 1) (.cls c) s (x :: rest))
      ((codec R cfg env (n + 1) (.cls c)).fp x) (x :: rest) := by
  cases x <;> try exact hx.elim
  rename_i d ps
  have hA : env.AsymOk (Scope.quiet K) cfg := fun k h => (h (hv.sym k)).elim
  refine ((chain_fp (E := elem cfg env n) (C := fun t => (codec R cfg env n t).byVal t) hv.ti (fun _ => rfl)
    (fun t => (law hv n t).byVal t) hA
    (fun k hk kd hkd => lookup_ok (K := Scope.quiet K) hv.toUsable hk ⟨c, hvt⟩ hkd) hx.2.2).map
    (fun ps => Val.obj d ps :: rest)).congr (fun s hs => dispatch_virt hvt n s d ps rest hs.1) ?_
  simp [codec]

/-! ### Arrays and vectors of them -/

/-- An array whose first element is `x`, restored over an array with first element `y`. -/
def firstArr (R : RelMode) (cfg : Cfg) (env : Env) (n c : Nat) (x y : Val) (xs ys : List Val) : Codec Val where
  P v := v = .coll (x :: xs)
  enc w _ := node cfg w (env.ti (.cls c)) (xs.length + 1) ((codec R cfg env (n + 1) (.cls c)).enc w x)
  prior _ w := w = .coll (y :: ys)
  rel _ z := ∃ z', z = .coll (z' :: ys) ∧ (codec R cfg env (n + 1) (.cls c)).rel x z'
  fp _ := (codec R cfg env (n + 1) (.cls c)).fp x
  multi _ := True

theorem firstArr_law {x y : Val} {xs ys : List Val} (hl : ys.length = xs.length)
    (hx : (codec R cfg env (n + 1) (.cls c)).P x) (hp : (codec R cfg env (n + 1) (.cls c)).prior x y) :
    Law (Scope.quiet K) cfg (env.ti (.arr (xs.length + 1) (.cls c)))
      (dispatch cfg env (n + 2) (.arr (xs.length + 1) (.cls c))) (firstArr R cfg env n c x y xs ys) := by
  refine Law.ofEach (hv.ti _) trivial ?_ ?_ ?_
  · rintro _ rfl
    refine ((traverse_wr (cfg := cfg) (hv.ti (.cls c)) (head_wr hv hvt n hx xs)).map Val.coll).congr ?_ (fun _ => rfl)
    intro s _
    simp only [List.length_cons, if_true, serArray, serializeArray, Nat.succ_pos, gt_iff_lt]
    rfl
  · rintro _ _ rfl rfl
    refine ((traverse_rd (cfg := cfg) (hv.ti (.cls c)) (head_rd hv hvt n hx hp ys)).map Val.coll
      (Q' := (firstArr R cfg env n c x y xs ys).rel (.coll (x :: xs))) ?_).congr ?_ ?_ (fun _ h => h)
    · rintro _ ⟨z, rfl, hz⟩
      exact ⟨z, rfl, hz⟩
    · intro s _
      simp only [List.length_cons, hl, if_true, serArray, serializeArray, Nat.succ_pos, gt_iff_lt]
      rfl
    · simp [firstArr, hl]
  · rintro _ rfl
    refine ((traverse_fp (cfg := cfg) (ti := env.ti (.cls c)) (head_fp hv hvt n hx xs)).map Val.coll).congr ?_ rfl
    intro s _
    simp only [List.length_cons, if_true, serArray, serializeArray, Nat.succ_pos, gt_iff_lt]
    rfl

/-- A vector whose first element is `x`, restored over an empty vector of capacity `cap'`; `y` is a new
element. -/
def firstVec (R : RelMode) (cfg : Cfg) (env : Env) (n c : Nat) (cap cap' : Nat) (x y : Val) (xs : List Val) : Codec Val where
  P v := v = .vec cap (x :: xs)
  enc w _ := sizeNode cfg w cap ++ sizeNode cfg w (xs.length + 1) ++
    node cfg w (env.ti (.cls c)) (xs.length + 1) ((codec R cfg env (n + 1) (.cls c)).enc w x)
  prior _ w := w = .vec cap' []
  rel _ z := ∃ z' k, z = .vec k (z' :: List.replicate xs.length y) ∧ (codec R cfg env (n + 1) (.cls c)).rel x z'
  fp _ := (env.ti (.vec (.cls c))).sizeof + ((codec R cfg env (n + 1) (.cls c)).fp x +
    (env.ti (.cls c)).sizeof * (cap - (xs.length + 1)))
  multi _ := True

omit hv hvt in
theorem construct_empty {T : Type} (e : Elem T) (m : Nat) (v : Vec T) (hv : v.elems = []) (hcap : m ≤ v.cap) :
    constructVectorData cfg e m v = ⟨v.cap, List.replicate m (e.dflt.getD e.fresh)⟩ := by
  unfold constructVectorData
  cases hd : e.dflt with
  | some d => simp [Vec.resize, Vec.reserve_of_le hcap, hv]
  | none =>
    cases hcp : e.copyable with
    | true => simp [Vec.resize, Vec.reserve_of_le hcap, hv]
    | false => simp [hv, Vec.reserve_of_le hcap]

theorem firstVec_law {cap cap' : Nat} {x : Val} {xs : List Val} (hl : xs.length + 1 ≤ cap) (hcap : cap < 2 ^ 64)
    (hx : (codec R cfg env (n + 1) (.cls c)).P x)
    (hp : (codec R cfg env (n + 1) (.cls c)).prior x ((env.dflt (.cls c)).getD (env.fresh (.cls c)))) :
    Law (Scope.quiet K) cfg (env.ti (.vec (.cls c))) (dispatch cfg env (n + 2) (.vec (.cls c)))
      (firstVec R cfg env n c cap cap' x ((env.dflt (.cls c)).getD (env.fresh (.cls c))) xs) := by
  have hc := hv.cfgOk
  let e := elem cfg env (n + 1) (.cls c)
  let v : Vec Val := ⟨cap, x :: xs⟩
  refine Law.ofEach (hv.ti _) trivial ?_ ?_ ?_
  · rintro _ rfl
    have h1 := (vecMeta_wr (K := Scope.quiet K) hc (v := v) hl hcap).bind (k := fun p =>
      let v' := if p.2.isUnpacking then constructVectorData cfg e p.1.1 p.1.2 else p.1.2
      serializeArray cfg e p.2 v'.elems >>= fun q => .ok (Val.vec v'.cap q.1, q.2))
      (bs' := fun w => node cfg w (env.ti (.cls c)) (xs.length + 1) ((codec R cfg env (n + 1) (.cls c)).enc w x))
      (c := Val.vec cap (x :: xs)) (by
      refine ((traverse_wr (cfg := cfg) (hv.ti (.cls c)) (head_wr hv hvt n hx xs)).map
        (fun l => Val.vec cap l)).congr ?_ (fun _ => rfl)
      intro s hs
      simp only [hs.not_unpacking, serializeArray, v, Bool.false_eq_true, if_false, List.length_cons, gt_iff_lt, Nat.succ_pos, if_true]
      rfl)
    refine h1.congr ?_ (fun w => by simp [firstVec, v])
    intro s hs
    show (serVector cfg (env.ti (.vec (.cls c))).sizeof e s v >>= fun r => .ok (Val.vec r.1.cap r.1.elems, r.2)) = _
    simp [serVector, hs.not_footprinting, vecMeta, Out.bind_assoc]
  · rintro _ _ rfl rfl
    let y := (env.dflt (.cls c)).getD (env.fresh (.cls c))
    have h1 := (vecMeta_rd (K := Scope.quiet K) hc (x := v) (y := ⟨cap', []⟩) hl hcap).bind (k := fun p =>
      let v' := if p.2.isUnpacking then constructVectorData cfg e p.1.1 p.1.2 else p.1.2
      serializeArray cfg e p.2 v'.elems >>= fun q => .ok (Val.vec v'.cap q.1, q.2))
      (bs' := node cfg cfg.check (env.ti (.cls c)) (xs.length + 1)
        ((codec R cfg env (n + 1) (.cls c)).enc cfg.check x))
      (Q' := (firstVec R cfg env n c cap cap' x y xs).rel (.vec cap (x :: xs))) (by
      rintro _ rfl
      have hcon : constructVectorData cfg e (xs.length + 1) ((⟨cap', []⟩ : Vec Val).reserve cfg cap) =
          ⟨((⟨cap', []⟩ : Vec Val).reserve cfg cap).cap, List.replicate (xs.length + 1) y⟩ :=
        construct_empty e _ _ (Vec.reserve_elems _ _)
          (Nat.le_trans hl (Vec.le_reserve_cap hc _ _))
      refine ((traverse_rd (cfg := cfg) (hv.ti (.cls c)) (head_rd hv hvt n hx hp (List.replicate xs.length y))).map
        (fun l => Val.vec ((⟨cap', []⟩ : Vec Val).reserve cfg cap).cap l)
        (Q' := (firstVec R cfg env n c cap cap' x y xs).rel (.vec cap (x :: xs))) ?_).congr ?_ ?_ (fun _ h => h)
      · rintro _ ⟨z, rfl, hz⟩
        exact ⟨z, _, rfl, hz⟩
      · intro s hs
        simp only [hs.unpacking, serializeArray, v, if_true, List.length_cons, hcon, List.length_replicate, gt_iff_lt,
          Nat.succ_pos, List.replicate_succ]
        rfl
      · simp)
    refine h1.congr ?_ (by simp [firstVec, v]) (fun _ h => h)
    intro s hs
    show (serVector cfg (env.ti (.vec (.cls c))).sizeof e s ⟨cap', []⟩ >>= fun r => .ok (Val.vec r.1.cap r.1.elems, r.2)) = _
    simp [serVector, hs.not_footprinting, vecMeta, Out.bind_assoc]
  · rintro _ rfl
    have h1 := (((traverse_fp (cfg := cfg) (ti := env.ti (.cls c)) (head_fp hv hvt n hx xs)).bind (k := fun p =>
      .ok (Val.vec cap p.1, p.2.addBytes ((env.ti (.cls c)).sizeof * (cap - (xs.length + 1)))))
      (n' := (env.ti (.cls c)).sizeof * (cap - (xs.length + 1))) (c := Val.vec cap (x :: xs))
      (by exact Fp.addBytes_post (Val.vec cap (x :: xs)) _)).addBytes_pre (k := (env.ti (.vec (.cls c))).sizeof))
    refine h1.congr ?_ rfl
    intro s hs
    show (serVector cfg (env.ti (.vec (.cls c))).sizeof e s v >>= fun r => .ok (Val.vec r.1.cap r.1.elems, r.2)) = _
    simp only [serVector, hs.footprinting, if_true, serializeArray, v, List.length_cons, gt_iff_lt, Nat.succ_pos,
      Out.bind_eq, Out.bind_assoc, Out.bind_ok]
    rfl

end

/-! ### Bytes of each class level -/

/-- A stream packer that has written `q`. -/
def wroteStream (q : Bytes) : Ser := { core := .streamPacker q none q.length, kind := .streamPacker }

theorem chain_levels (hv : env.Valid R K cfg) (hK : ∀ k, k ∈ builtinKinds → K k) (m : Nat) :
    ∀ {ks : List Nat} {ps : List (List Val)},
    All2 (fun k p => All2 (fun t x => ((codec R cfg env m t).byVal t).P x) (env.cls k).fields p) ks ps →
    ∃ qs : List Bytes, qs.length = ks.length ∧
      (∀ (j k : Nat) p q, ks[j]? = some k → ps[j]? = some p → qs[j]? = some q →
        Yields (fun n => serMembers cfg ((env.cls k).fields.map (elem cfg env n)) (wroteStream []) p)
          (.ok (p, wroteStream q))) ∧
      chainEnc cfg cfg.check (fun k => env.ti (.cls k))
        (fun k p => membersEnc cfg cfg.check (elem cfg env m) (fun t => (codec R cfg env m t).byVal t)
          (env.cls k).fields p) ks ps =
        (List.zipWith (fun k q => node cfg cfg.check (env.ti (.cls k)) 1 q) ks qs).flatten
  | [], [], _ => ⟨[], rfl, by simp, rfl⟩
  | k :: ks, p :: ps, h => by
    obtain ⟨qs, h1, h2, h3⟩ := chain_levels hv hK m (ks := ks) (ps := ps) h.2
    have hw := members_wr (K := Scope.quiet K) (cfg := cfg) (E := elem cfg env m)
      (C := fun t => (codec R cfg env m t).byVal t) (ts := (env.cls k).fields) (xs := p)
      (fun t _ => (law hv m t).byVal t) h.1
    let q := membersEnc cfg cfg.check (elem cfg env m) (fun t => (codec R cfg env m t).byVal t) (env.cls k).fields p
    refine ⟨q :: qs, by simp [h1], ?_, ?_⟩
    · intro j k' p' q' hk hp hq
      cases j with
      | zero =>
        simp only [List.getElem?_cons_zero, Option.some.injEq] at hk hp hq
        subst hk hp hq
        refine Yields.at (fun {n n'} hn => serMembers_le (elems_le (fun t => dispatch_le cfg env hn t) _) _ p) m ?_ (by simp)
        have hwr : Ser.Writer (Scope.quiet K) (wroteStream []) :=
          ⟨rfl, hK .streamPacker (by decide), by simp [wroteStream]⟩
        have := hw _ hwr
        simp only [Ser.emit, wroteStream, Out.bind_ok, Ser.headers, Ser.isPacking, Ser.mode] at this
        have h4 : serMembers cfg ((env.cls k).fields.map (elem cfg env m)) (wroteStream []) p = .ok (p, wroteStream q) := by
          simpa [wroteStream, q] using this
        exact h4
      | succ j =>
        simp only [List.getElem?_cons_succ] at hk hp hq
        exact h2 j k' p' q' hk hp hq
    · simp only [chainEnc, List.zipWith_cons_cons, List.flatten_cons, h3, q]
  | [], _ :: _, h => by simp [All2] at h
  | _ :: _, [], h => by simp [All2] at h

/-- The bytes of a pointer to a polymorphic object. -/
theorem ptr_levels (hv : env.Valid R K cfg) (hK : ∀ k, k ∈ builtinKinds → K k) {c d : Nat} {ps : List (List Val)}
    {bs : Bytes} (hvt : (env.cls c).virt = true) (h : IsEnc R cfg env (.uptr (.cls c)) (.ptr (some (.obj d ps))) bs) :
    ∃ qs : List Bytes, qs.length = (env.chain d).length ∧
      (∀ (j k : Nat) p q, (env.chain d)[j]? = some k → ps[j]? = some p → qs[j]? = some q →
        Yields (fun n => serMembers cfg ((env.cls k).fields.map (elem cfg env n)) (wroteStream []) p)
          (.ok (p, wroteStream q))) ∧
      bs = node cfg true (env.ti (.uptr (.cls c))) 1 (boolNode cfg cfg.check false ++
        (node cfg cfg.check cfg.tiInt 1 (intBytes cfg.endian 4 ((env.objReg (env.root c)).idxOf d)) ++
          node cfg cfg.check (env.ti (.cls c)) 1
            (List.zipWith (fun k q => node cfg cfg.check (env.ti (.cls k)) 1 q) (env.chain d) qs).flatten)) := by
  obtain ⟨n0, h0⟩ := h
  obtain ⟨hP, he⟩ := h0 (n0 + 2) (by omega)
  obtain ⟨h1, _, _⟩ := hP _ rfl
  obtain ⟨qs, hl, hq, hch⟩ := chain_levels hv hK n0 h1.2.2
  refine ⟨qs, hl, hq, ?_⟩
  rw [← he, ← hch]
  simp [topEnc, codec, uptrEnc, Env.virt, hvt, nodeEnc, Env.dynIdx]

end Ckpt
