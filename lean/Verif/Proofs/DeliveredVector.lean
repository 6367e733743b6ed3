import Verif.Proofs.DeliveredLists
/-!
Reading stopped, but some of the elements of a vector had been read completely: they are as restored.
-/

set_option autoImplicit false

namespace Ckpt

section
variable {T : Type} {K : Kind → Prop} {cfg : Cfg}

/-- Elements of an array that are complete in the data are read as they were written, also when a later one is not. -/
def Delivers (K : Kind → Prop) (cfg : Cfg) (h : Handler T) (r : Residue T) (c : Codec T) : Prop :=
  ∀ (k : Nat) (xs ys zs : List T) (s : Ser), (∀ x ∈ xs, c.P x) → List.Forall₂ c.prior xs ys → s.Reader (Scope.quiet K) →
    (rest : Bytes) → s.remaining = (xs.take k).flatMap (c.enc cfg.check) ++ rest →
    ((∃ s', h s ys = .ok (zs, s')) ∨ r s ys = .ok zs) →
    ∀ (i : Nat) x, i < k → xs[i]? = some x → ∃ z, zs[i]? = some z ∧ c.rel x z

/-- Memory after bytes were read: the data there are, the other bytes as before. -/
theorem bytesEnd_eq {s : Ser} (hs : s.Reader (Scope.quiet K)) {size num : Nat} {data bs : Bytes} (hd : data.length = size * num)
    (h : bytesEnd s size num data = .ok bs) : bs = s.remaining.take (size * num) ++ data.drop s.remaining.length := by
  obtain ⟨core, kind, vdis⟩ := s
  cases core <;> simp [Ser.Reader] at hs
  case unpacker mem cur used =>
    simp only [bytesEnd, Ser.contiguousBytes, hd, ne_eq, not_true, if_false] at h
    by_cases hl : cur + size * num ≤ mem.length
    · simp only [hl, if_true, Out.after] at h
      cases h
      simp only [Ser.remaining, List.length_drop]
      rw [List.drop_eq_nil_of_le (as := data) (by omega), List.append_nil]
    · simp [hl, Out.after] at h
  case streamUnpacker inp n =>
    simp only [bytesEnd, Ser.contiguousBytes, hd, ne_eq, not_true, if_false] at h
    by_cases hl : size * num ≤ inp.length
    · simp only [hl, if_true, Out.after] at h
      cases h
      simp only [Ser.remaining]
      rw [List.drop_eq_nil_of_le (as := data) (by omega), List.append_nil]
    · simp only [hl, if_false, Out.after] at h
      cases h
      simp only [Ser.remaining]
      rw [List.take_of_length_le (by omega)]

theorem chunks_first {size : Nat} : ∀ {k : Nat} {xs : List Bytes} {n : Nat} {bs rest : Bytes}, (∀ x ∈ xs, x.length = size) →
    xs.length ≤ n → bs = (xs.take k).flatten ++ rest →
    ∀ (i : Nat) x, i < k → xs[i]? = some x → (chunks size n bs)[i]? = some x
  | 0, _, _, _, _, _, _, _, i, _, hi, _ => absurd hi (Nat.not_lt_zero i)
  | _ + 1, [], _, _, _, _, _, _, i, _, _, hx => by simp at hx
  | _ + 1, _ :: _, 0, _, _, _, hn, _, _, _, _, _ => by simp at hn
  | k + 1, x :: xs, n + 1, bs, rest, h, hn, hb, i, x', hi, hx => by
    have hl : x.length = size := h x (by simp)
    simp only [List.take_succ_cons, List.flatten_cons, List.append_assoc] at hb
    cases i with
    | zero =>
      cases hx
      simp only [chunks, List.getElem?_cons_zero, hb]
      rw [← hl, List.take_left]
    | succ i =>
      simp only [chunks, List.getElem?_cons_succ]
      refine chunks_first (k := k) (xs := xs) (rest := rest) (fun y hy => h y (by simp [hy])) (by simpa using hn) ?_ i x' (by omega) hx
      rw [hb, ← hl, List.drop_left]

/-- Numbers and other values copied as bytes. -/
theorem bytes_delivered {size k : Nat} {xs ys zs : List Bytes} {s : Ser} (hx : ∀ x ∈ xs, x.length = size)
    (hy : ∀ y ∈ ys, y.length = size) (hl : xs.length = ys.length) (hs : s.Reader (Scope.quiet K)) (rest : Bytes)
    (hr : s.remaining = (xs.take k).flatten ++ rest)
    (hz : (∃ s', dispatchByte size s ys = .ok (zs, s')) ∨ dispatchByteEnd size s ys = .ok zs) :
    ∀ (i : Nat) x, i < k → xs[i]? = some x → zs[i]? = some x := by
  have hz' : dispatchByteEnd size s ys = .ok zs := by
    rcases hz with ⟨s', hz⟩ | hz
    · obtain ⟨⟨q1, q2⟩, h1, h2⟩ := bind_eq_ok hz
      cases h2
      simp only [dispatchByteEnd, bytesEnd, h1, Out.after, Out.bind_eq, Out.bind_ok]
    · exact hz
  obtain ⟨bs, hb, h2⟩ := bind_eq_ok hz'
  cases h2
  have hbs := bytesEnd_eq hs (flatten_length_of size ys hy) hb
  rw [hr, ← hl] at hbs
  have hk : (xs.take k).flatten.length ≤ size * xs.length := by
    rw [flatten_length_of size _ (fun x h => hx x (List.mem_of_mem_take h)), List.length_take]
    exact Nat.mul_le_mul_left _ (Nat.min_le_right _ _)
  rw [List.take_append, List.take_of_length_le hk, List.append_assoc] at hbs
  intro i x hi hxi
  exact chunks_first hx (by omega) hbs i x hi hxi

theorem raw_delivers {size : Nat} {t : Ty} :
    Delivers K cfg (onRaw (dispatchByte size)) (onRawEnd (dispatchByteEnd size)) ((rawCodec size).byVal t) := by
  intro k xs ys zs s hP hp hs rest hr hz i x hi hx
  have hxs : ∃ as : List Bytes, xs = as.map Val.raw ∧ ∀ a ∈ as, a.length = size := by
    clear hp hr hx
    induction xs with
    | nil => exact ⟨[], rfl, by simp⟩
    | cons x xs ih =>
      obtain ⟨as, rfl, h⟩ := ih (fun y hy => hP y (by simp [hy]))
      have := (hP x (by simp)).1
      cases x <;> try exact this.elim
      case raw bs => exact ⟨bs :: as, rfl, by simpa using ⟨this, h⟩⟩
  have hys : ∃ bs : List Bytes, ys = bs.map Val.raw ∧ ∀ b ∈ bs, b.length = size := by
    clear hr hx hP hz hxs
    induction hp with
    | nil => exact ⟨[], rfl, by simp⟩
    | @cons a b _ _ h _ ih =>
      obtain ⟨bs, rfl, h'⟩ := ih
      have : (rawCodec size).prior a b := h
      cases b <;> try exact this.elim
      case raw b => exact ⟨b :: bs, rfl, by simpa using ⟨this, h'⟩⟩
  obtain ⟨as, rfl, ha⟩ := hxs
  obtain ⟨bs, rfl, hb⟩ := hys
  have hl : as.length = bs.length := by simpa using hp.length_eq
  have hz' : ∃ cs, zs = cs.map Val.raw ∧ ((∃ s', dispatchByte size s bs = .ok (cs, s')) ∨ dispatchByteEnd size s bs = .ok cs) := by
    rcases hz with ⟨s', hz⟩ | hz
    · simp only [onRaw, mapM_raw] at hz
      obtain ⟨⟨q1, q2⟩, h1, h2⟩ := bind_eq_ok hz
      cases h2
      exact ⟨q1, rfl, .inl ⟨_, h1⟩⟩
    · simp only [onRawEnd, mapM_raw] at hz
      obtain ⟨q, h1, h2⟩ := bind_eq_ok hz
      cases h2
      exact ⟨q, rfl, .inr h1⟩
  obtain ⟨cs, rfl, hz'⟩ := hz'
  have hflat : ∀ l : List Bytes, (l.map Val.raw).flatMap (((rawCodec size).byVal t).enc cfg.check) = l.flatten := by
    intro l
    induction l with
    | nil => rfl
    | cons a l ih => rw [List.map_cons, List.flatMap_cons, ih]; rfl
  rw [← List.map_take, hflat] at hr
  rw [List.getElem?_map] at hx
  obtain ⟨a, ha1, rfl⟩ := Option.map_eq_some_iff.1 hx
  have := bytes_delivered ha hb hl hs rest hr hz' i a hi ha1
  exact ⟨.raw a, by rw [List.getElem?_map, this]; rfl, rfl⟩

/-- Objects that are read one after the other, without headers. -/
theorem each_delivers (hc : cfg.check = false) {ti : TI} {f : Ser → T → Out (T × Ser)} {g : Ser → T → Out T} {c : Codec T}
    (L : Law (Scope.quiet K) cfg ti (dispatchEach f) c) : Delivers K cfg (dispatchEach f) (dispatchEachEnd f g) c := by
  intro k
  induction k with
  | zero => intro _ _ _ _ _ _ _ _ _ _ i _ hi; exact absurd hi (Nat.not_lt_zero i)
  | succ k ih =>
    intro xs ys zs s hP hp hs rest hr hz i x' hi hx
    cases hp with
    | nil => simp at hx
    | @cons x y xs ys hp1 hp2 =>
      simp only [List.take_succ_cons, List.flatMap_cons, List.append_assoc] at hr
      have hrd := L.rd [x] [y] (by simpa using hP x (by simp)) (.cons hp1 .nil) Nat.one_pos L.one
      have hrd' := hrd s hs
      simp only [traverse, hc, Bool.false_eq_true, if_false, node, List.flatMap_cons, List.flatMap_nil, List.append_nil] at hrd' hr
      rcases hrd'.1 _ hr with ⟨b, hb, he⟩ | ⟨_, hf, _⟩
      case inr => exact hf.elim
      obtain ⟨⟨b1, s1⟩, h1, h2⟩ := bind_eq_ok he
      cases h2
      have hb1 : c.rel x b1 := by cases hb with | cons h _ => exact h
      have htail : ∃ zs', zs = b1 :: zs' ∧
          ((∃ s', dispatchEach f (s.advance (c.enc false x).length) ys = .ok (zs', s')) ∨
            dispatchEachEnd f g (s.advance (c.enc false x).length) ys = .ok zs') := by
        rcases hz with ⟨s', hz⟩ | hz
        · simp only [dispatchEach, h1, Out.bind_eq, Out.bind_ok] at hz
          obtain ⟨⟨q1, q2⟩, h3, h4⟩ := bind_eq_ok hz
          cases h4
          exact ⟨_, rfl, .inl ⟨_, h3⟩⟩
        · simp only [dispatchEachEnd, h1, Out.after] at hz
          obtain ⟨q, h3, h4⟩ := bind_eq_ok hz
          cases h4
          exact ⟨_, rfl, .inr h3⟩
      obtain ⟨zs', rfl, hz'⟩ := htail
      cases i with
      | zero => cases hx; exact ⟨b1, rfl, hb1⟩
      | succ i =>
        exact ih xs ys zs' _ (fun y hy => hP y (by simp [hy])) hp2 (hs.advance (by rw [hr]; simp)) rest
          (by rw [Ser.remaining_advance, hr, List.drop_left, hc]) hz' i x' (by omega) hx

/-- The header of an array. -/
def arrayHead (cfg : Cfg) (ti : TI) : Bytes := if cfg.check then intBytes cfg.endian 4 ti.idx else []

theorem array_delivered {e : Elem T} {r : Residue T} {c : Codec T} (hti : e.ti.Valid) (D : Delivers K cfg e.apply r c) {k : Nat}
    {xs ys zs : List T} {s : Ser} (h : ∀ x ∈ xs, c.P x) (hp : List.Forall₂ c.prior xs ys) (hs : s.Reader (Scope.quiet K))
    (rest : Bytes) (hr : s.remaining = arrayHead cfg e.ti ++ ((xs.take k).flatMap (c.enc cfg.check) ++ rest))
    (hz : (∃ s', serializeArray cfg e s ys = .ok (zs, s')) ∨ serializeArrayEnd cfg e r s ys = .ok zs) :
    ∀ (i : Nat) x, i < k → xs[i]? = some x → ∃ z, zs[i]? = some z ∧ c.rel x z := by
  by_cases hy : 0 < ys.length
  case neg =>
    have : xs = [] := by
      have := hp.length_eq
      exact List.length_eq_zero_iff.1 (by omega)
    subst this
    intro i x _ hx
    simp at hx
  simp only [serializeArray, serializeArrayEnd, gt_iff_lt, hy, if_true, traverse, traverseEnd] at hz
  unfold arrayHead at hr
  by_cases hc : cfg.check = true
  · simp only [hc, if_true] at hz hr
    rcases (withTypeIdx_rd (cfg := cfg) hti s hs).1 _ hr with ⟨_, -, h1⟩ | ⟨_, hfail, _⟩
    case inr => exact hfail.elim
    have h1' : withTypeIdx cfg e.ti s = .ok (s.advance 4) := by
      unfold withTypeIdx' at h1
      obtain ⟨b, hb, hb'⟩ := bind_eq_ok h1
      rw [intBytes_length] at hb'
      cases hb'
      exact hb
    have hs4 : (s.advance 4).Reader (Scope.quiet K) := hs.advance (by rw [hr]; simp [intBytes_length])
    have hr4 : (s.advance 4).remaining = (xs.take k).flatMap (c.enc cfg.check) ++ rest := by
      rw [Ser.remaining_advance, hr, hc]
      exact List.drop_left' (intBytes_length _ _ _)
    refine D k xs ys zs _ h hp hs4 rest hr4 ?_
    rcases hz with ⟨s', hz⟩ | hz
    · simp only [h1', Out.bind_eq, Out.bind_ok] at hz
      obtain ⟨⟨q1, q2⟩, h2, h3⟩ := bind_eq_ok hz
      obtain ⟨q3, h4, h5⟩ := bind_eq_ok h3
      cases h5
      exact .inl ⟨_, Ckpt.catchDepth_ok h2⟩
    · simp only [h1', Out.after] at hz
      cases h2 : e.apply (s.advance 4) ys with
      | ok q =>
        rw [h2] at hz
        dsimp only at hz
        cases h3 : withMemUsed cfg e.ti q.2 ys.length <;> rw [h3] at hz <;> cases hz <;> exact .inl ⟨q.2, rfl⟩
      | throw _ => rw [h2] at hz; exact .inr hz
      | _ => rw [h2] at hz; cases hz
  · have hc : cfg.check = false := by simpa using hc
    simp only [hc, Bool.false_eq_true, if_false] at hz
    refine D k xs ys zs s h hp hs rest ?_ hz
    rw [hr]
    simp [hc]

/-- Vectors. -/
theorem vector_delivered (hcfg : cfg.Valid) {e : Elem T} {r : Residue T} {c : Codec T} (hti : e.ti.Valid)
    (D : Delivers K cfg e.apply r c) (F : Fresh e c) {sz k : Nat} {x y z : Vec T} {s : Ser} (hx : VecOk c x)
    (hp : VecPrior e c x y) (hs : s.Reader (Scope.quiet K)) (rest : Bytes)
    (hr : s.remaining = sizeNode cfg cfg.check x.cap ++ (sizeNode cfg cfg.check x.elems.length ++ (arrayHead cfg e.ti ++
      ((x.elems.take k).flatMap (c.enc cfg.check) ++ rest))))
    (hz : (∃ s', serVector cfg sz e s y = .ok (z, s')) ∨ serVectorEnd cfg e r s y = .ok z) :
    ∀ (i : Nat) a, i < k → x.elems[i]? = some a → ∃ b, z.elems[i]? = some b ∧ c.rel a b := by
  rcases (pipeSize_rd (m := y.cap) hcfg hx.lt s hs).1 _ hr with ⟨_, rfl, he⟩ | ⟨_, hf, _⟩
  case inr => exact hf.elim
  have hs2 := hs.advance (n := (sizeNode cfg cfg.check x.cap).length) (by rw [hr]; simp)
  have hr2 := Ser.remaining_advance s (sizeNode cfg cfg.check x.cap).length
  rw [hr, List.drop_left] at hr2
  generalize s.advance (sizeNode cfg cfg.check x.cap).length = s2 at he hs2 hr2
  have hlt : x.elems.length < 2 ^ 64 := Nat.lt_of_le_of_lt hx.cap hx.lt
  rcases (pipeSize_rd (m := (y.reserve cfg x.cap).elems.length) hcfg hlt s2 hs2).1 _ hr2 with ⟨_, rfl, he2⟩ | ⟨_, hf, _⟩
  case inr => exact hf.elim
  have hs3 := hs2.advance (n := (sizeNode cfg cfg.check x.elems.length).length) (by rw [hr2]; simp)
  have hr3 := Ser.remaining_advance s2 (sizeNode cfg cfg.check x.elems.length).length
  rw [hr2, List.drop_left] at hr3
  generalize s2.advance (sizeNode cfg cfg.check x.elems.length).length = s3 at he2 hs3 hr3
  obtain ⟨hA, -⟩ := constructVectorData_prior (cfg := cfg) F hx hp (Vec.reserve_elems (cfg := cfg) y x.cap)
    (Nat.le_trans hx.cap (Vec.le_reserve_cap hcfg y x.cap))
  have hz' : (∃ s', serializeArray cfg e s3 (constructVectorData cfg e x.elems.length (y.reserve cfg x.cap)).elems =
      .ok (z.elems, s')) ∨ serializeArrayEnd cfg e r s3 (constructVectorData cfg e x.elems.length (y.reserve cfg x.cap)).elems =
      .ok z.elems := by
    rcases hz with ⟨s', hz⟩ | hz
    · simp only [serVector, serializeVectorMeta, hs.not_footprinting, Bool.false_eq_true, if_false, he, he2, Out.bind_eq,
        Out.bind_ok, hs3.unpacking, if_true] at hz
      obtain ⟨⟨q1, q2⟩, h2, h3⟩ := bind_eq_ok hz
      cases h3
      exact .inl ⟨_, h2⟩
    · simp only [serVectorEnd, he, he2, Out.after] at hz
      obtain ⟨q, h2, h3⟩ := bind_eq_ok hz
      cases h3
      exact .inr h2
  exact array_delivered hti D hx.all hA hs3 rest hr3 hz'

end
end Ckpt
