import Verif.Spec.UserBody
import Verif.Proofs.ViewMoreTop
/-!
Laws of serialize functions with control flow.
-/

set_option autoImplicit false

namespace Ckpt

section
variable {K : Scope} {cfg : Cfg} {env : Env} {el : Ty → Elem Val} {cd : Ty → Codec Val} {x : Slots}

theorem Slots.put_self (o : Slots) (m : Nat) : o.put m (o m) = o := by
  funext i
  unfold Slots.put
  split
  · rename_i h; rw [h]
  · rfl

theorem Slots.put_same (o : Slots) (m : Nat) (vs : List Val) : o.put m vs m = vs := if_pos rfl

theorem Slots.put_other (o : Slots) {m m' : Nat} (vs : List Val) (h : m' ≠ m) : o.put m vs m' = o m' := if_neg h

/-- What is written of `x`. -/
def Body.enc (cfg : Cfg) (el : Ty → Elem Val) (cd : Ty → Codec Val) (x : Slots) (w : Bool) : Body → Bytes
  | .done => []
  | .each m t n k => ((x m).take n).flatMap (nodeEnc cfg w (el t).ti (cd t)) ++ k.enc cfg el cd x w
  | .array m t n k => arrEnc cfg w (el t).ti (cd t) ((x m).take n) ++ k.enc cfg el cd x w
  | .count f k => sizeNode cfg w (f x) ++ (k (f x)).enc cfg el cd x w
  | .flag f k => boolNode cfg w (f x) ++ (k (f x)).enc cfg el cd x w
  | .make _ _ _ k => k.enc cfg el cd x w
  | .look k => (k x).enc cfg el cd x w

/-- What is counted of `x`. -/
def Body.fp (cd : Ty → Codec Val) (x : Slots) : Body → Nat
  | .done => 0
  | .each m t n k => (((x m).take n).map (cd t).fp).sum + k.fp cd x
  | .array m t n k => (((x m).take n).map (cd t).fp).sum + k.fp cd x
  | .count f k => 8 + (k (f x)).fp cd x
  | .flag f k => 1 + (k (f x)).fp cd x
  | .make _ _ _ k => k.fp cd x
  | .look k => (k x).fp cd x

/-- What is needed of `x`. -/
structure BodyP (cd : Ty → Codec Val) (x : Slots) (steps : List Step) : Prop where
  values : ∀ m t n b, Step.visit m t n b ∈ steps → n ≤ (x m).length ∧ ∀ v ∈ (x m).take n, (cd t).P v
  blocks : ∀ m t n, Step.visit m t n true ∈ steps → (cd t).multi n
  counts : ∀ c, Step.count c ∈ steps → c < 2 ^ 64

theorem BodyP.tail {s : Step} {ss : List Step} (h : BodyP cd x (s :: ss)) : BodyP cd x ss :=
  ⟨fun m t n b hm => h.values m t n b (.tail _ hm), fun m t n hm => h.blocks m t n (.tail _ hm),
    fun c hc => h.counts c (.tail _ hc)⟩

theorem body_wr (hc : cfg.Valid) (L : ∀ t, Law K cfg (el t).ti (el t).apply (cd t)) : ∀ (b : Body),
    BodyP cd x (b.steps x) → Wr K cfg (fun s => b.run cfg env el s x) (fun w => b.enc cfg el cd x w) x
  | .done, _ => Wr.pure x
  | .each m t n k, h => by
    obtain ⟨hl, hP⟩ := h.values m t n false (by simp [Body.steps])
    refine ((pipeEach_wr (L t) hP).bind (k := fun p => k.run cfg env el p.2 (x.put m (p.1 ++ (x m).drop n))) ?_).congr
      (fun _ _ => by rw [Body.run, if_pos hl]) (fun _ => rfl)
    simp only [List.take_append_drop, Slots.put_self]
    exact body_wr hc L k h.tail
  | .array m t n k, h => by
    obtain ⟨hl, hP⟩ := h.values m t n true (by simp [Body.steps])
    have hm := h.blocks m t n (by simp [Body.steps])
    refine ((serializeArray_wr (L t) hP (by rw [List.length_take, Nat.min_eq_left hl]; exact hm)).bind
      (k := fun p => k.run cfg env el p.2 (x.put m (p.1 ++ (x m).drop n))) ?_).congr
      (fun _ _ => by rw [Body.run, if_pos hl]) (fun _ => rfl)
    simp only [List.take_append_drop, Slots.put_self]
    exact body_wr hc L k h.tail
  | .count f k, h =>
    ((pipeSize_wr hc (h.counts (f x) (by simp [Body.steps]))).bind (k := fun p => (k p.1).run cfg env el p.2 x)
      (body_wr hc L (k (f x)) h.tail)).congr (fun _ _ => rfl) (fun _ => rfl)
  | .flag f k, h =>
    ((pipeBool_wr hc).bind (k := fun p => (k p.1).run cfg env el p.2 x)
      (body_wr hc L (k (f x)) h)).congr (fun _ _ => rfl) (fun _ => rfl)
  | .make m t n k, h =>
    (body_wr hc L k h.tail).congr (fun s hs => by simp [Body.run, hs.not_unpacking]) (fun _ => rfl)
  | .look k, h => (body_wr hc L (k x) h).congr (fun _ _ => rfl) (fun _ => rfl)

theorem body_fp (hc : cfg.Valid) (L : ∀ t, Law K cfg (el t).ti (el t).apply (cd t)) : ∀ (b : Body),
    BodyP cd x (b.steps x) → Fp K (fun s => b.run cfg env el s x) (b.fp cd x) x
  | .done, _ => Fp.pure x
  | .each m t n k, h => by
    obtain ⟨hl, hP⟩ := h.values m t n false (by simp [Body.steps])
    refine ((pipeEach_fp (L t) hP).bind (k := fun p => k.run cfg env el p.2 (x.put m (p.1 ++ (x m).drop n))) ?_).congr
      (fun _ _ => by rw [Body.run, if_pos hl]) rfl
    simp only [List.take_append_drop, Slots.put_self]
    exact body_fp hc L k h.tail
  | .array m t n k, h => by
    obtain ⟨hl, hP⟩ := h.values m t n true (by simp [Body.steps])
    have hm := h.blocks m t n (by simp [Body.steps])
    refine ((serializeArray_fp (L t) hP (by rw [List.length_take, Nat.min_eq_left hl]; exact hm)).bind
      (k := fun p => k.run cfg env el p.2 (x.put m (p.1 ++ (x m).drop n))) ?_).congr
      (fun _ _ => by rw [Body.run, if_pos hl]) rfl
    simp only [List.take_append_drop, Slots.put_self]
    exact body_fp hc L k h.tail
  | .count f k, h =>
    ((pipeSize_fp hc (h.counts (f x) (by simp [Body.steps]))).bind (k := fun p => (k p.1).run cfg env el p.2 x)
      (body_fp hc L (k (f x)) h.tail)).congr (fun _ _ => rfl) rfl
  | .flag f k, h =>
    ((pipeBool_fp hc).bind (k := fun p => (k p.1).run cfg env el p.2 x)
      (body_fp hc L (k (f x)) h)).congr (fun _ _ => rfl) rfl
  | .make m t n k, h =>
    (body_fp hc L k h.tail).congr (fun s hs => by simp [Body.run, hs.not_unpacking]) rfl
  | .look k, h => (body_fp hc L (k x) h).congr (fun _ _ => rfl) rfl

/-! ### Reading -/

variable {R : RelMode}

/-- What is needed of the target. -/
def BodyReady (cd : Ty → Codec Val) (x y : Slots) (steps : List Step) : Prop :=
  ∀ m t n b, Step.visit m t n b ∈ steps →
    (∃ n', n ≤ n' ∧ Step.make m t n' ∈ steps) ∨
    ((∀ t' n', Step.make m t' n' ∉ steps) ∧ n ≤ (y m).length ∧
      List.Forall₂ (cd t).prior ((x m).take n) ((y m).take n))

/-- Reading a visited member. -/
theorem visit_read {y : Slots} {m : Nat} {t : Ty} {n : Nat} {b : Bool} {ss past : List Step}
    (hrel : ∀ t v w, (cd t).rel v w → Rel R env t v w)
    (hx : n ≤ (x m).length)
    (ho : (past ++ Step.visit m t n b :: ss).Pairwise Step.Before) (ha : Agree R env past x y)
    (hr : BodyReady cd x y (.visit m t n b :: ss)) :
    n ≤ (y m).length ∧ List.Forall₂ (cd t).prior ((x m).take n) ((y m).take n) ∧
    ∀ zs, List.Forall₂ (cd t).rel ((x m).take n) zs →
      Agree R env (past ++ [.visit m t n b]) x (y.put m (zs ++ (y m).drop n)) ∧
      BodyReady cd x (y.put m (zs ++ (y m).drop n)) ss ∧
      ∀ w, Restored R env x (y.put m (zs ++ (y m).drop n)) ss w →
        Restored R env x y (.visit m t n b :: ss) w := by
  have ho' := List.pairwise_append.1 ho
  have hss := List.pairwise_cons.1 ho'.2.1
  have nov : ∀ t' n' b', Step.visit m t' n' b' ∉ ss := fun t' n' b' h => hss.1 _ h rfl
  have nom : ∀ t' n', Step.make m t' n' ∉ ss := fun t' n' h => hss.1 _ h rfl
  have hy : n ≤ (y m).length ∧ List.Forall₂ (cd t).prior ((x m).take n) ((y m).take n) := by
    rcases hr m t n b (.head _) with ⟨n', _, h⟩ | ⟨_, h⟩
    · rcases List.mem_cons.1 h with h | h
      · cases h
      · exact (nom _ _ h).elim
    · exact h
  refine ⟨hy.1, hy.2, fun zs hz => ?_⟩
  have hzl : zs.length = n := by
    rw [← hz.length_eq, List.length_take, Nat.min_eq_left hx]
  have hlen : (zs ++ (y m).drop n).length = (y m).length := by
    rw [List.length_append, hzl, List.length_drop]; have := hy.1; omega
  have hzget : ∀ i < n, ∃ v v', (x m)[i]? = some v ∧ (zs ++ (y m).drop n)[i]? = some v' ∧ Rel R env t v v' := by
    intro i hi
    have h1 : i < ((x m).take n).length := by rw [List.length_take, Nat.min_eq_left hx]; exact hi
    have h2 : i < zs.length := by omega
    refine ⟨((x m).take n)[i], zs[i], ?_, ?_, hrel _ _ _ ?_⟩
    · rw [← List.getElem?_eq_getElem h1, List.getElem?_take, if_pos hi]
    · rw [List.getElem?_append_left h2, List.getElem?_eq_getElem h2]
    · exact List.Forall₂.get hz h1 h2
  refine ⟨⟨?_, ?_⟩, ?_, fun w hw => ⟨?_, ?_, ?_⟩⟩
  · intro m' t' n' b' h
    rcases List.mem_append.1 h with h | h
    · have hne : m' ≠ m := fun e => ho'.2.2 _ h _ (.head _) e
      rw [Slots.put_other _ _ hne]
      exact ha.1 m' t' n' b' h
    · cases List.mem_singleton.1 h
      rw [Slots.put_same]
      refine ⟨by rw [hlen]; exact hy.1, fun i hi v w hv hw => ?_⟩
      obtain ⟨a, c, h1, h2, h3⟩ := hzget i hi
      rw [h1] at hv; rw [h2] at hw
      cases hv; cases hw
      exact h3
  · intro m' t' n' h
    rcases List.mem_append.1 h with h | h
    · have := ha.2 m' t' n' h
      by_cases he : m' = m
      · subst he; rw [Slots.put_same, hlen]; exact this
      · rw [Slots.put_other _ _ he]; exact this
    · cases List.mem_singleton.1 h
  · intro m' t' n' b' h
    have hne : m' ≠ m := by rintro rfl; exact nov _ _ _ h
    rw [Slots.put_other _ _ hne]
    rcases hr m' t' n' b' (.tail _ h) with ⟨n2, h2, h3⟩ | ⟨h2, h3⟩
    · refine .inl ⟨n2, h2, ?_⟩
      rcases List.mem_cons.1 h3 with h3 | h3
      · cases h3
      · exact h3
    · exact .inr ⟨fun t2 n2 h => h2 t2 n2 (.tail _ h), h3⟩
  · have hwm : w m = zs ++ (y m).drop n := by
      rcases hw.others m nov with ⟨t', n', h, _⟩ | ⟨_, h⟩
      · exact (nom _ _ h).elim
      · rw [h, Slots.put_same]
    intro m' t' n' b' h i hi
    rcases List.mem_cons.1 h with h | h
    · cases h
      rw [hwm]
      exact hzget i hi
    · exact hw.visited m' t' n' b' h i hi
  · have hwm : w m = zs ++ (y m).drop n := by
      rcases hw.others m nov with ⟨t', n', h, _⟩ | ⟨_, h⟩
      · exact (nom _ _ h).elim
      · rw [h, Slots.put_same]
    intro m' t' n' b' h
    rcases List.mem_cons.1 h with h | h
    · cases h
      refine ⟨y m, .inr ⟨fun t2 n2 h => ?_, rfl⟩, by rw [hwm, hlen], ?_⟩
      · rcases List.mem_cons.1 h with h | h
        · cases h
        · exact nom _ _ h
      · rw [hwm, List.drop_append, hzl, Nat.sub_self, List.drop_zero, ← hzl, List.drop_length, List.nil_append]
    · have hne : m' ≠ m := fun e => nov t' n' b' (e ▸ h)
      obtain ⟨vs, h1, h2, h3⟩ := hw.beyond m' t' n' b' h
      refine ⟨vs, ?_, h2, h3⟩
      rcases h1 with ⟨t2, n2, h1, h4⟩ | ⟨h1, h4⟩
      · exact .inl ⟨t2, n2, .tail _ h1, h4⟩
      · refine .inr ⟨fun t2 n2 h => ?_, by rw [h4, Slots.put_other _ _ hne]⟩
        rcases List.mem_cons.1 h with h | h
        · cases h
        · exact h1 _ _ h
  · intro m' h
    have hne : m' ≠ m := by rintro rfl; exact h _ _ _ (.head _)
    rcases hw.others m' (fun t2 n2 b2 h' => h t2 n2 b2 (.tail _ h')) with ⟨t2, n2, h1, h4⟩ | ⟨h1, h4⟩
    · exact .inl ⟨t2, n2, .tail _ h1, h4⟩
    · refine .inr ⟨fun t2 n2 h => ?_, by rw [h4, Slots.put_other _ _ hne]⟩
      rcases List.mem_cons.1 h with h | h
      · cases h
      · exact h1 _ _ h

/-- Making a member anew. -/
theorem make_read {y : Slots} {m : Nat} {t : Ty} {n : Nat} {ss past : List Step}
    (hP : BodyP cd x (.make m t n :: ss))
    (hz : ∀ t v, (cd t).P v → (cd t).prior v ((env.dflt t).getD (env.fresh t)))
    (ho : (past ++ Step.make m t n :: ss).Pairwise Step.Before) (ha : Agree R env past x y)
    (hr : BodyReady cd x y (.make m t n :: ss)) :
    Agree R env (past ++ [.make m t n]) x (y.put m (madeOf env t n)) ∧
    BodyReady cd x (y.put m (madeOf env t n)) ss ∧
    ∀ w, Restored R env x (y.put m (madeOf env t n)) ss w → Restored R env x y (.make m t n :: ss) w := by
  have ho' := List.pairwise_append.1 ho
  have hss := List.pairwise_cons.1 ho'.2.1
  have nom : ∀ t' n', Step.make m t' n' ∉ ss := fun t' n' h => hss.1 _ h rfl
  have hlen : (madeOf env t n).length = n := by simp [madeOf]
  have hstart : ∀ m' vs, StartOf env (y.put m (madeOf env t n)) ss m' vs → StartOf env y (.make m t n :: ss) m' vs := by
    rintro m' vs (⟨t2, n2, h1, h4⟩ | ⟨h1, h4⟩)
    · exact .inl ⟨t2, n2, .tail _ h1, h4⟩
    · by_cases he : m' = m
      · subst he
        exact .inl ⟨t, n, .head _, by rw [h4, Slots.put_same]⟩
      · refine .inr ⟨fun t2 n2 h => ?_, by rw [h4, Slots.put_other _ _ he]⟩
        rcases List.mem_cons.1 h with h | h
        · cases h; exact he rfl
        · exact h1 _ _ h
  refine ⟨⟨?_, ?_⟩, ?_, fun w hw => ⟨?_, ?_, ?_⟩⟩
  · intro m' t' n' b' h
    rcases List.mem_append.1 h with h | h
    · have hne : m' ≠ m := fun e => ho'.2.2 _ h _ (.head _) e
      rw [Slots.put_other _ _ hne]
      exact ha.1 m' t' n' b' h
    · cases List.mem_singleton.1 h
  · intro m' t' n' h
    rcases List.mem_append.1 h with h | h
    · have hne : m' ≠ m := fun e => ho'.2.2 _ h _ (.head _) e
      rw [Slots.put_other _ _ hne]
      exact ha.2 m' t' n' h
    · cases List.mem_singleton.1 h
      rw [Slots.put_same, hlen]
  · intro m' t' n' b' h
    obtain ⟨hl, hv⟩ := hP.values m' t' n' b' (.tail _ h)
    rcases hr m' t' n' b' (.tail _ h) with ⟨n2, h2, h3⟩ | ⟨h2, h3⟩
    · rcases List.mem_cons.1 h3 with h3 | h3
      · cases h3
        refine .inr ⟨nom, ?_⟩
        rw [Slots.put_same, hlen]
        refine ⟨h2, ?_⟩
        rw [List.forall₂_iff_get]
        have e : ((madeOf env t n).take n').length = n' := by rw [List.length_take, hlen]; omega
        refine ⟨by rw [e, List.length_take, Nat.min_eq_left hl], fun i h1 h2 => ?_⟩
        have : ((madeOf env t n).take n').get ⟨i, h2⟩ = (env.dflt t).getD (env.fresh t) := by
          simp [madeOf]
        rw [this]
        exact hz _ _ (hv _ (List.get_mem _ _))
      · exact .inl ⟨n2, h2, h3⟩
    · have hne : m' ≠ m := by rintro rfl; exact h2 _ _ (.head _)
      rw [Slots.put_other _ _ hne]
      exact .inr ⟨fun t2 n2 h => h2 t2 n2 (.tail _ h), h3⟩
  · intro m' t' n' b' h i hi
    rcases List.mem_cons.1 h with h | h
    · cases h
    · exact hw.visited m' t' n' b' h i hi
  · intro m' t' n' b' h
    rcases List.mem_cons.1 h with h | h
    · cases h
    · obtain ⟨vs, h1, h2, h3⟩ := hw.beyond m' t' n' b' h
      exact ⟨vs, hstart _ _ h1, h2, h3⟩
  · intro m' h
    exact hstart _ _ (hw.others m' fun t2 n2 b2 h' => h t2 n2 b2 (.tail _ h'))

/-- Steps that change nothing. -/
theorem count_read {y : Slots} {c : Nat} {ss past : List Step}
    (ha : Agree R env past x y) (hr : BodyReady cd x y (.count c :: ss)) :
    Agree R env (past ++ [.count c]) x y ∧ BodyReady cd x y ss ∧
    ∀ w, Restored R env x y ss w → Restored R env x y (.count c :: ss) w := by
  have hstart : ∀ m' vs, StartOf env y ss m' vs → StartOf env y (.count c :: ss) m' vs := by
    rintro m' vs (⟨t2, n2, h1, h4⟩ | ⟨h1, h4⟩)
    · exact .inl ⟨t2, n2, .tail _ h1, h4⟩
    · exact .inr ⟨fun t2 n2 h => by
        rcases List.mem_cons.1 h with h | h
        · cases h
        · exact h1 _ _ h, h4⟩
  refine ⟨⟨fun m' t' n' b' h => ha.1 m' t' n' b' (by simpa using h), fun m' t' n' h => ha.2 m' t' n' (by simpa using h)⟩,
    fun m' t' n' b' h => ?_, fun w hw => ⟨fun m' t' n' b' h => hw.visited m' t' n' b' (by simpa using h), ?_, ?_⟩⟩
  · rcases hr m' t' n' b' (.tail _ h) with ⟨n2, h2, h3⟩ | ⟨h2, h3⟩
    · exact .inl ⟨n2, h2, by simpa using h3⟩
    · exact .inr ⟨fun t2 n2 h => h2 t2 n2 (.tail _ h), h3⟩
  · intro m' t' n' b' h
    obtain ⟨vs, h1, h2, h3⟩ := hw.beyond m' t' n' b' (by simpa using h)
    exact ⟨vs, hstart _ _ h1, h2, h3⟩
  · intro m' h
    exact hstart _ _ (hw.others m' fun t2 n2 b2 h' => h t2 n2 b2 (.tail _ h'))

theorem body_rd (hc : cfg.Valid) (L : ∀ t, Law K cfg (el t).ti (el t).apply (cd t))
    (hrel : ∀ t v w, (cd t).rel v w → Rel R env t v w)
    (hz : ∀ t v, (cd t).P v → (cd t).prior v ((env.dflt t).getD (env.fresh t))) : ∀ (b : Body) (past : List Step) (y : Slots),
    BodyP cd x (b.steps x) → (past ++ b.steps x).Pairwise Step.Before → b.Determined R env x past →
    Agree R env past x y → BodyReady cd x y (b.steps x) →
    Rd K (fun s => b.run cfg env el s y) (b.enc cfg el cd x cfg.check) (Restored R env x y (b.steps x))
  | .done, past, y, hP, ho, hd, ha, hr =>
    Rd.pure ⟨fun _ _ _ _ h => (by cases h), fun _ _ _ _ h => (by cases h),
      fun _ _ => .inr ⟨fun _ _ h => (by cases h), rfl⟩⟩
  | .each m t n k, past, y, hP, ho, hd, ha, hr => by
    obtain ⟨hl, hv⟩ := hP.values m t n false (by simp [Body.steps])
    obtain ⟨h1, h2, h3⟩ := visit_read hrel hl ho ha hr
    refine ((pipeEach_rd (L t) hv h2).bind (k := fun p => k.run cfg env el p.2 (y.put m (p.1 ++ (y m).drop n)))
      (Q' := Restored R env x y ((Body.each m t n k).steps x)) ?_).congr
      (fun _ _ => by rw [Body.run, if_pos h1]) rfl (fun _ h => h)
    intro zs hzs
    obtain ⟨i1, i2, i3⟩ := h3 zs hzs
    exact (body_rd hc L hrel hz k _ _ hP.tail (by rw [List.append_assoc]; exact ho) hd i1 i2).mono i3
  | .array m t n k, past, y, hP, ho, hd, ha, hr => by
    obtain ⟨hl, hv⟩ := hP.values m t n true (by simp [Body.steps])
    have hm := hP.blocks m t n (by simp [Body.steps])
    obtain ⟨h1, h2, h3⟩ := visit_read hrel hl ho ha hr
    refine ((serializeArray_rd (L t) hv h2 (by rw [List.length_take, Nat.min_eq_left hl]; exact hm)).bind
      (k := fun p => k.run cfg env el p.2 (y.put m (p.1 ++ (y m).drop n)))
      (Q' := Restored R env x y ((Body.array m t n k).steps x)) ?_).congr
      (fun _ _ => by rw [Body.run, if_pos h1]) rfl (fun _ h => h)
    intro zs hzs
    obtain ⟨i1, i2, i3⟩ := h3 zs hzs
    exact (body_rd hc L hrel hz k _ _ hP.tail (by rw [List.append_assoc]; exact ho) hd i1 i2).mono i3
  | .count f k, past, y, hP, ho, hd, ha, hr => by
    obtain ⟨i1, i2, i3⟩ := count_read ha hr
    refine ((pipeSize_rd hc (hP.counts (f x) (by simp [Body.steps]))).bind (k := fun p => (k p.1).run cfg env el p.2 y)
      (Q' := Restored R env x y ((Body.count f k).steps x)) ?_).congr (fun _ _ => rfl) rfl (fun _ h => h)
    rintro _ rfl
    exact (body_rd hc L hrel hz (k (f x)) _ _ hP.tail (by rw [List.append_assoc]; exact ho) hd i1 i2).mono i3
  | .flag f k, past, y, hP, ho, hd, ha, hr => by
    refine ((pipeBool_rd hc (b := f x)).bind (k := fun p => (k p.1).run cfg env el p.2 y)
      (Q' := Restored R env x y ((Body.flag f k).steps x)) ?_).congr (fun _ _ => rfl) rfl (fun _ h => h)
    rintro _ rfl
    exact body_rd hc L hrel hz (k (f x)) _ _ hP ho hd ha hr
  | .make m t n k, past, y, hP, ho, hd, ha, hr => by
    obtain ⟨i1, i2, i3⟩ := make_read hP hz ho ha hr
    exact ((body_rd hc L hrel hz k _ _ hP.tail (by rw [List.append_assoc]; exact ho) hd i1 i2).mono i3).congr
      (fun s hs => by simp [Body.run, hs.unpacking]) rfl (fun _ h => h)
  | .look k, past, y, hP, ho, hd, ha, hr => by
    have h := body_rd hc L hrel hz (k x) past y hP ho hd.2 ha hr
    refine h.congr (fun s _ => ?_) rfl (fun _ h => h)
    rw [Body.run, hd.1 y ha]

/-- The codec of the class, for the target `y`. -/
def bodyCodec (R : RelMode) (cfg : Cfg) (env : Env) (el : Ty → Elem Val) (cd : Ty → Codec Val) (b : Body) (y : Slots) :
    Codec Slots where
  P x := BodyP cd x (b.steps x) ∧ (b.steps x).Pairwise Step.Before ∧ b.Determined R env x []
  enc w x := b.enc cfg el cd x w
  prior x y' := y' = y ∧ BodyReady cd x y (b.steps x)
  rel x w := Restored R env x y (b.steps x) w
  fp x := b.fp cd x
  multi _ := True

theorem bodyLaw (hc : cfg.Valid) {ti : TI} (hti : ti.Valid) (L : ∀ t, Law K cfg (el t).ti (el t).apply (cd t))
    (hrel : ∀ t v w, (cd t).rel v w → Rel R env t v w)
    (hz : ∀ t v, (cd t).P v → (cd t).prior v ((env.dflt t).getD (env.fresh t))) (fresh : Slots) (b : Body) (y : Slots) :
    Law K cfg (bodyElem cfg env ti fresh b el).ti (bodyElem cfg env ti fresh b el).apply
      (bodyCodec R cfg env el cd b y) :=
  Law.ofEach hti trivial (fun _ h => body_wr hc L b h.1)
    (fun x _ h hp => by
      obtain ⟨rfl, hr⟩ := hp
      exact body_rd hc L hrel hz b [] _ h.1 h.2.1 h.2.2 ⟨fun _ _ _ _ h => (by cases h), fun _ _ _ h => (by cases h)⟩ hr)
    (fun _ h => body_fp hc L b h.1)

theorem run_le {fl : Failure} {el el' : Ty → Elem Val} (h : ∀ t, Elem.Or fl (el t) (el' t)) : ∀ (b : Body) (s : Ser) (o : Slots),
    Out.Or fl (b.run cfg env el s o) (b.run cfg env el' s o)
  | .done, _, _ => .refl _
  | .each m t n k, s, o => by
    rw [Body.run, Body.run]
    split
    · exact (pipeEach_le (h t) _ _).bind fun p => run_le h k _ _
    · exact .refl _
  | .array m t n k, s, o => by
    rw [Body.run, Body.run]
    split
    · exact (serializeArray_le (h t) _ _).bind fun p => run_le h k _ _
    · exact .refl _
  | .count f k, s, o => Out.Or.bind (.refl _) fun p => run_le h (k p.1) _ _
  | .flag f k, s, o => Out.Or.bind (.refl _) fun p => run_le h (k p.1) _ _
  | .make m t n k, s, o => run_le h k _ _
  | .look k, s, o => run_le h (k o) s o

end

end Ckpt
