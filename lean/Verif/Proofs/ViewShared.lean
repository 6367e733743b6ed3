import Verif.Spec.ViewShared
import Verif.Proofs.ComposeAll
import Verif.Proofs.ViewMoreTop
import Verif.Proofs.Mono
/-!
Laws of views that share memory.
-/

set_option autoImplicit false

namespace Ckpt

variable {T : Type} {K : Scope} {cfg : Cfg}

theorem take_drop_taken {α : Type} (ys : List α) (n : Nat) : ys.take n ++ ys.drop (ys.take n).length = ys := by
  rcases Nat.le_total n ys.length with h | h
  · rw [List.length_take, Nat.min_eq_left h, List.take_append_drop]
  · rw [List.length_take, Nat.min_eq_right h, List.take_of_length_le h, List.drop_length, List.append_nil]

theorem splice_self {α : Type} (xs : List α) (o n : Nat) :
    xs.take o ++ (xs.drop o).take n ++ xs.drop (o + ((xs.drop o).take n).length) = xs := by
  rw [← List.drop_drop, List.append_assoc, take_drop_taken, List.take_append_drop]

theorem VMem.store_load (m : VMem T) (r : VRef) : m.store r (m.load r).data = m := by
  unfold VMem.store VMem.load
  split
  · rfl
  · rename_i a o h
    obtain ⟨as⟩ := m
    congr
    refine List.ext_getElem? fun i => ?_
    rw [List.getElem?_modify]
    split
    · rename_i hi
      subst hi
      cases ha : as[a]? with
      | none => rfl
      | some p =>
        have := splice_self p.2 o r.span
        show (fun p : Bytes × List T => _) <$> some p = some p
        simp only [Option.map_eq_map, Option.map_some, ha, Option.getD_some]
        rw [this]
    · simp

/-! ### Writing -/

/-- What `serRef` does after the view was visited. -/
def afterRef (m : VMem T) (r : VRef) (p : View T × Ser) : Out ((VMem T × VRef) × Ser) :=
  .ok (if p.2.isUnpacking then m.make p.1 else (m.store r p.1.data, r), p.2)

theorem ref_wr {e : Elem (View T)} {c : Codec (View T)} (L : Law K cfg e.ti e.apply c) {m : VMem T} {r : VRef}
    (hP : c.P (m.load r)) :
    Wr K cfg (fun s => serRef cfg e s m r) (fun w => nodeEnc cfg w e.ti c (m.load r)) (m, r) := by
  refine ((pipe_wr L hP).bind (k := afterRef m r) (bs' := fun _ => []) (c := (m, r)) ?_).congr (fun _ _ => rfl)
    (fun _ => (List.append_nil _).symm)
  refine (Wr.pure (m, r)).congr (fun s hs => ?_) (fun _ => rfl)
  simp [afterRef, hs.not_unpacking, VMem.store_load]

theorem ref_fp {e : Elem (View T)} {c : Codec (View T)} (L : Law K cfg e.ti e.apply c) {m : VMem T} {r : VRef}
    (hP : c.P (m.load r)) : Fp K (fun s => serRef cfg e s m r) (c.fp (m.load r)) (m, r) := by
  refine ((pipe_fp L hP).bind (k := afterRef m r) (n' := 0) (c := (m, r)) ?_).congr (fun _ _ => rfl) rfl
  refine (Fp.pure (m, r)).congr (fun s hs => ?_) rfl
  simp [afterRef, hs.not_unpacking, VMem.store_load]

theorem ref_rd {e : Elem (View T)} {c : Codec (View T)} (L : Law K cfg e.ti e.apply c) {m : VMem T} {r : VRef} {x : View T}
    (hP : c.P x) (hp : c.prior x (m.load r)) :
    Rd K (fun s => serRef cfg e s m r) (nodeEnc cfg cfg.check e.ti c x) (fun w => ∃ z, c.rel x z ∧ w = m.make z) := by
  refine ((pipe_rd L hP hp).bind (k := afterRef m r) (bs' := []) (Q' := fun w => ∃ z, c.rel x z ∧ w = m.make z)
    ?_).congr (fun _ _ => rfl) (List.append_nil _).symm (fun _ h => h)
  intro z hz
  refine (Rd.pure (b := m.make z) (Q := fun w => ∃ z, c.rel x z ∧ w = m.make z) ⟨z, hz, rfl⟩).congr (fun s hs => ?_) rfl
    (fun _ h => h)
  simp [afterRef, hs.unpacking]

/-! ### Several views -/

/-- A member: its type, what is known of it, and the view object. -/
structure RefItem (T : Type) where
  elem : Elem (View T)
  codec : Codec (View T)
  ref : VRef

/-- It can be written. -/
structure RefItem.Good (K : Scope) (cfg : Cfg) (m : VMem T) (q : RefItem T) : Prop where
  law : Law K cfg q.elem.ti q.elem.apply q.codec
  P : q.codec.P (m.load q.ref)
  prior : ∀ y, q.codec.prior (m.load q.ref) y

def RefItem.enc (cfg : Cfg) (m : VMem T) (w : Bool) (q : RefItem T) : Bytes :=
  nodeEnc cfg w q.elem.ti q.codec (m.load q.ref)

theorem refs_wr {m : VMem T} : ∀ {qs : List (RefItem T)}, (∀ q ∈ qs, q.Good K cfg m) →
    Wr K cfg (fun s => serRefs cfg (qs.map (·.elem)) s m (qs.map (·.ref))) (fun w => qs.flatMap (RefItem.enc cfg m w))
      (m, qs.map (·.ref))
  | [], _ => Wr.pure (m, [])
  | q :: qs, h => by
    have h1 := h q (.head _)
    refine ((ref_wr (K := K) h1.law h1.P).bind
      (k := fun p => serRefs cfg (qs.map (·.elem)) p.2 p.1.1 (qs.map (·.ref)) >>= fun z => .ok ((z.1.1, p.1.2 :: z.1.2), z.2))
      (c := (m, q.ref :: qs.map (·.ref)))
      ((refs_wr fun q hq => h q (.tail _ hq)).map fun z => (z.1, q.ref :: z.2))).congr (fun s hs => ?_) (fun _ => ?_)
    · simp [serRefs]
    · simp [RefItem.enc]

theorem refs_fp {m : VMem T} : ∀ {qs : List (RefItem T)}, (∀ q ∈ qs, q.Good K cfg m) →
    Fp K (fun s => serRefs cfg (qs.map (·.elem)) s m (qs.map (·.ref))) (qs.map fun q => q.codec.fp (m.load q.ref)).sum
      (m, qs.map (·.ref))
  | [], _ => Fp.pure (m, [])
  | q :: qs, h => by
    have h1 := h q (.head _)
    refine ((ref_fp (K := K) h1.law h1.P).bind
      (k := fun p => serRefs cfg (qs.map (·.elem)) p.2 p.1.1 (qs.map (·.ref)) >>= fun z => .ok ((z.1.1, p.1.2 :: z.1.2), z.2))
      (c := (m, q.ref :: qs.map (·.ref)))
      ((refs_fp fun q hq => h q (.tail _ hq)).map fun z => (z.1, q.ref :: z.2))).congr (fun s hs => ?_) ?_
    · simp [serRefs]
    · simp

/-- One allocation after the other, for these views. -/
def VMem.makeAll (m : VMem T) : List (View T) → VMem T × List VRef
  | [] => (m, [])
  | z :: zs => (((m.make z).1.makeAll zs).1, (m.make z).2 :: ((m.make z).1.makeAll zs).2)

theorem refs_rd {m0 : VMem T} : ∀ {qs : List (RefItem T)} {ys : List VRef} {m : VMem T}, (∀ q ∈ qs, q.Good K cfg m0) →
    ys.length = qs.length →
    Rd K (fun s => serRefs cfg (qs.map (·.elem)) s m ys) (qs.flatMap (RefItem.enc cfg m0 cfg.check))
      (fun w => ∃ zs, List.Forall₂ (fun (q : RefItem T) z => q.codec.rel (m0.load q.ref) z) qs zs ∧ w = m.makeAll zs)
  | [], ys, m, _, hl => by
    cases ys with
    | nil => exact Rd.pure ⟨[], .nil, rfl⟩
    | cons => cases hl
  | q :: qs, ys, m, h, hl => by
    cases ys with
    | nil => cases hl
    | cons y ys =>
    have h1 := h q (.head _)
    refine ((ref_rd (K := K) h1.law h1.P (h1.prior (m.load y))).bind
      (k := fun p => serRefs cfg (qs.map (·.elem)) p.2 p.1.1 ys >>= fun z => .ok ((z.1.1, p.1.2 :: z.1.2), z.2))
      (bs' := qs.flatMap (RefItem.enc cfg m0 cfg.check))
      (Q' := fun w => ∃ zs, List.Forall₂ (fun (q : RefItem T) z => q.codec.rel (m0.load q.ref) z) (q :: qs) zs ∧
        w = m.makeAll zs) ?_).congr (fun s hs => ?_) (by simp [RefItem.enc]) (fun _ h => h)
    · rintro _ ⟨z, hz, rfl⟩
      refine (refs_rd (fun q hq => h q (.tail _ hq)) (Nat.succ.inj hl)).map (fun w => (w.1, (m.make z).2 :: w.2)) ?_
      rintro _ ⟨zs, hzs, rfl⟩
      exact ⟨z :: zs, .cons hz hzs, rfl⟩
    · simp [serRefs]

/-- The class with members `qs`, read over `y`. -/
def refsCodec (cfg : Cfg) (m : VMem T) (qs : List (RefItem T)) (y : VMem T × List VRef) : Codec (VMem T × List VRef) where
  P x := x = (m, qs.map (·.ref))
  enc w _ := qs.flatMap (RefItem.enc cfg m w)
  prior _ y' := y' = y ∧ y.2.length = qs.length
  rel _ w := ∃ zs, List.Forall₂ (fun (q : RefItem T) z => q.codec.rel (m.load q.ref) z) qs zs ∧ w = y.1.makeAll zs
  fp _ := (qs.map fun q => q.codec.fp (m.load q.ref)).sum
  multi _ := True

theorem refsLaw {ti : TI} (hti : ti.Valid) {m : VMem T} {qs : List (RefItem T)} (h : ∀ q ∈ qs, q.Good K cfg m)
    (y : VMem T × List VRef) : Law K cfg (refsElem cfg ti (qs.map (·.elem))).ti (refsElem cfg ti (qs.map (·.elem))).apply
      (refsCodec cfg m qs y) := by
  refine Law.ofEach hti trivial ?_ ?_ ?_
  · rintro _ rfl
    exact refs_wr h
  · rintro _ _ rfl ⟨rfl, hl⟩
    exact refs_rd h hl
  · rintro _ rfl
    exact refs_fp h

/-! ### Memory -/

theorem makeAll_allocs : ∀ (zs : List (View T)) (m : VMem T),
    (m.makeAll zs).1.allocs = m.allocs ++ zs.map fun z => (z.label, z.data)
  | [], m => by simp [VMem.makeAll]
  | z :: zs, m => by
    simp only [VMem.makeAll, makeAll_allocs zs, VMem.make, List.append_assoc, List.map_cons, List.singleton_append]

theorem makeAll_new : ∀ (zs : List (View T)) (m : VMem T), ∀ r ∈ (m.makeAll zs).2, r.NewFor m
  | [], m, r, h => by cases h
  | z :: zs, m, r, h => by
    rcases List.mem_cons.1 h with rfl | h
    · exact ⟨m.allocs.length, 0, rfl, Nat.le_refl _⟩
    · obtain ⟨a, o, hp, ha⟩ := makeAll_new zs (m.make z).1 r h
      simp only [VMem.make, List.length_append, List.length_singleton] at ha
      exact ⟨a, o, hp, by omega⟩

theorem makeAll_apart : ∀ (zs : List (View T)) (m : VMem T), (m.makeAll zs).2.Pairwise VRef.Apart
  | [], m => .nil
  | z :: zs, m => by
    refine .cons (fun r hr => ?_) (makeAll_apart zs (m.make z).1)
    obtain ⟨a, o, hp, ha⟩ := makeAll_new zs (m.make z).1 r hr
    simp only [VMem.make, List.length_append, List.length_singleton] at ha
    rintro a1 o1 a2 o2 h1 h2
    cases h1
    rw [hp] at h2
    cases h2
    omega

theorem load_append {m m' : VMem T} {l : List (Bytes × List T)} (h : m'.allocs = m.allocs ++ l) {r : VRef} (hr : r.In m) :
    m'.load r = m.load r := by
  unfold VMem.load
  split
  · rfl
  · rename_i a o hp
    rw [h, List.getElem?_append_left (hr a o hp)]

theorem makeAll_loads : ∀ (zs : List (View T)) (m : VMem T),
    (∀ z ∈ zs, z.alloc = true ∧ z.data.length = z.span) →
    List.Forall₂ (fun z r => (m.makeAll zs).1.load r = z) zs (m.makeAll zs).2
  | [], _, _ => .nil
  | z :: zs, m, h => by
    refine .cons ?_ (makeAll_loads zs (m.make z).1 fun z hz => h z (.tail _ hz))
    have hz := h z (.head _)
    show ((m.make z).1.makeAll zs).1.load (m.make z).2 = z
    rw [load_append (m := (m.make z).1) (makeAll_allocs zs _) (by
      rintro a o ⟨⟩
      simp [VMem.make])]
    obtain ⟨l, ex, st, sp, al, d⟩ := z
    obtain ⟨h1, h2⟩ := hz
    simp only at h1 h2
    subst h1 h2
    simp [VMem.load, VMem.make]

/-! ### Depth -/

theorem serRefs_le {fl : Failure} : ∀ {es es' : List (Elem (View T))}, List.Forall₂ (Elem.Or fl) es es' → ∀ (s : Ser) (m : VMem T) (rs : List VRef),
    Out.Or fl (serRefs cfg es s m rs) (serRefs cfg es' s m rs)
  | _, _, .nil, _, _, rs => by cases rs <;> exact .refl _
  | _, _, .cons _ _, _, _, [] => .refl _
  | _, _, .cons h hs, s, m, r :: rs => by
    unfold serRefs serRef
    exact ((pipe_le h _ _).bind fun _ => .refl _).bind fun p => (serRefs_le hs _ _ _).bind fun _ => .refl _

theorem refsElem_le {fl : Failure} {es es' : List (Elem (View T))} (h : List.Forall₂ (Elem.Or fl) es es') (ti : TI) :
    Elem.Or fl (refsElem cfg ti es) (refsElem cfg ti es') :=
  ⟨rfl, dispatchEach_le fun s x => serRefs_le h s x.1 x.2⟩

/-! ### Contents only -/

theorem take_length_take (l : List T) (o n : Nat) (xs : List T) (h : xs.length = ((l.drop o).take n).length) :
    ((l.take o ++ xs ++ l.drop (o + xs.length)).drop o).take n = xs := by
  simp only [List.length_take, List.length_drop] at h
  by_cases ho : o ≤ l.length
  · rw [List.append_assoc, List.drop_append_of_le_length (by simp; omega)]
    have : (l.take o).drop o = [] := by simp
    rw [this, List.nil_append]
    rw [List.take_append]
    by_cases hn : n ≤ l.length - o
    · have : xs.length = n := by omega
      subst this
      simp
    · have h1 : xs.length = l.length - o := by omega
      have h2 : l.drop (o + xs.length) = [] := List.drop_eq_nil_of_le (by omega)
      rw [h2, List.take_of_length_le (by omega)]
      simp
  · have h1 : xs = [] := List.eq_nil_of_length_eq_zero (by omega)
    subst h1
    simp [List.drop_eq_nil_of_le (show l.length ≤ o by omega)]

theorem load_store {m : VMem T} {r : VRef} {xs : List T} (h : xs.length = (m.load r).data.length) :
    (m.store r xs).load r = { m.load r with data := xs } := by
  obtain ⟨pl, ex, st, sp⟩ := r
  cases pl with
  | none =>
    simp only [VMem.load, List.length_nil] at h
    simp [VMem.load, List.eq_nil_of_length_eq_zero h]
  | some p =>
    obtain ⟨a, o⟩ := p
    cases ha : m.allocs[a]? with
    | none =>
      simp only [VMem.load, ha, Option.getD_none, List.drop_nil, List.take_nil, List.length_nil] at h
      simp [VMem.load, VMem.store, ha, List.eq_nil_of_length_eq_zero h]
    | some q =>
      simp only [VMem.load, ha, Option.getD_some] at h
      have := take_length_take q.2 o sp xs h
      simp only [VMem.load, VMem.store, ha, List.getElem?_modify, Option.map_eq_map, Option.map_some, if_true,
        Option.getD_some, this]

theorem load_store_apart {m : VMem T} {r r' : VRef} (h : r.Apart r') (xs : List T) :
    (m.store r xs).load r' = m.load r' := by
  obtain ⟨pl, ex, st, sp⟩ := r
  obtain ⟨pl', ex', st', sp'⟩ := r'
  cases pl with
  | none => rfl
  | some p =>
    cases pl' with
    | none => rfl
    | some p' =>
      have := h p.1 p.2 p'.1 p'.2 rfl rfl
      simp [VMem.load, VMem.store, this]

theorem splice_getElem (l : List T) (o n : Nat) (xs : List T) (h : xs.length = ((l.drop o).take n).length) (k : Nat) :
    (l.take o ++ xs ++ l.drop (o + xs.length))[k]? = if o ≤ k ∧ k < o + xs.length then xs[k - o]? else l[k]? := by
  simp only [List.length_take, List.length_drop] at h
  by_cases ho : o ≤ l.length
  · have hl : (l.take o).length = o := by simp; omega
    rw [List.append_assoc]
    by_cases h1 : k < o
    · rw [List.getElem?_append_left (by omega), if_neg (by omega), List.getElem?_take_of_lt h1]
    · rw [List.getElem?_append_right (by omega), hl]
      by_cases h2 : k < o + xs.length
      · rw [List.getElem?_append_left (by omega), if_pos ⟨by omega, h2⟩]
      · rw [List.getElem?_append_right (by omega), if_neg (by omega), List.getElem?_drop]
        congr 1
        omega
  · have h1 : xs = [] := List.eq_nil_of_length_eq_zero (by omega)
    subst h1
    rw [if_neg (by simp)]
    simp

theorem cell_store {m : VMem T} {r : VRef} {xs : List T} (h : xs.length = (m.load r).data.length) (a k : Nat) :
    (∃ o, r.place = some (a, o) ∧ o ≤ k ∧ k < o + xs.length ∧ (m.store r xs).cell a k = xs[k - o]? ∧
      m.cell a k = (m.load r).data[k - o]?) ∨ (m.store r xs).cell a k = m.cell a k := by
  obtain ⟨pl, ex, st, sp⟩ := r
  cases pl with
  | none => exact .inr rfl
  | some p =>
    obtain ⟨b, o⟩ := p
    by_cases hab : b = a
    · subst hab
      cases ha : m.allocs[b]? with
      | none => exact .inr (by simp [VMem.cell, VMem.store, ha])
      | some q =>
        simp only [VMem.load, ha, Option.getD_some] at h
        have hs := splice_getElem q.2 o sp xs h k
        by_cases hk : o ≤ k ∧ k < o + xs.length
        · refine .inl ⟨o, rfl, hk.1, hk.2, ?_, ?_⟩
          · simp only [VMem.cell, VMem.store, ha, List.getElem?_modify, if_true, Option.map_eq_map, Option.map_some,
              Option.bind_some, hs, if_pos hk]
          · simp only [VMem.cell, VMem.load, ha, Option.getD_some, Option.bind_some]
            simp only [List.length_take, List.length_drop] at h
            rw [List.getElem?_take_of_lt (by omega), List.getElem?_drop]
            congr 1
            omega
        · refine .inr ?_
          simp only [VMem.cell, VMem.store, ha, List.getElem?_modify, if_true, Option.map_eq_map, Option.map_some,
              Option.bind_some, hs, if_neg hk]
    · exact .inr (by simp [VMem.cell, VMem.store, hab])

theorem store_lengths (m : VMem T) (r : VRef) (xs : List T) : (m.store r xs).allocs.length = m.allocs.length ∧
    ∀ a : Nat, ((m.store r xs).allocs[a]?.map fun p => p.1) = m.allocs[a]?.map fun p => p.1 := by
  obtain ⟨pl, ex, st, sp⟩ := r
  cases pl with
  | none => exact ⟨rfl, fun _ => rfl⟩
  | some p =>
    refine ⟨by simp [VMem.store], fun a => ?_⟩
    simp only [VMem.store, List.getElem?_modify]
    cases m.allocs[a]? with
    | none => simp
    | some q => by_cases h : p.1 = a <;> simp [h]

theorem filledAt {z : T} {eq : T → T → Prop} {v w : View T} {r : VRef} {m : VMem T}
    (h : View.Filled z eq v (m.load r) w) : VMem.FilledAt z eq v r m (m.store r w.data) where
  view := by
    rw [load_store h.length]
    have : ({ m.load r with data := w.data } : View T) = w := by
      obtain ⟨l, ex, st, sp, al, d⟩ := w
      have h1 := h.label; have h2 := h.extents; have h3 := h.strides; have h4 := h.span; have h5 := h.alloc
      simp only at h1 h2 h3 h4 h5
      subst h1 h2 h3 h4 h5
      rfl
    rw [this]
    exact h
  allocations := (store_lengths m r w.data).1
  labels := (store_lengths m r w.data).2
  others a k hk := by
    rcases cell_store h.length a k with ⟨o, hp, h1, _, h3, h4⟩ | h1
    · rw [h3, h4]
      refine h.outside _ fun idx hi he => hk o idx hp hi ?_
      omega
    · exact h1

/-- What `serRefContents` does after the view was visited. -/
def afterContents (m : VMem T) (r : VRef) (p : View T × Ser) : Out ((VMem T × VRef) × Ser) :=
  .ok ((m.store r p.1.data, r), p.2)

/-- The class that serializes the contents of a view, for reading over `y`. -/
def refContentsCodec (cfg : Cfg) (k : ViewTI) (ty : ViewTy) (e : Elem T) (c : Codec T) (y : VMem T × VRef) :
    Codec (VMem T × VRef) where
  P x := ViewP ty c (x.1.load x.2)
  enc w x := nodeEnc cfg w k.view (viewCodec cfg k ty e c) (x.1.load x.2)
  prior x y' := y' = y ∧ View.Target (x.1.load x.2) (y.1.load y.2)
  rel x w := w.2 = y.2 ∧ VMem.FilledAt e.zero c.rel (x.1.load x.2) y.2 y.1 w.1
  fp x := (viewCodec cfg k ty e c).fp (x.1.load x.2)
  multi _ := True

theorem refContentsLaw {e : Elem T} {c : Codec T} (hc : cfg.Valid) {ti : TI} (hti : ti.Valid) {k : ViewTI} (hk : k.Valid)
    (L : Law K cfg e.ti e.apply c) (hz : ∀ x, c.P x → c.prior x e.zero) {ty : ViewTy}
    (hu : ty.host = false → Uniform K cfg e c) (y : VMem T × VRef) :
    Law K cfg (refContentsElem cfg ti k ty e).ti (refContentsElem cfg ti k ty e).apply
      (refContentsCodec cfg k ty e c y) := by
  refine Law.ofEach hti trivial (fun x h => ?_) (fun x y' h hp => ?_) (fun x h => ?_)
  · refine ((serContents_wr hc hk L hz hu h).bind (k := afterContents x.1 x.2) (bs' := fun _ => []) (c := x)
      ?_).congr (fun _ _ => rfl) (fun _ => (List.append_nil _).symm)
    refine (Wr.pure x).congr (fun s hs => ?_) (fun _ => rfl)
    simp [afterContents, VMem.store_load]
  · obtain ⟨rfl, tg⟩ := hp
    refine ((serContents_rd hc hk L hz hu h tg).bind (k := afterContents y'.1 y'.2) (bs' := [])
      (Q' := (refContentsCodec cfg k ty e c y').rel x) ?_).congr (fun _ _ => rfl) (List.append_nil _).symm (fun _ h => h)
    intro z hz'
    exact (Rd.pure (b := (y'.1.store y'.2 z.data, y'.2)) (Q := (refContentsCodec cfg k ty e c y').rel x)
      ⟨rfl, filledAt hz'⟩).congr (fun s hs => rfl) rfl (fun _ h => h)
  · refine ((serContents_fp hc hk L hz hu h).bind (k := afterContents x.1 x.2) (n' := 0) (c := x)
      ?_).congr (fun _ _ => rfl) rfl
    refine (Fp.pure x).congr (fun s hs => ?_) rfl
    simp [afterContents, VMem.store_load]

theorem refContentsElem_le {fl : Failure} {e e' : Elem T} (h : Elem.Or fl e e') (ti : TI) (k : ViewTI) (ty : ViewTy) :
    Elem.Or fl (refContentsElem cfg ti k ty e) (refContentsElem cfg ti k ty e') := by
  refine ⟨rfl, dispatchEach_le fun s x => ?_⟩
  unfold serRefContents serContentsOnly
  exact ((pipe_le (viewElem_le h k ty false) _ _).bind fun _ => .refl _).bind fun _ => .refl _

end Ckpt
