import Verif.Proofs.Program
/-!
Laws of recursive classes.
-/

set_option autoImplicit false

namespace Ckpt

variable {K : Scope} {cfg : Cfg} {T O : Type}

/-! ### Types that handle objects one by one -/

theorem Ser.emit_ne_fuel (s : Ser) (bs : Bytes) : s.emit bs ≠ .fuel := by
  unfold Ser.emit
  split <;> try split
  all_goals simp

theorem Ser.short_ne_fuel {α : Type} (s : Ser) : (s.short : Out α) ≠ .fuel := by
  unfold Ser.short
  split <;> simp

theorem Wr.le {m m' : Ser → Out (T × Ser)} {bs : Bool → Bytes} {b : T} (h : Wr K cfg m bs b)
    (hle : ∀ s, Out.Le (m s) (m' s)) : Wr K cfg m' bs b := by
  intro s hs
  rw [← h s hs]
  refine (hle s).eq_of_ne ?_
  rw [h s hs]
  cases he : s.emit (bs (cfg.check && s.headers)) <;> simp [Out.bind]
  exact Ser.emit_ne_fuel _ _ he

theorem Rd.le {m m' : Ser → Out (T × Ser)} {bs : Bytes} {Q : T → Prop} (h : Rd K m bs Q)
    (hle : ∀ s, Out.Le (m s) (m' s)) : Rd K m' bs Q := by
  intro s hs
  obtain ⟨h1, h2⟩ := h s hs
  refine ⟨fun rest hr => ?_, fun t ht hb => ?_⟩
  · rcases h1 rest hr with ⟨b, hq, hm⟩ | ⟨e, he, hm⟩
    · exact .inl ⟨b, hq, by rw [(hle s).eq_of_ne (by rw [hm]; simp), hm]⟩
    · exact .inr ⟨e, he, by rw [(hle s).eq_of_ne (by rw [hm]; simp), hm]⟩
  · rcases h2 t ht hb with hm | ⟨e, he, hm⟩
    · exact .inl (by rw [(hle s).eq_of_ne (by rw [hm]; exact Ser.short_ne_fuel s), hm])
    · exact .inr ⟨e, he, by rw [(hle s).eq_of_ne (by rw [hm]; simp), hm]⟩

theorem Fp.le {m m' : Ser → Out (T × Ser)} {n : Nat} {b : T} (h : Fp K m n b)
    (hle : ∀ s, Out.Le (m s) (m' s)) : Fp K m' n b := by
  intro s hs
  rw [(hle s).eq_of_ne (by rw [h s hs]; simp), h s hs]

/-- Some depth and nesting bound up to `n` for which object `x` is covered. -/
def Covered (D : Nat → Nat → Codec T) (n : Nat) (x : T) : Prop := ∃ q : Nat × Nat, q.1 ≤ n ∧ q.2 ≤ n ∧ (D q.1 q.2).P x

/-- One of them. -/
noncomputable def pick (D : Nat → Nat → Codec T) (n : Nat) (x : T) : Codec T :=
  open Classical in
  if h : Covered D n x then D (choose h).1 (choose h).2 else D 0 0

theorem pick_spec {D : Nat → Nat → Codec T} {n : Nat} {x : T} (h : Covered D n x) :
    ∃ j k, j ≤ n ∧ k ≤ n ∧ (D j k).P x ∧ pick D n x = D j k := by
  refine ⟨_, _, (Classical.choose_spec h).1, (Classical.choose_spec h).2.1, (Classical.choose_spec h).2.2, ?_⟩
  unfold pick
  rw [dif_pos h]

/-- The codec of objects of any depth, which are also read over those of relation `o`. -/
noncomputable def limitCodec (us : Nat → Usage T) (o : T → T → Prop) (D : Nat → Nat → Codec T) (n : Nat) : Codec T where
  P := Covered D n
  enc w x := (pick D n x).enc w x
  prior x y := (Usage.limit us).clean y ∨ o x y
  rel := (Usage.limit us).same
  fp x := (pick D n x).fp x
  multi _ := True

/-- `f j n` handles objects of depth `j` with nesting bound `n`. -/
theorem limit_composes_over {t : CppType T} {us : Nat → Usage T} {o : T → T → Prop} {D : Nat → Nat → Codec T}
    {f : Nat → Nat → Ser → T → Out (T × Ser)} (hti : t.ti.Valid) (ht : ∀ n, t.apply n = dispatchEach (f n n))
    (hj : ∀ j n s x, Out.Le (f j n s x) (f (j + 1) n s x))
    (hn : ∀ j n m, n ≤ m → ∀ s x, Out.Le (f j n s x) (f j m s x))
    (hl : ∀ j n, EachLaw K cfg (f j n) (D j n)) (hf : ∀ j, (us j).clean t.fresh)
    (hd : ∀ j d, t.dflt = some d → (us j).clean d) (ho : ∀ j x, (us j).ok x → ∃ j' k, (D j' k).P x)
    (hp : ∀ j n x y, (D j n).P x → (∀ i, (us i).clean y) ∨ o x y → (D j n).prior x y)
    (hr : ∀ j n x y, (D j n).rel x y → ∃ i, (us i).same x y) :
    Composes K cfg t (.limit us) (limitCodec us o D) := by
  have hjj : ∀ {j j' : Nat}, j ≤ j' → ∀ n s x, Out.Le (f j n s x) (f j' n s x) := by
    intro j j' h n s x
    induction h with
    | refl => exact .refl _
    | step _ ih => exact ih.trans (hj _ n s x)
  have hle : ∀ {j k n m : Nat}, j ≤ n → k ≤ m → ∀ s x, Out.Le (f j k s x) (f n m s x) :=
    fun h1 h2 s x => (hjj h1 _ s x).trans (hn _ _ _ h2 s x)
  refine ⟨fun hnm => ?_, fun n => ?_, hf, fun d h j => hd j d h, fun x hx => ?_, fun n x y _ hy => .inl hy,
    fun n x y h => h, fun _ _ _ => trivial⟩
  · rw [ht, ht]
    exact dispatchEach_le fun s x => hle hnm hnm s x
  · rw [ht]
    refine Law.ofEach hti trivial (fun x hx => ?_) (fun x y hx hy => ?_) (fun x hx => ?_)
    all_goals obtain ⟨j, k, h1, h2, hP, he⟩ := pick_spec hx
    · simp only [limitCodec, he]
      exact ((hl j k).wr x hP).le fun s => hle h1 h2 s x
    · simp only [limitCodec, he]
      exact (((hl j k).rd x y hP (hp j k x y hP hy)).le fun s => hle h1 h2 s y).mono fun z hz => hr j k x z hz
    · simp only [limitCodec, he]
      exact ((hl j k).fp x hP).le fun s => hle h1 h2 s x
  · obtain ⟨j, hx⟩ := hx
    obtain ⟨j', k, hP⟩ := ho j x hx
    exact ⟨max j' k, fun n hn => ⟨(j', k), by simp; omega, by simp; omega, hP⟩⟩

theorem limit_composes {t : CppType T} {us : Nat → Usage T} {D : Nat → Nat → Codec T}
    {f : Nat → Nat → Ser → T → Out (T × Ser)} (hti : t.ti.Valid) (ht : ∀ n, t.apply n = dispatchEach (f n n))
    (hj : ∀ j n s x, Out.Le (f j n s x) (f (j + 1) n s x))
    (hn : ∀ j n m, n ≤ m → ∀ s x, Out.Le (f j n s x) (f j m s x))
    (hl : ∀ j n, EachLaw K cfg (f j n) (D j n)) (hf : ∀ j, (us j).clean t.fresh)
    (hd : ∀ j d, t.dflt = some d → (us j).clean d) (ho : ∀ j x, (us j).ok x → ∃ j' k, (D j' k).P x)
    (hp : ∀ j n x y, (D j n).P x → (∀ i, (us i).clean y) → (D j n).prior x y)
    (hr : ∀ j n x y, (D j n).rel x y → ∃ i, (us i).same x y) :
    Composes K cfg t (.limit us) (limitCodec us (fun _ _ => False) D) :=
  limit_composes_over hti ht hj hn hl hf hd ho (fun j n x y hx hy => hp j n x y hx (hy.resolve_right id)) hr

/-- Less is said. -/
theorem weaken_composes {t : CppType T} {u v : Usage T} {C : Nat → Codec T} (h : Composes K cfg t u C)
    (ho : ∀ x, v.ok x → u.ok x) (hcl : ∀ y, v.clean y → u.clean y) (hs : ∀ x y, v.ok x → u.same x y → v.same x y)
    (hm : ∀ n, v.many n → u.many n) (hf : v.clean t.fresh) (hd : ∀ d, t.dflt = some d → v.clean d) :
    Composes K cfg t v (fun n => { C n with
      P := fun x => v.ok x ∧ (C n).P x
      rel := fun x y => v.ok x ∧ (C n).rel x y }) where
  le := h.le
  law n :=
    { ti_valid := (h.law n).ti_valid
      one := (h.law n).one
      wr := fun xs hx => (h.law n).wr xs fun x hm => (hx x hm).2
      rd := fun xs ys hx hy hl hk => ((h.law n).rd xs ys (fun x hm => (hx x hm).2) hy hl hk).mono fun zs hz =>
        List.forall₂_iff_get.2 ⟨hz.length_eq, fun i h1 h2 =>
          ⟨(hx _ (List.get_mem _ _)).1, (List.forall₂_iff_get.1 hz).2 i h1 h2⟩⟩
      fp := fun xs hx => (h.law n).fp xs fun x hm => (hx x hm).2 }
  fresh := hf
  dflt := hd
  ok x hx := by
    obtain ⟨n0, h0⟩ := h.ok x (ho x hx)
    exact ⟨n0, fun n hn => ⟨hx, h0 n hn⟩⟩
  prior n x y hx hy := h.prior n x y hx.2 (hcl y hy)
  rel n x y hxy := hs x y hxy.1 (h.rel n x y hxy.2)
  multi n k hk := h.multi n k (hm k hk)

/-! ### Declared classes -/

theorem declared_composes {ti : TI} {fresh : O} {dflt : Option O} {clean : O → Prop} (c : Bool) (hti : ti.Valid)
    (hf : clean fresh) (hd : ∀ d, dflt = some d → clean d) :
    Composes K cfg (.declared ti fresh dflt c) (.none clean)
      (fun _ => ⟨fun _ => False, fun _ _ => [], fun _ _ => True, fun _ _ => False, fun _ => 0, fun _ => True⟩) where
  le _ := fun _ _ => .refl _
  law _ := Law.ofEach hti trivial (fun _ h => h.elim) (fun _ _ h => h.elim) (fun _ h => h.elim)
  fresh := hf
  dflt := hd
  ok _ hx := hx.elim
  prior _ _ _ h _ := h.elim
  rel _ _ _ h := h
  multi _ _ _ := trivial

/-! ### Recursive classes -/

section
variable {ti : TI} {fresh : O} {dflt : Option O} {c : Bool} {p : CppType O → Prog O}

/-- Objects of depth `j`. -/
def unfoldRun (cfg : Cfg) (ti : TI) (fresh : O) (dflt : Option O) (c : Bool) (p : CppType O → Prog O) :
    Nat → Nat → Ser → O → Out (O × Ser)
  | 0, _, _, _ => .fuel
  | j + 1, n, s, x => (p (.unfold cfg ti fresh dflt c p j)).run cfg n s x

theorem unfold_apply (j n : Nat) : (CppType.unfold cfg ti fresh dflt c p j).apply n =
    dispatchEach (unfoldRun cfg ti fresh dflt c p j n) := by
  cases j <;> rfl

theorem unfold_head (j : Nat) : CppType.unfold cfg ti fresh dflt c p j =
    { CppType.declared ti fresh dflt c with apply := (CppType.unfold cfg ti fresh dflt c p j).apply } := by
  cases j <;> rfl

theorem unfold_below (hp : Prog.Grows cfg p) (n : Nat) : ∀ (j : Nat) (s : Ser) (x : O),
    Out.Le (unfoldRun cfg ti fresh dflt c p j n s x) (unfoldRun cfg ti fresh dflt c p (j + 1) n s x)
  | 0, _, _ => .inl rfl
  | j + 1, s, x => by
    refine hp n _ _ ⟨?_, ?_⟩ s x
    · conv => lhs; rw [unfold_head]
      conv => rhs; rw [unfold_head]
    · intro s xs
      rw [unfold_apply, unfold_apply]
      exact dispatchEach_le (fun s x => unfold_below hp n j s x) s xs

theorem recursive_composes_over (hc : cfg.Valid) {r : Nat → OverRel} {us : Nat → Usage O} {o : Nat → O → O → Prop}
    {ps : Nat → TypeUse → Prop} {items : Nat → O → List Item} (hti : ti.Valid) (hp : Prog.Grows cfg p)
    (hw : ∀ j, (p (.unfold cfg ti fresh dflt c p j)).Within (ps j))
    (h : ∀ j q, ps j q → q.LawfulOver K cfg (r j))
    (hi : ∀ j x, (us j).ok x → (p (.unfold cfg ti fresh dflt c p j)).Writes x (items j x) ∧
      ∀ i ∈ items j x, i.Good (ps j))
    (hr : ∀ j x y, (us j).ok x → (us j).clean y ∨ o j x y →
      (p (.unfold cfg ti fresh dflt c p j)).TakesOver (r j) ((us j).same x) (items j x) y)
    (hf : ∀ j, (us j).clean fresh) (hd : ∀ j d, dflt = some d → (us j).clean d) :
    ∃ C, Composes K cfg (.recursive cfg ti fresh dflt c p) (.limit us) C ∧ Codec.ReadsOver C fun x y => ∀ j, o j x y := by
  refine ⟨_, limit_composes_over (f := unfoldRun cfg ti fresh dflt c p) (o := fun x y => ∀ j, o j x y)
    (D := fun j n => match j with
      | 0 => ⟨fun _ => False, fun _ _ => [], fun _ _ => True, fun _ _ => False, fun _ => 0, fun _ => True⟩
      | j + 1 => progCodec K cfg (r j) (us j) (o j) (p (.unfold cfg ti fresh dflt c p j)) (items j) n)
    hti (fun n => unfold_apply n n) (fun j n => unfold_below hp n j) ?_ ?_ hf hd ?_ ?_ ?_, fun _ _ _ _ h => .inr h⟩
  · intro j n m hnm s x
    cases j with
    | zero => exact .refl _
    | succ j => exact prog_le (fun q hq => let ⟨C, hC, _⟩ := h j q hq; ⟨C, hC⟩) hnm _ (hw j) s x
  · intro j n
    cases j with
    | zero => exact ⟨fun _ h => h.elim, fun _ _ h => h.elim, fun _ h => h.elim⟩
    | succ j => exact ⟨fun x hx => prog_wr hc (hi j x hx.1).1 hx.2, fun x y hx hy => prog_rd hc (hr j x y hx.1 hy) hx.2,
        fun x hx => prog_fp hc (hi j x hx.1).1 hx.2⟩
  · intro j x hx
    obtain ⟨n0, h0⟩ := eventually_list (xs := items j x) (Q := fun (i : Item) n => i.At K cfg (r j) n)
      fun i hm => ((hi j x hx).2 i hm).at (h j)
    exact ⟨j + 1, n0, hx, h0 n0 (Nat.le_refl _)⟩
  · intro j n x y hx hy
    cases j with
    | zero => exact hx.elim
    | succ j => exact hy.imp (fun hy => hy j) (fun hy => hy j)
  · intro j n x y hxy
    cases j with
    | zero => exact hxy.elim
    | succ j => exact ⟨j, hxy⟩

theorem recursive_composes (hc : cfg.Valid) {us : Nat → Usage O} {ps : Nat → TypeUse → Prop}
    {items : Nat → O → List Item} (hti : ti.Valid) (hp : Prog.Grows cfg p)
    (hw : ∀ j, (p (.unfold cfg ti fresh dflt c p j)).Within (ps j))
    (h : ∀ j q, ps j q → ∃ C, Composes K cfg q.2.1 q.2.2 C)
    (hi : ∀ j x, (us j).ok x → (p (.unfold cfg ti fresh dflt c p j)).Writes x (items j x) ∧
      ∀ i ∈ items j x, i.Good (ps j))
    (hr : ∀ j x y, (us j).ok x → (us j).clean y →
      (p (.unfold cfg ti fresh dflt c p j)).Takes ((us j).same x) (items j x) y)
    (hf : ∀ j, (us j).clean fresh) (hd : ∀ j d, dflt = some d → (us j).clean d) :
    ∃ C, Composes K cfg (.recursive cfg ti fresh dflt c p) (.limit us) C := by
  obtain ⟨C, hC, _⟩ := recursive_composes_over (o := fun _ _ _ => False) hc hti hp hw
    (fun j q hq => TypeUse.lawful_clean (h j q hq)) hi (fun j x y hx hy => hr j x y hx (hy.resolve_right id)) hf hd
  exact ⟨C, hC⟩

end

end Ckpt
