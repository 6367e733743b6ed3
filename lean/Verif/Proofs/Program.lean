import Verif.Proofs.Compose
/-!
Laws of serialize functions with control flow over any types.
-/

set_option autoImplicit false

namespace Ckpt

variable {K : Scope} {cfg : Cfg} {O : Type}

/-- A type with a codec that allows to read over the objects of relation `r`. -/
abbrev TypeUse.LawfulOver (K : Scope) (cfg : Cfg) (r : OverRel) (q : TypeUse) : Prop :=
  OverUse.Lawful K cfg ⟨q.1, q.2.1, q.2.2, r q⟩

theorem TypeUse.lawful_clean {q : TypeUse} (h : ∃ C, Composes K cfg q.2.1 q.2.2 C) : q.LawfulOver K cfg cleanOver := by
  obtain ⟨C, hC⟩ := h
  exact ⟨C, hC, hC.prior⟩

/-- The codec of a type with a usage. -/
noncomputable def codecOf (K : Scope) (cfg : Cfg) (r : OverRel) {A : Type} (t : CppType A) (u : Usage A) : Nat → Codec A :=
  open Classical in
  if h : TypeUse.LawfulOver K cfg r ⟨A, t, u⟩ then choose h
  else fun _ => ⟨fun _ => False, fun _ _ => [], fun _ _ => False, fun _ _ => False, fun _ => 0, fun _ => False⟩

theorem codecOf_lawful {r : OverRel} {A : Type} {t : CppType A} {u : Usage A} (h : TypeUse.LawfulOver K cfg r ⟨A, t, u⟩) :
    Composes K cfg t u (codecOf K cfg r t u) ∧ Codec.ReadsOver (codecOf K cfg r t u) (r ⟨A, t, u⟩) := by
  unfold codecOf
  rw [dif_pos h]
  exact Classical.choose_spec h

theorem codecOf_composes {r : OverRel} {A : Type} {t : CppType A} {u : Usage A}
    (h : TypeUse.LawfulOver K cfg r ⟨A, t, u⟩) : Composes K cfg t u (codecOf K cfg r t u) := (codecOf_lawful h).1

/-- Bytes of an item. -/
noncomputable def Item.enc (K : Scope) (cfg : Cfg) (r : OverRel) (n : Nat) (w : Bool) : Item → Bytes
  | .one t u x => nodeEnc cfg w t.ti (codecOf K cfg r t u n) x
  | .block t u xs => arrEnc cfg w t.ti (codecOf K cfg r t u n) xs
  | .count c => sizeNode cfg w c
  | .flag b => boolNode cfg w b

/-- What is counted of an item. -/
noncomputable def Item.fp (K : Scope) (cfg : Cfg) (r : OverRel) (n : Nat) : Item → Nat
  | .one t u x => (codecOf K cfg r t u n).fp x
  | .block t u xs => (xs.map (codecOf K cfg r t u n).fp).sum
  | .count _ => 8
  | .flag _ => 1

/-- The item is one of those the laws for nesting bound `n` are about. -/
def Item.At (K : Scope) (cfg : Cfg) (r : OverRel) (n : Nat) : Item → Prop
  | @Item.one A t u x => TypeUse.LawfulOver K cfg r ⟨A, t, u⟩ ∧ (codecOf K cfg r t u n).P x
  | @Item.block A t u xs => TypeUse.LawfulOver K cfg r ⟨A, t, u⟩ ∧ (∀ x ∈ xs, (codecOf K cfg r t u n).P x) ∧ (codecOf K cfg r t u n).multi xs.length
  | .count c => c < 2 ^ 64
  | .flag _ => True

theorem Item.Good.at {r : OverRel} {ps : TypeUse → Prop} (h : ∀ q, ps q → q.LawfulOver K cfg r) : ∀ {i : Item}, i.Good ps →
    ∃ n0, ∀ n ≥ n0, i.At K cfg r n
  | @Item.one A t u x, hg => by
    have hc := h _ hg.1
    obtain ⟨n0, h0⟩ := (codecOf_composes hc).ok x hg.2
    exact ⟨n0, fun n hn => ⟨hc, h0 n hn⟩⟩
  | @Item.block A t u xs, hg => by
    have hc := h _ hg.1
    obtain ⟨n0, h0⟩ := (codecOf_composes hc).all hg.2.1
    exact ⟨n0, fun n hn => ⟨hc, h0 n hn, (codecOf_composes hc).multi n _ hg.2.2⟩⟩
  | .count c, hg => ⟨0, fun _ _ => hg⟩
  | .flag b, _ => ⟨0, fun _ _ => trivial⟩

/-- What `addBytes` counts, following the function on `x`. -/
def Prog.extra (x : O) : Prog O → Nat
  | .done => 0
  | .visit _ _ _ k => k.extra x
  | .block _ _ _ k => k.extra x
  | .value _ f k => (k (f x)).extra x
  | .count f k => (k (f x)).extra x
  | .flag f k => (k (f x)).extra x
  | .update _ k => k.extra x
  | .mode _ w => w.extra x
  | .addBytes f k => f x + k.extra x
  | .look k => (k x).extra x

theorem prog_wr {r : OverRel} (hc : cfg.Valid) {n : Nat} {x : O} {p : Prog O} {is : List Item} (h : p.Writes x is) :
    (∀ i ∈ is, i.At K cfg r n) →
    Wr K cfg (fun s => p.run cfg n s x) (fun w => is.flatMap (Item.enc K cfg r n w)) x := by
  induction h with
  | done => exact fun _ => Wr.pure x
  | @visit A t u get set k a is hg hs _ ih =>
    intro hA
    obtain ⟨hC, hP⟩ := hA _ (.head _)
    refine ((pipe_wr ((codecOf_composes hC).elaw n) hP).bind (k := fun p => k.run cfg n p.2 (set p.1 x)) ?_).congr
      (fun _ _ => by rw [Prog.run, hg]) (fun _ => rfl)
    simp only [hs]
    exact ih fun i hi => hA i (.tail _ hi)
  | @block A t u get set k as is hg hs _ ih =>
    intro hA
    obtain ⟨hC, hP, hm⟩ := hA _ (.head _)
    refine ((serializeArray_wr ((codecOf_composes hC).elaw n) hP hm).bind
      (k := fun p => k.run cfg n p.2 (set p.1 x)) ?_).congr (fun _ _ => by rw [Prog.run, hg]) (fun _ => rfl)
    simp only [hs]
    exact ih fun i hi => hA i (.tail _ hi)
  | @value A t u f k is _ ih =>
    intro hA
    obtain ⟨hC, hP⟩ := hA _ (.head _)
    exact ((pipe_wr ((codecOf_composes hC).elaw n) hP).bind (k := fun p => (k p.1).run cfg n p.2 x)
      (ih fun i hi => hA i (.tail _ hi))).congr (fun _ _ => rfl) (fun _ => rfl)
  | @count f k is _ ih =>
    intro hA
    exact ((pipeSize_wr hc (hA _ (.head _))).bind (k := fun p => (k p.1).run cfg n p.2 x)
      (ih fun i hi => hA i (.tail _ hi))).congr (fun _ _ => rfl) (fun _ => rfl)
  | @flag f k is _ ih =>
    intro hA
    exact ((pipeBool_wr hc).bind (k := fun p => (k p.1).run cfg n p.2 x)
      (ih fun i hi => hA i (.tail _ hi))).congr (fun _ _ => rfl) (fun _ => rfl)
  | @update g k is hg _ ih => exact fun hA => (ih hA).congr (fun _ _ => by rw [Prog.run, hg]) (fun _ => rfl)
  | @mode r w is _ ih =>
    exact fun hA => (ih hA).congr (fun s hs => by simp [Prog.run, hs.not_unpacking]) (fun _ => rfl)
  | @addBytes f k is _ ih =>
    exact fun hA => (ih hA).congr (fun s hs => by rw [Prog.run, hs.addBytes]) (fun _ => rfl)
  | @look k is _ ih => exact fun hA => (ih hA).congr (fun _ _ => rfl) (fun _ => rfl)

theorem prog_fp {r : OverRel} (hc : cfg.Valid) {n : Nat} {x : O} {p : Prog O} {is : List Item} (h : p.Writes x is) :
    (∀ i ∈ is, i.At K cfg r n) →
    Fp K (fun s => p.run cfg n s x) ((is.map (Item.fp K cfg r n)).sum + p.extra x) x := by
  induction h with
  | done => exact fun _ => Fp.pure x
  | @visit A t u get set k a is hg hs _ ih =>
    intro hA
    obtain ⟨hC, hP⟩ := hA _ (.head _)
    refine ((pipe_fp ((codecOf_composes hC).elaw n) hP).bind (k := fun p => k.run cfg n p.2 (set p.1 x))
      (n' := (is.map (Item.fp K cfg r n)).sum + k.extra x) ?_).congr
      (fun _ _ => by rw [Prog.run, hg]) (by simp [Item.fp, Prog.extra, Nat.add_assoc])
    simp only [hs]
    exact ih fun i hi => hA i (.tail _ hi)
  | @block A t u get set k as is hg hs _ ih =>
    intro hA
    obtain ⟨hC, hP, hm⟩ := hA _ (.head _)
    refine ((serializeArray_fp ((codecOf_composes hC).elaw n) hP hm).bind
      (k := fun p => k.run cfg n p.2 (set p.1 x)) (n' := (is.map (Item.fp K cfg r n)).sum + k.extra x) ?_).congr
      (fun _ _ => by rw [Prog.run, hg]) (by simp [Item.fp, Prog.extra, Nat.add_assoc])
    simp only [hs]
    exact ih fun i hi => hA i (.tail _ hi)
  | @value A t u f k is _ ih =>
    intro hA
    obtain ⟨hC, hP⟩ := hA _ (.head _)
    exact ((pipe_fp ((codecOf_composes hC).elaw n) hP).bind (k := fun p => (k p.1).run cfg n p.2 x)
      (ih fun i hi => hA i (.tail _ hi))).congr (fun _ _ => rfl) (by simp [Item.fp, Prog.extra, Nat.add_assoc])
  | @count f k is _ ih =>
    intro hA
    exact ((pipeSize_fp hc (hA _ (.head _))).bind (k := fun p => (k p.1).run cfg n p.2 x)
      (ih fun i hi => hA i (.tail _ hi))).congr (fun _ _ => rfl) (by simp [Item.fp, Prog.extra, Nat.add_assoc])
  | @flag f k is _ ih =>
    intro hA
    exact ((pipeBool_fp hc).bind (k := fun p => (k p.1).run cfg n p.2 x)
      (ih fun i hi => hA i (.tail _ hi))).congr (fun _ _ => rfl) (by simp [Item.fp, Prog.extra, Nat.add_assoc])
  | @update g k is hg _ ih => exact fun hA => (ih hA).congr (fun _ _ => by rw [Prog.run, hg]) rfl
  | @mode r w is _ ih =>
    exact fun hA => (ih hA).congr (fun s hs => by simp [Prog.run, hs.not_unpacking]) rfl
  | @addBytes f k is _ ih =>
    intro hA s hs
    have he := ih hA _ (hs.addBytes (f x))
    simp only at he ⊢
    rw [Prog.run, he, Ser.addBytes_addBytes, Prog.extra]
    congr 3
    omega
  | @look k is _ ih => exact fun hA => (ih hA).congr (fun _ _ => rfl) rfl

theorem prog_rd {r : OverRel} (hc : cfg.Valid) {n : Nat} {Q : O → Prop} {is : List Item} {p : Prog O} {y : O} (h : p.TakesOver r Q is y) :
    (∀ i ∈ is, i.At K cfg r n) →
    Rd K (fun s => p.run cfg n s y) (is.flatMap (Item.enc K cfg r n cfg.check)) Q := by
  induction h with
  | done hq => exact fun _ => Rd.pure hq
  | @visit A t u get set k a b is y hg hb _ ih =>
    intro hA
    obtain ⟨hC, hP⟩ := hA _ (.head _)
    have ⟨hC, hO⟩ := codecOf_lawful hC
    refine ((pipe_rd (hC.elaw n) hP (hO n a b hP hb)).bind (k := fun p => k.run cfg n p.2 (set p.1 y))
      (bs' := is.flatMap (Item.enc K cfg r n cfg.check)) (Q' := Q) fun a' ha => ?_).congr
      (fun _ _ => by rw [Prog.run, hg]) rfl (fun _ h => h)
    exact ih a' (hC.rel n _ _ ha) fun i hi => hA i (.tail _ hi)
  | @block A t u get set k as bs is y hg hl hb _ ih =>
    intro hA
    obtain ⟨hC, hP, hm⟩ := hA _ (.head _)
    have ⟨hC, hO⟩ := codecOf_lawful hC
    refine ((serializeArray_rd (hC.elaw n) hP (ys := bs) ?_ hm).bind
      (k := fun p => k.run cfg n p.2 (set p.1 y)) (bs' := is.flatMap (Item.enc K cfg r n cfg.check)) (Q' := Q)
      fun as' ha => ?_).congr (fun _ _ => by rw [Prog.run, hg]) rfl (fun _ h => h)
    · refine List.forall₂_iff_get.2 ⟨hl.symm, fun i hi hj => ?_⟩
      exact hO n _ _ (hP _ (List.get_mem _ _)) (hb i _ _ (by simp) (by simp))
    · exact ih as' (hC.rels ha) fun i hi => hA i (.tail _ hi)
  | @value A t u f k a is y hb _ ih =>
    intro hA
    obtain ⟨hC, hP⟩ := hA _ (.head _)
    have ⟨hC, hO⟩ := codecOf_lawful hC
    exact ((pipe_rd (hC.elaw n) hP (hO n a _ hP hb)).bind (k := fun p => (k p.1).run cfg n p.2 y)
      (bs' := is.flatMap (Item.enc K cfg r n cfg.check)) (Q' := Q)
      fun a' ha => ih a' (hC.rel n _ _ ha) fun i hi => hA i (.tail _ hi)).congr (fun _ _ => rfl) rfl (fun _ h => h)
  | @count f k c is y _ ih =>
    intro hA
    refine ((pipeSize_rd hc (hA _ (.head _))).bind (k := fun p => (k p.1).run cfg n p.2 y)
      (bs' := is.flatMap (Item.enc K cfg r n cfg.check)) (Q' := Q) ?_).congr (fun _ _ => rfl) rfl (fun _ h => h)
    rintro _ rfl
    exact ih fun i hi => hA i (.tail _ hi)
  | @flag f k b is y _ ih =>
    intro hA
    refine ((pipeBool_rd hc (b := b)).bind (k := fun p => (k p.1).run cfg n p.2 y)
      (bs' := is.flatMap (Item.enc K cfg r n cfg.check)) (Q' := Q) ?_).congr (fun _ _ => rfl) rfl (fun _ h => h)
    rintro _ rfl
    exact ih fun i hi => hA i (.tail _ hi)
  | @update g k is y _ ih => exact fun hA => (ih hA).congr (fun _ _ => rfl) rfl (fun _ h => h)
  | @mode _ _ is y _ ih =>
    exact fun hA => (ih hA).congr (fun s hs => by simp [Prog.run, hs.unpacking]) rfl (fun _ h => h)
  | @addBytes f k is y _ ih =>
    exact fun hA => (ih hA).congr (fun s hs => by rw [Prog.run, hs.addBytes]) rfl (fun _ h => h)
  | @look k is y _ ih => exact fun hA => (ih hA).congr (fun _ _ => rfl) rfl (fun _ h => h)

theorem prog_le {ps : TypeUse → Prop} (h : ∀ q, ps q → ∃ C, Composes K cfg q.2.1 q.2.2 C) {n m : Nat} (hnm : n ≤ m) :
    ∀ (p : Prog O), p.Within ps → ∀ (s : Ser) (o : O), Out.Le (p.run cfg n s o) (p.run cfg m s o)
  | .done, _, _, _ => .refl _
  | .visit t get set k, hw, s, o => by
    obtain ⟨⟨u, hu⟩, hw⟩ := hw
    obtain ⟨C, hC⟩ := h _ hu
    rw [Prog.run, Prog.run]
    split
    · exact (pipe_le (hC.elem_le hnm) _ _).bind fun p => prog_le h hnm k hw _ _
    · exact .refl _
  | .block t get set k, hw, s, o => by
    obtain ⟨⟨u, hu⟩, hw⟩ := hw
    obtain ⟨C, hC⟩ := h _ hu
    rw [Prog.run, Prog.run]
    split
    · exact (serializeArray_le (hC.elem_le hnm) _ _).bind fun p => prog_le h hnm k hw _ _
    · exact .refl _
  | .value t f k, hw, s, o => by
    obtain ⟨⟨u, hu⟩, hw⟩ := hw
    obtain ⟨C, hC⟩ := h _ hu
    exact (pipe_le (hC.elem_le hnm) _ _).bind fun p => prog_le h hnm (k p.1) (hw _) _ _
  | .count f k, hw, s, o => Out.Le.bind (.refl _) fun p => prog_le h hnm (k p.1) (hw _) _ _
  | .flag f k, hw, s, o => Out.Le.bind (.refl _) fun p => prog_le h hnm (k p.1) (hw _) _ _
  | .update g k, hw, s, o => prog_le h hnm k hw _ _
  | .mode r w, hw, s, o => by
    rw [Prog.run, Prog.run]
    split
    · exact prog_le h hnm r hw.1 _ _
    · exact prog_le h hnm w hw.2 _ _
  | .addBytes f k, hw, s, o => prog_le h hnm k hw _ _
  | .look k, hw, s, o => prog_le h hnm (k o) (hw o) s o

/-- `o` relates an object to those it can also be read over. -/
noncomputable def progCodec (K : Scope) (cfg : Cfg) (r : OverRel) (u : Usage O) (o : O → O → Prop) (p : Prog O)
    (items : O → List Item) (n : Nat) : Codec O where
  P x := u.ok x ∧ ∀ i ∈ items x, i.At K cfg r n
  enc w x := (items x).flatMap (Item.enc K cfg r n w)
  prior x y := u.clean y ∨ o x y
  rel := u.same
  fp x := ((items x).map (Item.fp K cfg r n)).sum + p.extra x
  multi _ := True

theorem program_composes_over (hc : cfg.Valid) {r : OverRel} {p : Prog O} {u : Usage O} {o : O → O → Prop} {ti : TI}
    {fresh : O} {dflt : Option O} {ps : TypeUse → Prop} (c : Bool) {items : O → List Item} (hti : ti.Valid)
    (hw : p.Within ps) (h : ∀ q, ps q → q.LawfulOver K cfg r)
    (hi : ∀ x, u.ok x → p.Writes x (items x) ∧ ∀ i ∈ items x, i.Good ps)
    (hr : ∀ x y, u.ok x → u.clean y ∨ o x y → p.TakesOver r (u.same x) (items x) y) (hf : u.clean fresh)
    (hd : ∀ d, dflt = some d → u.clean d) :
    Composes K cfg (.program cfg ti fresh dflt c p) u (progCodec K cfg r u o p items) where
  le hnm := dispatchEach_le fun s x => prog_le (fun q hq => let ⟨C, hC, _⟩ := h q hq; ⟨C, hC⟩) hnm p hw s x
  law n := Law.ofEach hti trivial (fun x hx => prog_wr hc (hi x hx.1).1 hx.2)
    (fun x y hx hy => prog_rd hc (hr x y hx.1 hy) hx.2)
    (fun x hx => prog_fp hc (hi x hx.1).1 hx.2)
  fresh := hf
  dflt := hd
  ok x hx := by
    obtain ⟨n0, h0⟩ := eventually_list (xs := items x) (Q := fun (i : Item) n => i.At K cfg r n) fun i hm => ((hi x hx).2 i hm).at h
    exact ⟨n0, fun n hn => ⟨hx, h0 n hn⟩⟩
  prior n x y _ hy := .inl hy
  rel n x y hr := hr
  multi _ _ _ := trivial

theorem program_composes (hc : cfg.Valid) {p : Prog O} {u : Usage O} {ti : TI} {fresh : O} {dflt : Option O}
    {ps : TypeUse → Prop} (c : Bool) {items : O → List Item} (hti : ti.Valid) (hw : p.Within ps)
    (h : ∀ q, ps q → ∃ C, Composes K cfg q.2.1 q.2.2 C)
    (hi : ∀ x, u.ok x → p.Writes x (items x) ∧ ∀ i ∈ items x, i.Good ps)
    (hr : ∀ x y, u.ok x → u.clean y → p.Takes (u.same x) (items x) y) (hf : u.clean fresh)
    (hd : ∀ d, dflt = some d → u.clean d) :
    Composes K cfg (.program cfg ti fresh dflt c p) u (progCodec K cfg cleanOver u (fun _ _ => False) p items) :=
  program_composes_over hc c hti hw (fun q hq => TypeUse.lawful_clean (h q hq)) hi
    (fun x y hx hy => hr x y hx (hy.resolve_right id)) hf hd

end Ckpt
