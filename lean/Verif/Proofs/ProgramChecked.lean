import Verif.Proofs.Program
/-!
Laws of serialize functions that visit other items when reading, with error checking.
-/

set_option autoImplicit false

namespace Ckpt

variable {K : Scope} {cfg : Cfg} {O : Type}

/-- Reading the rest of some objects, up to the trailer of all of them. -/
def Prog.rest (cfg : Cfg) (n : Nat) (ti : TI) (len : Nat) (p q : Prog O) (zs : List O) (y : O) (ys : List O) (s : Ser) :
    Out (List O × Ser) :=
  catchDepth ti (q.run cfg n s y >>= fun r => dispatchEach (p.run cfg n) r.2 ys >>= fun t =>
    .ok (zs ++ r.1 :: t.1, t.2)) >>= fun r => withMemUsed' cfg ti len r.2 >>= fun m => .ok (r.1, m.2)

theorem Prog.rest_step {n : Nat} {ti : TI} {len : Nat} {p q : Prog O} {zs : List O} {y : O} {ys : List O} {s : Ser}
    {B : Type} {m : Out (B × Ser)} {k : B → Prog O} {y' : B → O}
    (h : q.run cfg n s y = m >>= fun r => (k r.1).run cfg n r.2 (y' r.1)) :
    Prog.rest cfg n ti len p q zs y ys s =
      catchDepth ti m >>= fun r => Prog.rest cfg n ti len p (k r.1) zs (y' r.1) ys r.2 := by
  unfold Prog.rest
  rw [h]
  simp only [Out.bind_eq, Out.bind_assoc]
  cases m with
  | throw e => cases e <;> rfl
  | _ => rfl

theorem asks_run {ps : TypeUse → Prop} (h : ∀ q, ps q → ∃ C, Composes K cfg q.2.1 q.2.2 C) (hc : cfg.Valid) (n : Nat)
    {q : Prog O} (hw : q.Within ps) {y : O} {ti : TI} (ha : q.asks cfg y = some ti) : ti.Valid ∧
    ∃ (A : Type) (f : Handler A) (xs : List A) (k : List A × Ser → Out (O × Ser)),
      ∀ s, q.run cfg n s y = traverse cfg ti f s xs >>= k := by
  cases q with
  | @visit A t get set k =>
    obtain ⟨u, hu⟩ := hw.1
    obtain ⟨C, hC⟩ := h _ hu
    simp only [Prog.asks, Option.map_eq_some_iff] at ha
    obtain ⟨b, hb, rfl⟩ := ha
    refine ⟨(hC.law n).ti_valid, A, t.apply n, [b], fun r => only r >>= fun r => k.run cfg n r.2 (set r.1 y), fun s => ?_⟩
    rw [Prog.run, hb]
    simp only [pipe_eq, Out.bind_eq, Out.bind_assoc]
    rfl
  | @block A t get set k =>
    obtain ⟨u, hu⟩ := hw.1
    obtain ⟨C, hC⟩ := h _ hu
    simp only [Prog.asks] at ha
    split at ha
    · rename_i b bs hb
      cases ha
      refine ⟨(hC.law n).ti_valid, A, t.apply n, b :: bs, fun r => k.run cfg n r.2 (set r.1 y), fun s => ?_⟩
      rw [Prog.run, hb]
      rfl
    · cases ha
  | @value A t f k =>
    obtain ⟨u, hu⟩ := hw.1
    obtain ⟨C, hC⟩ := h _ hu
    cases ha
    refine ⟨(hC.law n).ti_valid, A, t.apply n, [f y], fun r => only r >>= fun r => (k r.1).run cfg n r.2 y, fun s => ?_⟩
    rw [Prog.run]
    simp only [pipe_eq, Out.bind_eq, Out.bind_assoc]
    rfl
  | count f k =>
    cases ha
    refine ⟨hc.size, Nat, (sizeElem cfg).apply, [f y], fun r => only r >>= fun r => (k r.1).run cfg n r.2 y, fun s => ?_⟩
    rw [Prog.run]
    simp only [pipeSize, pipe_eq, Out.bind_eq, Out.bind_assoc]
    rfl
  | flag f k =>
    cases ha
    refine ⟨hc.bool, Nat, (boolElem cfg).apply, [(f y).toNat], fun r => only r >>= fun r =>
      (if r.1 = 0 then .ok (false, r.2) else if r.1 = 1 then .ok (true, r.2) else .ub .badBool) >>= fun r =>
        (k r.1).run cfg n r.2 y, fun s => ?_⟩
    rw [Prog.run]
    simp only [pipeBool, pipe_eq, Out.bind_eq, Out.bind_assoc]
    rfl
  | _ => cases ha

/-- The bytes of an item begin with its mark. -/
theorem Item.At.mark (hc : cfg.Valid) (hch : cfg.check = true) {n : Nat} {i : Item} (hA : i.At K cfg cleanOver n) {j : Nat}
    (hm : i.mark cfg = some j) : j < 2 ^ 32 ∧ validateIndex j = true ∧
    ∃ more, i.enc K cfg cleanOver n cfg.check = intBytes cfg.endian 4 j ++ more ∧ 8 ≤ more.length := by
  cases i with
  | one t u x =>
    cases hm
    have hv := ((codecOf_composes hA.1).law n).ti_valid
    exact ⟨hv.1, hv.2, by simp only [Item.enc, nodeEnc, node, hch, if_true, List.append_assoc]; exact ⟨_, rfl, by simp⟩⟩
  | block t u xs =>
    cases xs with
    | nil => cases hm
    | cons x xs =>
      cases hm
      have hv := ((codecOf_composes hA.1).law n).ti_valid
      refine ⟨hv.1, hv.2, ?_⟩
      simp only [Item.enc, arrEnc, node, hch, if_true, List.append_assoc, List.length_cons, Nat.succ_pos, gt_iff_lt]
      exact ⟨_, rfl, by simp only [List.length_append, intBytes_length]; omega⟩
  | count c =>
    cases hm
    exact ⟨hc.size.1, hc.size.2, by
      simp only [Item.enc, sizeNode, node, hch, if_true, List.append_assoc]; exact ⟨_, rfl, by simp⟩⟩
  | flag c =>
    cases hm
    exact ⟨hc.bool.1, hc.bool.2, by
      simp only [Item.enc, boolNode, node, hch, if_true, List.append_assoc]; exact ⟨_, rfl, by simp⟩⟩

theorem Item.enc_unmarked {n : Nat} {w : Bool} {i : Item} (hm : i.mark cfg = none) : i.enc K cfg cleanOver n w = [] := by
  cases i with
  | block t u xs =>
    cases xs with
    | nil => simp [Item.enc, arrEnc]
    | cons => cases hm
  | _ => cases hm

theorem checked_rd {ps : TypeUse → Prop} (h : ∀ q, ps q → ∃ C, Composes K cfg q.2.1 q.2.2 C) (hc : cfg.Valid)
    (hch : cfg.check = true) (hE : ∀ k d tr, K.errs (.ser k d tr)) {n : Nat} {ti : TI} {len : Nat}
    (hsz : ti.sizeof * len < 2 ^ 31) {p : Prog O} (hp : p.Within ps) {Q : List O → Prop} {is : List Item} {q : Prog O}
    {zs : List O} {y : O} {ys : List O} (hq : p.Checked cfg Q is q zs y ys) : q.Within ps →
    (∀ i ∈ is, i.At K cfg cleanOver n) →
    Rd K (Prog.rest cfg n ti len p q zs y ys)
      (is.flatMap (Item.enc K cfg cleanOver n cfg.check) ++ intBytes cfg.endian 8 (ti.sizeof * len % 2 ^ 64)) Q := by
  have hmod : ti.sizeof * len % 2 ^ 64 = ti.sizeof * len := Nat.mod_eq_of_lt (by omega)
  induction hq with
  | @last zs y hQ =>
    intro _ _
    refine ((withMemUsed_rd (K := K) (cfg := cfg) (ti := ti) (len := len)).map (fun _ => zs ++ [y])
      (Q' := Q) (fun _ _ => hQ)).congr (fun s _ => ?_) (by simp) (fun _ h => h)
    simp only [Prog.rest, Prog.run, dispatchEach, Out.bind_eq, Out.bind_ok, catchDepth]
  | @next zs ys y y' is _ ih =>
    intro _ hA
    refine (ih hp hA).congr (fun s _ => ?_) rfl (fun _ h => h)
    simp only [Prog.rest, Prog.run, dispatchEach, Out.bind_eq, Out.bind_ok, Out.bind_assoc, List.append_assoc,
      List.cons_append, List.nil_append]
  | @left zs y i j is hm =>
    intro _ hA
    obtain ⟨h1, h2, more, he, hl⟩ := (hA i (.head _)).mark hc hch hm
    have hsplit : (i :: is).flatMap (Item.enc K cfg cleanOver n cfg.check) ++ intBytes cfg.endian 8 (ti.sizeof * len % 2 ^ 64) =
        (intBytes cfg.endian 4 j ++ more.take 4) ++ (more.drop 4 ++ is.flatMap (Item.enc K cfg cleanOver n cfg.check) ++
          intBytes cfg.endian 8 (ti.sizeof * len % 2 ^ 64)) := by
      simp only [List.flatMap_cons, he, List.append_assoc]
      rw [← List.append_assoc (more.take 4), List.take_append_drop]
    rw [hsplit]
    have ha : (more.take 4).length = 4 := by simp; omega
    have hlarge := intVal_header_large h1 h2 (more.take 4) cfg.endian ha
    refine Rd.stop ?_ ?_
    · intro s rest hs hr
      have hz := withMemUsed_reject (cfg := cfg) (ti := ti) (len := len) hs
        (by simp [ha]) hr (by rw [show sizeMod = 2 ^ 64 from rfl, hmod]; omega)
      refine ⟨_, hE (.memUsed ti.name (intVal cfg.endian (intBytes cfg.endian 4 j ++ more.take 4))
        (ti.sizeof * len % sizeMod)) 0 [], ?_⟩
      simp only [Prog.rest, Prog.run, dispatchEach, Out.bind_eq, Out.bind_ok, catchDepth, withMemUsed', hz]
      rfl
    · intro s t hs ht he'
      left
      have hlen : s.remaining.length < 8 := by
        have := congrArg List.length he'
        have h0 : 0 < t.length := List.length_pos_of_ne_nil ht
        simp only [List.length_append, ha, intBytes_length] at this
        omega
      simp only [Prog.rest, Prog.run, dispatchEach, Out.bind_eq, Out.bind_ok, catchDepth, withMemUsed']
      rw [withMemUsed_short hs hlen]
      obtain ⟨core, kind, vdis⟩ := s
      cases core <;> simp [Ser.Reader] at hs <;> simp [Ser.short]
  | @over zs ys y q ti' ha =>
    intro hw _
    obtain ⟨hv, A, f, xs, k, hrun⟩ := asks_run h hc n hw ha
    obtain ⟨a, b, hab, hal, hlt⟩ := trailer_head hsz cfg.endian
    rw [hmod, hab]
    refine ((catchDepth_rd (ti := ti) (traverse_stop' (K := K) (h := f) (ys := xs) hch hal hE hv hlt (more := b)
      (k := fun r => k r >>= fun r => dispatchEach (p.run cfg n) r.2 ys >>= fun t =>
        .ok (zs ++ r.1 :: t.1, t.2)) (Q := fun _ => False))).bind (bs' := []) (Q' := Q) (k := fun r =>
          withMemUsed' cfg ti len r.2 >>= fun m => .ok (r.1, m.2)) (fun _ h => h.elim)).congr (fun s _ => ?_) (by simp)
      (fun _ h => h)
    simp only [Prog.rest, hrun, Out.bind_eq, Out.bind_assoc]
  | @other zs ys y q ti' i j is ha hm hne =>
    intro hw hA
    obtain ⟨h1, h2, more, he, hl⟩ := (hA i (.head _)).mark hc hch hm
    obtain ⟨hv, A, f, xs, k, hrun⟩ := asks_run h hc n hw ha
    refine ((catchDepth_rd (ti := ti) (traverse_stop (K := K) (ti' := ti') (h := f) (ys := xs) hch hE h1 hne
      (more := more ++ (is.flatMap (Item.enc K cfg cleanOver n cfg.check) ++ intBytes cfg.endian 8 (ti.sizeof * len % 2 ^ 64)))
      (k := fun r => k r >>= fun r => dispatchEach (p.run cfg n) r.2 ys >>= fun t =>
        .ok (zs ++ r.1 :: t.1, t.2)) (Q := fun _ => False))).bind (bs' := []) (Q' := Q) (k := fun r =>
          withMemUsed' cfg ti len r.2 >>= fun m => .ok (r.1, m.2)) (fun _ h => h.elim)).congr (fun s _ => ?_)
      (by simp [he]) (fun _ h => h)
    simp only [Prog.rest, hrun, Out.bind_eq, Out.bind_assoc]
  | @noItem zs ys y q i is hm _ ih =>
    intro hw hA
    refine (ih hw fun i hi => hA i (.tail _ hi)).congr (fun _ _ => rfl) ?_ (fun _ h => h)
    simp [Item.enc_unmarked hm]
  | @noBlock A t get set k zs ys y is hg _ ih =>
    intro hw hA
    refine (ih hw.2 hA).congr (fun s _ => ?_) rfl (fun _ h => h)
    unfold Prog.rest
    rw [Prog.run, hg]
    simp [serializeArray]
  | @visit A t u get set k a b is zs ys y hg hb _ ih =>
    intro hw hA
    obtain ⟨hC, hP⟩ := hA _ (.head _)
    have hC := codecOf_composes hC
    refine ((catchDepth_rd (ti := ti) (pipe_rd (hC.elaw n) hP (hC.prior n a b hP hb))).bind
      (k := fun r => Prog.rest cfg n ti len p k zs (set r.1 y) ys r.2)
      (bs' := is.flatMap (Item.enc K cfg cleanOver n cfg.check) ++ intBytes cfg.endian 8 (ti.sizeof * len % 2 ^ 64)) (Q' := Q)
      fun a' ha => ih a' (hC.rel n _ _ ha) hw.2 fun i hi => hA i (.tail _ hi)).congr
      (fun s _ => ?_) (by simp [Item.enc, CppType.elem]) (fun _ h => h)
    exact Prog.rest_step (k := fun _ => k) (y' := fun a => set a y) (by rw [Prog.run, hg])
  | @block A t u get set k as bs is zs ys y hg hl hb _ ih =>
    intro hw hA
    obtain ⟨hC, hP, hm⟩ := hA _ (.head _)
    have hC := codecOf_composes hC
    have hr := serializeArray_rd (hC.elaw n) hP (ys := bs) (List.forall₂_iff_get.2 ⟨hl.symm, fun i hi hj =>
      hC.prior n _ _ (hP _ (List.get_mem _ _)) (hb _ (List.get_mem _ _))⟩) hm
    refine ((catchDepth_rd (ti := ti) hr).bind
      (k := fun r => Prog.rest cfg n ti len p k zs (set r.1 y) ys r.2)
      (bs' := is.flatMap (Item.enc K cfg cleanOver n cfg.check) ++ intBytes cfg.endian 8 (ti.sizeof * len % 2 ^ 64)) (Q' := Q)
      fun a' ha => ih a' (hC.rels ha) hw.2 fun i hi => hA i (.tail _ hi)).congr
      (fun s _ => ?_) (by simp [Item.enc, CppType.elem]) (fun _ h => h)
    exact Prog.rest_step (k := fun _ => k) (y' := fun a => set a y) (by rw [Prog.run, hg])
  | @value A t u f k a is zs ys y hb _ ih =>
    intro hw hA
    obtain ⟨hC, hP⟩ := hA _ (.head _)
    have hC := codecOf_composes hC
    refine ((catchDepth_rd (ti := ti) (pipe_rd (hC.elaw n) hP (hC.prior n a _ hP hb))).bind
      (k := fun r => Prog.rest cfg n ti len p (k r.1) zs y ys r.2)
      (bs' := is.flatMap (Item.enc K cfg cleanOver n cfg.check) ++ intBytes cfg.endian 8 (ti.sizeof * len % 2 ^ 64)) (Q' := Q)
      fun a' ha => ih a' (hC.rel n _ _ ha) (hw.2 a') fun i hi => hA i (.tail _ hi)).congr
      (fun s _ => ?_) (by simp [Item.enc, CppType.elem]) (fun _ h => h)
    exact Prog.rest_step (k := k) (y' := fun _ => y) rfl
  | @count f k c is zs ys y _ ih =>
    intro hw hA
    refine ((catchDepth_rd (ti := ti) (pipeSize_rd hc (m := f y) (hA _ (.head _)))).bind
      (k := fun r => Prog.rest cfg n ti len p (k r.1) zs y ys r.2)
      (bs' := is.flatMap (Item.enc K cfg cleanOver n cfg.check) ++ intBytes cfg.endian 8 (ti.sizeof * len % 2 ^ 64)) (Q' := Q)
      ?_).congr (fun s _ => ?_) (by simp [Item.enc]) (fun _ h => h)
    · rintro _ rfl
      exact ih (hw _) fun i hi => hA i (.tail _ hi)
    · exact Prog.rest_step (k := k) (y' := fun _ => y) rfl
  | @flag f k b is zs ys y _ ih =>
    intro hw hA
    refine ((catchDepth_rd (ti := ti) (pipeBool_rd hc (b := b) (b' := f y))).bind
      (k := fun r => Prog.rest cfg n ti len p (k r.1) zs y ys r.2)
      (bs' := is.flatMap (Item.enc K cfg cleanOver n cfg.check) ++ intBytes cfg.endian 8 (ti.sizeof * len % 2 ^ 64)) (Q' := Q)
      ?_).congr (fun s _ => ?_) (by simp [Item.enc]) (fun _ h => h)
    · rintro _ rfl
      exact ih (hw _) fun i hi => hA i (.tail _ hi)
    · exact Prog.rest_step (k := k) (y' := fun _ => y) rfl
  | @update g k is zs ys y _ ih => exact fun hw hA => (ih hw hA).congr (fun _ _ => rfl) rfl (fun _ h => h)
  | @mode r w is zs ys y _ ih =>
    exact fun hw hA => (ih hw.1 hA).congr (fun s hs => by simp [Prog.rest, Prog.run, hs.unpacking]) rfl (fun _ h => h)
  | @addBytes f k is zs ys y _ ih =>
    exact fun hw hA => (ih hw hA).congr (fun s hs => by unfold Prog.rest; rw [Prog.run, hs.addBytes]) rfl (fun _ h => h)
  | @look k is zs ys y _ ih => exact fun hw hA => (ih (hw y) hA).congr (fun _ _ => rfl) rfl (fun _ h => h)

theorem checkedProgram_composes (hc : cfg.Valid) (hch : cfg.check = true) (hE : ∀ k d tr, K.errs (.ser k d tr))
    {p : Prog O} {u : Usage O} {ti : TI} {fresh : O} {dflt : Option O}
    {ps : TypeUse → Prop} (c : Bool) {items : O → List Item} (hti : ti.Valid) (hw : p.Within ps)
    (h : ∀ q, ps q → ∃ C, Composes K cfg q.2.1 q.2.2 C)
    (hi : ∀ x, u.ok x → p.Writes x (items x) ∧ ∀ i ∈ items x, i.Good ps)
    (hr : ∀ xs y ys, xs.length = ys.length + 1 → (∀ x ∈ xs, u.ok x) → (∀ z ∈ y :: ys, u.clean z) →
      p.Checked cfg (List.Forall₂ u.same xs) (xs.flatMap items) p [] y ys) (hf : u.clean fresh)
    (hd : ∀ d, dflt = some d → u.clean d) (hone : ti.sizeof < 2 ^ 31) (hsz : ∀ n, u.many n → ti.sizeof * n < 2 ^ 31) :
    Composes K cfg (.program cfg ti fresh dflt c p) u
      (fun n => { progCodec K cfg cleanOver u (fun _ _ => False) p items n with multi := fun m => ti.sizeof * m < 2 ^ 31 }) where
  le hnm := dispatchEach_le fun s x => prog_le h hnm p hw s x
  law n := by
    have L0 := Law.ofEach (K := K) (c := { progCodec K cfg cleanOver u (fun _ _ => False) p items n with
        multi := fun m => ti.sizeof * m < 2 ^ 31, prior := fun _ _ => False })
      hti (by simpa using hone) (f := p.run cfg n) (fun x hx => prog_wr hc (hi x hx.1).1 hx.2)
      (fun _ _ _ h => h.elim) (fun x hx => prog_fp hc (hi x hx.1).1 hx.2)
    refine ⟨hti, L0.one, L0.wr, ?_, L0.fp⟩
    intro xs ys hx hp hl hm
    have hlen := hp.length_eq
    have hy : ∀ z ∈ ys, u.clean z := by
      intro z hz
      obtain ⟨i, hi⟩ := List.getElem?_of_mem hz
      obtain ⟨hlen, hg⟩ := forall₂_get hp
      have hlt : i < xs.length := by
        rw [hlen]
        rcases Nat.lt_or_ge i ys.length with h | h
        · exact h
        · rw [List.getElem?_eq_none h] at hi; cases hi
      exact (hg i _ z (List.getElem?_eq_getElem hlt) hi).resolve_right id
    match ys, hy, hlen with
    | [], _, hlen => rw [hlen] at hl; simp at hl
    | y :: ys, hy, hlen =>
    have hmain := checked_rd (K := K) h hc hch hE (n := n) (ti := ti) (len := xs.length) hm hw
      (hr xs y ys (by simpa using hlen) (fun x hx' => (hx x hx').1) hy) hw (by
        intro i hi
        obtain ⟨x, hx', hi⟩ := List.mem_flatMap.1 hi
        exact (hx x hx').2 i hi)
    have h1 := (withTypeIdx_rd (K := K) (cfg := cfg) hti).bind
      (k := fun r => Prog.rest cfg n ti xs.length p p [] y ys r.2) (fun _ _ => hmain)
    refine h1.congr ?_ ?_ (fun _ h => h)
    · intro s hs
      simp only [traverse, hch, if_true, withTypeIdx', Out.bind_eq, Out.bind_assoc, Out.bind_ok, Prog.rest, hlen,
        List.length_cons, withMemUsed', CppType.program, dispatchEach, List.nil_append]
    · simp only [node, hch, if_true, progCodec, List.append_assoc]
      congr 2
      rw [List.flatMap_assoc]
  fresh := hf
  dflt := hd
  ok x hx := by
    obtain ⟨n0, h0⟩ := eventually_list (xs := items x) (Q := fun (i : Item) n => i.At K cfg cleanOver n) fun i hm => ((hi x hx).2 i hm).at fun q hq => TypeUse.lawful_clean (h q hq)
    exact ⟨n0, fun n hn => ⟨hx, h0 n hn⟩⟩
  prior n x y _ hy := .inl hy
  rel n x y hr := hr
  multi n m hm := hsz m hm

end Ckpt
