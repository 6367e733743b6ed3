import Verif.Proofs.Compose
/-!
Composed types with virtual serialization obey codecs.
-/

set_option autoImplicit false

namespace Ckpt

variable {K : Scope} {R : RelMode} {cfg : Cfg} {env : Env}

/-- The law of a function on objects. -/
structure Handles (K : Scope) (cfg : Cfg) {T : Type} (f : Nat → Ser → T → Out (T × Ser)) (u : Usage T) (C : Nat → Codec T) :
    Prop where
  le : ∀ {n m : Nat}, n ≤ m → ∀ s o, Out.Le (f n s o) (f m s o)
  wr : ∀ n x, (C n).P x → Wr K cfg (fun s => f n s x) (fun w => (C n).enc w x) x
  rd : ∀ n x y, (C n).P x → (C n).prior x y → Rd K (fun s => f n s y)
    ((C n).enc cfg.check x) ((C n).rel x)
  fp : ∀ n x, (C n).P x → Fp K (fun s => f n s x) ((C n).fp x) x
  ok : ∀ x, u.ok x → ∃ n0, ∀ n ≥ n0, (C n).P x
  prior : ∀ n x y, (C n).P x → u.clean y → (C n).prior x y
  rel : ∀ n x y, (C n).rel x y → u.same x y

/-! ### The parts of an object -/

theorem part_pipe {A : Type} (t : CppType A) (n : Nat) {s : Ser} (hs : s.vdis = false) (x : A) :
    pipe cfg (t.part n) (s.setVdis true) x = pipe cfg (t.elem n) s x :=
  pipe_part cfg t.ti (t.apply n) x hs x

theorem chain_cons {A O : Type} {reg : SerReg} {root k : Nat} {t : CppType A} {ms : MemberTypes O} {ks : List Nat}
    (n : Nat) {s : Ser} (hs : s.vdis = false) (hl : reg.lookup cfg.ndebug k root s.kind = .ok s.kind) (o : A × O) :
    (MemberTypes.cons t ms).chain cfg reg root n (k :: ks) s o =
      pipe cfg (t.elem n) s o.1 >>= fun p => ms.chain cfg reg root n ks p.2 o.2 >>= fun q => .ok ((p.1, q.1), q.2) := by
  simp only [MemberTypes.chain, hl, Out.bind_eq, Out.bind_ok, ne_eq, not_true_eq_false, if_false, part_pipe t n hs]

theorem chain_handles_over {reg : SerReg} {root : Nat} {O : Type} {ms : MemberTypes O} {us : MemberUsages O}
    {o : O → O → Prop} {ps : List OverUse} (hm : ms.MatchOver us o ps) (h : ∀ p ∈ ps, OverUse.Lawful K cfg p) :
    ∀ (ks : List Nat), ms.length = ks.length →
    (∀ k ∈ ks, ∀ kd, K.kinds kd → reg.lookup cfg.ndebug k root kd = .ok kd) →
    ∃ C, Handles K cfg (fun n => ms.chain cfg reg root n ks) (.cls us) C ∧ Codec.ReadsOver C o := by
  induction hm with
  | nil =>
    intro ks hk _
    cases ks with
    | cons => simp [MemberTypes.length] at hk
    | nil =>
      refine ⟨fun _ => (⟨fun _ => True, fun _ _ => [], fun _ _ => True, fun _ _ => True, fun _ => 0, fun k => k ≤ 1⟩ :
        Codec Unit), ?_, fun _ _ _ _ _ => trivial⟩
      exact {
        le := fun _ _ _ => .refl _
        wr := fun _ x _ => Wr.pure x
        rd := fun _ _ y _ _ => Rd.pure trivial
        fp := fun _ x _ => Fp.pure x
        ok := fun _ _ => ⟨0, fun _ _ => trivial⟩
        prior := fun _ _ _ _ _ => trivial
        rel := fun _ _ _ _ => trivial }
  | @cons A O t u o ms us os ps hm ih =>
    intro ks hk hl
    cases ks with
    | nil => simp [MemberTypes.length] at hk
    | cons k ks =>
      obtain ⟨C, hC, hCo⟩ := h ⟨A, t, u, o⟩ (.head _)
      obtain ⟨D, hD, hDo⟩ := ih (fun p hp => h p (.tail _ hp)) ks (by simpa [MemberTypes.length] using hk)
        (fun k hk => hl k (List.mem_cons_of_mem _ hk))
      refine ⟨fun n => { membersCodec cfg t (C n) (D n) with multi := fun k => k ≤ 1 }, ?_,
        fun n x y hx ho => ⟨hCo n _ _ hx.1 ho.1, hDo n _ _ hx.2 ho.2⟩⟩
      exact {
        le := fun hnm s o => Out.Le.bind (.refl _) fun kind => by
          split
          · exact .refl _
          · exact Out.Le.bind (pipe_le ⟨rfl, fun s xs => hC.le hnm (s.setVdis false) xs⟩ _ _) fun _ =>
              Out.Le.bind (hD.le hnm _ _) fun _ => .refl _
        wr := fun n x hx => ((pipe_wr (hC.elaw n) hx.1).bind
          (k := fun p => ms.chain cfg reg root n ks p.2 x.2 >>= fun q => .ok ((p.1, q.1), q.2)) (c := x)
          ((hD.wr n x.2 hx.2).map fun r => (x.1, r))).congr
          (fun s hs => chain_cons n hs.1 (hl k (.head _) _ hs.2.1) x) (fun _ => rfl)
        rd := fun n x y hx hy => ((pipe_rd (hC.elaw n) hx.1 hy.1).bind
          (k := fun p => ms.chain cfg reg root n ks p.2 y.2 >>= fun q => .ok ((p.1, q.1), q.2))
          (Q' := fun z => (C n).rel x.1 z.1 ∧ (D n).rel x.2 z.2)
          (fun a ha => (hD.rd n x.2 y.2 hx.2 hy.2).map (fun r => (a, r)) fun r hr => ⟨ha, hr⟩)).congr
          (fun s hs => chain_cons n hs.1 (hl k (.head _) _ hs.2.1) y) rfl (fun _ h => h)
        fp := fun n x hx => ((pipe_fp (hC.elaw n) hx.1).bind
          (k := fun p => ms.chain cfg reg root n ks p.2 x.2 >>= fun q => .ok ((p.1, q.1), q.2)) (c := x)
          ((hD.fp n x.2 hx.2).map fun r => (x.1, r))).congr
          (fun s hs => chain_cons n hs.1 (hl k (.head _) _ hs.2.1) x) rfl
        ok := fun x hx => by
          obtain ⟨n1, g1⟩ := hC.ok _ hx.1
          obtain ⟨n2, g2⟩ := hD.ok _ hx.2
          exact ⟨max n1 n2, fun n hn => ⟨g1 n (by omega), g2 n (by omega)⟩⟩
        prior := fun n x y hx hy => ⟨hC.prior n _ _ hx.1 hy.1, hD.prior n _ _ hx.2 hy.2⟩
        rel := fun n x y hr => ⟨hC.rel n _ _ hr.1, hD.rel n _ _ hr.2⟩ }

theorem chain_handles {reg : SerReg} {root : Nat} {O : Type} {ms : MemberTypes O} {us : MemberUsages O}
    {ps : List TypeUse} (hm : ms.Match us ps) (h : ∀ p ∈ ps, ∃ C, Composes K cfg p.2.1 p.2.2 C)
    (ks : List Nat) (hk : ms.length = ks.length)
    (hl : ∀ k ∈ ks, ∀ kd, K.kinds kd → reg.lookup cfg.ndebug k root kd = .ok kd) :
    ∃ C, Handles K cfg (fun n => ms.chain cfg reg root n ks) (.cls us) C := by
  obtain ⟨o, ho⟩ := hm.over
  obtain ⟨C, hC, _⟩ := chain_handles_over ho (TypeUse.lawful h) ks hk hl
  exact ⟨C, hC⟩

/-- Every class of an object finds its own function. -/
theorem chain_lookup (hK : ∀ k, K.kinds k ↔ k ∈ builtinKinds) (hv : env.Usable R K.kinds cfg) (d : Nat) :
    ∀ k ∈ env.chain d, ∀ kd, K.kinds kd → env.serReg.lookup cfg.ndebug k (env.root d) kd = .ok kd := by
  intro k hk kd hkd
  rw [← hv.hier d k hk]
  exact SerReg.lookup_eq hv.serRegOk cfg.ndebug k ((hK kd).1 hkd)

/-! ### One object at a time -/

section
variable {T : Type} {f : Nat → Ser → T → Out (T × Ser)} {u : Usage T} {C : Nat → Codec T}

theorem first_le {fl : Failure} {g : Ser → T → Out (T × Ser)} {f : Ser → T → Out (T × Ser)} (h : ∀ s x, Out.Or fl (f s x) (g s x)) :
    Handler.Or fl (dispatchFirst f) (dispatchFirst g) := by
  intro s xs
  cases xs with
  | nil => exact .refl _
  | cons x rest => exact Out.Or.bind (h s x) fun _ => .refl _

/-- At most one object at a time. -/
def singly (c : Codec T) : Codec T := { c with multi := fun k => k ≤ 1 }

theorem Handles.law (h : Handles K cfg f u C) {ti : TI} (hti : ti.Valid) (n : Nat) :
    Law K cfg ti (dispatchFirst (f n)) (singly (C n)) := by
  refine Law.ofRd hti (Nat.le_refl 1) ?_ ?_ ?_
  · intro xs hx hl hm
    match xs, hl, hm with
    | [x], _, _ =>
      refine ((h.wr n x (hx x (by simp))).map fun v => [v]).congr (fun _ _ => rfl) (fun w => ?_)
      simp [singly]
    | _ :: _ :: _, _, hm => simp [singly] at hm
  · intro xs ys hx hp hl hm
    match xs, ys, hp, hl, hm with
    | [x], [y], hp, _, _ =>
      refine ((h.rd n x y (hx x (by simp)) ?_).map (fun v => [v]) (Q' := List.Forall₂ (C n).rel [x])
        (fun b hb => .cons hb .nil)).congr (fun _ _ => rfl) (by simp [singly]) (fun _ h => h)
      cases hp; assumption
    | _ :: _ :: _, _, _, _, hm => simp [singly] at hm
  · intro xs hx hl hm
    match xs, hl, hm with
    | [x], _, _ =>
      refine ((h.fp n x (hx x (by simp))).map fun v => [v]).congr (fun _ _ => rfl) ?_
      simp [singly]
    | _ :: _ :: _, _, hm => simp [singly] at hm

end

theorem object_composes {O : Type} {us : MemberUsages O} {C : Nat → Codec O} {ms : MemberTypes O} {d : Nat}
    (h : Handles K cfg (fun n => ms.chain cfg env.serReg (env.root d) n (env.chain d)) (.cls us) C) {ti : TI}
    (hti : ti.Valid) {fresh : O} {dflt : Option O} (c : Bool)
    (hf : (Usage.cls us).clean fresh) (hd : ∀ y, dflt = some y → (Usage.cls us).clean y) :
    Composes K cfg (.object cfg env d ti fresh dflt c ms) (.object us) (fun n => singly (C n)) where
  le hnm := first_le (h.le hnm)
  law n := h.law hti n
  fresh := hf
  dflt := hd
  ok := h.ok
  prior := h.prior
  rel := h.rel
  multi _ _ h := h

/-! ### Behind a pointer -/

/-- Objects of the first class or of the others. -/
def classCodec {O V : Type} (c : Codec O) (d : Codec V) : Codec (O ⊕ V) where
  P v := match v with | .inl x => c.P x | .inr v => d.P v
  enc w v := match v with | .inl x => c.enc w x | .inr v => d.enc w v
  prior v y := match v, y with | .inl x, .inl y => c.prior x y | .inr v, .inr y => d.prior v y | _, _ => False
  rel v y := match v, y with | .inl x, .inl y => c.rel x y | .inr v, .inr y => d.rel v y | _, _ => False
  fp v := match v with | .inl x => c.fp x | .inr v => d.fp v
  multi k := k ≤ 1

/-- Nothing is known about the objects read over. -/
def Usage.alts {V : Type} (us : AltUsages V) : Usage V := ⟨us.Ok, fun _ => False, us.Same, fun k => k ≤ 1⟩

theorem classOf_mem {V : Type} : ∀ (ds : DynTypes V) (v : V), ds.classOf v ∈ ds.classes
  | .cons _ _ _ _, .inl _ => List.mem_cons_self ..
  | .cons _ _ _ ds, .inr v => List.mem_cons_of_mem _ (classOf_mem ds v)

theorem DynTypes.Match.over {V : Type} {ds : DynTypes V} {us : AltUsages V} {ps : List TypeUse}
    (h : ds.Match us ps) : ∃ o, ds.MatchOver us o (ps.map TypeUse.over) := by
  induction h with
  | nil => exact ⟨_, .nil⟩
  | cons d hm hf _ ih =>
    obtain ⟨o, ih⟩ := ih
    obtain ⟨o', hm⟩ := hm.over
    rw [List.map_append]
    exact ⟨_, .cons d hm hf ih⟩

/-- Objects are read over objects of their class. -/
theorem DynTypes.MatchOver.classOf {V : Type} {ds : DynTypes V} {us : AltUsages V} {o : V → V → Prop} {ps : List OverUse}
    (h : ds.MatchOver us o ps) (v w : V) (ho : o v w) : ds.classOf w = ds.classOf v := by
  induction h with
  | nil => exact v.elim
  | cons d _ _ _ ih =>
    cases v <;> cases w <;> first | exact ho.elim | skip
    · rfl
    · exact ih _ _ ho

theorem dyn_handles_over (hK : ∀ k, K.kinds k ↔ k ∈ builtinKinds) (hv : env.Usable R K.kinds cfg) {V : Type}
    {ds : DynTypes V} {us : AltUsages V} {o : V → V → Prop} {ps : List OverUse} (hm : ds.MatchOver us o ps)
    (h : ∀ p ∈ ps, OverUse.Lawful K cfg p) :
    ds.Fits env → ds.classes.Nodup →
    ∃ C, Handles K cfg (fun n => ds.serialize cfg env n) (.alts us) C ∧
      (∀ n v, (C n).P v → ∃ w, ds.make (ds.classOf v) = some w ∧ (C n).prior v w) ∧ Codec.ReadsOver C o := by
  induction hm with
  | nil =>
    intro _ _
    refine ⟨fun _ => (⟨fun _ => True, fun _ _ => [], fun _ _ => True, fun _ _ => True, fun _ => 0, fun k => k ≤ 1⟩ :
      Codec Empty), ?_, fun _ v => v.elim, fun _ v => v.elim⟩
    exact {
      le := fun _ _ v => v.elim
      wr := fun _ v => v.elim
      rd := fun _ v => v.elim
      fp := fun _ v => v.elim
      ok := fun v => v.elim
      prior := fun _ v => v.elim
      rel := fun _ v => v.elim }
  | @cons O V d fresh ms us ds vs o os ps qs hms hf hm ih =>
    intro hfit hnd
    obtain ⟨C, hC, hCo⟩ := chain_handles_over (reg := env.serReg) (root := env.root d) hms
      (fun p hp => h p (List.mem_append_left _ hp)) (env.chain d) hfit.1 (chain_lookup hK hv d)
    obtain ⟨D, hD, hmade, hDo⟩ := ih (fun p hp => h p (List.mem_append_right _ hp)) hfit.2 (List.nodup_cons.1 hnd).2
    refine ⟨fun n => classCodec (C n) (D n), ?_, ?_, ?_⟩
    · exact {
        le := fun hnm s v => by
          cases v with
          | inl o => exact Out.Le.bind (hC.le hnm s o) fun _ => .refl _
          | inr v => exact Out.Le.bind (hD.le hnm s v) fun _ => .refl _
        wr := fun n v hv => by
          cases v with
          | inl o => exact (hC.wr n o hv).map Sum.inl
          | inr v => exact (hD.wr n v hv).map Sum.inr
        rd := fun n v y hv hy => by
          cases v <;> cases y <;> first | exact hy.elim | skip
          · exact (hC.rd n _ _ hv hy).map Sum.inl (Q' := (classCodec (C n) (D n)).rel (.inl _)) fun _ h => h
          · exact (hD.rd n _ _ hv hy).map Sum.inr (Q' := (classCodec (C n) (D n)).rel (.inr _)) fun _ h => h
        fp := fun n v hv => by
          cases v with
          | inl o => exact (hC.fp n o hv).map Sum.inl
          | inr v => exact (hD.fp n v hv).map Sum.inr
        ok := fun v hv => by
          cases v with
          | inl o => exact hC.ok o hv
          | inr v => exact hD.ok v hv
        prior := fun _ _ _ _ h => h.elim
        rel := fun n v y hr => by
          cases v <;> cases y <;> first | exact hr.elim | skip
          · exact hC.rel n _ _ hr
          · exact hD.rel n _ _ hr }
    · intro n v hv
      cases v with
      | inl o => exact ⟨.inl fresh, by simp [DynTypes.make, DynTypes.classOf], hC.prior n o fresh hv hf⟩
      | inr v =>
        obtain ⟨w, h1, h2⟩ := hmade n v hv
        refine ⟨.inr w, ?_, h2⟩
        have hne : d ≠ ds.classOf v := fun h => (List.nodup_cons.1 hnd).1 (h ▸ classOf_mem ds v)
        simp [DynTypes.make, DynTypes.classOf, hne, h1]
    · intro n v w hv ho
      cases v <;> cases w <;> first | exact ho.elim | skip
      · exact hCo n _ _ hv ho
      · exact hDo n _ _ hv ho

theorem dyn_handles (hK : ∀ k, K.kinds k ↔ k ∈ builtinKinds) (hv : env.Usable R K.kinds cfg) {V : Type} {ds : DynTypes V} {us : AltUsages V}
    {ps : List TypeUse} (hm : ds.Match us ps) (h : ∀ p ∈ ps, ∃ C, Composes K cfg p.2.1 p.2.2 C) (hf : ds.Fits env)
    (hnd : ds.classes.Nodup) :
    ∃ C, Handles K cfg (fun n => ds.serialize cfg env n) (.alts us) C ∧
      ∀ n v, (C n).P v → ∃ w, ds.make (ds.classOf v) = some w ∧ (C n).prior v w := by
  obtain ⟨o, ho⟩ := hm.over
  obtain ⟨C, hC, hmade, _⟩ := dyn_handles_over hK hv ho (TypeUse.lawful h) hf hnd
  exact ⟨C, hC, hmade⟩

def polyPtrCodec {V : Type} (cfg : Cfg) (env : Env) (ti : TI) (k : Nat) (e : Elem V) (ds : DynTypes V) (c : Codec V) :
    Codec (Option V) where
  P x := ∀ v, x = some v → c.P v ∧ ds.classOf v ∈ env.objReg (env.root k) ∧ (env.cls (ds.classOf v)).abstract = false
  enc w x := uptrEnc cfg w e.ti c (some (ds.virt cfg env k).dynIdx) x
  prior x y := PtrPrior e c (some (ds.virt cfg env k)) x y
  rel := optRel c
  fp x := ti.sizeof + match x with | none => 0 | some v => c.fp v
  multi _ := True

/-- A pointer by itself. -/
theorem polyPtr_each (hv : env.Usable R K.kinds cfg) {V : Type} {ds : DynTypes V} {us : AltUsages V}
    {C : Nat → Codec V} (h : Handles K cfg (fun n => ds.serialize cfg env n) (.alts us) C) {ti cti : TI}
    (hcti : cti.Valid) (k : Nat) (any : V) (n : Nat) :
    EachLaw K cfg (serUniquePtr cfg ti.sizeof (ds.elem cfg env cti any n) (some (ds.virt cfg env k)))
      (polyPtrCodec cfg env ti k (ds.elem cfg env cti any n) ds (singly (C n))) := by
  have hL : Law K cfg (ds.elem cfg env cti any n).ti
      (ds.elem cfg env cti any n).apply (singly (C n)) := h.law hcti n
  have hidx : ∀ (x : Option V), (∀ v, x = some v → ds.classOf v ∈ env.objReg (env.root k)) → ∀ v vi, x = some v →
      some (ds.virt cfg env k) = some vi → vi.dynIdx v < 2 ^ 32 := by
    rintro x hx v _ rfl ⟨⟩
    have h1 : (env.objReg (env.root k)).idxOf (ds.classOf v) < (env.objReg (env.root k)).length :=
      List.idxOf_lt_length_of_mem (hx v rfl)
    have h2 := hv.regSize (env.root k)
    show (env.objReg (env.root k)).idxOf (ds.classOf v) < 2 ^ 32
    omega
  exact {
    wr := fun x hx => uptr_wr hv.cfgOk hL (fun v hx' => (hx v hx').1) (hidx x fun v hx' => (hx v hx').2.1)
    rd := fun x y hx hy => uptr_rd hv.cfgOk hL (fun v hx' => (hx v hx').1) (hidx x fun v hx' => (hx v hx').2.1) hy
    fp := fun x hx => (uptr_fp hL (fun v hx' => (hx v hx').1)).congr (fun _ _ => rfl) (by cases x <;> rfl) }

theorem polyPtr_composes (hv : env.Usable R K.kinds cfg) {V : Type} {ds : DynTypes V} {us : AltUsages V}
    {C : Nat → Codec V} (h : Handles K cfg (fun n => ds.serialize cfg env n) (.alts us) C)
    (hmade : ∀ n v, (C n).P v → ∃ w, ds.make (ds.classOf v) = some w ∧ (C n).prior v w) {ti cti : TI} (hti : ti.Valid)
    (hcti : cti.Valid) (k : Nat) (any : V) :
    Composes K cfg (.polyPtr cfg env ti k cti any ds) (.polyPtr env k ds us)
      (fun n => polyPtrCodec cfg env ti k (ds.elem cfg env cti any n) ds (singly (C n))) := by
  refine {
    le := fun hnm => dispatchEach_le fun s x => serUniquePtr_le ⟨rfl, first_le (h.le hnm)⟩ _ _ s x
    law := fun n => (polyPtr_each hv h hcti k any n).law hti trivial
    fresh := rfl
    dflt := fun d hd => by cases hd; rfl
    ok := fun x hx => ?_
    prior := fun n x y hx hy => ?_
    rel := fun n x y hr => ?_
    multi := fun _ _ _ => trivial }
  · cases x with
    | none => exact ⟨0, fun n _ v hv => by cases hv⟩
    | some v =>
      obtain ⟨h1, h2⟩ := hx v rfl
      obtain ⟨n0, h0⟩ := h.ok v h1
      exact ⟨n0, fun n hn w hw => by cases hw; exact ⟨h0 n hn, h2⟩⟩
  · cases hy
    refine ⟨(fun _ _ _ h => by cases h), (fun _ _ _ h => by cases h), ?_⟩
    rintro v _ rfl _ ⟨⟩
    obtain ⟨h1, h2, h3⟩ := hx v rfl
    obtain ⟨w, hw, hp⟩ := hmade n v h1
    refine ⟨w, ?_, hp⟩
    show ds.construct cfg env k ((env.objReg (env.root k)).idxOf (ds.classOf v)) = _
    have hlt : (env.objReg (env.root k)).idxOf (ds.classOf v) < (env.objReg (env.root k)).length :=
      List.idxOf_lt_length_of_mem h2
    have hget : (env.objReg (env.root k))[(env.objReg (env.root k)).idxOf (ds.classOf v)]? = some (ds.classOf v) := by
      unfold ObjReg.idxOf at hlt ⊢
      rw [List.getElem?_eq_getElem hlt, List.getElem_idxOf]
    simp [DynTypes.construct, hget, h3, hw]
  · rcases hr with hr | ⟨a, b, h1, h2, h3⟩
    · exact .inl hr
    · exact .inr ⟨a, b, h1, h2, h.rel n a b h3⟩

/-- A pointer that owns an object of the same class. -/
theorem polyPtr_over (hv : env.Usable R K.kinds cfg) {V : Type} {ds : DynTypes V} {us : AltUsages V} {o : V → V → Prop}
    {C : Nat → Codec V} (h : Handles K cfg (fun n => ds.serialize cfg env n) (.alts us) C)
    (hmade : ∀ n v, (C n).P v → ∃ w, ds.make (ds.classOf v) = some w ∧ (C n).prior v w) {ti cti : TI} (hti : ti.Valid)
    (hcti : cti.Valid) (k : Nat) (any : V) (ho : Codec.ReadsOver C o) (hcl : ∀ v w, o v w → ds.classOf w = ds.classOf v) :
    Codec.ReadsOver (fun n => polyPtrCodec cfg env ti k (ds.elem cfg env cti any n) ds (singly (C n))) (overPtr o) := by
  intro n x y hx hxy
  cases y with
  | none => exact (polyPtr_composes hv h hmade hti hcti k any).prior n x none hx rfl
  | some w =>
    refine ⟨?_, (fun _ _ h => by cases h), (fun _ _ _ h => by cases h)⟩
    rintro v _ rfl ⟨⟩
    refine ⟨ho n v w (hx v rfl).1 (hxy v w rfl rfl), ?_⟩
    rintro _ ⟨⟩
    show (env.objReg (env.root k)).idxOf (ds.classOf w) = (env.objReg (env.root k)).idxOf (ds.classOf v)
    rw [hcl v w (hxy v w rfl rfl)]

end Ckpt
