import Verif.Props.Program
import Verif.Props.File
/-!
# C69: mistakes of serialize functions are detected, wherever they are
-/

set_option autoImplicit false

namespace Ckpt

section
variable {R : RelMode} {cfg : Cfg} {env : Env} {T : Type} {t : CppType T} {u : Usage T} {x : T} {E : Bool}

theorem Yields.ok_of_mono {α : Type} {f : Nat → Out α} (hm : ∀ {n m}, n ≤ m → Out.Le (f n) (f m))
    {n0 : Nat} {a : α} (h : f n0 = .ok a) : Yields f (.ok a) :=
  ⟨n0, fun n hn => ((hm hn).eq_of_ne (by rw [h]; simp)).trans h⟩

/-- What reading the bytes of an object does. -/
theorem Composes.reads_checked {C : Nat → Codec T} (hC : Composes checkedScope cfg t u C) {n0 : Nat} (hP : (C n0).P x)
    {y : T} (hy : u.clean y) {rest : Bytes} {s : Ser} (hs : s.Reader checkedScope)
    (hr : s.remaining = topEnc cfg (t.elem n0).ti (C n0) x ++ rest) :
    (∃ w, u.same x w ∧ traverseTop cfg (t.elem n0) s y =
      .ok (w, s.advance (topEnc cfg (t.elem n0).ti (C n0) x).length)) ∨
    ∃ k d tr, traverseTop cfg (t.elem n0) s y = .throw (.ser k d tr) := by
  have := (top_rd (e := t.elem n0) (hC.law n0) hP (hC.prior n0 x y hP hy) s hs).1 rest hr
  rcases this with ⟨w, hw, h⟩ | ⟨_, ⟨k, d, tr, rfl⟩, h⟩
  · exact .inl ⟨w, hC.rel n0 x w hw, h⟩
  · exact .inr ⟨k, d, tr, h⟩

/-- **C69**: with error checking, whatever classes within the type visit other members when reading than when writing, an
object is written in the same bytes by all calls; reading them restores an equal object, having consumed exactly these
bytes, or ends with a `serialization_error`. -/
theorem C69_restores_or_rejects (hch : cfg.check = true) (hv : env.Usable R (· ∈ builtinKinds) cfg)
    (hd : env.Distinguishable) (h : ComposedOf E R cfg env t u) (hx : u.ok x) :
    RestoresOrRejects cfg t.elem x u.clean fun _ w => u.same x w := by
  obtain ⟨C, hC⟩ := h.composes_checked hch hv hd
  obtain ⟨n0, h0⟩ := hC.ok x hx
  have hP := h0 n0 (Nat.le_refl _)
  have hL := hC.law n0
  have hk : ∀ k, k ∈ builtinKinds → checkedScope.kinds k := fun _ h => h
  have hser : ∀ {n m : Nat}, n ≤ m → Out.Le (serialize cfg (t.elem n) none x) (serialize cfg (t.elem m) none x) := by
    intro n m hnm
    refine Out.Le.bind ((traverseTop_le (hC.elem_le hnm) _ _).bind fun _ => .refl _) fun _ => ?_
    exact Out.Le.bind ((traverseTop_le (hC.elem_le hnm) _ _).bind fun _ => .refl _) fun _ => .refl _
  refine ⟨topEnc cfg (t.elem n0).ti (C n0) x, ?_, ?_, ?_, ?_⟩
  · exact Yields.ok_of_mono (n0 := n0) (fun h => toStream_le (hC.elem_le h) _ _)
      (by simpa using toStream_law (e := t.elem n0) hk hL hP ⟨[], none⟩ (by simp))
  · exact Yields.ok_of_mono (n0 := n0) (fun hnm => (traverseTop_le (hC.elem_le hnm) _ _).bind fun _ => .refl _)
      (getSize_law (e := t.elem n0) hk hL hP)
  · intro hfit
    refine Yields.ok_of_mono (n0 := n0) hser ?_
    rw [serialize_law (e := t.elem n0) hk hL hP hfit none]
    rfl
  · intro y rest hy
    constructor
    · rcases hC.reads_checked hP hy (rest := rest) (s := { core := .unpacker (topEnc cfg (t.elem n0).ti (C n0) x ++ rest) 0 0, kind := .unpacker })
        ⟨rfl, by simp [checkedScope, builtinKinds], by simp⟩ (by simp [Ser.remaining]) with ⟨w, hw, h⟩ | ⟨k, d, tr, h⟩
      · refine .inl ⟨w, hw, Yields.ok_of_mono (n0 := n0) (fun h => inPlace_le (hC.elem_le h) _ _) ?_⟩
        unfold deserializeInPlace
        rw [h]
        simp [Ser.advance, Ser.count]
      · refine .inr ⟨k, d, tr, Yields.throw_of_mono (n0 := n0) (fun h => inPlace_le (hC.elem_le h) _ _) ?_⟩
        unfold deserializeInPlace
        rw [h]
        rfl
    · rcases hC.reads_checked hP hy (rest := rest) (s := { core := .streamUnpacker (topEnc cfg (t.elem n0).ti (C n0) x ++ rest) 0, kind := .streamUnpacker })
        ⟨rfl, by simp [checkedScope, builtinKinds], trivial⟩ (by simp [Ser.remaining]) with ⟨w, hw, h⟩ | ⟨k, d, tr, h⟩
      · refine .inl ⟨w, hw, Yields.ok_of_mono (n0 := n0) (fun h => inStream_le (hC.elem_le h) _ _) ?_⟩
        unfold deserializeInPlaceFromStream
        rw [h]
        simp [Ser.advance, Ser.unread]
      · refine .inr ⟨k, d, tr, Yields.throw_of_mono (n0 := n0) (fun h => inStream_le (hC.elem_le h) _ _) ?_⟩
        unfold deserializeInPlaceFromStream
        rw [h]
        rfl

/-- **C69**: if nothing can be equal to the object, as when it contains one of a class that always visits other
members when reading, every call that reads it ends with a `serialization_error`. -/
theorem C69_rejected (hch : cfg.check = true) (hv : env.Usable R (· ∈ builtinKinds) cfg)
    (hd : env.Distinguishable) (h : ComposedOf E R cfg env t u) (hx : u.ok x) (hno : ∀ w, ¬ u.same x w) {bs : Bytes}
    (hs : Yields (fun n => serializeToStream cfg (t.elem n) x { data := [] }) (.ok (x, { data := bs })))
    {y : T} (hy : u.clean y) (rest : Bytes) :
    (Rejects fun n => deserializeInPlace cfg (t.elem n) (bs ++ rest) y) ∧
    (Rejects fun n => deserialize cfg (t.elem n) (bs ++ rest)) ∧
    (Rejects fun n => deserializeInPlaceFromStream cfg (t.elem n) (bs ++ rest) y) ∧
    (Rejects fun n => deserializeFromStream cfg (t.elem n) (bs ++ rest)) := by
  obtain ⟨C, hC⟩ := h.composes_checked hch hv hd
  obtain ⟨bs', h1, _, _, h4⟩ := C69_restores_or_rejects hch hv hd h hx
  have : bs' = bs := by simpa using h1.unique hs
  subst this
  obtain ⟨a1, a2⟩ := h4 y rest hy
  obtain ⟨a3, a4⟩ := h4 t.fresh rest hC.fresh
  simp only [deserialize_eq, deserializeFromStream_eq]
  exact ⟨a1.resolve_left fun ⟨w, hw, _⟩ => hno w hw, a3.resolve_left fun ⟨w, hw, _⟩ => hno w hw,
    a2.resolve_left fun ⟨w, hw, _⟩ => hno w hw, a4.resolve_left fun ⟨w, hw, _⟩ => hno w hw⟩

theorem file_rejected (hch : cfg.check = true) (hv : env.Usable R (· ∈ builtinKinds) cfg)
    (hd : env.Distinguishable) (h : ComposedOf E R cfg env t u) (hx : u.ok x) (hno : ∀ w, ¬ u.same x w) {bs : Bytes}
    (hs : Yields (fun n => serializeToStream cfg (t.elem n) x { data := [] }) (.ok (x, { data := bs })))
    {y : T} (hy : u.clean y) {w : World} (hw : w.Ok) {file : Nat} {rest : Bytes}
    (hf : w.files file = some (bs ++ rest)) :
    ∃ k d tr n0, ∀ n, n0 ≤ n →
      (deserializeInPlaceFromFile cfg (t.elem n) noFaults w file y).1 = .out (.throw (.ser k d tr)) := by
  obtain ⟨C, hC⟩ := h.composes_checked hch hv hd
  obtain ⟨n0, h0⟩ := hC.ok x hx
  have hP := h0 n0 (Nat.le_refl _)
  have hb : topEnc cfg (t.elem n0).ti (C n0) x = bs := by
    have h1 : Yields (fun n => serializeToStream cfg (t.elem n) x { data := [] })
        (.ok (x, { data := topEnc cfg (t.elem n0).ti (C n0) x })) := by
      refine Yields.ok_of_mono (n0 := n0) (fun h => toStream_le (hC.elem_le h) _ _) ?_
      simpa using toStream_law (e := t.elem n0) (K := checkedScope) (fun _ h => h) (hC.law n0) hP ⟨[], none⟩ (by simp)
    simpa using h1.unique hs
  have hne : bs ≠ [] := by
    rintro rfl
    have hl := congrArg List.length hb
    simp [topEnc, node] at hl
  obtain ⟨k, d, tr, h⟩ := (hC.reads_checked hP hy (rest := rest)
    (s := { core := .unpacker (bs ++ rest) 0 0, kind := .unpackerIO })
    ⟨rfl, by simp [checkedScope, builtinKinds], by simp⟩ (by simp [Ser.remaining, hb])).resolve_left
      fun ⟨w, hw, _⟩ => hno w hw
  obtain ⟨n1, h1⟩ := Yields.throw_of_mono (n0 := n0) (fun h => unpackIO_le (hC.elem_le h) (bs ++ rest) y)
    (f := fun n => unpackIO cfg (t.elem n) (bs ++ rest) y) (e := .ser k d tr) (by
      simp only [unpackIO, h]; rfl)
  refine ⟨k, d, tr, n1, fun n hn => ?_⟩
  obtain ⟨w', h, -⟩ := inPlaceFromFile_noFaults (cfg := cfg) (y := y) hw hf (by simp [hne]) (h1 n hn) (.inr ⟨_, rfl⟩)
  exact congrArg Prod.fst h

/-- **C69**: so does every call that reads a file with it. -/
theorem C69_file_rejected (hch : cfg.check = true) (hv : env.Usable R (· ∈ builtinKinds) cfg)
    (hd : env.Distinguishable) (h : ComposedOf E R cfg env t u) (hx : u.ok x) (hno : ∀ w, ¬ u.same x w) {bs : Bytes}
    (hs : Yields (fun n => serializeToStream cfg (t.elem n) x { data := [] }) (.ok (x, { data := bs })))
    {w : World} (hw : w.Ok) {file : Nat} {rest : Bytes} (hf : w.files file = some (bs ++ rest)) :
    (∀ y, u.clean y → ∃ k d tr n0, ∀ n, n0 ≤ n →
      (deserializeInPlaceFromFile cfg (t.elem n) noFaults w file y).1 = .out (.throw (.ser k d tr))) ∧
    ∃ k d tr n0, ∀ n, n0 ≤ n →
      (deserializeFromFile cfg (t.elem n) noFaults w file).1 = .out (.throw (.ser k d tr)) := by
  obtain ⟨C, hC⟩ := h.composes_checked hch hv hd
  exact ⟨fun y hy => file_rejected hch hv hd h hx hno hs hy hw hf, file_rejected hch hv hd h hx hno hs hC.fresh hw hf⟩

end

/-! ### Classes that visit one list of members when reading, another when writing -/

section
variable {R : RelMode} {cfg : Cfg} {env : Env} {O : Type}

/-- A member with what is known about it. -/
abbrev MemberUse (O : Type) := (r : Slot O) × Usage r.A

/-- The members written can be written, those read over can be read over; nothing equal can be read. -/
def Usage.twoWays (ti : TI) (reading writing : List (MemberUse O)) : Usage O where
  ok x := ∀ r ∈ writing, r.2.ok (r.1.get x) ∧ r.1.set (r.1.get x) x = x
  clean y := ∀ r ∈ reading, r.2.clean (r.1.get y)
  same _ _ := False
  many n := ti.sizeof * n < 2 ^ 31

/-- The type indices of members. -/
def MemberUse.indices (rs : List (MemberUse O)) : List Nat := rs.map fun r => r.1.t.ti.idx

theorem line_within {ps : TypeUse → Prop} : ∀ {rs : List (MemberUse O)},
    (∀ r ∈ rs, ps ⟨r.1.A, r.1.t, r.2⟩) → (Prog.line (rs.map Sigma.fst)).Within ps
  | [], _ => trivial
  | r :: _, h => ⟨⟨r.2, h r (.head _)⟩, line_within fun r hr => h r (.tail _ hr)⟩

theorem line_writes {x : O} : ∀ {rs : List (MemberUse O)},
    (∀ r ∈ rs, r.1.set (r.1.get x) x = x) → (Prog.line (rs.map Sigma.fst)).Writes x (rs.map fun r => .one r.1.t r.2 (r.1.get x))
  | [], _ => .done
  | r :: _, h => .visit r.2 rfl (h r (.head _)) (line_writes fun r hr => h r (.tail _ hr))

/-- The rest of an object, and those that follow. -/
theorem line_step {rs ws : List (MemberUse O)} {p : Prog O}
    (hs : ∀ r ∈ rs, ∀ w ∈ ws, r.1.t.ti.idx = w.1.t.ti.idx → (⟨r.1.A, r.1.t, r.2⟩ : TypeUse) = ⟨w.1.A, w.1.t, w.2⟩) {ys : List O}
    {after : List Nat} (h0 : ∀ zs y is, (∀ i ∈ is, ∃ w ∈ ws, ∃ a, i = .one w.1.t w.2 a) →
      after ≠ is.filterMap (Item.mark cfg) → p.Checked cfg (fun _ => False) is .done zs y ys) :
    ∀ (qs : List (MemberUse O)), (∀ q ∈ qs, q ∈ rs) →
    (qs.Pairwise fun r r' => ∀ a y, r'.1.get (r.1.set a y) = r'.1.get y) → ∀ (zs : List O) (y : O),
    (∀ q ∈ qs, q.2.clean (q.1.get y)) → ∀ is : List Item, (∀ i ∈ is, ∃ w ∈ ws, ∃ a, i = .one w.1.t w.2 a) →
    MemberUse.indices qs ++ after ≠ is.filterMap (Item.mark cfg) → p.Checked cfg (fun _ => False) is (.line (qs.map Sigma.fst)) zs y ys := by
  intro qs
  induction qs with
  | nil => exact fun _ _ zs y _ is his hne => h0 zs y is his hne
  | cons q qs ih =>
    intro hm hp zs y hy is his hne
    match is, his, hne with
    | [], _, _ => exact .over (ti := q.1.t.ti) rfl
    | i :: is, his, hne =>
      obtain ⟨w, hw, a, rfl⟩ := his i (.head _)
      by_cases hidx : q.1.t.ti.idx = w.1.t.ti.idx
      · have key : ∀ p : TypeUse, (⟨q.1.A, q.1.t, q.2⟩ : TypeUse) = p → ∀ a : p.1, ∃ a', Item.one p.2.1 p.2.2 a =
            Item.one q.1.t q.2 a' := by
          rintro _ rfl a
          exact ⟨a, rfl⟩
        obtain ⟨a', ha⟩ := key _ (hs q (hm q (.head _)) w hw hidx) a
        simp only at ha
        rw [ha]
        rw [List.pairwise_cons] at hp
        refine .visit rfl (hy q (.head _)) fun b _ => ih (fun q hq => hm q (.tail _ hq)) hp.2 zs _ (fun q' hq => ?_) is
          (fun i hi => his i (.tail _ hi)) fun h => ?_
        · rw [hp.1 q' hq]
          exact hy q' (.tail _ hq)
        · apply hne
          rw [List.filterMap_cons, ha]
          simp only [Item.mark, MemberUse.indices, List.map_cons, List.cons_append] at h ⊢
          rw [h]
      · exact .other (ti := q.1.t.ti) rfl rfl hidx

theorem line_checked {rs ws : List (MemberUse O)}
    (hs : ∀ r ∈ rs, ∀ w ∈ ws, r.1.t.ti.idx = w.1.t.ti.idx → (⟨r.1.A, r.1.t, r.2⟩ : TypeUse) = ⟨w.1.A, w.1.t, w.2⟩)
    (hi : rs.Pairwise fun r r' => ∀ a y, r'.1.get (r.1.set a y) = r'.1.get y) :
    ∀ (ys : List O), (∀ y ∈ ys, ∀ r ∈ rs, r.2.clean (r.1.get y)) → ∀ (zs : List O) (is : List Item) (y : O),
    (∀ i ∈ is, ∃ w ∈ ws, ∃ a, i = .one w.1.t w.2 a) →
    (List.replicate ys.length (MemberUse.indices rs)).flatten ≠ is.filterMap (Item.mark cfg) →
    (Prog.twoWays (rs.map Sigma.fst) (ws.map Sigma.fst)).Checked cfg (fun _ => False) is .done zs y ys
  | [], _, zs, is, y, his, hne => by
    match is, his, hne with
    | [], _, hne => exact absurd rfl hne
    | i :: is, his, _ =>
      obtain ⟨w, _, a, rfl⟩ := his i (.head _)
      exact .left rfl
  | y' :: ys, hy, zs, is, y, his, hne => by
    refine .next (.mode ?_)
    exact line_step hs (fun zs y is => line_checked hs hi ys (fun y h => hy y (.tail _ h)) zs is y) rs (fun _ h => h) hi _ _
      (hy y' (.head _)) is his (by simpa [List.replicate_succ] using hne)

theorem replicate_flatten_inj {A : Type} {a b : List A} : ∀ {n : Nat}, 0 < n →
    (List.replicate n a).flatten = (List.replicate n b).flatten → a = b := by
  intro n hn h
  have hl := congrArg List.length h
  simp only [List.length_flatten, List.map_replicate, List.sum_replicate_nat] at hl
  have hab : a.length = b.length := Nat.eq_of_mul_eq_mul_left hn hl
  cases n with
  | zero => omega
  | succ n =>
    simp only [List.replicate_succ, List.flatten_cons] at h
    exact (List.append_inj h hab).1

/-- A class that visits one list of members when reading and another when writing, such that their types are not the
same ones in the same order, those read over being different members. -/
theorem ComposedOf.twoWays {ti : TI} {fresh : O} {dflt : Option O} (c : Bool)
    {rs ws : List (MemberUse O)} (hti : ti.Valid) (hm : ∀ r, r ∈ rs ∨ r ∈ ws → ComposedOf true R cfg env r.1.t r.2)
    (hs : ∀ r ∈ rs, ∀ w ∈ ws, r.1.t.ti.idx = w.1.t.ti.idx → (⟨r.1.A, r.1.t, r.2⟩ : TypeUse) = ⟨w.1.A, w.1.t, w.2⟩)
    (hi : rs.Pairwise fun r r' => ∀ a y, r'.1.get (r.1.set a y) = r'.1.get y) (hne : MemberUse.indices rs ≠ MemberUse.indices ws)
    (hf : ∀ r ∈ rs, r.2.clean (r.1.get fresh)) (hd : ∀ d, dflt = some d → ∀ r ∈ rs, r.2.clean (r.1.get d))
    (hz : ti.sizeof < 2 ^ 31) :
    ComposedOf true R cfg env (.program cfg ti fresh dflt c (.twoWays (rs.map Sigma.fst) (ws.map Sigma.fst))) (.twoWays ti rs ws) := by
  refine .checkedProgram (ps := fun q => ∃ r, (r ∈ rs ∨ r ∈ ws) ∧ q = ⟨r.1.A, r.1.t, r.2⟩) c
    (fun x => ws.map fun r => .one r.1.t r.2 (r.1.get x)) rfl hti ?_ ?_ ?_ ?_ hf hd hz (fun _ h => h)
  · exact ⟨line_within fun r hr => ⟨r, .inl hr, rfl⟩, line_within fun r hr => ⟨r, .inr hr, rfl⟩⟩
  · rintro _ ⟨r, hr, rfl⟩
    exact hm r hr
  · intro x hx
    refine ⟨.mode (line_writes fun r hr => (hx r hr).2), fun i hi => ?_⟩
    obtain ⟨r, hr, rfl⟩ := List.mem_map.1 hi
    exact ⟨⟨r, .inr hr, rfl⟩, (hx r hr).1⟩
  · intro xs y ys hl hok hy
    have hQ : List.Forall₂ (Usage.twoWays ti rs ws).same xs = fun _ => False := by
      funext zs
      refine propext ⟨fun h => ?_, fun h => h.elim⟩
      cases h with
      | nil => simp at hl
      | cons h _ => exact h
    rw [hQ]
    refine .mode (line_step hs (fun zs y is => line_checked hs hi ys (fun y h => hy y (.tail _ h)) zs is y) rs
      (fun _ h => h) hi _ _ (hy y (.head _)) _ ?_ ?_)
    · intro i hi
      obtain ⟨x, _, hi⟩ := List.mem_flatMap.1 hi
      obtain ⟨r, hr, rfl⟩ := List.mem_map.1 hi
      exact ⟨r, hr, _, rfl⟩
    · have h1 : (xs.flatMap fun x => ws.map fun r => Item.one r.1.t r.2 (r.1.get x)).filterMap (Item.mark cfg) =
          (List.replicate xs.length (MemberUse.indices ws)).flatten := by
        clear hl hQ hok
        induction xs with
        | nil => rfl
        | cons x xs ih =>
          rw [List.flatMap_cons, List.filterMap_append, ih]
          simp only [List.length_cons, List.replicate_succ, List.flatten_cons, List.append_cancel_right_eq, List.filterMap_map]
          simp only [MemberUse.indices, ← List.filterMap_eq_map]
          rfl
      rw [h1, ← List.flatten_cons, ← List.replicate_succ, ← hl]
      exact fun h => hne (replicate_flatten_inj (by omega) h)

/-- **C69**: with error checking, an object of such a class is rejected, whatever its members. -/
theorem C69_different_members_rejected {ti : TI} {fresh : O} {dflt : Option O} (c : Bool)
    {rs ws : List (MemberUse O)} (hch : cfg.check = true)
    (hv : env.Usable R (· ∈ builtinKinds) cfg) (hdist : env.Distinguishable)
    (hti : ti.Valid) (hm : ∀ r, r ∈ rs ∨ r ∈ ws → ComposedOf true R cfg env r.1.t r.2)
    (hs : ∀ r ∈ rs, ∀ w ∈ ws, r.1.t.ti.idx = w.1.t.ti.idx → (⟨r.1.A, r.1.t, r.2⟩ : TypeUse) = ⟨w.1.A, w.1.t, w.2⟩)
    (hi : rs.Pairwise fun r r' => ∀ a y, r'.1.get (r.1.set a y) = r'.1.get y) (hne : MemberUse.indices rs ≠ MemberUse.indices ws)
    (hf : ∀ r ∈ rs, r.2.clean (r.1.get fresh)) (hd : ∀ d, dflt = some d → ∀ r ∈ rs, r.2.clean (r.1.get d))
    (hz : ti.sizeof < 2 ^ 31) {x : O} (hx : ∀ r ∈ ws, r.2.ok (r.1.get x) ∧ r.1.set (r.1.get x) x = x) :
    ∃ bs, Yields (fun n => serializeToStream cfg ((CppType.program cfg ti fresh dflt c (.twoWays (rs.map Sigma.fst) (ws.map Sigma.fst))).elem n) x
        { data := [] }) (.ok (x, { data := bs })) ∧
      ∀ y rest, (∀ r ∈ rs, r.2.clean (r.1.get y)) →
        (Rejects fun n => deserializeInPlace cfg ((CppType.program cfg ti fresh dflt c (.twoWays (rs.map Sigma.fst) (ws.map Sigma.fst))).elem n)
          (bs ++ rest) y) ∧
        (Rejects fun n => deserialize cfg ((CppType.program cfg ti fresh dflt c (.twoWays (rs.map Sigma.fst) (ws.map Sigma.fst))).elem n)
          (bs ++ rest)) ∧
        (Rejects fun n => deserializeInPlaceFromStream cfg
          ((CppType.program cfg ti fresh dflt c (.twoWays (rs.map Sigma.fst) (ws.map Sigma.fst))).elem n) (bs ++ rest) y) ∧
        (Rejects fun n => deserializeFromStream cfg ((CppType.program cfg ti fresh dflt c (.twoWays (rs.map Sigma.fst) (ws.map Sigma.fst))).elem n)
          (bs ++ rest)) := by
  have hcomp := ComposedOf.twoWays (R := R) (env := env) c hti hm hs hi hne hf hd hz
  obtain ⟨bs, h1, _⟩ := C69_restores_or_rejects hch hv hdist hcomp hx
  exact ⟨bs, h1, fun y rest hy => C69_rejected hch hv hdist hcomp hx (fun _ h => h) h1 hy rest⟩

end

namespace Demo
variable (c : Cfg)

/-- `struct A { int a; Kokkos::View<int*> aa; }`. -/
def slotA : MemberUse (Val × View Val) :=
  ⟨⟨Val, .base c Demo.env int, Prod.fst, fun a o => (a, o.2)⟩, .base .contents c Demo.env int⟩
def slotAA : MemberUse (Val × View Val) := ⟨⟨View Val, rowType c, Prod.snd, fun a o => (o.1, a)⟩, rowUse c⟩

/-- `if (s.isUnpacking()) { s | a; } else { s | a | aa; }`. -/
def tooFew : CppType (Val × View Val) :=
  .program c (Demo.env.ti int) (num 0, rowTy.empty) (some (num 0, rowTy.empty)) true
    (.twoWays [(slotA c).1] [(slotA c).1, (slotAA c).1])
def tooFewUse : Usage (Val × View Val) := .twoWays (Demo.env.ti int) [slotA c] [slotA c, slotAA c]

theorem tooFewComposed : ComposedOf true .contents c Demo.env (tooFew c) (tooFewUse c) := by
  refine ComposedOf.twoWays (rs := [slotA c]) (ws := [slotA c, slotAA c]) true (ti_valid _) ?_ ?_ (by simp) ?_ ?_ ?_ ?_
  · intro r hr
    have : r = slotA c ∨ r = slotAA c := by simpa using hr
    rcases this with rfl | rfl
    · exact .base _
    · exact .view viewTI_valid rfl (.base _)
  · intro r hr w hw hidx
    obtain rfl : r = slotA c := by simpa using hr
    have : w = slotA c ∨ w = slotAA c := by simpa using hw
    rcases this with rfl | rfl
    · rfl
    · exact absurd hidx (by simp [slotA, slotAA, rowType, CppType.view, CppType.base]; decide)
  · simp [MemberUse.indices]
  · intro r hr
    obtain rfl : r = slotA c := by simpa using hr
    exact ⟨.prim rfl, trivial⟩
  · intro d hd r hr
    cases hd
    obtain rfl : r = slotA c := by simpa using hr
    exact ⟨.prim rfl, trivial⟩
  · decide

/-- `struct B { int b; A a; std::vector<A> as; }`, visiting all of them, in a list. -/
def nestsMembers : MemberTypes (Val × (Val × View Val) × Vec (Val × View Val) × Unit) :=
  .cons (.base c Demo.env int) (.cons (tooFew c) (.cons (.vector c (Demo.env.ti int) true (tooFew c)) .nil))
def nestsUses : MemberUsages (Val × (Val × View Val) × Vec (Val × View Val) × Unit) :=
  .cons (.base .contents c Demo.env int) (.cons (tooFewUse c) (.cons (.vector (tooFew c) (tooFewUse c)) .nil))
def nestsType : CppType (Val × (Val × View Val) × Vec (Val × View Val) × Unit) :=
  .cls c (Demo.env.ti int) (num 0, (num 0, rowTy.empty), ⟨0, []⟩, ()) none true (nestsMembers c)

theorem nestsComposed : ComposedOf true .contents c Demo.env (nestsType c) (.cls (nestsUses c)) := by
  have hclean : (tooFewUse c).clean (num 0, rowTy.empty) := by
    intro r hr
    obtain rfl : r = slotA c := by simpa using hr
    exact ⟨.prim rfl, trivial⟩
  refine .cls true (ti_valid _) (.cons _ _ (.cons _ _ (.cons _ _ .nil))) ?_
    ⟨⟨.prim rfl, trivial⟩, hclean, ⟨by simp, by simp⟩, trivial⟩ (fun d hd => by cases hd)
  intro p hp
  simp only [List.mem_cons, List.not_mem_nil, or_false] at hp
  rcases hp with rfl | rfl | rfl
  · exact .base _
  · exact tooFewComposed c
  · exact .vector true (ti_valid _) (tooFewComposed c)

/-- `{7, {1, {0, 1}}, {{2, {}}}}`. -/
def nests : Val × (Val × View Val) × Vec (Val × View Val) × Unit :=
  (num 7, (num 1, row 2), ⟨1, [(num 2, row 0)]⟩, ())

theorem tooFew_ok (k : UInt8) (n : Nat) (hn : n < 2 ^ 32) : (tooFewUse c).ok (num k, row n) := by
  intro r hr
  have : r = slotA c ∨ r = slotAA c := by simpa using hr
  rcases this with rfl | rfl
  · exact ⟨int_ok _ _, rfl⟩
  · exact ⟨row_use _ _ hn, rfl⟩

theorem nests_ok : (Usage.cls (nestsUses c)).ok nests := by
  refine ⟨int_ok _ _, tooFew_ok c _ _ (by decide), ⟨?_, by decide, by decide, ?_⟩, trivial⟩
  · intro x hx
    simp only [nests, List.mem_cons, List.not_mem_nil, or_false] at hx
    subst hx
    exact tooFew_ok c _ _ (by decide)
  · show _ * _ < _
    decide

/-- `s | n; if (n != 0 && !s.isUnpacking()) s | row;`: a mistake that does not always matter. -/
def sometimesProg : Prog (Val × View Val) :=
  .visit (.base c Demo.env int) (fun o => some o.1) (fun a o => (a, o.2)) (.mode .done (.look fun o =>
    if isZero o.1 then .done else .visit (rowType c) (fun o => some o.2) (fun v o => (o.1, v)) .done))

def sometimesType : CppType (Val × View Val) :=
  .program c (Demo.env.ti int) (num 0, rowTy.empty) (some (num 0, rowTy.empty)) true (sometimesProg c)

def sometimesUse : Usage (Val × View Val) where
  ok x := (Usage.base .contents c Demo.env int).ok x.1 ∧ (isZero x.1 = false → (rowUse c).ok x.2)
  clean y := (Usage.base .contents c Demo.env int).clean y.1
  same x y := x.1 = y.1 ∧ isZero x.1 = true
  many n := (Demo.env.ti int).sizeof * n < 2 ^ 31

def sometimesItems (x : Val × View Val) : List Item :=
  .one (.base c Demo.env int) (.base .contents c Demo.env int) x.1 ::
    if isZero x.1 then [] else [.one (rowType c) (rowUse c) x.2]

theorem sometimes_checked : ∀ (xs : List (Val × View Val)) (x y : Val × View Val) (vs zs ys : List (Val × View Val)),
    xs.length = ys.length → (∀ z ∈ y :: ys, (sometimesUse c).clean z) → List.Forall₂ (sometimesUse c).same vs zs →
    (sometimesProg c).Checked c (List.Forall₂ (sometimesUse c).same (vs ++ x :: xs))
      ((x :: xs).flatMap (sometimesItems c)) (sometimesProg c) zs y ys := by
  intro xs
  induction xs with
  | nil =>
    intro x y vs zs ys hl hy hv
    obtain rfl : ys = [] := List.length_eq_zero_iff.1 hl.symm
    refine .visit rfl (hy y (.head _)) fun a ha => .mode ?_
    have key : ∀ {a b : Val}, Rel .contents Demo.env int a b → a = b := by
      intro a b h
      cases h
      rfl
    have hxa : x.1 = a := key ha
    subst hxa
    cases h : isZero x.1 with
    | true => exact .last (List.rel_append hv (.cons ⟨rfl, h⟩ .nil))
    | false => exact .left rfl
  | cons x' xs ih =>
    intro x y vs zs ys hl hy hv
    match ys, hl, hy with
    | y' :: ys, hl, hy =>
    refine .visit rfl (hy y (.head _)) fun a ha => .mode (.next ?_)
    have key : ∀ {a b : Val}, Rel .contents Demo.env int a b → a = b := by
      intro a b h
      cases h
      rfl
    have hxa : x.1 = a := key ha
    subst hxa
    cases h : isZero x.1 with
    | true =>
      have := ih x' y' (vs ++ [x]) (zs ++ [(x.1, y.2)]) ys (by simpa using hl) (fun z hz => hy z (.tail _ hz))
        (List.rel_append hv (.cons ⟨rfl, h⟩ .nil))
      simpa [sometimesItems, h, List.flatMap_def] using this
    | false =>
      refine .other (ti := Demo.env.ti int) (j := (rowType c).ti.idx) rfl rfl ?_
      simp [rowType, CppType.view]
      decide

theorem sometimesComposed : ComposedOf true .contents c Demo.env (sometimesType c) (sometimesUse c) := by
  refine .checkedProgram (ps := fun q => q = ⟨Val, .base c Demo.env int, .base .contents c Demo.env int⟩ ∨
      q = ⟨View Val, rowType c, rowUse c⟩) true (sometimesItems c) rfl (ti_valid _) ?_ ?_ ?_ ?_ ⟨.prim rfl, trivial⟩
    (fun d hd => by cases hd; exact ⟨.prim rfl, trivial⟩) (by decide) (fun _ h => h)
  · refine ⟨⟨_, .inl rfl⟩, trivial, fun o => ?_⟩
    show Prog.Within _ (if _ then _ else _)
    split
    · trivial
    · exact ⟨⟨_, .inr rfl⟩, trivial⟩
  · rintro _ (rfl | rfl)
    · exact .base _
    · exact .view viewTI_valid rfl (.base _)
  · intro x hx
    refine ⟨.visit _ rfl rfl (.mode (.look ?_)), ?_⟩
    · split
      · exact .done
      · exact .visit _ rfl rfl .done
    · intro i hi
      simp only [sometimesItems, List.mem_cons] at hi
      rcases hi with rfl | hi
      · exact ⟨.inl rfl, hx.1⟩
      · split at hi
        · cases hi
        · rename_i h
          simp only [List.mem_cons, List.not_mem_nil, or_false] at hi
          subst hi
          exact ⟨.inr rfl, hx.2 (by simpa using h)⟩
  · intro xs y ys hl _ hy
    match xs, hl with
    | x :: xs, hl => exact sometimes_checked c xs x y [] [] ys (by simpa using hl) hy .nil

end Demo

/-- The hypotheses of the theorems are met, nothing is equal to the object. -/
example : (Demo.cfg true true).check = true ∧ Demo.env.Usable .contents (· ∈ builtinKinds) (Demo.cfg true true) ∧
    Demo.env.Distinguishable ∧
    ComposedOf true .contents (Demo.cfg true true) Demo.env (Demo.nestsType (Demo.cfg true true))
      (.cls (Demo.nestsUses (Demo.cfg true true))) ∧
    (Usage.cls (Demo.nestsUses (Demo.cfg true true))).ok Demo.nests ∧
    ∀ w, ¬ (Usage.cls (Demo.nestsUses (Demo.cfg true true))).same Demo.nests w :=
  ⟨rfl, Demo.valid_contents.toUsable, fun c h => absurd (Demo.valid_contents (check := true) (ndebug := true) |>.sym c) h,
    Demo.nestsComposed _, Demo.nests_ok _, fun _ h => h.2.1⟩

/-- Some objects of a vector are restored, others rejected. -/
example : ComposedOf true .contents (Demo.cfg true true) Demo.env
      (.vector (Demo.cfg true true) (Demo.env.ti Demo.int) true (Demo.sometimesType (Demo.cfg true true)))
      (.vector (Demo.sometimesType (Demo.cfg true true)) (Demo.sometimesUse (Demo.cfg true true))) ∧
    (Demo.sometimesUse (Demo.cfg true true)).ok (Demo.num 1, Demo.row 2) ∧
    (∀ w, ¬ (Demo.sometimesUse (Demo.cfg true true)).same (Demo.num 1, Demo.row 2) w) ∧
    (Demo.sometimesUse (Demo.cfg true true)).same (Demo.num 0, Demo.row 2) (Demo.num 0, Demo.row 1) :=
  ⟨.vector true (Demo.ti_valid _) (Demo.sometimesComposed _), ⟨Demo.int_ok _ _, fun _ => Demo.row_use _ _ (by decide)⟩,
    fun _ h => absurd h.2 (by decide), rfl, rfl⟩

end Ckpt
