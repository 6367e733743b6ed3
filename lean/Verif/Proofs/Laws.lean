import Verif.Model.Dispatch
import Verif.Proofs.Bytes
import Mathlib.Data.List.Forall2
/-!
Proof infrastructure: what it means that a computation writes / reads / counts given bytes on every
serializer, and how such facts compose.  Not part of the property statements.
-/

set_option autoImplicit false

namespace Ckpt

@[simp] theorem Out.bind_ok {α β : Type} (a : α) (f : α → Out β) : Out.bind (.ok a) f = f a := rfl
@[simp] theorem Out.bind_throw {α β : Type} (e : Err) (f : α → Out β) :
    Out.bind (.throw e) f = .throw e := rfl
@[simp] theorem Out.bind_abort {α β : Type} (f : α → Out β) : Out.bind (.abort) f = .abort := rfl
@[simp] theorem Out.bind_ub {α β : Type} (u : UB) (f : α → Out β) : Out.bind (.ub u) f = .ub u := rfl
@[simp] theorem Out.bind_fuel {α β : Type} (f : α → Out β) : Out.bind (.fuel) f = .fuel := rfl
@[simp] theorem Out.bind_eq {α β : Type} (o : Out α) (f : α → Out β) : (o >>= f) = Out.bind o f := rfl
@[simp] theorem Out.pure_eq {α : Type} (a : α) : (pure a : Out α) = .ok a := rfl

theorem Out.bind_assoc {α β γ : Type} (o : Out α) (f : α → Out β) (g : β → Out γ) :
    Out.bind (Out.bind o f) g = Out.bind o (fun a => Out.bind (f a) g) := by
  cases o <;> rfl

@[simp] theorem Out.bind_ok_right {α : Type} (o : Out α) : Out.bind o .ok = o := by
  cases o <;> rfl

/-- What a law is about: the serializer classes in use, and the exceptions that reading may end with
(none if every class reads what it writes). -/
structure Scope where
  kinds : Kind → Prop
  errs : Err → Prop
  /-- closed under what `Traverse::with` does to a passing exception. -/
  closed : ∀ k d tr nm, errs (.ser k d tr) → errs (.ser k (d + 1) (tr ++ [nm]))

/-- Reading never throws. -/
def Scope.quiet (K : Kind → Prop) : Scope := ⟨K, fun _ => False, fun _ _ _ _ h => h⟩

/-- A reading computation ended with one of the exceptions of the scope. -/
def Scope.Fails (K : Scope) {α : Type} (o : Out α) : Prop := ∃ e, K.errs e ∧ o = .throw e

namespace Ser

/-- Does this serializer write type headers? -/
def headers (s : Ser) : Bool := s.isPacking || s.isSizing

/-- Appending bytes to a writing serializer. -/
def emit (s : Ser) (bs : Bytes) : Out Ser :=
  match s.core with
  | .sizer n => .ok { s with core := .sizer ((n + bs.length) % sizeMod) }
  | .packer mem cur used =>
    if cur + bs.length ≤ mem.length then
      .ok { s with core := .packer (mem.take cur ++ bs ++ mem.drop (cur + bs.length))
                             (cur + bs.length) (used + bs.length) }
    else .ub .packOverflow
  | .streamPacker out limit n =>
    let all := out ++ bs
    .ok { s with core := .streamPacker (match limit with | none => all | some l => all.take l)
                           limit (n + bs.length) }
  | .traverser seen => .ok { s with core := .traverser (seen ++ bs) }
  | _ => .ok s

/-- Unread input of a reading serializer. -/
def remaining (s : Ser) : Bytes :=
  match s.core with
  | .unpacker mem cur _ => mem.drop cur
  | .streamUnpacker inp _ => inp
  | _ => []

/-- A reading serializer after consuming `n` bytes. -/
def advance (s : Ser) (n : Nat) : Ser :=
  match s.core with
  | .unpacker mem cur used => { s with core := .unpacker mem (cur + n) (used + n) }
  | .streamUnpacker inp k => { s with core := .streamUnpacker (inp.drop n) (k + n) }
  | _ => s

/-- What happens when the input of a reading serializer ends too early. -/
def short {α : Type} (s : Ser) : Out α :=
  match s.core with
  | .unpacker .. => .ub .readOverflow
  | _ => .throw .streamShort

/-- A writing serializer in a consistent state. -/
def Writer (K : Scope) (s : Ser) : Prop :=
  s.vdis = false ∧ K.kinds s.kind ∧
  match s.core with
  | .sizer n => n < sizeMod
  | .packer mem cur _ => cur ≤ mem.length
  | .streamPacker out limit _ => ∀ l, limit = some l → out.length ≤ l
  | .traverser _ => s.kind = .custom
  | _ => False

/-- A reading serializer in a consistent state. -/
def Reader (K : Scope) (s : Ser) : Prop :=
  s.vdis = false ∧ K.kinds s.kind ∧
  match s.core with
  | .unpacker mem cur _ => cur ≤ mem.length
  | .streamUnpacker .. => True
  | _ => False

/-- A footprinter. -/
def Footer (K : Scope) (s : Ser) : Prop :=
  s.vdis = false ∧ K.kinds s.kind ∧
  match s.core with
  | .footprinter n => n < sizeMod
  | _ => False

variable {K : Scope}

theorem emit_nil {s : Ser} (h : Writer K s) : s.emit [] = .ok s := by
  obtain ⟨core, kind, vdis⟩ := s
  cases core <;> simp_all [Writer, emit]
  · exact Nat.mod_eq_of_lt h.2.2
  · rename_i out limit n
    cases limit <;> simp_all
    exact List.take_of_length_le h.2.2

theorem emit_append (s : Ser) (a b : Bytes) : s.emit (a ++ b) = (s.emit a).bind (·.emit b) := by
  obtain ⟨core, kind, vdis⟩ := s
  cases core <;> simp [emit, Nat.add_assoc]
  · rename_i mem cur used
    by_cases h1 : cur + a.length ≤ mem.length
    · simp only [h1, if_true, Out.bind_ok]
      have hl : (mem.take cur ++ (a ++ mem.drop (cur + a.length))).length = mem.length := by
        simp; omega
      simp only [hl, ← Nat.add_assoc]
      by_cases h2 : cur + a.length + b.length ≤ mem.length
      · simp only [h2, if_true]
        congr 2
        congr 1
        have ht : (mem.take cur ++ (a ++ mem.drop (cur + a.length))).take (cur + a.length)
            = mem.take cur ++ a := by
          rw [← List.append_assoc, List.take_append_of_le_length (by simp; omega),
            List.take_of_length_le (by simp; omega)]
        have hd : (mem.take cur ++ (a ++ mem.drop (cur + a.length))).drop (cur + a.length + b.length)
            = mem.drop (cur + a.length + b.length) := by
          rw [← List.append_assoc, List.drop_append]
          have : (mem.take cur ++ a).length = cur + a.length := by simp; omega
          rw [this, List.drop_of_length_le (by rw [this]; omega), List.nil_append, List.drop_drop]
          congr 1; omega
        rw [ht, hd]; simp [List.append_assoc]
      · simp [h2]
    · have : ¬ (cur + (a.length + b.length) ≤ mem.length) := by omega
      simp [h1, this]
  · rename_i out limit n
    cases limit with
    | none => simp
    | some l =>
      simp only
      suffices h : (out ++ (a ++ b)).take l = ((out ++ a).take l ++ b).take l by rw [h]
      rw [← List.append_assoc]
      generalize out ++ a = x
      by_cases h : l ≤ x.length
      · rw [List.take_append_of_le_length h,
          List.take_append_of_le_length (by rw [List.length_take]; omega), List.take_take,
          Nat.min_self]
      · rw [List.take_of_length_le (l := x) (by omega)]

theorem emit_ok {s s' : Ser} {bs : Bytes} (h : Writer K s) (he : s.emit bs = .ok s') :
    Writer K s' ∧ s'.headers = s.headers ∧ s'.vdis = s.vdis ∧ s'.kind = s.kind := by
  obtain ⟨core, kind, vdis⟩ := s
  cases core <;> simp [Writer, emit] at h he
  · subst he; simp_all [Writer, headers, isPacking, isSizing, mode]
    exact Nat.mod_lt _ (by decide)
  · split at he
    · simp only [Out.ok.injEq] at he
      subst he
      simp_all [Writer, headers, isPacking, isSizing, mode]
    · simp at he
  · subst he
    rename_i out limit n
    refine ⟨⟨h.1, h.2.1, ?_⟩, rfl, rfl, rfl⟩
    intro l hl
    simp [hl]
    omega
  · subst he; exact ⟨⟨h.1, h.2.1, h.2.2⟩, rfl, rfl, rfl⟩

theorem emit_cases (s : Ser) (bs : Bytes) :
    (∃ s', s.emit bs = .ok s') ∨ s.emit bs = .ub .packOverflow := by
  obtain ⟨core, kind, vdis⟩ := s
  cases core <;> simp [emit]
  split
  · simp
  · simp; omega

theorem Writer.not_unpacking {s : Ser} (h : Writer K s) : s.isUnpacking = false := by
  obtain ⟨core, kind, vdis⟩ := s
  cases core <;> simp_all [Writer, isUnpacking, mode]

theorem Writer.not_footprinting {s : Ser} (h : Writer K s) : s.isFootprinting = false := by
  obtain ⟨core, kind, vdis⟩ := s
  cases core <;> simp_all [Writer, isFootprinting, mode]

theorem Writer.addBytes {s : Ser} (h : Writer K s) (n : Nat) : s.addBytes n = s := by
  obtain ⟨core, kind, vdis⟩ := s
  cases core <;> simp_all [Writer, Ser.addBytes]

theorem Reader.unpacking {s : Ser} (h : Reader K s) : s.isUnpacking = true := by
  obtain ⟨core, kind, vdis⟩ := s
  cases core <;> simp_all [Reader, isUnpacking, mode]

theorem Reader.not_footprinting {s : Ser} (h : Reader K s) : s.isFootprinting = false := by
  obtain ⟨core, kind, vdis⟩ := s
  cases core <;> simp_all [Reader, isFootprinting, mode]

theorem Reader.not_packing {s : Ser} (h : Reader K s) : s.isPacking = false ∧ s.isSizing = false := by
  obtain ⟨core, kind, vdis⟩ := s
  cases core <;> simp_all [Reader, isPacking, isSizing, mode]

theorem Reader.addBytes {s : Ser} (h : Reader K s) (n : Nat) : s.addBytes n = s := by
  obtain ⟨core, kind, vdis⟩ := s
  cases core <;> simp_all [Reader, Ser.addBytes]

theorem Footer.footprinting {s : Ser} (h : Footer K s) : s.isFootprinting = true := by
  obtain ⟨core, kind, vdis⟩ := s
  cases core <;> simp_all [Footer, isFootprinting, mode]

theorem Footer.not_unpacking {s : Ser} (h : Footer K s) : s.isUnpacking = false := by
  obtain ⟨core, kind, vdis⟩ := s
  cases core <;> simp_all [Footer, isUnpacking, mode]

theorem Footer.not_packing {s : Ser} (h : Footer K s) : s.isPacking = false ∧ s.isSizing = false := by
  obtain ⟨core, kind, vdis⟩ := s
  cases core <;> simp_all [Footer, isPacking, isSizing, mode]

theorem Footer.addBytes {s : Ser} (h : Footer K s) (n : Nat) :
    Footer K (s.addBytes n) := by
  obtain ⟨core, kind, vdis⟩ := s
  cases core <;> simp_all [Footer, Ser.addBytes]
  exact Nat.mod_lt _ (by decide)

theorem Footer.addBytes_zero {s : Ser} (h : Footer K s) : s.addBytes 0 = s := by
  obtain ⟨core, kind, vdis⟩ := s
  cases core <;> simp_all [Footer, Ser.addBytes]
  exact Nat.mod_eq_of_lt h.2.2

theorem addBytes_addBytes (s : Ser) (a b : Nat) : (s.addBytes a).addBytes b = s.addBytes (a + b) := by
  obtain ⟨core, kind, vdis⟩ := s
  cases core <;> simp [Ser.addBytes, Nat.add_assoc]

theorem Reader.advance {s : Ser} (h : Reader K s) {n : Nat} (hn : n ≤ s.remaining.length) :
    Reader K (s.advance n) := by
  obtain ⟨core, kind, vdis⟩ := s
  cases core <;> simp_all [Reader, Ser.advance, remaining]
  omega

theorem remaining_advance (s : Ser) (n : Nat) :
    (s.advance n).remaining = s.remaining.drop n := by
  obtain ⟨core, kind, vdis⟩ := s
  cases core <;> simp [Ser.advance, remaining, List.drop_drop]

theorem advance_advance (s : Ser) (a b : Nat) : (s.advance a).advance b = s.advance (a + b) := by
  obtain ⟨core, kind, vdis⟩ := s
  cases core <;> simp [Ser.advance, List.drop_drop, Nat.add_assoc]

theorem advance_zero (s : Ser) : s.advance 0 = s := by
  obtain ⟨core, kind, vdis⟩ := s
  cases core <;> simp [Ser.advance]

theorem short_advance {α : Type} (s : Ser) (n : Nat) : ((s.advance n).short : Out α) = s.short := by
  obtain ⟨core, kind, vdis⟩ := s
  cases core <;> simp [Ser.advance, short]

theorem short_bind {α β : Type} (s : Ser) (f : α → Out β) : (s.short : Out α).bind f = s.short := by
  obtain ⟨core, kind, vdis⟩ := s
  cases core <;> rfl

end Ser

section
variable (K : Scope) (cfg : Cfg)

/-- On every writing serializer the computation appends `bs` and returns `b`; `bs` depends on
whether type headers are written. -/
def Wr {B : Type} (m : Ser → Out (B × Ser)) (bs : Bool → Bytes) (b : B) : Prop :=
  ∀ s, s.Writer K → m s = (s.emit (bs (cfg.check && s.headers))).bind fun s' => .ok (b, s')

/-- On every reading serializer the computation consumes exactly `bs` and returns something
satisfying `Q`; if the input is a proper prefix of `bs` it ends the way the serializer ends.  Or it
fails with an exception of the scope. -/
def Rd {B : Type} (m : Ser → Out (B × Ser)) (bs : Bytes) (Q : B → Prop) : Prop :=
  ∀ s, s.Reader K →
    (∀ rest, s.remaining = bs ++ rest →
      (∃ b, Q b ∧ m s = .ok (b, s.advance bs.length)) ∨ K.Fails (m s)) ∧
    (∀ t, t ≠ [] → bs = s.remaining ++ t → m s = s.short ∨ K.Fails (m s))

/-- On every footprinter the computation adds `n` and returns `b`. -/
def Fp {B : Type} (m : Ser → Out (B × Ser)) (n : Nat) (b : B) : Prop :=
  ∀ s, s.Footer K → m s = .ok (b, s.addBytes n)

variable {K cfg}

theorem Wr.pure {B : Type} (b : B) : Wr K cfg (fun s => .ok (b, s)) (fun _ => []) b := by
  intro s hs; simp [Ser.emit_nil hs]

theorem Wr.bind {B C : Type} {m : Ser → Out (B × Ser)} {k : B × Ser → Out (C × Ser)}
    {bs bs' : Bool → Bytes} {b : B} {c : C} (h1 : Wr K cfg m bs b)
    (h2 : Wr K cfg (fun s => k (b, s)) bs' c) :
    Wr K cfg (fun s => m s >>= k) (fun w => bs w ++ bs' w) c := by
  intro s hs
  simp only [Out.bind_eq, h1 s hs, Out.bind_assoc, Ser.emit_append]
  cases he : s.emit (bs (cfg.check && s.headers)) <;> simp
  obtain ⟨hw, hh, _⟩ := Ser.emit_ok hs he
  have := h2 _ hw
  simp only [hh] at this
  exact this

theorem Wr.congr {B : Type} {m m' : Ser → Out (B × Ser)} {bs bs' : Bool → Bytes} {b : B}
    (h : Wr K cfg m bs b) (hm : ∀ s, s.Writer K → m' s = m s) (hb : ∀ w, bs' w = bs w) :
    Wr K cfg m' bs' b := by
  intro s hs; rw [hm s hs, h s hs, hb]

theorem Scope.Fails.bind {K : Scope} {α β : Type} {o : Out α} (h : K.Fails o) (f : α → Out β) :
    K.Fails (o >>= f) := by
  obtain ⟨e, he, rfl⟩ := h
  exact ⟨e, he, rfl⟩

theorem Rd.pure {B : Type} {b : B} {Q : B → Prop} (h : Q b) :
    Rd K (fun s => .ok (b, s)) [] Q := by
  intro s hs
  refine ⟨fun rest _ => .inl ⟨b, h, by simp [Ser.advance_zero]⟩, fun t ht he => ?_⟩
  have := congrArg List.length he
  have h0 : 0 < t.length := List.length_pos_of_ne_nil ht
  simp only [List.length_nil, List.length_append] at this
  omega

theorem Rd.bind {B C : Type} {m : Ser → Out (B × Ser)} {k : B × Ser → Out (C × Ser)}
    {bs bs' : Bytes} {Q : B → Prop} {Q' : C → Prop} (h1 : Rd K m bs Q)
    (h2 : ∀ b, Q b → Rd K (fun s => k (b, s)) bs' Q') :
    Rd K (fun s => m s >>= k) (bs ++ bs') Q' := by
  intro s hs
  obtain ⟨hok, hsh⟩ := h1 s hs
  constructor
  · intro rest hr
    rcases hok (bs' ++ rest) (by rw [hr, List.append_assoc]) with ⟨b, hb, hm⟩ | hf
    · have hle : bs.length ≤ s.remaining.length := by rw [hr]; simp
      have hr' : (s.advance bs.length).remaining = bs' ++ rest := by
        rw [Ser.remaining_advance, hr, List.append_assoc, List.drop_left]
      rcases (h2 b hb _ (hs.advance hle)).1 rest hr' with ⟨c, hc, hk⟩ | ⟨e, he, hk⟩
      · refine .inl ⟨c, hc, ?_⟩
        simp [hm, hk, Ser.advance_advance]
      · refine .inr ⟨e, he, ?_⟩
        simp [hm, hk]
    · exact .inr (hf.bind _)
  · intro t ht he
    have hfull : ∀ a, s.remaining = bs ++ a → bs' = a ++ t →
        (m s >>= k) = s.short ∨ K.Fails (m s >>= k) := by
      intro a h1' h2'
      rcases hok a h1' with ⟨b, hb, hm⟩ | hf
      · have hle : bs.length ≤ s.remaining.length := by rw [h1']; simp
        have hr' : (s.advance bs.length).remaining = a := by
          rw [Ser.remaining_advance, h1', List.drop_left]
        rcases (h2 b hb _ (hs.advance hle)).2 t ht (by rw [hr', h2']) with this | ⟨e, he, hk⟩
        · left
          simp [hm, this, Ser.short_advance]
        · exact .inr ⟨e, he, by simp [hm, hk]⟩
      · exact .inr (hf.bind _)
    rcases List.append_eq_append_iff.1 he with ⟨a, h1', h2'⟩ | ⟨a, h1', h2'⟩
    · exact hfull a h1' h2'
    · -- bs = remaining ++ a
      by_cases ha : a = []
      · subst ha
        simp at h1' h2'
        exact hfull [] (by simp [h1']) (by simp [h2'])
      · rcases hsh a ha h1' with this | hf
        · left
          simp [this, Ser.short_bind]
        · exact .inr (hf.bind _)

theorem Rd.congr {B : Type} {m m' : Ser → Out (B × Ser)} {bs bs' : Bytes} {Q Q' : B → Prop}
    (h : Rd K m bs Q) (hm : ∀ s, s.Reader K → m' s = m s) (hb : bs' = bs) (hQ : ∀ b, Q b → Q' b) :
    Rd K m' bs' Q' := by
  intro s hs
  subst hb
  rw [hm s hs]
  obtain ⟨h1, h2⟩ := h s hs
  refine ⟨fun rest hr => ?_, h2⟩
  rcases h1 rest hr with ⟨b, hb, he⟩ | hf
  · exact .inl ⟨b, hQ b hb, he⟩
  · exact .inr hf

/-- Without exceptions in the scope reading succeeds. -/
theorem Rd.ok {B : Type} {m : Ser → Out (B × Ser)} {bs : Bytes} {Q : B → Prop}
    (h : Rd K m bs Q) (hE : ∀ e, ¬ K.errs e) {s : Ser} (hs : s.Reader K) :
    (∀ rest, s.remaining = bs ++ rest → ∃ b, Q b ∧ m s = .ok (b, s.advance bs.length)) ∧
    (∀ t, t ≠ [] → bs = s.remaining ++ t → m s = s.short) := by
  obtain ⟨h1, h2⟩ := h s hs
  refine ⟨fun rest hr => (h1 rest hr).resolve_right ?_, fun t ht he => (h2 t ht he).resolve_right ?_⟩
  · rintro ⟨e, he, _⟩; exact hE e he
  · rintro ⟨e, he, _⟩; exact hE e he

/-- If nothing satisfies the postcondition, reading fails. -/
theorem Rd.fails {B : Type} {m : Ser → Out (B × Ser)} {bs : Bytes} {Q : B → Prop}
    (h : Rd K m bs Q) (hQ : ∀ b, ¬ Q b) {s : Ser} (hs : s.Reader K) {rest : Bytes}
    (hr : s.remaining = bs ++ rest) : K.Fails (m s) :=
  ((h s hs).1 rest hr).resolve_left (fun ⟨b, hb, _⟩ => hQ b hb)

/-- A computation that looks at the first bytes `hd` only, and then throws. -/
theorem Rd.stop {B : Type} {m : Ser → Out (B × Ser)} {hd bs : Bytes} {Q : B → Prop}
    (hok : ∀ s rest, s.Reader K → s.remaining = hd ++ rest → K.Fails (m s))
    (hsh : ∀ s t, s.Reader K → t ≠ [] → hd = s.remaining ++ t → m s = s.short ∨ K.Fails (m s)) :
    Rd K m (hd ++ bs) Q := by
  intro s hs
  refine ⟨fun rest hr => .inr (hok s (bs ++ rest) hs (by rw [hr, List.append_assoc])), ?_⟩
  intro t ht he
  rcases List.append_eq_append_iff.1 he with ⟨a, h1', h2'⟩ | ⟨a, h1', h2'⟩
  · exact .inr (hok s a hs h1')
  · by_cases ha : a = []
    · subst ha
      exact .inr (hok s [] hs (by simpa using h1'.symm))
    · exact hsh s a hs ha h1'

theorem Rd.mono {B : Type} {m : Ser → Out (B × Ser)} {bs : Bytes} {Q Q' : B → Prop}
    (h : Rd K m bs Q) (hQ : ∀ b, Q b → Q' b) : Rd K m bs Q' :=
  h.congr (fun _ _ => rfl) rfl hQ

theorem Fp.pure {B : Type} (b : B) : Fp K (fun s => .ok (b, s)) 0 b := by
  intro s hs; simp [hs.addBytes_zero]

theorem Fp.bind {B C : Type} {m : Ser → Out (B × Ser)} {k : B × Ser → Out (C × Ser)}
    {n n' : Nat} {b : B} {c : C} (h1 : Fp K m n b) (h2 : Fp K (fun s => k (b, s)) n' c) :
    Fp K (fun s => m s >>= k) (n + n') c := by
  intro s hs
  have := h2 _ (hs.addBytes n)
  simp only [Out.bind_eq, h1 s hs, Out.bind_ok, this, Ser.addBytes_addBytes]

theorem Fp.congr {B : Type} {m m' : Ser → Out (B × Ser)} {n n' : Nat} {b : B}
    (h : Fp K m n b) (hm : ∀ s, s.Footer K → m' s = m s) (hb : n' = n) : Fp K m' n' b := by
  intro s hs; rw [hm s hs, h s hs, hb]

end
end Ckpt
