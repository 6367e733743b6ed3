import Verif.Proofs.Api
import Verif.Spec.Demo
/-!
# Round trip, sizes, bounds (C01–C09, C11, C45)

`elem cfg env n t` is type `t` of the program `env` in the build `cfg`, with nesting bound `n`;
`Yields f r` says that `f n` is `r` for all large enough `n`.  The hypotheses are the same
throughout: `env.Valid ..` are the assumptions about program and standard library, `WT .. t x` says
that `x` is a value of type `t`, `ByVal t x` that it is not a base-class view of a derived object.
Both build modes are covered because `cfg` is arbitrary.
-/

set_option autoImplicit false

namespace Ckpt

variable {R : RelMode} {cfg : Cfg} {env : Env} {t : Ty} {x : Val}

/-- `bs` is what `serializeToStream` writes for `x`. -/
def StreamForm (cfg : Cfg) (env : Env) (t : Ty) (x : Val) (bs : Bytes) : Prop :=
  Yields (fun n => serializeToStream cfg (elem cfg env n t) x { data := [] })
    (.ok (x, { data := bs }))

theorem isEnc_of_stream {bs : Bytes} (hv : env.Valid R (· ∈ builtinKinds) cfg) (hx : WT R env t x)
    (h : StreamForm cfg env t x bs) : IsEnc R cfg env t x bs := by
  obtain ⟨bs', h'⟩ := exists_enc hv (fun _ h => h) hx
  have := (h'.toStream hv (fun _ h => h) { data := [] } (by simp)).unique h
  simp only [Out.ok.injEq, Prod.mk.injEq, true_and, OStream.mk.injEq, List.nil_append, and_true] at this
  exact this ▸ h'

/-- Every value has exactly one stream form. -/
theorem StreamForm.exists (hv : env.Valid R (· ∈ builtinKinds) cfg) (hx : WT R env t x) :
    ∃ bs, StreamForm cfg env t x bs := by
  obtain ⟨bs, h⟩ := exists_enc hv (fun _ h => h) hx
  exact ⟨bs, by simpa [StreamForm] using h.toStream hv (fun _ h => h) { data := [] } (by simp)⟩

theorem StreamForm.unique {bs bs' : Bytes} (h : StreamForm cfg env t x bs)
    (h' : StreamForm cfg env t x bs') : bs = bs' := by
  have := Yields.unique h h'
  simpa using this

/-! ## C01 -/

/-- C01: serializing and deserializing from memory gives an object equal to the original.
(If the bytes of the object did not fit in `size_t`, `serialize` would not return, and
no memory could hold them.) -/
theorem C01_memory_roundtrip (hv : env.Valid .contents (· ∈ builtinKinds) cfg)
    (hx : WT .contents env t x) (hb : ByVal t x) :
    ∃ bs, StreamForm cfg env t x bs ∧
      (bs.length < 2 ^ 64 → ∃ p y, 
        Yields (fun n => serialize cfg (elem cfg env n t) none x) (.ok (p, x)) ∧
        Yields (fun n => deserialize cfg (elem cfg env n t) p.mem) (.ok (y, p.size)) ∧
        Rel .contents env t x y) := by
  obtain ⟨bs, hs⟩ := StreamForm.exists hv hx
  refine ⟨bs, hs, fun hfit => ?_⟩
  have he := isEnc_of_stream hv hx hs
  obtain ⟨y, hr, hy⟩ := he.inPlace hv (fun _ h => h)
    (prior_of_clean hv hb (hv.fresh t).2 (hv.fresh t).1) []
  refine ⟨_, y, he.serialize hv (fun _ h => h) hfit none, ?_, hr⟩
  simp only [deserialize_elem]
  simpa using hy

/-- C01, the same without mentioning streams: whatever `serialize` returns can be read back. -/
theorem C01_memory_roundtrip' (hv : env.Valid .contents (· ∈ builtinKinds) cfg)
    (hx : WT .contents env t x) (hb : ByVal t x) {p : Packed} {x' : Val}
    (hs : Yields (fun n => serialize cfg (elem cfg env n t) none x) (.ok (p, x'))) :
    ∃ y, Yields (fun n => deserialize cfg (elem cfg env n t) p.mem) (.ok (y, p.size)) ∧
      Rel .contents env t x y := by
  obtain ⟨bs, he⟩ := exists_enc hv (fun _ h => h) hx
  by_cases hfit : bs.length < 2 ^ 64
  · have hp := hs.unique (he.serialize hv (fun _ h => h) hfit none)
    simp only [serResult, Out.ok.injEq, Prod.mk.injEq] at hp
    obtain ⟨rfl, rfl⟩ := hp
    obtain ⟨y, hr, hy⟩ := he.inPlace hv (fun _ h => h)
      (prior_of_clean hv hb (hv.fresh t).2 (hv.fresh t).1) []
    refine ⟨y, ?_, hr⟩
    simp only [deserialize_elem]
    simpa using hy
  · have := hs.unique (he.serialize_overflow hv (fun _ h => h) hfit)
    cases this

example (check ndebug : Bool) :
    Demo.env.Valid .contents (· ∈ builtinKinds) (Demo.cfg check ndebug) ∧
    WT .contents Demo.env Demo.sampleTy Demo.sample ∧ ByVal Demo.sampleTy Demo.sample :=
  ⟨Demo.valid_contents, Demo.sample_wt, trivial⟩

/-! ## C02 -/

/-- C02: `getSize` is the number of bytes written, and the size of the returned buffer. -/
theorem C02_size_exact (hv : env.Valid R (· ∈ builtinKinds) cfg) (hx : WT R env t x) :
    ∃ k bs, Yields (fun n => getSize cfg (elem cfg env n t) x) (.ok (k, x)) ∧
      StreamForm cfg env t x bs ∧ k = bs.length % 2 ^ 64 ∧
      (bs.length < 2 ^ 64 →
        Yields (fun n => serialize cfg (elem cfg env n t) none x)
          (.ok ({ mem := bs, size := k, managed := true, calls := [] }, x))) := by
  obtain ⟨bs, hs⟩ := StreamForm.exists hv hx
  have he := isEnc_of_stream hv hx hs
  refine ⟨_, bs, he.getSize hv (fun _ h => h), hs, rfl, fun hfit => ?_⟩
  rw [Nat.mod_eq_of_lt hfit]
  exact he.serialize hv (fun _ h => h) hfit none

/-- C02: the Sizer/Packer mismatch error is never raised, whatever memory is used. -/
theorem C02_no_mismatch (hv : env.Valid R (· ∈ builtinKinds) cfg) (hx : WT R env t x) {bs : Bytes}
    (hs : StreamForm cfg env t x bs) (hfit : bs.length < 2 ^ 64) (fn : Option (Nat → Option Bytes))
    (err : Err) : ¬ Yields (fun n => serialize cfg (elem cfg env n t) fn x) (.throw err) := by
  intro h
  have := h.unique ((isEnc_of_stream hv hx hs).serialize hv (fun _ h => h) hfit fn)
  unfold serResult at this
  repeat' split at this
  all_goals cases this

example : WT .exact Demo.env Demo.sampleTy Demo.sample ∧
    Demo.env.Valid .exact (· ∈ builtinKinds) (Demo.cfg false true) :=
  ⟨Demo.sample_wt, Demo.valid_exact⟩

/-! ## C03 -/

/-- C03: packing into any memory of at least the requested size stays inside it and changes only the
first `getSize` bytes; a managed buffer is exactly that long.  (Writing outside memory is the
outcome `ub .packOverflow`, which these equations exclude.) -/
theorem C03_no_overflow (hv : env.Valid R (· ∈ builtinKinds) cfg) (hx : WT R env t x) {k : Nat}
    (hk : Yields (fun n => getSize cfg (elem cfg env n t) x) (.ok (k, x)))
    {bs : Bytes} (hs : StreamForm cfg env t x bs) (hfit : bs.length < 2 ^ 64)
    {mem : Bytes} (hm : k ≤ mem.length) :
    (∃ mem', Yields (fun n => serialize cfg (elem cfg env n t) (some fun _ => some mem) x)
        (.ok ({ mem := mem', size := k, managed := false, calls := [k] }, x)) ∧
      mem'.length = mem.length ∧ mem'.drop k = mem.drop k) ∧
    (∃ mem', Yields (fun n => serialize cfg (elem cfg env n t) none x)
        (.ok ({ mem := mem', size := k, managed := true, calls := [] }, x)) ∧ mem'.length = k) := by
  have he := isEnc_of_stream hv hx hs
  have := hk.unique (he.getSize hv (fun _ h => h))
  rw [Nat.mod_eq_of_lt hfit] at this
  simp only [Out.ok.injEq, Prod.mk.injEq, and_true] at this
  subst this
  refine ⟨⟨bs ++ mem.drop bs.length, ?_, ?_, ?_⟩, bs, ?_, rfl⟩
  · have := he.serialize hv (fun _ h => h) hfit (some fun _ => some mem)
    simpa [serResult, hm] using this
  · simp; omega
  · simp
  · exact he.serialize hv (fun _ h => h) hfit none

/-! ## C04 -/

/-- C04: reading back consumes exactly the bytes of the object, whatever follows them. -/
theorem C04_reads_exactly (hv : env.Valid .contents (· ∈ builtinKinds) cfg)
    (hx : WT .contents env t x) (hb : ByVal t x) {bs : Bytes} (hs : StreamForm cfg env t x bs)
    {y : Val} (hy : Clean .contents cfg env t y) (hyb : ByVal t y) (rest : Bytes) :
    (∃ z, Rel .contents env t x z ∧
      Yields (fun n => deserializeInPlace cfg (elem cfg env n t) (bs ++ rest) y)
        (.ok (z, bs.length))) ∧
    (∃ z, Rel .contents env t x z ∧
      Yields (fun n => deserialize cfg (elem cfg env n t) (bs ++ rest)) (.ok (z, bs.length))) := by
  have he := isEnc_of_stream hv hx hs
  refine ⟨he.inPlace hv (fun _ h => h) (prior_of_clean hv hb hyb hy) rest, ?_⟩
  simp only [deserialize_elem]
  exact he.inPlace hv (fun _ h => h) (prior_of_clean hv hb (hv.fresh t).2 (hv.fresh t).1) rest

example : Clean .contents (Demo.cfg true false) Demo.env Demo.sampleTy (Demo.fresh Demo.sampleTy) :=
  Demo.fresh_clean (fun _ _ => trivial) _

/-! ## C05 -/

/-- C05: sizing, footprinting, packing and streaming leave the object as it is. -/
theorem C05_object_unchanged (hv : env.Valid R (· ∈ builtinKinds) cfg) (hx : WT R env t x) :
    (∃ k, Yields (fun n => getSize cfg (elem cfg env n t) x) (.ok (k, x))) ∧
    (∀ off, ∃ k, Yields (fun n => getMemoryFootprint cfg (elem cfg env n t) x off) (.ok (k, x))) ∧
    (∀ o : OStream, (∀ l, o.limit = some l → o.data.length ≤ l) →
      ∃ o', Yields (fun n => serializeToStream cfg (elem cfg env n t) x o) (.ok (x, o'))) ∧
    (∀ fn p x', Yields (fun n => serialize cfg (elem cfg env n t) fn x) (.ok (p, x')) → x' = x) ∧
    (∀ kind ∈ builtinKinds, ∀ mem mem' k x',
      Yields (fun n => packMem cfg (elem cfg env n t) kind mem x) (.ok (mem', k, x')) → x' = x) := by
  obtain ⟨bs, he⟩ := exists_enc hv (fun _ h => h) hx
  refine ⟨⟨_, he.getSize hv (fun _ h => h)⟩, ?_, ?_, ?_, ?_⟩
  · obtain ⟨f, hf⟩ := he.footprint hv (fun _ h => h)
    exact fun off => ⟨_, hf off⟩
  · exact fun o ho => ⟨_, he.toStream hv (fun _ h => h) o ho⟩
  · rintro fn p x' ⟨n0, h0⟩
    obtain ⟨m0, hm⟩ := he
    exact serialize_same (fun _ h => h) (law hv _ t) (hm (max n0 m0) (Nat.le_max_right ..)).1
      (h0 (max n0 m0) (Nat.le_max_left ..))
  · rintro kind hk mem mem' k x' ⟨n0, h0⟩
    obtain ⟨m0, hm⟩ := he
    have h1 := h0 (max n0 m0) (Nat.le_max_left ..)
    simp only at h1
    rw [packMem_law (fun _ h => h) (law hv _ t) (hm (max n0 m0) (Nat.le_max_right ..)).1 hk] at h1
    split at h1
    · simp only [Out.ok.injEq, Prod.mk.injEq] at h1
      exact h1.2.2.symm
    · cases h1

/-! ## C06 -/

/-- C06: the buffer function is called once with the size; what it returns is filled with the bytes the
managed buffer would hold; if it returns null a managed buffer is used. -/
theorem C06_user_buffer (hv : env.Valid R (· ∈ builtinKinds) cfg) (hx : WT R env t x) {bs : Bytes}
    (hs : StreamForm cfg env t x bs) (hfit : bs.length < 2 ^ 64) (fn : Nat → Option Bytes) :
    ∃ k managed, Yields (fun n => getSize cfg (elem cfg env n t) x) (.ok (k, x)) ∧
      Yields (fun n => serialize cfg (elem cfg env n t) none x) (.ok (managed, x)) ∧
      managed.size = k ∧ managed.mem.length = k ∧
      match fn k with
      | none => Yields (fun n => serialize cfg (elem cfg env n t) (some fn) x)
          (.ok ({ managed with calls := [k] }, x))
      | some mem => k ≤ mem.length →
          Yields (fun n => serialize cfg (elem cfg env n t) (some fn) x)
            (.ok ({ mem := managed.mem ++ mem.drop k, size := k, managed := false, calls := [k] }, x)) := by
  have he := isEnc_of_stream hv hx hs
  have hk := he.getSize hv (fun _ h => h)
  rw [Nat.mod_eq_of_lt hfit] at hk
  refine ⟨bs.length, _, hk, he.serialize hv (fun _ h => h) hfit none, rfl, rfl, ?_⟩
  have h := he.serialize hv (fun _ h => h) hfit (some fn)
  cases hf : fn bs.length with
  | none => simpa [serResult, hf] using h
  | some mem =>
    intro hm
    simpa [serResult, hf, hm] using h

/-! ## C07 -/

/-- `serializeToStream` for a sequence of objects. -/
def writeAll (cfg : Cfg) (env : Env) (n : Nat) : List (Ty × Val) → OStream → Out OStream
  | [], o => .ok o
  | (t, x) :: rest, o => do
    let (_, o) ← serializeToStream cfg (elem cfg env n t) x o
    writeAll cfg env n rest o

/-- `deserializeFromStream` for a sequence of types. -/
def readAll (cfg : Cfg) (env : Env) (n : Nat) : List Ty → Bytes → Out (List Val × Bytes)
  | [], inp => .ok ([], inp)
  | t :: ts, inp => do
    let (y, inp) ← deserializeFromStream cfg (elem cfg env n t) inp
    let (ys, inp) ← readAll cfg env n ts inp
    .ok (y :: ys, inp)

/-- C07: objects written one after another are read back one after another; whatever follows is left
in the stream. -/
theorem C07_stream_sequence (hv : env.Valid .contents (· ∈ builtinKinds) cfg) :
    ∀ (xs : List (Ty × Val)), (∀ p ∈ xs, WT .contents env p.1 p.2 ∧ ByVal p.1 p.2) →
    ∀ before after : Bytes, ∃ bs,
      Yields (fun n => writeAll cfg env n xs { data := before }) (.ok { data := before ++ bs }) ∧
      ∃ ys, List.Forall₂ (fun p y => Rel .contents env p.1 p.2 y) xs ys ∧
        Yields (fun n => readAll cfg env n (xs.map (·.1)) (bs ++ after)) (.ok (ys, after)) := by
  intro xs
  induction xs with
  | nil =>
    intro _ before after
    exact ⟨[], ⟨0, fun _ _ => by simp [writeAll]⟩, [], .nil, 0, fun _ _ => by simp [readAll]⟩
  | cons p xs ih =>
    obtain ⟨t, x⟩ := p
    intro h before after
    obtain ⟨hx, hb⟩ := h (t, x) (List.mem_cons_self ..)
    obtain ⟨bs, he⟩ := exists_enc hv (fun _ h => h) hx
    obtain ⟨bs', ⟨n1, h1⟩, ys, hys, n2, h2⟩ :=
      ih (fun p hp => h p (List.mem_cons_of_mem _ hp)) (before ++ bs) after
    obtain ⟨n3, h3⟩ := he.toStream hv (fun _ h => h) { data := before } (by simp)
    obtain ⟨y, hy, n4, h4⟩ := he.inStream hv (fun _ h => h)
      (prior_of_clean hv hb (hv.fresh t).2 (hv.fresh t).1) (bs' ++ after)
    refine ⟨bs ++ bs', ⟨max n1 n3, fun n hn => ?_⟩, y :: ys, .cons hy hys, max n2 n4, fun n hn => ?_⟩
    · have e3 := h3 n (by omega)
      have e1 := h1 n (by omega)
      simp only [writeAll, e3, Out.bind_eq, Out.bind_ok, e1, List.append_assoc]
    · have e4 := h4 n (by omega)
      have e2 := h2 n (by omega)
      simp only [List.map_cons, readAll, deserializeFromStream_elem, List.append_assoc, e4, Out.bind_eq,
        Out.bind_ok, e2]

example : ∀ p ∈ [(Demo.sampleTy, Demo.sample), (Ty.cls 2, Demo.circle)],
    WT .contents Demo.env p.1 p.2 ∧ ByVal p.1 p.2 := by
  intro p hp
  simp only [List.mem_cons, List.not_mem_nil, or_false] at hp
  rcases hp with rfl | rfl
  · exact ⟨Demo.sample_wt, trivial⟩
  · exact ⟨Demo.circle_wt 2 (.inr rfl), rfl⟩

/-! ## C08, C09 -/

/-- C08: a stream that ends inside the object makes both calls throw, at every cut point. -/
theorem C08_truncated_stream_throws (hv : env.Valid .contents (· ∈ builtinKinds) cfg)
    (hx : WT .contents env t x) (hb : ByVal t x) {bs inp : Bytes} (hs : StreamForm cfg env t x bs)
    (hpre : inp <+: bs) (hne : inp ≠ bs) {y : Val} (hy : Clean .contents cfg env t y)
    (hyb : ByVal t y) :
    Yields (fun n => deserializeInPlaceFromStream cfg (elem cfg env n t) inp y)
      (.throw .streamShort) ∧
    Yields (fun n => deserializeFromStream cfg (elem cfg env n t) inp) (.throw .streamShort) := by
  have he := isEnc_of_stream hv hx hs
  obtain ⟨tl, rfl⟩ := hpre
  have htl : tl ≠ [] := by rintro rfl; simp at hne
  refine ⟨he.inStream_short hv (fun _ h => h) (prior_of_clean hv hb hyb hy) htl rfl, ?_⟩
  simp only [deserializeFromStream_elem]
  exact he.inStream_short hv (fun _ h => h)
    (prior_of_clean hv hb (hv.fresh t).2 (hv.fresh t).1) htl rfl

/-- C09: memory that ends inside the object is read past its end, at every cut point. -/
theorem C09_truncated_memory_overread (hv : env.Valid .contents (· ∈ builtinKinds) cfg)
    (hx : WT .contents env t x) (hb : ByVal t x) {bs inp : Bytes} (hs : StreamForm cfg env t x bs)
    (hpre : inp <+: bs) (hne : inp ≠ bs) {y : Val} (hy : Clean .contents cfg env t y)
    (hyb : ByVal t y) :
    Yields (fun n => deserializeInPlace cfg (elem cfg env n t) inp y) (.ub .readOverflow) ∧
    Yields (fun n => deserialize cfg (elem cfg env n t) inp) (.ub .readOverflow) := by
  have he := isEnc_of_stream hv hx hs
  obtain ⟨tl, rfl⟩ := hpre
  have htl : tl ≠ [] := by rintro rfl; simp at hne
  refine ⟨he.inPlace_short hv (fun _ h => h) (prior_of_clean hv hb hyb hy) htl rfl, ?_⟩
  simp only [deserialize_elem]
  exact he.inPlace_short hv (fun _ h => h)
    (prior_of_clean hv hb (hv.fresh t).2 (hv.fresh t).1) htl rfl

/-- A serialized object has at least the type header and the trailer, so there are cut points. -/
theorem streamForm_length (hv : env.Valid R (· ∈ builtinKinds) cfg) (hx : WT R env t x) {bs : Bytes}
    (hs : StreamForm cfg env t x bs) : 12 ≤ bs.length := by
  obtain ⟨n0, h0⟩ := isEnc_of_stream hv hx hs
  rw [← (h0 n0 (Nat.le_refl _)).2]
  simp [topEnc, node]
  omega

example : ∃ bs, StreamForm (Demo.cfg true false) Demo.env Demo.sampleTy Demo.sample bs ∧
    bs.take 5 <+: bs ∧ bs.take 5 ≠ bs := by
  obtain ⟨bs, h⟩ := StreamForm.exists (Demo.valid_contents (check := true) (ndebug := false))
    Demo.sample_wt
  refine ⟨bs, h, List.take_prefix .., fun he => ?_⟩
  have := streamForm_length Demo.valid_contents Demo.sample_wt h
  have hl := congrArg List.length he
  simp at hl
  omega

/-! ## C45 -/

/-- `deserialize` called `k` times on the same memory. -/
def deserializeTimes (cfg : Cfg) (env : Env) (n : Nat) (t : Ty) (mem : Bytes) : Nat → Out (List Val)
  | 0 => .ok []
  | k + 1 => do
    let (y, _) ← deserialize cfg (elem cfg env n t) mem
    let ys ← deserializeTimes cfg env n t mem k
    .ok (y :: ys)

/-- The memory behind an unpacking serializer. -/
def Ser.memory (s : Ser) : Bytes :=
  match s.core with
  | .unpacker mem _ _ => mem
  | _ => []

/-- C45: unpacking leaves the source memory as it was. -/
theorem C45_buffer_unchanged (hv : env.Valid .contents (· ∈ builtinKinds) cfg)
    (hx : WT .contents env t x) (hb : ByVal t x) {bs : Bytes} (hs : StreamForm cfg env t x bs)
    {y : Val} (hy : Clean .contents cfg env t y) (hyb : ByVal t y) (rest : Bytes) :
    ∃ n0, ∀ n, n0 ≤ n → ∃ z s',
      traverseTop cfg (elem cfg env n t) { core := .unpacker (bs ++ rest) 0 0, kind := .unpacker } y
        = .ok (z, s') ∧ s'.memory = bs ++ rest := by
  obtain ⟨n0, h0⟩ := isEnc_of_stream hv hx hs
  refine ⟨n0, fun n hn => ?_⟩
  obtain ⟨hp, he⟩ := h0 n hn
  obtain ⟨z, _, hz⟩ := ((top_rd (law hv n t) hp (prior_of_clean hv hb hyb hy n hp)).ok (fun _ h => h)
    (s := { core := .unpacker (bs ++ rest) 0 0, kind := .unpacker })
    ⟨rfl, by simp [builtinKinds, Scope.quiet], by simp⟩).1 rest (by
      show List.drop 0 (bs ++ rest) = _ ++ rest
      rw [show topEnc cfg (elem cfg env n t).ti (codec .contents cfg env n t) x = bs from he]
      rfl)
  exact ⟨z, _, hz, rfl⟩

/-- C45: any number of calls on the same buffer give the same result, equal to the serialized object.
(`C45_buffer_unchanged` is why each call may be given the same memory.) -/
theorem C45_deserialize_repeatedly (hv : env.Valid .contents (· ∈ builtinKinds) cfg)
    (hx : WT .contents env t x) (hb : ByVal t x) {bs : Bytes} (hs : StreamForm cfg env t x bs) :
    ∃ y, Rel .contents env t x y ∧
      ∀ k, Yields (fun n => deserializeTimes cfg env n t bs k) (.ok (List.replicate k y)) := by
  have he := isEnc_of_stream hv hx hs
  obtain ⟨y, hr, n0, hy⟩ := he.inPlace hv (fun _ h => h)
    (prior_of_clean hv hb (hv.fresh t).2 (hv.fresh t).1) []
  refine ⟨y, hr, fun k => ⟨n0, fun n hn => ?_⟩⟩
  have e := hy n hn
  simp only [List.append_nil] at e
  induction k with
  | zero => rfl
  | succ k ih =>
    simp only [deserializeTimes, deserialize_elem, e, Out.bind_eq, Out.bind_ok, ih,
      List.replicate_succ]

end Ckpt
