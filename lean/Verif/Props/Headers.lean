import Verif.Props.RoundTrip
import Verif.Proofs.Headers
import Verif.Proofs.Visits
import Verif.Spec.DemoAsym
/-!
# Rejection of wrong input (C12–C16)
-/

set_option autoImplicit false

namespace Ckpt

variable {R : RelMode} {cfg : Cfg} {env : Env} {t : Ty} {x : Val}

/-- All calls that read an object of type `e`, on every target object `y`, throw a
`serialization_error` for input `inp`. -/
def AllReadsThrow {T : Type} (cfg : Cfg) (e : Elem T) (inp : Bytes) : Prop :=
  (∀ y, ∃ k d tr, deserializeInPlace cfg e inp y = .throw (.ser k d tr)) ∧
  (∃ k d tr, deserialize cfg e inp = .throw (.ser k d tr)) ∧
  (∀ y, ∃ k d tr, deserializeInPlaceFromStream cfg e inp y = .throw (.ser k d tr)) ∧
  (∃ k d tr, deserializeFromStream cfg e inp = .throw (.ser k d tr))

theorem allReadsThrow {T : Type} {e : Elem T} {b : Bytes} (hb : b.length = 4)
    (hbad : validateIndex (intVal cfg.endian b) = false ∨ e.ti.idx ≠ intVal cfg.endian b)
    (rest : Bytes) : AllReadsThrow cfg e (b ++ rest) :=
  ⟨fun y => ⟨_, _, _, inPlace_reject hb hbad y⟩,
   ⟨_, _, _, (deserialize_eq cfg e _).trans (inPlace_reject hb hbad _)⟩,
   fun y => ⟨_, _, _, inStream_reject hb hbad y⟩, ⟨_, _, _, inStream_reject hb hbad _⟩⟩

/-! ## C12 -/

theorem streamForm_head (hv : env.Valid R (· ∈ builtinKinds) cfg) (hx : WT R env t x) {bs : Bytes}
    (hs : StreamForm cfg env t x bs) : ∃ tl, bs = intBytes cfg.endian 4 (env.ti t).idx ++ tl := by
  obtain ⟨n0, h0⟩ := isEnc_of_stream hv hx hs
  have h := (h0 n0 (Nat.le_refl _)).2
  simp only [topEnc, node, if_true, List.append_assoc] at h
  exact ⟨_, h.symm⟩

/-- C12: the bytes of an object of type `t` are rejected by every reading call of a type with another
index.  `e` is any type at all: nothing is assumed about what its serialization code would do with
the target object, because the exception is thrown before that code runs.  `cfg` is any build. -/
theorem C12_wrong_type_rejected (hv : env.Valid R (· ∈ builtinKinds) cfg) (hx : WT R env t x)
    {bs : Bytes} (hs : StreamForm cfg env t x bs) {T : Type} (e : Elem T)
    (hne : e.ti.idx ≠ (env.ti t).idx) (rest : Bytes) : AllReadsThrow cfg e (bs ++ rest) := by
  obtain ⟨tl, rfl⟩ := streamForm_head hv hx hs
  rw [List.append_assoc]
  refine allReadsThrow (by simp) (.inr ?_) _
  rw [intVal_intBytes_of_lt _ (show _ < 256 ^ 4 from (hv.ti t).1)]
  exact hne

/-- C12: distinct types have distinct indices as long as at most 65536 types are registered. -/
theorem C12_registered_types (hv : env.Valid R (· ∈ builtinKinds) cfg) (hx : WT R env t x)
    {bs : Bytes} (hs : StreamForm cfg env t x bs) {T : Type} (e : Elem T)
    {names : List Nat} (hlen : names.length ≤ 65536) {i j : Nat} (hij : i ≠ j)
    (hi : (TypeReg.registerAll {} names).1[i]? = some (env.ti t).idx)
    (hj : (TypeReg.registerAll {} names).1[j]? = some e.ti.idx) (rest : Bytes) :
    AllReadsThrow cfg e (bs ++ rest) := by
  refine C12_wrong_type_rejected hv hx hs e (fun he => hij ?_) rest
  have hli : i < names.length := by
    rw [← registerAll_length names {}]; exact (List.getElem?_eq_some_iff.1 hi).1
  have hlj : j < names.length := by
    rw [← registerAll_length names {}]; exact (List.getElem?_eq_some_iff.1 hj).1
  rw [registerAll_get names {} i (by decide) hli, Option.some_inj] at hi
  rw [registerAll_get names {} j (by decide) hlj, Option.some_inj, he, ← hi] at hj
  have h := encodeIndex_inj (Nat.mod_lt _ (by decide)) (Nat.mod_lt _ (by decide)) hj
  simp only [Nat.zero_add] at h
  omega

/-- A type that would destroy its target: it never gets to see it. -/
example (bs : Bytes)
    (hs : StreamForm (Demo.cfg false true) Demo.env Demo.sampleTy Demo.sample bs) :
    AllReadsThrow (Demo.cfg false true)
      { ti := Demo.env.ti .str, apply := fun _ _ => .abort, fresh := 0, dflt := none, copyable := false : Elem Nat }
      bs := by
  have := C12_wrong_type_rejected Demo.valid_contents Demo.sample_wt hs
    { ti := Demo.env.ti .str, apply := fun _ _ => .abort, fresh := 0, dflt := none, copyable := false : Elem Nat }
    (by decide) []
  simpa using this

/-! ## C13 -/

/-- C13: whatever types are registered, every index is valid and fits in 32 bits; the first 65536 are
pairwise different; number 65536 (counting from 0) gets the index of number 0. -/
theorem C13_type_indices (names : List Nat) :
    let idxs := (TypeReg.registerAll {} names).1
    idxs.length = names.length ∧ (∀ i ∈ idxs, i < 2 ^ 32 ∧ validateIndex i = true) ∧
      (idxs.take 65536).Nodup ∧ (∀ k, idxs[k + 65536]? ≠ none → idxs[k + 65536]? = idxs[k]?) := by
  intro idxs
  have hl : idxs.length = names.length := registerAll_length names {}
  have hg : ∀ k, k < names.length → idxs[k]? = some (encodeIndex (k % 2 ^ 16)) := by
    intro k hk
    have := registerAll_get names {} k (by decide) hk
    simpa using this
  refine ⟨hl, ?_, ?_, ?_⟩
  · intro i hi
    obtain ⟨k, hk⟩ := List.getElem?_of_mem hi
    have hkl : k < names.length := hl ▸ (List.getElem?_eq_some_iff.1 hk).1
    rw [hg k hkl, Option.some_inj] at hk
    rw [← hk]
    exact encodeIndex_valid (Nat.mod_lt _ (by decide))
  · rw [List.nodup_iff_pairwise_ne, List.pairwise_iff_getElem]
    intro i j hi hj hij he
    simp only [List.length_take] at hi hj
    have h1 := hg i (by omega)
    have h2 := hg j (by omega)
    simp only [List.getElem_take] at he
    rw [List.getElem?_eq_getElem (by omega), Option.some_inj] at h1 h2
    rw [h1, h2] at he
    have := encodeIndex_inj (Nat.mod_lt _ (by decide)) (Nat.mod_lt _ (by decide)) he
    omega
  · intro k hk
    have hkl : k + 65536 < names.length := by
      by_contra h
      exact hk (List.getElem?_eq_none (by omega))
    rw [hg _ hkl, hg k (by omega)]
    simp

/-- C13: with at most 65536 types, error messages name the right type. -/
theorem C13_names (names : List Nat) (hlen : names.length ≤ 65536) (k : Nat) (hk : k < names.length) :
    ((TypeReg.registerAll {} names).1[k]?).bind (TypeReg.registerAll {} names).2.nameFor =
      names[k]? := by
  have h0 := registerAll_get names {} k (by decide) hk
  rw [h0]
  simp only [Option.bind_some]
  have := registerAll_names names {} (by simpa using hlen) k hk
  rw [Nat.mod_eq_of_lt (by simp; omega)]
  exact this

/-- 65537 types: the guarantee cannot be stronger. -/
example : ¬ (TypeReg.registerAll {} (List.range 65537)).1.Nodup := by
  intro h
  have h4 := (C13_type_indices (List.range 65537)).2.2.2 0
  have hl : (TypeReg.registerAll {} (List.range 65537)).1.length = 65537 := by
    rw [registerAll_length, List.length_range]
  rw [List.getElem?_eq_getElem (by omega), List.getElem?_eq_getElem (by omega)] at h4
  have h5 := h4 (by simp)
  simp only [Option.some_inj] at h5
  exact List.pairwise_iff_getElem.1 h 0 (0 + 65536) (by omega) (by omega) (by omega) h5.symm

/-! ## C14 -/

/-- The other byte order. -/
def Endian.other : Endian → Endian
  | .little => .big
  | .big => .little

/-- C14: input that starts with four zero bytes is rejected by every reading call of every type. -/
theorem C14_zero_header_rejected {T : Type} (e : Elem T) (rest : Bytes) :
    AllReadsThrow cfg e ([0, 0, 0, 0] ++ rest) := by
  refine allReadsThrow rfl (.inl ?_) rest
  cases cfg.endian <;> decide

theorem validate_swapped (en : Endian) {i : Nat} (hi : i < 2 ^ 16) :
    validateIndex (intVal en (intBytes en.other 4 (encodeIndex i))) = false := by
  rw [Bool.eq_false_iff, ne_eq, validateIndex_iff (by
    have := intVal_lt en (intBytes en.other 4 (encodeIndex i))
    rw [intBytes_length] at this; omega), encodeIndex_eq hi]
  have h1 : (0xDE0000AD + 256 * i) % 256 = 0xAD := by omega
  have h2 : (0xDE0000AD + 256 * i) / 256 / 256 / 256 % 256 = 0xDE := by omega
  cases en <;> simp only [Endian.other, intBytes, intVal, leBytes, List.reverse_cons, List.reverse_nil,
    List.nil_append, List.cons_append, leVal, h1, h2] <;> intro h
  all_goals
    obtain ⟨h, -⟩ := h
    revert h
    simp only [UInt8.toNat_ofNat']
    omega

/-- C14: input that starts with the index of a type as a machine of the opposite byte order writes it is
rejected by every reading call of every type. -/
theorem C14_swapped_header_rejected {T : Type} (e : Elem T) {i : Nat} (hi : i < 2 ^ 16)
    (rest : Bytes) :
    AllReadsThrow cfg e (intBytes cfg.endian.other 4 (encodeIndex i) ++ rest) :=
  allReadsThrow (by simp) (.inl (validate_swapped cfg.endian hi)) rest

/-- C14: in particular everything a machine of the opposite byte order wrote. -/
theorem C14_swapped_object_rejected {cfg' : Cfg} (hend : cfg'.endian = cfg.endian.other)
    (hv : env.Valid R (· ∈ builtinKinds) cfg') (hx : WT R env t x) {bs : Bytes}
    (hs : StreamForm cfg' env t x bs) {i : Nat} (hi : i < 2 ^ 16) (hti : (env.ti t).idx = encodeIndex i)
    {T : Type} (e : Elem T) : AllReadsThrow cfg e bs := by
  obtain ⟨tl, rfl⟩ := streamForm_head hv hx hs
  rw [hend, hti]
  exact C14_swapped_header_rejected e hi tl

/-! ## C15 -/

theorem law_checked (hc : cfg.check = true) (hv : env.Usable R (· ∈ builtinKinds) cfg)
    (hd : env.Distinguishable) (n : Nat) (t : Ty) :
    Law checkedScope cfg (elem cfg env n t).ti (elem cfg env n t).apply (codec R cfg env n t) :=
  codec_law (K := checkedScope) hv (asymOk_checked hc hd) n t

/-- The outcome does not depend on the nesting bound once it is reached. -/
theorem Yields.throw_of_mono {α : Type} {f : Nat → Out α} (hm : ∀ {n m}, n ≤ m → Out.Le (f n) (f m))
    {n0 : Nat} {e : Err} (h : f n0 = .throw e) : Yields f (.throw e) :=
  ⟨n0, fun n hn => ((hm hn).eq_of_ne (by rw [h]; simp)).trans h⟩

/-- Writing works in spite of the mistake. -/
theorem StreamForm.exists_checked (hc : cfg.check = true) (hv : env.Usable R (· ∈ builtinKinds) cfg)
    (hd : env.Distinguishable) (hx : WT R env t x) : ∃ bs, StreamForm cfg env t x bs := by
  obtain ⟨bs, n0, h0⟩ := exists_enc' (R := R) (law_checked hc hv hd) (fun _ h => h) hx
  refine ⟨bs, n0, fun n hn => ?_⟩
  have h2 : topEnc cfg (elem cfg env n t).ti (codec R cfg env n t) x = bs := (h0 n hn).2
  have := toStream_law (fun _ h => h) (law_checked hc hv hd n t) (h0 n hn).1 { data := [] } (by simp)
  rw [h2] at this
  exact this

theorem asym_fails (hc : cfg.check = true) (hv : env.Usable R (· ∈ builtinKinds) cfg)
    (hd : env.Distinguishable) (hx : WT R env t x) (hb : ByVal t x) {k : Nat} (hk : Visits env t x k)
    (hne : (env.cls k).rfields ≠ (env.cls k).fields) {bs : Bytes} (hs : StreamForm cfg env t x bs)
    {y : Val} (hy : Clean R cfg env t y) (hyb : ByVal t y) {rest : Bytes} {s : Ser} (hsr : s.Reader checkedScope)
    (hrem : s.remaining = bs ++ rest) :
    bs ≠ [] ∧ ∃ n0 k d tr, traverseTop cfg (elem cfg env n0 t) s y = .throw (.ser k d tr) := by
  have law := law_checked hc hv hd
  obtain ⟨bs', n0, h0⟩ := exists_enc' (R := R) law (fun _ h => h) hx
  obtain ⟨hP, he⟩ := h0 n0 (Nat.le_refl _)
  have hst := Yields.unique hs ⟨n0, fun n hn => by
    have h2 : topEnc cfg (elem cfg env n t).ti (codec R cfg env n t) x = bs' := (h0 n hn).2
    have := toStream_law (fun _ h => h) (law n t) (h0 n hn).1 { data := [] } (by simp)
    rw [h2] at this
    exact this⟩
  simp only [Out.ok.injEq, Prod.mk.injEq, true_and, OStream.mk.injEq, List.nil_append, and_true] at hst
  subst hst
  have he' : topEnc cfg (elem cfg env n0 t).ti (codec R cfg env n0 t) x = bs := he
  have hp : (codec R cfg env n0 t).prior x y :=
    codec_prior hv n0 t x y hP hy (by rintro c rfl; exact sameDyn_of_byVal hb hyb)
  have hrd := top_rd (e := elem cfg env n0 t) (law n0 t) hP hp
  rw [he'] at hrd
  have hno : ∀ z, ¬ (codec R cfg env n0 t).rel x z := fun z hz => hne (visits_sym hk n0 z hz)
  obtain ⟨_, ⟨k, d, tr, rfl⟩, h⟩ := hrd.fails hno hsr hrem
  refine ⟨?_, n0, k, d, tr, h⟩
  rintro rfl
  have hl := congrArg List.length he'
  simp [topEnc, node] at hl

/-- C15: with error checking, if an object whose class (or one of whose base classes) unpacks other
members than it packs occurs anywhere in the serialized value `x`, then every call that reads `x` back
ends with a `serialization_error`. -/
theorem C15_asymmetric_rejected (hc : cfg.check = true) (hv : env.Usable R (· ∈ builtinKinds) cfg)
    (hd : env.Distinguishable) (hx : WT R env t x) (hb : ByVal t x) {k : Nat} (hk : Visits env t x k)
    (hne : (env.cls k).rfields ≠ (env.cls k).fields) {bs : Bytes} (hs : StreamForm cfg env t x bs)
    {y : Val} (hy : Clean R cfg env t y) (hyb : ByVal t y) (rest : Bytes) :
    (∃ k d tr, Yields (fun n => deserializeInPlace cfg (elem cfg env n t) (bs ++ rest) y)
      (.throw (.ser k d tr))) ∧
    (∃ k d tr, Yields (fun n => deserialize cfg (elem cfg env n t) (bs ++ rest))
      (.throw (.ser k d tr))) ∧
    (∃ k d tr, Yields (fun n => deserializeInPlaceFromStream cfg (elem cfg env n t) (bs ++ rest) y)
      (.throw (.ser k d tr))) ∧
    (∃ k d tr, Yields (fun n => deserializeFromStream cfg (elem cfg env n t) (bs ++ rest))
      (.throw (.ser k d tr))) := by
  have key : ∀ y, Clean R cfg env t y → ByVal t y →
      (∃ k d tr, Yields (fun n => deserializeInPlace cfg (elem cfg env n t) (bs ++ rest) y)
        (.throw (.ser k d tr))) ∧
      (∃ k d tr, Yields (fun n => deserializeInPlaceFromStream cfg (elem cfg env n t) (bs ++ rest) y)
        (.throw (.ser k d tr))) := by
    intro y hy hyb
    constructor
    · obtain ⟨-, n0, k, d, tr, h⟩ := asym_fails hc hv hd hx hb hk hne hs hy hyb (rest := rest)
        (s := { core := .unpacker (bs ++ rest) 0 0, kind := .unpacker })
        ⟨rfl, by simp [checkedScope, builtinKinds], by simp⟩ (by simp [Ser.remaining])
      refine ⟨k, d, tr, Yields.throw_of_mono (n0 := n0) (fun h => inPlace_le (elem_le cfg env h t) _ _) ?_⟩
      unfold deserializeInPlace
      rw [h]
      rfl
    · obtain ⟨-, n0, k, d, tr, h⟩ := asym_fails hc hv hd hx hb hk hne hs hy hyb (rest := rest)
        (s := { core := .streamUnpacker (bs ++ rest) 0, kind := .streamUnpacker })
        ⟨rfl, by simp [checkedScope, builtinKinds], trivial⟩ (by simp [Ser.remaining])
      refine ⟨k, d, tr, Yields.throw_of_mono (n0 := n0) (fun h => inStream_le (elem_le cfg env h t) _ _) ?_⟩
      unfold deserializeInPlaceFromStream
      rw [h]
      rfl
  obtain ⟨h1, h2⟩ := key y hy hyb
  obtain ⟨h3, h4⟩ := key _ (hv.fresh t).1 (hv.fresh t).2
  refine ⟨h1, ?_, h2, ?_⟩
  · simpa only [deserialize_elem] using h3
  · simpa only [deserializeFromStream_elem] using h4

theorem Demo.asym_distinguishable : Demo.asymEnv.Distinguishable := by
  intro c h
  by_cases hc : c = 6
  · subst hc
    refine ⟨by decide, ?_⟩
    intro p hp u hu
    have hp' : p = Demo.int ∨ p = .str := by simpa [Demo.asymEnv, Demo.asymCls] using hp
    have hu' : u = .str ∨ u = Demo.int := by simpa [Demo.asymEnv, Demo.asymCls] using hu
    rcases hp' with rfl | rfl <;> rcases hu' with rfl | rfl <;> first
      | exact fun _ => rfl
      | (intro h; exact absurd h (by decide))
  · exact absurd (by
      simp only [Demo.asymEnv, Demo.asymCls, if_neg hc]
      exact Demo.valid_contents (check := true) (ndebug := true) |>.sym c) h

/-- `Label::serialize` packs `int, string` and unpacks `string, int`. -/
example (ndebug : Bool) : (Demo.cfg true ndebug).check = true ∧
    Demo.asymEnv.Usable .contents (· ∈ builtinKinds) (Demo.cfg true ndebug) ∧
    Demo.asymEnv.Distinguishable ∧ WT .contents Demo.asymEnv Demo.labelsTy Demo.labels ∧
    ByVal Demo.labelsTy Demo.labels ∧ Visits Demo.asymEnv Demo.labelsTy Demo.labels 6 ∧
    (Demo.asymEnv.cls 6).rfields ≠ (Demo.asymEnv.cls 6).fields :=
  ⟨rfl, Demo.asym_usable (fun _ _ => trivial), Demo.asym_distinguishable, Demo.labels_wt, trivial,
    Demo.labels_visit, by simp [Demo.asymEnv, Demo.asymCls, Demo.int]⟩

/-! ## C16 -/

/-- A traversal of an object of type `ti` that is in progress: what the type's serialization code does
before and after the traversal of the next inner object. -/
structure Frame where
  ti : TI
  before : Ser → Out Ser
  after : Ser → Out Ser

/-- Traversals nested in each other, outermost first, around `inner`. -/
def nested (cfg : Cfg) : List Frame → (Ser → Out Ser) → Ser → Out Ser
  | [], inner, s => inner s
  | f :: fs, inner, s => do
    let (_, s) ← traverse cfg f.ti (fun s (xs : List Unit) => do
      let s ← f.before s
      let s ← nested cfg fs inner s
      let s ← f.after s
      .ok (xs, s)) s [()]
    .ok s

/-- The serializer as `inner` receives it, if everything before succeeds. -/
def reach (cfg : Cfg) : List Frame → Ser → Out Ser
  | [], s => .ok s
  | f :: fs, s => do
    let s ← withTypeIdx cfg f.ti s
    let s ← f.before s
    reach cfg fs s

/-- C16: with error checking, a `serialization_error` raised inside any number of enclosing traversals
leaves the outermost one with the original reason, the depth increased by their number, and one
entry per traversal appended to the trace, innermost first. -/
theorem C16_error_trace (hc : cfg.check = true) : ∀ (fs : List Frame) (inner : Ser → Out Ser)
    (s s' : Ser) (k : SerErrKind) (d : Nat) (tr : List Nat), reach cfg fs s = .ok s' →
    inner s' = .throw (.ser k d tr) →
    nested cfg fs inner s =
      .throw (.ser k (d + fs.length) (tr ++ (fs.map (·.ti.name)).reverse))
  | [], inner, s, s', k, d, tr, h, hi => by
    simp only [reach, Out.ok.injEq] at h
    subst h
    simpa [nested] using hi
  | f :: fs, inner, s, s', k, d, tr, h, hi => by
    simp only [reach, Out.bind_eq] at h
    unfold nested traverse
    simp only [hc, if_true, Out.bind_eq]
    cases h1 : withTypeIdx cfg f.ti s <;> rw [h1] at h <;> simp at h
    rename_i s1
    cases h2 : f.before s1 <;> rw [h2] at h <;> simp at h
    rename_i s2
    have ih := C16_error_trace hc fs inner s2 s' k d tr h hi
    simp [h2, ih, catchDepth, Nat.add_assoc]

/-- C16: an error raised by the type check of an inner object at depth `d`: the trace has `d + 1` entries,
from the inner object to the outermost one. -/
theorem C16_wrong_type_trace (hc : cfg.check = true) (fs : List Frame) {T : Type} (e : Elem T) (y : T)
    (s s' : Ser) (hr : reach cfg fs s = .ok s') (hs : s'.Reader anyKind) {b rest : Bytes}
    (hb : b.length = 4) (hin : s'.remaining = b ++ rest) (hne : e.ti.idx ≠ intVal cfg.endian b) :
    nested cfg fs (fun s => pipe cfg e s y >>= fun r => .ok r.2) s =
      .throw (.ser (.wrongType e.ti.idx (intVal cfg.endian b)) fs.length
        (e.ti.name :: (fs.map (·.ti.name)).reverse)) := by
  have := C16_error_trace hc fs (fun s => pipe cfg e s y >>= fun r => .ok r.2) s s' _ 0 [e.ti.name] hr
    (by simp only [pipe, traverse_reject hc hs hb hin (.inr hne)]; rfl)
  simpa using this

/-- Two enclosing types around a `std::string` whose place is taken by an `int`. -/
example : nested (Demo.cfg true false)
    [⟨Demo.env.ti (.vec .str), fun s => .ok s, fun s => .ok s⟩,
     ⟨Demo.env.ti (.opt .str), fun s => .ok s, fun s => .ok s⟩]
    (fun s => pipe (Demo.cfg true false) (elem (Demo.cfg true false) Demo.env 5 .str) s (.str ⟨15, []⟩)
      >>= fun r => .ok r.2)
    { core := .unpacker (intBytes .little 4 (Demo.env.ti (.vec .str)).idx ++
        intBytes .little 4 (Demo.env.ti (.opt .str)).idx ++
        intBytes .little 4 (Demo.env.ti Demo.int).idx) 0 0, kind := .unpacker } =
    .throw (.ser (.wrongType (Demo.env.ti .str).idx (Demo.env.ti Demo.int).idx) 2
      [Demo.code .str, Demo.code (.opt .str), Demo.code (.vec .str)]) := by decide

end Ckpt
