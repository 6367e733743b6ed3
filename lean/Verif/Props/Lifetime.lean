import Verif.Model.Reconstruct
import Verif.Model.Lifetime
import Verif.Spec.Ledger
import Verif.Proofs.UserFn
import Verif.Props.RoundTrip
/-!
# Construction and ownership of objects (C33–C37, C52)
-/

set_option autoImplicit false

namespace Ckpt

/-! ## C33 -/

/-- C33: every object the library makes — except new elements of vectors — is made by the tagged
constructor if there is one, else by the reconstruct function if there is exactly one, else by the default
constructor.  (Elements of lists of copyable type are copies of one such object.) -/
theorem C33_precedence (c : ConsTraits) (site : Site) (hs : site ≠ .vectorElem) :
    let made (m : Made) := site.make c = some (if site = .listElem ∧ c.copyCons then .copyOf m else m)
    (c.tagged = true → made .byTag) ∧
    (c.tagged = false → c.intrusive = true → c.specialized = false → c.nonintrusive = false → made .byIntrusive) ∧
    (c.tagged = false → c.intrusive = false → c.specialized = true → c.nonintrusive = false → made .bySpecialized) ∧
    (c.tagged = false → c.intrusive = false → c.specialized = false → c.nonintrusive = true → made .byNonintrusive) ∧
    (c.tagged = false → c.reconstructible = false → c.defaultCons = true → made .byDefault) := by
  obtain ⟨a, b, d, e, f, g⟩ := c
  cases site
  case vectorElem => exact absurd rfl hs
  all_goals
    refine ⟨?_, ?_, ?_, ?_, ?_⟩ <;> clear hs <;> dsimp only <;> revert a b d e f g <;> decide

/-- C33: a class with nothing to construct it with does not compile; only where the class comes from the
registry does the library's assertion fail instead. -/
theorem C33_not_constructible (c : ConsTraits) (site : Site) (h : c.constructible = false) :
    site.make c = if site = .polymorphicPointee then some .assertion else none := by
  obtain ⟨a, b, d, e, f, g⟩ := c
  cases site <;> revert a b d e f g <;> decide

/-- C33: two different reconstruct functions make the call ambiguous, unless there is a tagged constructor. -/
theorem C33_two_reconstruct_functions (c : ConsTraits) (site : Site) (hs : site ≠ .vectorElem)
    (ht : c.tagged = false) (h2 : 2 ≤ c.intrusive.toNat + c.specialized.toNat + c.nonintrusive.toNat) :
    site.make c = none := by
  obtain ⟨a, b, d, e, f, g⟩ := c
  cases site
  case vectorElem => exact absurd rfl hs
  all_goals clear hs; revert a b d e f g; decide

/-- C33: new vector elements use the default constructor whenever there is one (even if there is a tagged
constructor), and otherwise the same rule. -/
theorem C33_vector (c : ConsTraits) :
    Site.vectorElem.make c =
      if c.defaultCons then some .byDefault
      else (Site.result.make c).map fun m => if c.copyCons then .copyOf m else m := by
  obtain ⟨a, b, d, e, f, g⟩ := c
  revert a b d e f g
  decide

/-- A class with a tagged constructor and a default constructor is made differently as a vector element. -/
example : Site.vectorElem.make ⟨true, false, false, false, true, true⟩ = some .byDefault ∧
    Site.result.make ⟨true, false, false, false, true, true⟩ = some .byTag := by decide

/-! ## C34–C36 -/

section
variable {T : Type} {cfg : Cfg} {e : Elem T}

/-- C34: `deserialize(buf)`, with a constructor that does not throw: on success one block and one object
are left, those returned; when unpacking throws nothing is left; and nothing is freed or destroyed twice on
the way. -/
theorem C34_owned_once (y : T) (data : Bytes) :
    let r := deserializeType cfg e (.ok y) false data
    (∀ v, r.out = .ok v → Ledger.replay r.evs ⟨0, 0⟩ = some ⟨1, 1⟩) ∧
    (∀ err, r.out = .throw err → Ledger.replay r.evs ⟨0, 0⟩ = some ⟨0, 0⟩) ∧
    r.out = deserializeInPlace cfg e data y := by
  simp only [deserializeType]
  cases deserializeInPlace cfg e data y <;> simp [Ledger.replay, Ledger.step]

/-- C34, the exception: when the constructor throws, the memory allocated for the object is lost. -/
theorem C34_constructor_throws (err : Err) (data : Bytes) :
    let r := deserializeType cfg e (.throw err) false data
    r.out = .throw err ∧ Ledger.replay r.evs ⟨0, 0⟩ = some ⟨1, 0⟩ :=
  ⟨rfl, rfl⟩

/-- C35: with memory provided by the caller, an exception while unpacking ends in `operator delete` of that
memory, which the replay refuses; without exception the memory is only constructed into. -/
theorem C35_deletes_callers_memory (y : T) (data : Bytes) :
    let r := deserializeType cfg e (.ok y) true data
    (∀ err, deserializeInPlace cfg e data y = .throw err →
      r.out = .throw err ∧ .deleteCallers ∈ r.evs ∧ Ledger.replay r.evs ⟨0, 0⟩ = none) ∧
    (∀ v, deserializeInPlace cfg e data y = .ok v →
      r.out = .ok v ∧ .deleteCallers ∉ r.evs ∧ Ledger.replay r.evs ⟨0, 0⟩ = some ⟨0, 1⟩) := by
  simp only [deserializeType]
  refine ⟨fun err h => ?_, fun v h => ?_⟩ <;> rw [h] <;> simp [Ledger.replay, Ledger.step]

/-- C36: `deserializeFromStream` and `deserializeFromFile` (`unpack` is the respective unpacking): an
exception while unpacking leaves the block and the object behind; success returns them. -/
theorem C36_leak {R : Type} (y : T) (unpack : T → Out R) :
    let r := deserializeUnguarded (.ok y) unpack
    r.out = unpack y ∧
    (∀ err, unpack y = .throw err → Ledger.replay r.evs ⟨0, 0⟩ = some ⟨1, 1⟩) ∧
    (∀ v, unpack y = .ok v → Ledger.replay r.evs ⟨0, 0⟩ = some ⟨1, 1⟩) :=
  ⟨rfl, fun _ _ => rfl, fun _ _ => rfl⟩

/-- C36: so every stream that ends before the object does costs an object, for every type. -/
theorem C36_truncated_stream_leaks {env : Env} {t : Ty} {x : Val}
    (hv : env.Valid .contents (· ∈ builtinKinds) cfg)
    (hx : WT .contents env t x) (hb : ByVal t x) {bs inp : Bytes} (hs : StreamForm cfg env t x bs)
    (hpre : inp <+: bs) (hne : inp ≠ bs) {y : Val} (hy : Clean .contents cfg env t y) (hyb : ByVal t y) :
    ∃ n0, ∀ n ≥ n0,
      let r := deserializeUnguarded (.ok y) (deserializeInPlaceFromStream cfg (elem cfg env n t) inp)
      r.out = .throw .streamShort ∧ Ledger.replay r.evs ⟨0, 0⟩ = some ⟨1, 1⟩ := by
  obtain ⟨n0, h⟩ := (C08_truncated_stream_throws hv hx hb hs hpre hne hy hyb).1
  exact ⟨n0, fun n hn => by simp [deserializeUnguarded, h n hn, Ledger.replay, Ledger.step]⟩

/-- A stream that ends early: the exception is thrown and the object lost. -/
example : deserializeInPlaceFromStream (Demo.cfg true false) (elem (Demo.cfg true false) Demo.env 3 (.cls 0)) [1, 2]
      (Demo.fresh (.cls 0)) = .throw .streamShort ∧
    (deserializeUnguarded (.ok (Demo.fresh (.cls 0))) (deserializeInPlaceFromStream (Demo.cfg true false)
      (elem (Demo.cfg true false) Demo.env 3 (.cls 0)) [1, 2])).evs = [.allocate, .construct] := ⟨rfl, rfl⟩

/-- Memory holding the header of another type: unpacking throws. -/
example : (match deserializeInPlace (Demo.cfg true false) (elem (Demo.cfg true false) Demo.env 3 (.cls 0))
    (List.replicate 40 0) (Demo.fresh (.cls 0)) with | .throw _ => true | _ => false) = true := by decide

/-! ## C37 -/

/-- C37, `serialize` without user buffer, for a serialize function that hands `f.total .sizer` bytes to
the sizer and `f.total .packer` to the packer: fewer packed than sized is reported with both numbers, more
is written out of bounds. -/
theorem C37_serialize (f : Script) {ti : TI} (hti : ti.Valid) (hfit : f.total .sizer + 12 < 2 ^ 64) :
    (f.total .packer < f.total .sizer →
      serialize cfg (f.elem ti) none () =
        .throw (.ser (.packedSize (f.total .sizer + 12) (f.total .packer + 12)) 0 [])) ∧
    (f.total .sizer < f.total .packer → serialize cfg (f.elem ti) none () = .ub .packOverflow) ∧
    (f.total .packer = f.total .sizer →
      serialize cfg (f.elem ti) none () =
        .ok ({ mem := node cfg true ti 1 (f .packer).flatten, size := f.total .sizer + 12, managed := true, calls := [] },
          ())) := by
  simp only [serialize, f.getSize hti hfit, Out.bind_eq, Out.bind_ok, packBuffer, f.packMem hti, List.length_replicate]
  refine ⟨fun h => ?_, fun h => ?_, fun h => ?_⟩
  · rw [if_pos (by omega)]
    simp only [Out.bind_ok, validatePackerBufferSize]
    rw [if_pos (by omega)]
    rfl
  · rw [if_neg (by omega)]
    rfl
  · rw [if_pos (by omega)]
    simp [validatePackerBufferSize, h, Script.written]

/-- C37, `serialize` into memory `mem` of the user: any difference is reported, but only after the object
has been written to the memory — if that was large enough. -/
theorem C37_serialize_user_buffer (f : Script) {ti : TI} (hti : ti.Valid) (hfit : f.total .sizer + 12 < 2 ^ 64)
    (fn : Nat → Option Bytes) (mem : Bytes) (hfn : fn (f.total .sizer + 12) = some mem) :
    (mem.length < f.total .packerUserBuf + 12 → serialize cfg (f.elem ti) (some fn) () = .ub .packOverflow) ∧
    (f.total .packerUserBuf + 12 ≤ mem.length →
      packMem cfg (f.elem ti) .packerUserBuf mem () =
        .ok (node cfg true ti 1 (f .packerUserBuf).flatten ++ mem.drop (f.total .packerUserBuf + 12),
          f.total .packerUserBuf + 12, ()) ∧
      (f.total .packerUserBuf ≠ f.total .sizer →
        serialize cfg (f.elem ti) (some fn) () =
          .throw (.ser (.packedSize (f.total .sizer + 12) (f.total .packerUserBuf + 12)) 0 []))) := by
  simp only [serialize, f.getSize hti hfit, Out.bind_eq, Out.bind_ok, packBuffer, hfn, f.packMem hti]
  refine ⟨fun h => ?_, fun h => ⟨?_, fun hne => ?_⟩⟩
  · rw [if_neg (by omega)]
    rfl
  · rw [if_pos h]
    rfl
  · rw [if_pos h]
    simp only [Out.bind_ok, validatePackerBufferSize]
    rw [if_pos (by omega)]
    rfl

/-- C37, `serializeToStream`: whatever was handed to the sizer, what is handed to the stream packer is
written and nothing is reported. -/
theorem C37_stream_unchecked (f : Script) {ti : TI} (hti : ti.Valid) (hfit : f.total .sizer + 12 < 2 ^ 64) (out : Bytes) :
    serializeToStream cfg (f.elem ti) () ⟨out, none⟩ =
      .ok ((), ⟨out ++ node cfg true ti 1 (f .streamPacker).flatten, none⟩) := by
  simp only [serializeToStream, f.getSize hti hfit, Out.bind_eq, Out.bind_ok]
  rw [f.top hti ⟨rfl, rfl, by simp⟩ rfl]
  rfl

/-- A function that sizes four bytes and packs one. -/
example : ∃ f : Script, f.total .packer < f.total .sizer ∧ f.total .sizer + 12 < 2 ^ 64 :=
  ⟨fun k => if k = .sizer then [[0, 0], [1, 1]] else [[7]], by decide, by decide⟩

/-! ## C52 -/

theorem Run.bind_out {α β : Type} (r : Run α) (f : α → Run β) : (r.bind f).out = r.out.bind fun a => (f a).out := by
  unfold Run.bind
  cases r.out <;> rfl

theorem loop_out (add : List T → T → List T) : ∀ (n : Nat) (s : Ser) (acc : List T),
    (unpackLoopRun cfg e add n s acc).out = unpackLoop cfg e add n s acc
  | 0, _, _ => rfl
  | n + 1, s, acc => by
    simp only [unpackLoopRun, Run.bind_out, Run.construct, Run.quiet, Out.bind_ok, unpackLoop, Out.bind_eq]
    cases pipe cfg e s e.fresh with
    | ok r => exact loop_out add n _ _
    | _ => rfl

theorem loop_evs (add : List T → T → List T) : ∀ (n : Nat) (s : Ser) (acc : List T),
    ∃ k ≤ n, (unpackLoopRun cfg e add n s acc).evs = List.replicate k .construct ∧
      (∀ v, unpackLoop cfg e add n s acc = .ok v → k = n) ∧
      (∀ err, unpackLoop cfg e add n s acc = .throw err → 1 ≤ k)
  | 0, s, acc => ⟨0, Nat.le_refl 0, rfl, fun _ _ => rfl, fun _ h => by simp [unpackLoop] at h⟩
  | n + 1, s, acc => by
    cases hp : pipe cfg e s e.fresh with
    | ok r =>
      obtain ⟨k, hk, h1, h2, h3⟩ := loop_evs add n r.2 (add acc r.1)
      refine ⟨k + 1, by omega, ?_, ?_, by omega⟩
      · simp [unpackLoopRun, Run.bind, Run.construct, Run.quiet, hp, h1, List.replicate_succ]
      · intro v hv
        have : unpackLoop cfg e add n r.2 (add acc r.1) = .ok v := by
          simpa [unpackLoop, hp] using hv
        rw [h2 v this]
    | _ =>
      refine ⟨1, by omega, ?_, ?_, fun _ _ => Nat.le_refl 1⟩
      · simp [unpackLoopRun, Run.bind, Run.construct, Run.quiet, hp]
      · intro v hv
        simp [unpackLoop, hp] at hv

theorem replay_append (a b : List Ev) (l : Ledger) :
    Ledger.replay (a ++ b) l = (Ledger.replay a l).bind (Ledger.replay b) := by
  induction a generalizing l with
  | nil => rfl
  | cons x a ih =>
    simp only [List.cons_append, Ledger.replay]
    cases l.step x with
    | none => rfl
    | some l' => exact ih l'

theorem replay_constructs (k : Nat) (l : Ledger) :
    Ledger.replay (List.replicate k .construct) l = some { l with objects := l.objects + k } := by
  induction k generalizing l with
  | zero => rfl
  | succ k ih =>
    simp only [List.replicate_succ, Ledger.replay, Ledger.step, Option.bind_some, ih]
    simp; omega

/-- C52, sets, maps, queues, and lists of elements that cannot be copied: after unpacking `n` elements all
memory is given back, but the `n` temporaries were never destroyed; if unpacking throws, those made so far
were not either. -/
theorem C52_emplaced_temporaries (add : List T → T → List T) (n : Nat) (s : Ser) (xs : List T) :
    let r := emplaceElemsRun cfg e add n s xs
    r.out = unpackLoop cfg e add n s xs ∧
    (∀ v, r.out = .ok v → Ledger.replay r.evs ⟨0, 0⟩ = some ⟨0, n⟩) ∧
    (∀ err, r.out = .throw err → ∃ k, 1 ≤ k ∧ Ledger.replay r.evs ⟨0, 0⟩ = some ⟨0, k⟩) := by
  obtain ⟨k, hk, h1, h2, h3⟩ := loop_evs (cfg := cfg) (e := e) add n s xs
  have ho := loop_out (cfg := cfg) (e := e) add n s xs
  have hr : (∃ v, unpackLoop cfg e add n s xs = .ok v) ∨ (∃ v, unpackLoop cfg e add n s xs = .throw v) →
      Ledger.replay (emplaceElemsRun cfg e add n s xs).evs ⟨0, 0⟩ = some ⟨0, k⟩ := by
    intro h
    simp only [emplaceElemsRun, withAllocator, h1, ho]
    rcases h with ⟨v, h⟩ | ⟨v, h⟩ <;> rw [h] <;>
      simp [Ledger.replay, Ledger.step, replay_append, replay_constructs]
  refine ⟨ho, fun v hv => ?_, fun err he => ?_⟩
  · have hv' : unpackLoop cfg e add n s xs = .ok v := ho.symm.trans hv
    rw [hr (.inl ⟨v, hv'⟩), h2 v hv']
  · have he' : unpackLoop cfg e add n s xs = .throw err := ho.symm.trans he
    exact ⟨k, h3 err he', hr (.inr ⟨err, he'⟩)⟩

/-- C52, lists of elements that can be copied: one object is never destroyed. -/
theorem C52_list_prototype (n : Nat) (s : Ser) (xs : List T) (hc : e.copyable = true) :
    let r := orderedElemsRun cfg e s xs n
    r.out = deserializeOrderedElems cfg e s xs n ∧
    ((∃ v, r.out = .ok v) ∨ (∃ err, r.out = .throw err) → Ledger.replay r.evs ⟨0, 0⟩ = some ⟨0, 1⟩) := by
  simp only [orderedElemsRun, withAllocator, Run.bind, Run.construct, Run.quiet, deserializeOrderedElems, hc, if_true]
  refine ⟨trivial, ?_⟩
  cases pipeEach cfg e s (seqResize xs n e.fresh) <;> simp [Ledger.replay, Ledger.step]

/-- C52, optional: the value read from the input is copied into the optional and then lost. -/
theorem C52_optional_value (s : Ser) (x : Option T) (hs : s.isUnpacking = true) :
    let r := deserializeOptionalRun cfg e s
    r.out = serOptional cfg 0 e s x ∧
    (∀ v s', r.out = .ok (some v, s') → Ledger.replay r.evs ⟨0, 0⟩ = some ⟨0, 2⟩) ∧
    (∀ s', r.out = .ok (none, s') → Ledger.replay r.evs ⟨0, 0⟩ = some ⟨0, 1⟩) := by
  have hf : s.isFootprinting = false := by
    revert hs
    simp only [Ser.isUnpacking, Ser.isFootprinting]
    cases s.mode <;> decide
  simp only [deserializeOptionalRun, withAllocator, Run.bind_out, Run.construct, Run.quiet, Out.bind_ok, serOptional, hf,
    hs, if_true, Bool.false_eq_true, if_false, Out.bind_eq]
  cases hb : pipeBool cfg s false with
  | ok b =>
    obtain ⟨b, s1⟩ := b
    cases b with
    | false => simp [Run.bind, Ledger.replay, Ledger.step]
    | true =>
      simp only [Out.bind_ok, if_true, Run.bind_out]
      cases hp : pipe cfg e s1 e.fresh with
      | ok r => simp [Run.bind, hp, Ledger.replay, Ledger.step]
      | _ => simp
  | _ => simp

/-- C52, variant: the alternative read from the input is moved from and never destroyed. -/
theorem C52_variant_alternative (cur : Nat) (s : Ser) (es : List (Elem T)) (v : Variant T) (hs : s.isUnpacking = true) :
    let r := alternativeRun cfg e cur s
    r.out = serializeEntry cfg (e :: es) s v cur cur ∧
    ((∃ v, r.out = .ok v) ∨ (∃ err, r.out = .throw err) → Ledger.replay r.evs ⟨0, 0⟩ = some ⟨0, 1⟩) := by
  simp only [alternativeRun, withAllocator, Run.bind_out, Run.construct, Run.quiet, Out.bind_ok, serializeEntry, hs,
    if_true, Out.bind_eq]
  refine ⟨trivial, ?_⟩
  cases pipe cfg e s e.fresh <;> simp [Run.bind, Ledger.replay, Ledger.step]

/-- C52, vectors: nothing is lost when the elements have a default constructor; otherwise the object they
are copied from, or one object per element. -/
theorem C52_vector (n : Nat) (v : Vec T) :
    let r := constructVectorDataRun cfg e n v
    r.out = .ok (constructVectorData cfg e n v) ∧
    Ledger.replay r.evs ⟨0, 0⟩ = some ⟨0, if e.dflt.isSome then 0 else if e.copyable then 1 else n⟩ := by
  simp only [constructVectorDataRun]
  cases e.dflt with
  | some d => exact ⟨rfl, rfl⟩
  | none =>
    cases e.copyable with
    | true => exact ⟨rfl, rfl⟩
    | false =>
      refine ⟨rfl, ?_⟩
      simp [withAllocator, Ledger.replay, Ledger.step, replay_append, replay_constructs]

end
end Ckpt
