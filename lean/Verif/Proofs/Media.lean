import Verif.Proofs.Virtual
import Verif.Proofs.Safe
/-!
Two serializers that read the same bytes, from different media.
-/

set_option autoImplicit false

namespace Ckpt

/-- The bytes that are left, and the number of those read. -/
def Core.place : Core → Option (Bytes × Nat)
  | .unpacker mem cur used => if cur ≤ mem.length ∧ used = cur then some (mem.drop cur, cur) else none
  | .streamUnpacker inp n => some (inp, n)
  | _ => none

/-- Two serializers at the same place in the same bytes; `b`, `b'`: does the medium not notice its end? -/
structure Twin (b b' : Bool) (s s' : Ser) : Prop where
  place : ∃ p, s.core.place = some p ∧ s'.core.place = some p
  unchecked : s.core.unchecked = b ∧ s'.core.unchecked = b'
  kind : s.kind ∈ builtinKinds ∧ s'.kind ∈ builtinKinds
  vdis : s.vdis = s'.vdis

/-- What the two media do at their end. -/
def ended {α : Type} : Bool → Out α
  | true => .ub .readOverflow
  | false => .throw .streamShort

/-- Two outcomes that are the same, but for what the media do at their end. -/
inductive Alike (b b' : Bool) {α : Type} (R : α → α → Prop) : Out α → Out α → Prop
  | ok {a a' : α} : R a a' → Alike b b' R (.ok a) (.ok a')
  | short : Alike b b' R (ended b) (ended b')
  | throw (e : Err) (h : e ≠ .streamShort := by decide) : Alike b b' R (.throw e) (.throw e)
  | abort : Alike b b' R .abort .abort
  | ub (u : UB) (h : u ≠ .readOverflow := by decide) : Alike b b' R (.ub u) (.ub u)
  | fuel : Alike b b' R .fuel .fuel

/-- The same value; the serializers are still at the same place. -/
def Both (b b' : Bool) {α : Type} (r r' : α × Ser) : Prop := r.1 = r'.1 ∧ Twin b b' r.2 r'.2

section
variable {b b' : Bool} {α β : Type} {R : α → α → Prop} {Q : β → β → Prop}

theorem Alike.bind {o o' : Out α} {f f' : α → Out β} (h : Alike b b' R o o')
    (hf : ∀ a a', R a a' → Alike b b' Q (f a) (f' a')) : Alike b b' Q (o >>= f) (o' >>= f') := by
  cases h with
  | ok h => exact hf _ _ h
  | short => cases b <;> cases b' <;> exact .short
  | throw e h => exact .throw e h
  | abort => exact .abort
  | ub u h => exact .ub u h
  | fuel => exact .fuel

theorem Alike.catch {o o' : Out α} (ti : TI) (h : Alike b b' R o o') :
    Alike b b' R (catchDepth ti o) (catchDepth ti o') := by
  cases h with
  | ok h => exact .ok h
  | short => cases b <;> cases b' <;> exact .short
  | throw e h =>
    cases e with
    | ser k d tr => exact .throw _ (fun h => by cases h)
    | _ => exact .throw _ h
  | abort => exact .abort
  | ub u h => exact .ub u h
  | fuel => exact .fuel

theorem Alike.pure {a : α} {s s' : Ser} (h : Twin b b' s s') : Alike b b' (Both b b') (.ok (a, s)) (.ok (a, s')) :=
  .ok ⟨rfl, h⟩

/-- Binds that take apart a pair. -/
theorem Alike.andThen {o o' : Out (α × Ser)} {f f' : α × Ser → Out β} (h : Alike b b' (Both b b') o o')
    (hf : ∀ a s s', Twin b b' s s' → Alike b b' Q (f (a, s)) (f' (a, s'))) : Alike b b' Q (o >>= f) (o' >>= f') :=
  h.bind (fun r r' hr => by
    obtain ⟨a, s⟩ := r
    obtain ⟨a', s'⟩ := r'
    obtain ⟨rfl, ht⟩ := hr
    exact hf a s s' ht)

end

section
variable {b b' : Bool} {s s' : Ser}

theorem Twin.modes (h : Twin b b' s s') : (s.isFootprinting = false ∧ s.isPacking = false ∧ s.isSizing = false ∧
      s.isUnpacking = true) ∧ s'.isFootprinting = false ∧ s'.isPacking = false ∧ s'.isSizing = false ∧
      s'.isUnpacking = true := by
  obtain ⟨p, h1, h2⟩ := h.place
  obtain ⟨core, kind, vdis⟩ := s
  obtain ⟨core', kind', vdis'⟩ := s'
  constructor
  · cases core <;> first | exact ⟨rfl, rfl, rfl, rfl⟩ | cases h1
  · cases core' <;> first | exact ⟨rfl, rfl, rfl, rfl⟩ | cases h2

theorem Twin.addBytes (h : Twin b b' s s') (n m : Nat) : Twin b b' (s.addBytes n) (s'.addBytes m) := by
  have key : ∀ {s : Ser} {p : Bytes × Nat}, s.core.place = some p → ∀ n, s.addBytes n = s := by
    intro s p hp n
    obtain ⟨core, kind, vdis⟩ := s
    cases core <;> first | rfl | cases hp
  obtain ⟨p, h1, h2⟩ := h.place
  rw [key h1, key h2]
  exact h

theorem Twin.setVdis (h : Twin b b' s s') (v : Bool) : Twin b b' (s.setVdis v) (s'.setVdis v) :=
  ⟨h.1, h.2, h.3, rfl⟩

/-- A read, from the one and from the other. -/
theorem Core.place_read {s : Ser} {p : Bytes × Nat} (h : s.core.place = some p) {size num : Nat} {data : Bytes} :
    s.contiguousBytes size num data =
      if data.length ≠ size * num then .ub .badRegion
      else if size * num ≤ p.1.length then .ok (p.1.take (size * num), s.advance (size * num))
      else ended s.core.unchecked := by
  obtain ⟨core, kind, vdis⟩ := s
  cases core with
  | unpacker mem cur used =>
    simp only [Core.place] at h
    split at h
    · next hc =>
      cases h
      have he : (cur + size * num ≤ mem.length) = (size * num ≤ (mem.drop cur).length) := by
        rw [List.length_drop]; apply propext; omega
      simp only [Ser.contiguousBytes, Ser.advance, Core.unchecked, ended, he]
    · cases h
  | streamUnpacker inp n =>
    cases h
    simp only [Ser.contiguousBytes, Ser.advance, Core.unchecked, ended]
  | _ => cases h

theorem Core.place_advance {s : Ser} {p : Bytes × Nat} (h : s.core.place = some p) {n : Nat} (hn : n ≤ p.1.length) :
    (s.advance n).core.place = some (p.1.drop n, p.2 + n) ∧ (s.advance n).core.unchecked = s.core.unchecked ∧
      (s.advance n).kind = s.kind ∧ (s.advance n).vdis = s.vdis := by
  obtain ⟨core, kind, vdis⟩ := s
  cases core with
  | unpacker mem cur used =>
    simp only [Core.place] at h
    split at h
    · next hc =>
      cases h
      rw [List.length_drop] at hn
      refine ⟨?_, rfl, rfl, rfl⟩
      simp only [Ser.advance, Core.place]
      rw [if_pos (by omega), List.drop_drop]
    · cases h
  | streamUnpacker inp n =>
    cases h
    exact ⟨rfl, rfl, rfl, rfl⟩
  | _ => cases h

theorem contiguousBytes_agree (h : Twin b b' s s') (size num : Nat) (data : Bytes) :
    Alike b b' (Both b b') (s.contiguousBytes size num data) (s'.contiguousBytes size num data) := by
  obtain ⟨p, h1, h2⟩ := h.place
  rw [Core.place_read h1, Core.place_read h2]
  split
  · exact .ub _
  · split
    · next hl =>
      obtain ⟨a1, a2, a3, a4⟩ := Core.place_advance h1 hl
      obtain ⟨b1, b2, b3, b4⟩ := Core.place_advance h2 hl
      exact .ok ⟨rfl, ⟨_, a1, b1⟩, ⟨a2.trans h.unchecked.1, b2.trans h.unchecked.2⟩,
        ⟨a3 ▸ h.kind.1, b3 ▸ h.kind.2⟩, by rw [a4, b4]; exact h.vdis⟩
    · rw [h.unchecked.1, h.unchecked.2]
      exact .short

end

/-- A dispatcher that does the same with both. -/
def Handler.Agrees {T : Type} (b b' : Bool) (h : Handler T) : Prop :=
  ∀ s s' xs, Twin b b' s s' → Alike b b' (Both b b') (h s xs) (h s' xs)

section
variable {b b' : Bool} {T : Type} {cfg : Cfg} {e : Elem T} {s s' : Ser}

theorem dispatchByte_agrees (size : Nat) : (dispatchByte size).Agrees b b' := fun _ _ _ h =>
  (contiguousBytes_agree h _ _ _).andThen (fun _ _ _ h => .pure h)

theorem dispatchInt_agrees (n : Nat) : (dispatchInt cfg n).Agrees b b' := fun _ _ _ h =>
  (dispatchByte_agrees n _ _ _ h).andThen (fun _ _ _ h => .pure h)

theorem rawInt_agree (h : Twin b b' s s') (n v : Nat) : Alike b b' (Both b b') (rawInt cfg n s v) (rawInt cfg n s' v) :=
  (dispatchInt_agrees n _ _ _ h).andThen (fun a _ _ h => by
    dsimp only
    split
    · exact .pure h
    · exact .ub _)

theorem withTypeIdx_agree (h : Twin b b' s s') (ti : TI) :
    Alike b b' (Twin b b') (withTypeIdx cfg ti s) (withTypeIdx cfg ti s') := by
  unfold withTypeIdx
  simp only [h.modes, Bool.or_self, Bool.false_eq_true, if_false, if_true]
  refine (rawInt_agree h _ _).andThen (fun a _ _ h => ?_)
  dsimp only
  split
  · exact .throw _ (fun h => by cases h)
  · exact .ok h

theorem withMemUsed_agree (h : Twin b b' s s') (ti : TI) (len : Nat) :
    Alike b b' (Twin b b') (withMemUsed cfg ti s len) (withMemUsed cfg ti s' len) := by
  unfold withMemUsed
  simp only [h.modes, Bool.or_self, Bool.false_eq_true, if_false, if_true]
  refine (rawInt_agree h _ _).andThen (fun a _ _ h => ?_)
  dsimp only
  split
  · exact .throw _ (fun h => by cases h)
  · exact .ok h

theorem traverse_agrees {ti : TI} {h : Handler T} (hh : h.Agrees b b') : Handler.Agrees b b' (traverse cfg ti h) := by
  intro s s' xs ht
  unfold traverse
  split
  · refine (withTypeIdx_agree ht ti).bind (fun s s' ht => ?_)
    refine ((hh _ _ _ ht).catch ti).andThen (fun a s s' ht => ?_)
    exact (withMemUsed_agree ht ti _).bind (fun s s' ht => .pure ht)
  · exact hh _ _ _ ht

theorem pipe_agree (hh : e.apply.Agrees b b') (ht : Twin b b' s s') (x : T) :
    Alike b b' (Both b b') (pipe cfg e s x) (pipe cfg e s' x) :=
  (traverse_agrees hh _ _ _ ht).andThen (fun a _ _ h => by
    dsimp only
    split
    · exact .pure h
    · exact .ub _)

theorem pipeSize_agree (ht : Twin b b' s s') (n : Nat) : Alike b b' (Both b b') (pipeSize cfg s n) (pipeSize cfg s' n) :=
  pipe_agree (dispatchInt_agrees _) ht n

theorem pipeBool_agree (ht : Twin b b' s s') (x : Bool) : Alike b b' (Both b b') (pipeBool cfg s x) (pipeBool cfg s' x) :=
  (pipe_agree (e := boolElem cfg) (dispatchInt_agrees _) ht _).andThen (fun a _ _ h => by
    dsimp only
    split
    · exact .pure h
    · split
      · exact .pure h
      · exact .ub _)

theorem pipeEach_agree (hh : e.apply.Agrees b b') : ∀ (xs : List T) {s s' : Ser}, Twin b b' s s' →
    Alike b b' (Both b b') (pipeEach cfg e s xs) (pipeEach cfg e s' xs)
  | [], _, _, ht => .pure ht
  | x :: xs, _, _, ht => (pipe_agree hh ht x).andThen fun _ _ _ ht =>
    (pipeEach_agree hh xs ht).andThen fun _ _ _ ht => .pure ht

theorem serializeArray_agree (hh : e.apply.Agrees b b') (ht : Twin b b' s s') (xs : List T) :
    Alike b b' (Both b b') (serializeArray cfg e s xs) (serializeArray cfg e s' xs) := by
  unfold serializeArray
  split
  · exact traverse_agrees hh _ _ _ ht
  · exact .pure ht

theorem dispatchEach_agrees {f : Ser → T → Out (T × Ser)}
    (hf : ∀ {s s'} x, Twin b b' s s' → Alike b b' (Both b b') (f s x) (f s' x)) :
    Handler.Agrees b b' (dispatchEach f) := by
  intro s s' xs
  induction xs generalizing s s' with
  | nil => exact fun ht => .pure ht
  | cons x xs ih =>
    exact fun ht => (hf x ht).andThen fun _ _ _ ht => (ih _ _ ht).andThen fun _ _ _ ht => .pure ht

theorem vectorMeta_agree (ht : Twin b b' s s') (v : Vec T) :
    Alike b b' (fun r r' => r.1 = r'.1 ∧ r.2.1 = r'.2.1 ∧ Twin b b' r.2.2 r'.2.2)
      (serializeVectorMeta cfg s v) (serializeVectorMeta cfg s' v) :=
  (pipeSize_agree ht _).andThen fun _ _ _ ht => (pipeSize_agree ht _).andThen fun _ _ _ ht => .ok ⟨rfl, rfl, ht⟩

theorem serVector_agree (hh : e.apply.Agrees b b') (ht : Twin b b' s s') (sz : Nat) (v : Vec T) :
    Alike b b' (Both b b') (serVector cfg sz e s v) (serVector cfg sz e s' v) := by
  unfold serVector
  simp only [ht.modes, Bool.false_eq_true, if_false]
  refine (vectorMeta_agree ht v).bind ?_
  rintro ⟨n, v, s⟩ ⟨_, _, s'⟩ ⟨rfl, rfl, ht⟩
  simp only [ht.modes, if_true]
  exact (serializeArray_agree hh ht _).andThen fun _ _ _ ht => .pure ht

theorem unpackBools_agree : ∀ (xs : List Bool) {s s' : Ser}, Twin b b' s s' →
    Alike b b' (Both b b') (unpackBools cfg s xs) (unpackBools cfg s' xs)
  | [], _, _, ht => .pure ht
  | _ :: xs, _, _, ht => (pipeBool_agree ht _).andThen fun _ _ _ ht =>
    (unpackBools_agree xs ht).andThen fun _ _ _ ht => .pure ht

theorem serVectorBool_agree (ht : Twin b b' s s') (sz : Nat) (v : Vec Bool) :
    Alike b b' (Both b b') (serVectorBool cfg sz s v) (serVectorBool cfg sz s' v) := by
  unfold serVectorBool
  simp only [ht.modes, Bool.false_eq_true, if_false]
  refine (vectorMeta_agree ht v).bind ?_
  rintro ⟨n, v, s⟩ ⟨_, _, s'⟩ ⟨rfl, rfl, ht⟩
  simp only [ht.modes, if_true]
  exact (unpackBools_agree _ ht).andThen fun _ _ _ ht => .pure ht

theorem serString_agree (ht : Twin b b' s s') (sz : Nat) (x : Str) :
    Alike b b' (Both b b') (serString cfg sz s x) (serString cfg sz s' x) := by
  unfold serString
  simp only [ht.modes, Bool.false_eq_true, if_false]
  refine (pipeSize_agree ht _).andThen fun _ _ _ ht => ?_
  refine Alike.andThen (α := Bytes) ?_ (fun _ _ _ ht => .pure ht)
  exact (serializeArray_agree (e := charElem cfg) (dispatchByte_agrees 1) ht _).andThen fun _ _ _ ht => .pure ht

theorem unpackLoop_agree (hh : e.apply.Agrees b b') (add : List T → T → List T) : ∀ (n : Nat) {s s' : Ser} (acc : List T),
    Twin b b' s s' → Alike b b' (Both b b') (unpackLoop cfg e add n s acc) (unpackLoop cfg e add n s' acc)
  | 0, _, _, _, ht => .pure ht
  | n + 1, _, _, _, ht => (pipe_agree hh ht _).andThen fun _ _ _ ht => unpackLoop_agree hh add n _ ht

theorem containerSize_agree (ht : Twin b b' s s') (sz n : Nat) :
    Alike b b' (Both b b') (serializeContainerSize cfg sz s n) (serializeContainerSize cfg sz s' n) := by
  unfold serializeContainerSize
  simp only [ht.modes, Bool.false_eq_true, if_false]
  exact pipeSize_agree ht n

theorem serList_agree (hh : e.apply.Agrees b b') (ht : Twin b b' s s') (sz : Nat) (xs : List T) :
    Alike b b' (Both b b') (serList cfg sz e s xs) (serList cfg sz e s' xs) := by
  unfold serList
  refine (containerSize_agree ht _ _).andThen fun n _ _ ht => ?_
  simp only [ht.modes, if_true]
  unfold deserializeOrderedElems
  split
  · exact pipeEach_agree hh _ ht
  · exact unpackLoop_agree hh _ _ _ ht

theorem serMapLike_agree (hh : e.apply.Agrees b b') (ht : Twin b b' s s') (sz : Nat) (em : List T → T → List T)
    (xs : List T) : Alike b b' (Both b b') (serMapLike cfg sz em e s xs) (serMapLike cfg sz em e s' xs) := by
  unfold serMapLike
  refine (containerSize_agree ht _ _).andThen fun n _ _ ht => ?_
  simp only [ht.modes, if_true]
  exact unpackLoop_agree hh _ _ _ ht

theorem serQueue_agree (hh : e.apply.Agrees b b') (ht : Twin b b' s s') (sz : Nat) (xs : List T) :
    Alike b b' (Both b b') (serQueue cfg sz e s xs) (serQueue cfg sz e s' xs) := by
  unfold serQueue
  simp only [ht.modes, Bool.false_eq_true, if_false]
  refine (containerSize_agree ht _ _).andThen fun n _ _ ht => ?_
  simp only [ht.modes, if_true]
  exact unpackLoop_agree hh _ _ _ ht

theorem serMembers_agree : ∀ (es : List (Elem T)) {s s' : Ser} (xs : List T), (∀ e ∈ es, e.apply.Agrees b b') →
    Twin b b' s s' → Alike b b' (Both b b') (serMembers cfg es s xs) (serMembers cfg es s' xs)
  | [], _, _, [], _, ht => .pure ht
  | [], _, _, _ :: _, _, _ => .ub _
  | _ :: _, _, _, [], _, _ => .ub _
  | e :: es, _, _, x :: xs, hh, ht => (pipe_agree (hh e (by simp)) ht x).andThen fun _ _ _ ht =>
    (serMembers_agree es xs (fun e he => hh e (by simp [he])) ht).andThen fun _ _ _ ht => .pure ht

theorem visitMembers_agree {es : List (Elem T)} (hh : ∀ e ∈ es, e.apply.Agrees b b') : ∀ (is : List Nat) {s s' : Ser}
    (xs : List T), Twin b b' s s' → Alike b b' (Both b b') (visitMembers cfg es is s xs) (visitMembers cfg es is s' xs)
  | [], _, _, _, ht => .pure ht
  | i :: is, _, _, xs, ht => by
    unfold visitMembers
    cases h1 : es[i]? with
    | none => exact .ub _
    | some e =>
      cases h2 : xs[i]? with
      | none => exact .ub _
      | some x => exact (pipe_agree (hh e (List.mem_of_getElem? h1)) ht x).andThen fun _ _ _ ht =>
          visitMembers_agree hh is _ ht

theorem serPair_agree {A B : Type} {e1 : Elem A} {e2 : Elem B} (h1 : e1.apply.Agrees b b') (h2 : e2.apply.Agrees b b')
    (ht : Twin b b' s s') (sz : Nat) (x : A × B) :
    Alike b b' (Both b b') (serPair cfg sz e1 e2 s x) (serPair cfg sz e1 e2 s' x) :=
  (pipe_agree h1 (ht.addBytes sz sz) _).andThen fun _ _ _ ht => (pipe_agree h2 ht _).andThen fun _ _ _ ht => .pure ht

theorem serOptional_agree (hh : e.apply.Agrees b b') (ht : Twin b b' s s') (sz : Nat) (x : Option T) :
    Alike b b' (Both b b') (serOptional cfg sz e s x) (serOptional cfg sz e s' x) := by
  unfold serOptional
  simp only [ht.modes, Bool.false_eq_true, if_false, if_true]
  refine (pipeBool_agree ht _).andThen fun f _ _ ht => ?_
  cases f
  · exact .pure ht
  · exact (pipe_agree hh ht _).andThen fun _ _ _ ht => .pure ht

theorem serializeEntry_agree : ∀ (es : List (Elem T)) {s s' : Ser} (v : Variant T) (entry cur : Nat),
    (∀ e ∈ es, e.apply.Agrees b b') → Twin b b' s s' →
    Alike b b' (Both b b') (serializeEntry cfg es s v entry cur) (serializeEntry cfg es s' v entry cur)
  | [], _, _, _, _, _, _, ht => .pure ht
  | e :: es, s, s', v, entry, cur, hh, ht => by
    unfold serializeEntry
    split
    · simp only [ht.modes, if_true]
      exact (pipe_agree (hh e (by simp)) ht _).andThen fun _ _ _ ht => .pure ht
    · exact serializeEntry_agree es v entry (cur + 1) (fun e he => hh e (by simp [he])) ht

theorem serVariant_agree {es : List (Elem T)} (hh : ∀ e ∈ es, e.apply.Agrees b b') (ht : Twin b b' s s') (v : Variant T) :
    Alike b b' (Both b b') (serVariant cfg es s v) (serVariant cfg es s' v) :=
  (pipeSize_agree ht _).andThen fun _ _ _ ht => serializeEntry_agree es v _ 0 hh ht

theorem reconstructPointedTo_agree {virt : Option (Virt T)}
    (hv : ∀ v, virt = some v → ∀ i, v.construct i ≠ .throw .streamShort ∧ v.construct i ≠ .ub .readOverflow)
    (ht : Twin b b' s s') (x : Option T) :
    Alike b b' (Both b b') (reconstructPointedTo cfg e virt s x) (reconstructPointedTo cfg e virt s' x) := by
  unfold reconstructPointedTo
  cases virt with
  | none =>
    cases x with
    | none => simp only [ht.modes, if_true]; exact .pure ht
    | some x => exact .pure ht
  | some v =>
    simp only [ht.modes, Bool.false_eq_true, if_false, if_true, Out.bind_eq, Out.bind_ok]
    refine (pipe_agree (e := intElem cfg) (dispatchInt_agrees _) ht _).andThen fun i s s' ht => ?_
    cases x with
    | none =>
      simp only [ht.modes, if_true]
      cases hr : v.construct i with
      | ok x => exact .pure ht
      | throw e => exact .throw e (fun h => (hv v rfl i).1 (by rw [hr, h]))
      | abort => exact .abort
      | ub u => exact .ub u (fun h => (hv v rfl i).2 (by rw [hr, h]))
      | fuel => exact .fuel
    | some x =>
      dsimp only
      unfold Out.assertThat
      split
      · exact .pure ht
      · exact .abort

theorem serUniquePtr_agree (hh : e.apply.Agrees b b') {virt : Option (Virt T)}
    (hv : ∀ v, virt = some v → ∀ i, v.construct i ≠ .throw .streamShort ∧ v.construct i ≠ .ub .readOverflow)
    (ht : Twin b b' s s') (sz : Nat)
    (x : Option T) : Alike b b' (Both b b') (serUniquePtr cfg sz e virt s x) (serUniquePtr cfg sz e virt s' x) := by
  unfold serUniquePtr
  simp only [ht.modes, Bool.false_eq_true, if_false]
  refine (pipeBool_agree ht _).andThen fun f _ _ ht => ?_
  cases f
  · refine (reconstructPointedTo_agree hv ht x).andThen fun y _ _ ht => ?_
    cases y with
    | none => exact .ub _
    | some y => exact (pipe_agree hh ht _).andThen fun _ _ _ ht => .pure ht
  · simp only [ht.modes, if_true]
    exact .pure ht

theorem serChain_agree {P : Type} {reg : SerReg} {rt : Nat → Nat} (hreg : reg.Inv rt) {root : Nat} {part : Nat → Elem P}
    (hh : ∀ k, (part k).apply.Agrees b b') : ∀ (ks : List Nat) {s s' : Ser} (ps : List P), (∀ k ∈ ks, rt k = root) →
    Twin b b' s s' → Alike b b' (Both b b') (serChain cfg reg root part ks s ps) (serChain cfg reg root part ks s' ps)
  | [], _, _, [], _, ht => .pure ht
  | [], _, _, _ :: _, _, _ => .ub _
  | _ :: _, _, _, [], _, _ => .ub _
  | k :: ks, s, s', p :: ps, hroot, ht => by
    unfold serChain
    have hlk : reg.lookup cfg.ndebug k root s.kind = .ok s.kind := by
      rw [← hroot k (by simp)]
      exact SerReg.lookup_eq hreg cfg.ndebug k ht.kind.1
    have hlk' : reg.lookup cfg.ndebug k root s'.kind = .ok s'.kind := by
      rw [← hroot k (by simp)]
      exact SerReg.lookup_eq hreg cfg.ndebug k ht.kind.2
    simp only [hlk, hlk', Out.bind_eq, Out.bind_ok, ne_eq, not_true_eq_false, if_false]
    refine (pipe_agree (hh k) (ht.setVdis true) p).andThen fun _ _ _ ht => ?_
    exact (serChain_agree hreg hh ks ps (fun k hk => hroot k (by simp [hk])) ht).andThen fun _ _ _ ht => .pure ht

end

section
variable {b b' : Bool} {cfg : Cfg} {env : Env} {h : Ty → Handler Val}

theorem onRaw_agrees {h : Handler Bytes} (hh : h.Agrees b b') : (onRaw h).Agrees b b' := by
  intro s s' xs ht
  unfold onRaw
  split
  · exact (hh _ _ _ ht).andThen fun _ _ _ ht => .pure ht
  · exact .ub _

theorem onPart_agree {c : Nat} {f : Ser → List Val → Out (List Val × Ser)}
    (hf : ∀ {s s'} p, Twin b b' s s' → Alike b b' (Both b b') (f s p) (f s' p)) {s s' : Ser} (v : Val)
    (ht : Twin b b' s s') : Alike b b' (Both b b') (onPart env c f s v) (onPart env c f s' v) := by
  cases v <;> try exact .ub _
  unfold onPart
  dsimp only
  split
  · exact (hf _ ht).andThen fun _ _ _ ht => .pure ht
  · exact .ub _

/-- What making an object of a class does is not what media do at their end. -/
theorem virt_apart (t : Ty) : ∀ v, env.virt cfg t = some v →
    ∀ i, v.construct i ≠ .throw .streamShort ∧ v.construct i ≠ .ub .readOverflow := by
  intro v hv i
  cases t <;> try cases hv
  rename_i c
  simp only [Env.virt] at hv
  split at hv
  · cases hv
    simp only [Env.construct]
    split
    · simp
    · split
      · split <;> simp
      · split <;> simp
  · cases hv

theorem elems_agree (hh : ∀ t, (h t).Agrees b b') (ts : List Ty) :
    ∀ e ∈ ts.map (fun t => env.elemOf (h t) t), e.apply.Agrees b b' := by
  intro e he
  obtain ⟨t, -, rfl⟩ := List.mem_map.1 he
  exact hh t

theorem dispatchStep_agrees (hE : env.Sound cfg) (hh : ∀ t, (h t).Agrees b b') (t : Ty) :
    (dispatchStep cfg env h t).Agrees b b' := by
  have hes := elems_agree (env := env) hh
  have hu : ∀ {pid size : Nat} {s s' : Ser} (x : Bytes), Twin b b' s s' → Alike b b' (Both b b')
      (serUnderlying cfg (primElem env pid size) s x) (serUnderlying cfg (primElem env pid size) s' x) := by
    intro pid size s s' x ht
    exact (pipe_agree (e := primElem env pid size) (dispatchByte_agrees size) ht x).andThen fun _ _ _ ht => .pure ht
  cases t with
  | prim id size => exact onRaw_agrees (dispatchByte_agrees size)
  | enm id pid size =>
    refine dispatchEach_agrees (fun x ht => ?_)
    cases x <;> try exact .ub _
    exact (hu _ ht).andThen fun _ _ _ ht => .pure ht
  | chrono id pid size =>
    refine dispatchEach_agrees (fun x ht => ?_)
    cases x <;> try exact .ub _
    exact (hu _ ht).andThen fun _ _ _ ht => .pure ht
  | str =>
    refine dispatchEach_agrees (fun x ht => ?_)
    cases x <;> try exact .ub _
    exact (serString_agree ht _ _).andThen fun _ _ _ ht => .pure ht
  | vecBool =>
    refine dispatchEach_agrees (fun x ht => ?_)
    cases x <;> try exact .ub _
    exact (serVectorBool_agree ht _ _).andThen fun _ _ _ ht => .pure ht
  | vec t =>
    refine dispatchEach_agrees (fun x ht => ?_)
    cases x <;> try exact .ub _
    exact (serVector_agree (e := env.elemOf (h t) t) (hh t) ht _ _).andThen fun _ _ _ ht => .pure ht
  | seq k t =>
    refine dispatchEach_agrees (fun x ht => ?_)
    cases x <;> try exact .ub _
    exact (serList_agree (e := env.elemOf (h t) t) (hh t) ht _ _).andThen fun _ _ _ ht => .pure ht
  | queue t =>
    refine dispatchEach_agrees (fun x ht => ?_)
    cases x <;> try exact .ub _
    exact (serQueue_agree (e := env.elemOf (h t) t) (hh t) ht _ _).andThen fun _ _ _ ht => .pure ht
  | oset a cmp t =>
    refine dispatchEach_agrees (fun x ht => ?_)
    cases x <;> try exact .ub _
    exact (serMapLike_agree (e := env.elemOf (h t) t) (hh t) ht _ _ _).andThen fun _ _ _ ht => .pure ht
  | uset a eq t =>
    refine dispatchEach_agrees (fun x ht => ?_)
    cases x <;> try exact .ub _
    exact (serMapLike_agree (e := env.elemOf (h t) t) (hh t) ht _ _ _).andThen fun _ _ _ ht => .pure ht
  | pair t u =>
    refine dispatchEach_agrees (fun x ht => ?_)
    split
    · exact (serPair_agree (e1 := env.elemOf (h t) t) (e2 := env.elemOf (h u) u) (hh t) (hh u) ht _ _).andThen
        fun _ _ _ ht => .pure ht
    · exact .ub _
  | tuple ts =>
    refine dispatchEach_agrees (fun x ht => ?_)
    cases x <;> try exact .ub _
    exact (visitMembers_agree (hes ts) _ _ ht).andThen fun _ _ _ ht => .pure ht
  | opt t =>
    refine dispatchEach_agrees (fun x ht => ?_)
    cases x <;> try exact .ub _
    exact (serOptional_agree (e := env.elemOf (h t) t) (hh t) ht _ _).andThen fun _ _ _ ht => .pure ht
  | variant ts =>
    simp only [dispatchStep]
    split
    · exact onRaw_agrees (dispatchByte_agrees _)
    have key : ∀ (v : Variant Val) {s s' : Ser}, Twin b b' s s' → Alike b b' (Both b b')
        (serVariant cfg (ts.map fun t => env.elemOf (h t) t) s v >>= fun r => match r.1 with
          | .holds i x => .ok (Val.variant i x, r.2)
          | .valueless => .ok (.valueless, r.2))
        (serVariant cfg (ts.map fun t => env.elemOf (h t) t) s' v >>= fun r => match r.1 with
          | .holds i x => .ok (Val.variant i x, r.2)
          | .valueless => .ok (.valueless, r.2)) := by
      intro v s s' ht
      refine (serVariant_agree (hes ts) ht v).andThen fun w _ _ ht => ?_
      cases w <;> exact .pure ht
    refine dispatchEach_agrees (fun x ht => ?_)
    cases x <;> try exact .ub _
    · exact key _ ht
    · exact key _ ht
  | uptr t =>
    refine dispatchEach_agrees (fun x ht => ?_)
    cases x <;> try exact .ub _
    exact (serUniquePtr_agree (e := env.elemOf (h t) t) (hh t) (virt_apart t) ht _ _).andThen fun _ _ _ ht => .pure ht
  | arr k t =>
    refine dispatchEach_agrees (fun x ht => ?_)
    cases x <;> try exact .ub _
    dsimp only
    split
    · exact (serializeArray_agree (e := env.elemOf (h t) t) (hh t) ht _).andThen fun _ _ _ ht => .pure ht
    · exact .ub _
  | cls c =>
    have hm : ∀ k {s s'} p, Twin b b' s s' → Alike b b' (Both b b')
        (serMembers cfg (((env.cls k).visited s).map fun t => env.elemOf (h t) t) s p)
        (serMembers cfg (((env.cls k).visited s').map fun t => env.elemOf (h t) t) s' p) := by
      intro k s s' p ht
      have hv : (env.cls k).visited s' = (env.cls k).visited s := by
        unfold ClassDef.visited
        rw [ht.modes.1.2.2.2, ht.modes.2.2.2.2]
      rw [hv]
      exact serMembers_agree _ _ (hes _) ht
    have ho : Handler.Agrees b b' (dispatchEach (onPart env c fun s p => serMembers cfg
          (((env.cls c).visited s).map fun t => env.elemOf (h t) t) s p)) :=
      dispatchEach_agrees (fun x ht => onPart_agree (hm c) x ht)
    unfold dispatchStep
    dsimp only
    split
    · intro s s' xs ht
      dsimp only
      rw [← ht.vdis]
      split
      · exact ho _ _ _ (ht.setVdis false)
      · split
        · next d ps _ _ =>
          refine (serChain_agree hE.serRegOk (fun k s s' qs ht => ?_) _ _ (fun k hk => hE.hier _ k hk) ht).andThen
            fun _ _ _ ht => .pure ht
          exact dispatchEach_agrees (fun x ht => hm k x ht) _ _ _ (ht.setVdis false)
        · exact .ub _
    · exact ho

/-- Every type is read from both in the same way. -/
theorem dispatch_agrees (hE : env.Sound cfg) : ∀ (n : Nat) (t : Ty), (dispatch cfg env n t).Agrees b b'
  | 0, _ => fun _ _ _ _ => .fuel
  | n + 1, t => dispatchStep_agrees hE (fun t => dispatch_agrees hE n t) t

theorem traverseTop_agree {T : Type} {e : Elem T} (hh : e.apply.Agrees b b') {s s' : Ser} (ht : Twin b b' s s') (x : T) :
    Alike b b' (Both b b') (traverseTop cfg e s x) (traverseTop cfg e s' x) := by
  unfold traverseTop
  split
  · exact pipe_agree hh ht x
  · refine (withTypeIdx_agree ht _).bind fun _ _ ht => (pipe_agree hh ht x).andThen fun _ _ _ ht => ?_
    exact (withMemUsed_agree ht _ _).bind fun _ _ ht => .pure ht

end
end Ckpt
