import Verif.Spec.Select
/-!
# Which functions serialize a type (C59)
-/

set_option autoImplicit false

namespace Ckpt

variable {T : Type} {o : Offers T} {k : Kind}

theorem dispatchEach_callEach (f : Visit T) : ∀ (s : Ser) (xs : List T), dispatchEach f s xs = callEach f s xs
  | s, [] => rfl
  | s, x :: xs => by
    show (f s x).bind _ = _
    unfold callEach
    cases h : f s x with
    | ok p =>
      show (dispatchEach f p.2 xs).bind _ = _
      rw [dispatchEach_callEach f p.2 xs]
      dsimp only
      cases h2 : callEach f p.2 xs <;> rfl
    | throw => rfl
    | abort => rfl
    | ub => rfl
    | fuel => rfl

theorem callAll_cons (f : Visit T) (fs : List (Visit T)) (s : Ser) (x : T) :
    callAll (f :: fs) s x = (f s x).bind fun p => callAll fs p.2 p.1 := by
  rw [callAll]
  cases f s x <;> rfl

theorem Out.bind_id {α : Type} (m : Out α) : (m.bind fun p => Out.ok p) = m := by cases m <;> rfl

theorem callAll_one (f : Visit T) : callAll [f] = f := by
  funext s x
  rw [callAll_cons]
  exact Out.bind_id _

theorem andThen_eq (f g : Visit T) : Offers.andThen f g = callAll [f, g] := by
  funext s x
  rw [callAll_cons, callAll_one]
  rfl

theorem Out.bind_bind {α β γ : Type} (m : Out α) (f : α → Out β) (g : β → Out γ) :
    (m.bind f).bind g = m.bind fun a => (f a).bind g := by cases m <;> rfl

theorem callAll_append (fs gs : List (Visit T)) (s : Ser) (x : T) :
    callAll (fs ++ gs) s x = (callAll fs s x).bind fun p => callAll gs p.2 p.1 := by
  induction fs generalizing s x with
  | nil => rfl
  | cons f fs ih =>
    rw [List.cons_append, callAll_cons, callAll_cons, Out.bind_bind]
    congr 1
    funext p
    exact ih _ _

/-- C59: types marked as byte-copyable in any of the three ways are copied as bytes, whatever else is declared. -/
theorem C59_bytes (h : o.byteTag = some true ∨ o.arith = true ∨ o.byteSpec = true) : o.dispatch k = some o.bytes := by
  have hb : o.bytecopyable = true := by
    unfold Offers.bytecopyable
    rcases h with h | h | h <;> simp [h]
  simp [Offers.dispatch, hb, resolve]

theorem Offers.NotBytes.eq (h : o.NotBytes) : o.bytecopyable = false := by
  obtain ⟨h1, h2, h3⟩ := h
  unfold Offers.bytecopyable
  cases hb : o.byteTag with
  | none => simp [h2, h3]
  | some b => cases b <;> simp_all

theorem applyStatic_calls (hp : o.Possible) {fs : List (Visit T)} (hc : o.Calls k fs) :
    ∃ h, o.applyStatic k = some h ∧ ∀ s xs, h s xs = callEach (callAll fs) s xs := by
  cases hc with
  | @member f h1 h2 h3 =>
    have he : o.enum = false := by
      cases he : o.enum
      · rfl
      · rw [((hp.enum he).1 k).1] at h1; cases h1
    have hs : o.split k = false := by
      unfold Offers.split
      rcases h3 with h | h <;> simp [h]
    refine ⟨dispatchEach (Offers.andThen f fun s x => .ok (x, s)), ?_, fun s xs => ?_⟩
    · simp [Offers.applyStatic, Offers.traversable, h1, h2, he, resolve, Offers.intrusive, Offers.applyElm, hs]
    · rw [dispatchEach_callEach, andThen_eq]
      congr 1
  | @split f p t h1 h2 h3 h4 =>
    have he : o.enum = false := by
      cases he : o.enum
      · rfl
      · rw [((hp.enum he).1 k).1] at h1; cases h1
    have hs : o.split k = true := by simp [Offers.split, h3, h4]
    refine ⟨dispatchEach (Offers.andThen f (Offers.andThen p t)), ?_, fun s xs => ?_⟩
    · simp [Offers.applyStatic, Offers.traversable, h1, h2, he, resolve, Offers.intrusive, Offers.applyElm, hs,
        Offers.both, h3, h4]
    · rw [dispatchEach_callEach, andThen_eq, andThen_eq]
      congr 1
      funext s x
      rw [callAll_cons, callAll_cons, callAll_one]
  | @free g h1 h2 h3 =>
    refine ⟨dispatchEach g, ?_, fun s xs => by rw [dispatchEach_callEach, callAll_one]⟩
    simp [Offers.applyStatic, Offers.traversable, h1, h2, h3, resolve]
  | enum h2 h3 =>
    obtain ⟨h1, h4, _⟩ := (hp.enum h3).1 k
    refine ⟨dispatchEach o.asInt, ?_, fun s xs => by rw [dispatchEach_callEach, callAll_one]⟩
    simp [Offers.applyStatic, h1, h2, h3, resolve, Offers.applyElm, Offers.split, h4]

/-- C59: the functions called on each object of any other type: the member function `serialize`, followed by
`serializeParent` and `serializeThis` if the class has both; or the free function; or the conversion to the
underlying type of an enumeration. -/
theorem C59_calls (hp : o.Possible) (hb : o.NotBytes) (hv : o.virt = false) {fs : List (Visit T)} (hc : o.Calls k fs) :
    ∃ h, o.dispatch k = some h ∧ ∀ s xs, h s xs = callEach (callAll fs) s xs := by
  obtain ⟨h, h1, h2⟩ := applyStatic_calls hp hc
  exact ⟨h, by simp [Offers.dispatch, hb.eq, resolve, Offers.apply, hv, h1], h2⟩

/-- C59: for a class with virtual serialization the same functions, when virtual serialization is disabled; it is
enabled again for what they visit. -/
theorem C59_virtual (hp : o.Possible) (hb : o.NotBytes) (hv : o.virt = true) {fs : List (Visit T)} (hc : o.Calls k fs) :
    ∃ h, o.dispatch k = some h ∧
      (∀ s xs, s.vdis = true → h s xs = callEach (callAll fs) { s with vdis := false } xs) ∧
      (∀ s xs, s.vdis = false → h s xs = o.virtually s xs) := by
  obtain ⟨h, h1, h2⟩ := applyStatic_calls hp hc
  refine ⟨fun s xs => if s.vdis then h (s.setVdis false) xs else o.virtually s xs, ?_, fun s xs hs => ?_, fun s xs hs => ?_⟩
  · simp [Offers.dispatch, hb.eq, resolve, Offers.apply, hv, Offers.applyVirtual, h1]
  · simp only [hs, if_true, h2]; rfl
  · simp [hs]

/-- C59: if nothing is declared for a type the program compiles only for the footprint, which is `sizeof`. -/
theorem C59_footprint_only (hb : o.NotBytes) (hv : o.virt = false) (hm : o.member k = none) (hf : o.free k = none)
    (he : o.enum = false) : o.dispatch k = if k = .footprinter then some o.bytes else none := by
  have ht : o.traversable k = false := by simp [Offers.traversable, hm, hf, hb.eq]
  by_cases hk : k = .footprinter
  · subst hk
    simp [Offers.dispatch, hb.eq, resolve, Offers.apply, hv, Offers.applyStatic, hm, hf, he, ht]
  · simp [Offers.dispatch, hb.eq, resolve, Offers.apply, hv, Offers.applyStatic, hm, hf, he, hk]

theorem dispatch_none (hb : o.NotBytes) (h : o.applyStatic k = none) : o.dispatch k = none := by
  cases hv : o.virt <;> simp [Offers.dispatch, hb.eq, resolve, Offers.apply, hv, h, Offers.applyVirtual]

/-- C59: the types that do not compile are those for which nothing is declared and those for which two are: a member
function and a free function, or a free function for an enumeration. -/
theorem C59_compiles_iff (hp : o.Possible) (hb : o.NotBytes) : (o.dispatch k).isSome = true ↔
    (∃ fs, o.Calls k fs) ∨ (k = .footprinter ∧ o.member k = none ∧ o.free k = none ∧ o.enum = false) := by
  constructor
  · intro h
    cases hm : o.member k with
    | some f =>
      cases hf : o.free k with
      | some g =>
        have : o.applyStatic k = none := by simp [Offers.applyStatic, Offers.traversable, hm, hf, resolve]
        rw [dispatch_none hb this] at h
        cases h
      | none =>
        refine .inl ?_
        cases h1 : o.parent k with
        | none => exact ⟨_, .member hm hf (.inl h1)⟩
        | some p => cases h2 : o.this k with
          | none => exact ⟨_, .member hm hf (.inr h2)⟩
          | some t => exact ⟨_, .split hm hf h1 h2⟩
    | none =>
      cases he : o.enum with
      | false =>
        cases hf : o.free k with
        | some g => exact .inl ⟨_, .free hm hf he⟩
        | none =>
          by_cases hk : k = .footprinter
          · exact .inr ⟨hk, rfl, rfl, rfl⟩
          · have : o.applyStatic k = none := by simp [Offers.applyStatic, hm, hf, he, hk, resolve]
            rw [dispatch_none hb this] at h
            cases h
      | true =>
        cases hf : o.free k with
        | none => exact .inl ⟨_, .enum hf he⟩
        | some g =>
          have : o.applyStatic k = none := by simp [Offers.applyStatic, hm, hf, he, resolve]
          rw [dispatch_none hb this] at h
          cases h
  · rintro (⟨fs, hc⟩ | ⟨rfl, hm, hf, he⟩)
    · obtain ⟨h, h1, _⟩ := applyStatic_calls hp hc
      cases hv : o.virt <;> simp [Offers.dispatch, hb.eq, resolve, Offers.apply, hv, h1, Offers.applyVirtual]
    · have ht : o.traversable .footprinter = false := by simp [Offers.traversable, hm, hf, hb.eq]
      cases hv : o.virt <;> simp [Offers.dispatch, hb.eq, resolve, Offers.apply, hv, Offers.applyVirtual,
        Offers.applyStatic, hm, hf, he, ht]

/-- C59: two serializers for which the same functions are declared use the same functions, unless nothing is
declared. -/
theorem C59_alike {k' : Kind} (hm : o.member k = o.member k') (hf : o.free k = o.free k') (hp : o.parent k = o.parent k')
    (ht : o.this k = o.this k') (h : o.bytecopyable = true ∨ o.enum = true ∨ (o.member k).isSome = true ∨
      (o.free k).isSome = true) : o.dispatch k = o.dispatch k' := by
  have hs : o.split k = o.split k' := by simp [Offers.split, hp, ht]
  have he : o.applyElm k = o.applyElm k' := by simp [Offers.applyElm, hs, Offers.both, hp, ht]
  have hi : o.intrusive k = o.intrusive k' := by simp [Offers.intrusive, he, hm]
  have hst : o.bytecopyable = true ∨ o.applyStatic k = o.applyStatic k' := by
    rcases h with h | h | h | h
    · exact .inl h
    · exact .inr (by simp [Offers.applyStatic, h, hm, hf, he, hi])
    · exact .inr (by
        have h' := h
        rw [hm] at h'
        simp [Offers.applyStatic, Offers.traversable, h, h', hf, he, hi])
    · exact .inr (by
        have h' := h
        rw [hf] at h'
        simp [Offers.applyStatic, Offers.traversable, h', hm, hf, he, hi])
  rcases hst with h | h
  · simp [Offers.dispatch, h, resolve]
  · simp [Offers.dispatch, Offers.apply, Offers.applyVirtual, h]

/-- C59: a class split into three functions is visited like a class with one function visiting all their members. -/
theorem C59_split_members (fs ps ts : List (Visit T)) :
    callAll [callAll fs, callAll ps, callAll ts] = callAll (fs ++ ps ++ ts) := by
  funext s x
  rw [callAll_cons, callAll_append, callAll_append, Out.bind_bind]
  congr 1
  funext p
  rw [callAll_cons, callAll_one]

/-- C59: a derived class that declares no `serialize` is visited by the function of the base class only. -/
theorem C59_inherited {B : Type} {on : Visit B → Visit T} {d : Offers T} {b : Offers B} (he : d.enum = false)
    (hn : (d.derive on b).NotBytes) (hv : d.virt = false) (hm : d.member k = none) (hf : d.free k = none)
    {f : Visit B} (hbm : b.member k = some f) (hbf : b.free k = none)
    (hs : d.parent k = none ∧ b.parent k = none ∨ d.this k = none ∧ b.this k = none) :
    ∃ h, (d.derive on b).dispatch k = some h ∧ ∀ s xs, h s xs = callEach (on f) s xs := by
  obtain ⟨h, h1, h2⟩ := C59_calls (o := d.derive on b) (k := k) ⟨fun h => by
      rw [show (d.derive on b).enum = d.enum from rfl, he] at h; cases h⟩ hn hv
    (.member (f := on f) (by simp [Offers.derive, hm, hbm]) (by simp [Offers.derive, hf, hbf])
      (hs.imp (fun h => by simp [Offers.derive, h]) (fun h => by simp [Offers.derive, h])))
  exact ⟨h, h1, fun s xs => by rw [h2, callAll_one]⟩

/-- C59: … or by the free function for the base class. -/
theorem C59_inherited_free {B : Type} {on : Visit B → Visit T} {d : Offers T} {b : Offers B} (he : d.enum = false)
    (hn : (d.derive on b).NotBytes) (hv : d.virt = false) (hm : d.member k = none) (hf : d.free k = none)
    {f : Visit B} (hbm : b.member k = none) (hbf : b.free k = some f) :
    ∃ h, (d.derive on b).dispatch k = some h ∧ ∀ s xs, h s xs = callEach (on f) s xs := by
  obtain ⟨h, h1, h2⟩ := C59_calls (o := d.derive on b) (k := k) ⟨fun h => by
      rw [show (d.derive on b).enum = d.enum from rfl, he] at h; cases h⟩ hn hv
    (.free (g := on f) (by simp [Offers.derive, hm, hbm]) (by simp [Offers.derive, hf, hbf]) he)
  exact ⟨h, h1, fun s xs => by rw [h2, callAll_one]⟩

/-- C59: a derived class that declares `serialize` itself is visited by it, not by that of its base class. -/
theorem C59_hides {B : Type} {on : Visit B → Visit T} {d : Offers T} {b : Offers B} (he : d.enum = false)
    (hn : (d.derive on b).NotBytes) (hv : d.virt = false) {f : Visit T} (hm : d.member k = some f)
    (hf : d.free k = none) (hbf : b.free k = none)
    (hs : d.parent k = none ∧ b.parent k = none ∨ d.this k = none ∧ b.this k = none) :
    ∃ h, (d.derive on b).dispatch k = some h ∧ ∀ s xs, h s xs = callEach f s xs := by
  obtain ⟨h, h1, h2⟩ := C59_calls (o := d.derive on b) (k := k) ⟨fun h => by
      rw [show (d.derive on b).enum = d.enum from rfl, he] at h; cases h⟩ hn hv
    (.member (f := f) (by simp [Offers.derive, hm]) (by simp [Offers.derive, hf, hbf])
      (hs.imp (fun h => by simp [Offers.derive, h]) (fun h => by simp [Offers.derive, h])))
  exact ⟨h, h1, fun s xs => by rw [h2, callAll_one]⟩

/-- C59: a derived class with a member function whose base class has a free function does not compile: both accept
its objects. -/
theorem C59_both_inherited {B : Type} {on : Visit B → Visit T} {d : Offers T} {b : Offers B}
    (hn : (d.derive on b).NotBytes) {f : Visit T} {g : Visit B} (hm : d.member k = some f) (hf : d.free k = none)
    (hbf : b.free k = some g) : (d.derive on b).dispatch k = none := by
  refine dispatch_none hn ?_
  have h1 : (d.derive on b).member k = some f := by simp [Offers.derive, hm]
  have h2 : (d.derive on b).free k = some (on g) := by simp [Offers.derive, hf, hbf]
  simp [Offers.applyStatic, Offers.traversable, h1, h2, resolve]

/-- C59: a class derived from a byte-copyable class is copied as bytes, also if it declares `serialize`, unless it
declares `isByteCopyable` anew. -/
theorem C59_inherited_bytes {B : Type} {on : Visit B → Visit T} {d : Offers T} {b : Offers B} (hd : d.byteTag = none)
    (hb : b.byteTag = some true) : (d.derive on b).dispatch k = some d.bytes :=
  C59_bytes (o := d.derive on b) (.inl (by simp [Offers.derive, hd, hb]))

/-- A class of two numbers that has all three functions and a copy operation of its representation. -/
def Demo.three : Offers (Nat × Nat) where
  member _ := some fun s x => .ok ((x.1 + 1, x.2), s)
  parent _ := some fun s x => .ok ((x.1 * 2, x.2), s)
  this _ := some fun s x => .ok ((x.1, x.2 + x.1), s)
  bytes s xs := .ok (xs, s)
  asInt s x := .ok (x, s)
  virtually s xs := .ok (xs, s)

example : Demo.three.Possible ∧ Demo.three.NotBytes ∧ ∃ f p t, Demo.three.Calls .sizer [f, p, t] :=
  ⟨⟨nofun⟩, ⟨nofun, rfl, rfl⟩, _, _, _, .split rfl rfl rfl rfl⟩

example (s : Ser) : (Demo.three.dispatch .packer).map (fun h => h s [(1, 1), (2, 2)]) =
    some (.ok ([(4, 5), (6, 8)], s)) := rfl

/-- With a free function in addition the program does not compile. -/
example : ({ Demo.three with free := fun _ => some fun s x => .ok (x, s) } : Offers (Nat × Nat)).dispatch .sizer = none := rfl

/-- `serializeThis` alone is never called. -/
example (s : Ser) : (({ Demo.three with parent := fun _ => none } : Offers (Nat × Nat)).dispatch .packer).map
    (fun h => h s [(1, 1)]) = some (.ok ([(2, 1)], s)) := rfl

/-- A class with a free function, and a class derived from it with another number. -/
def Demo.freeBase : Offers Nat where
  free _ := some fun s x => .ok (x + 1, s)
  bytes s xs := .ok (xs, s)
  asInt s x := .ok (x, s)
  virtually s xs := .ok (xs, s)

/-- Functions for the base class visit the first component. -/
def Demo.onFirst (f : Visit Nat) : Visit (Nat × Nat) := fun s x => (f s x.1).bind fun p => .ok ((p.1, x.2), p.2)

/-- A derived class that declares nothing, and one that declares a member function. -/
def Demo.bare : Offers (Nat × Nat) :=
  { bytes := fun s xs => .ok (xs, s), asInt := fun s x => .ok (x, s), virtually := fun s xs => .ok (xs, s) }

def Demo.own : Offers (Nat × Nat) := { Demo.bare with member := fun _ => some fun s x => .ok ((x.1, x.2 + 1), s) }

example (s : Ser) : ((Demo.bare.derive Demo.onFirst Demo.freeBase).dispatch .packer).map (fun h => h s [(1, 1), (2, 2)]) =
    some (.ok ([(2, 1), (3, 2)], s)) := rfl

example : (Demo.own.derive Demo.onFirst Demo.freeBase).NotBytes ∧
    (Demo.own.derive Demo.onFirst Demo.freeBase).dispatch .packer = none :=
  ⟨⟨nofun, rfl, rfl⟩, C59_both_inherited ⟨nofun, rfl, rfl⟩ rfl rfl rfl⟩

example (s : Ser) : ((Demo.own.derive Demo.onFirst { Demo.freeBase with
      free := fun _ => none, member := fun _ => some fun s x => .ok (x + 1, s) }).dispatch .packer).map
    (fun h => h s [(1, 1), (2, 2)]) = some (.ok ([(1, 2), (2, 3)], s)) := rfl

end Ckpt
