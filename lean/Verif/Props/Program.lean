import Verif.Props.Compose
import Verif.Props.ComposeSafety
/-!
# C68: serialize functions with control flow, over members of any types
-/

set_option autoImplicit false

namespace Ckpt

section
variable {R : RelMode} {cfg : Cfg} {env : Env} {O A : Type}

/-- **C68**: a class with any `serialize` function, members and local variables of any types: if every object it writes
(`items`) is taken by the function again when reading, over an object of the type it was written with, and the function
then ends with an equal object, whatever equal members it got, then the class round trips. -/
theorem C68_program_roundtrip {p : Prog O} {u : Usage O} {ti : TI} {fresh : O} {dflt : Option O} {ps : TypeUse → Prop}
    {items : O → List Item} (c : Bool) (hv : env.Valid R (· ∈ builtinKinds) cfg) (hti : ti.Valid) (hw : p.Within ps)
    (hps : ∀ q, ps q → Composed R cfg env q.2.1 q.2.2)
    (hi : ∀ x, u.ok x → p.Writes x (items x) ∧ ∀ i ∈ items x, i.Good ps)
    (ht : ∀ x y, u.ok x → u.clean y → p.Takes (u.same x) (items x) y) (hf : u.clean fresh)
    (hd : ∀ d, dflt = some d → u.clean d) {x : O} (hx : u.ok x) :
    RoundTrips cfg (CppType.program cfg ti fresh dflt c p).elem x u.clean fun _ w => u.same x w :=
  C65_composed_roundtrip hv (.program c items hti hw hps hi ht hf hd) hx

/-! ### A vector that is resized to a recorded size -/

/-- Any list whose objects can be written; any over which can be read; element by element. -/
def Usage.resized (u : Usage A) : Usage (List A) where
  ok xs := (∀ x ∈ xs, u.ok x) ∧ xs.length < 2 ^ 64
  clean ys := ∀ y ∈ ys, u.clean y
  same := List.Forall₂ u.same
  many _ := True

theorem each_within {t : CppType A} {u : Usage A} : ∀ (n i : Nat), (Prog.each t n i).Within (· = ⟨A, t, u⟩)
  | 0, _ => trivial
  | n + 1, i => ⟨⟨u, rfl⟩, each_within n (i + 1)⟩

theorem each_writes {t : CppType A} {u : Usage A} {xs : List A} : ∀ (n i : Nat), n + i = xs.length →
    (Prog.each t n i).Writes xs ((xs.drop i).map (Item.one t u))
  | 0, i, h => by
    rw [List.drop_eq_nil_of_le (by omega)]
    exact .done
  | n + 1, i, h => by
    have hi : i < xs.length := by omega
    rw [List.drop_eq_getElem_cons hi]
    exact .visit u (List.getElem?_eq_getElem hi) (List.set_getElem_self hi) (each_writes n (i + 1) (by omega))

theorem each_takes {t : CppType A} {u : Usage A} {xs : List A} : ∀ (n i : Nat) (ys : List A), n + i = xs.length →
    ys.length = xs.length → List.Forall₂ u.same (xs.take i) (ys.take i) → (∀ y ∈ ys.drop i, u.clean y) →
    (Prog.each t n i).Takes (List.Forall₂ u.same xs) ((xs.drop i).map (Item.one t u)) ys
  | 0, i, ys, h, hl, hr, hc => by
    rw [List.drop_eq_nil_of_le (by omega)]
    rw [List.take_of_length_le (by omega), List.take_of_length_le (by omega)] at hr
    exact .done hr
  | n + 1, i, ys, h, hl, hr, hc => by
    have hi : i < xs.length := by omega
    have hj : i < ys.length := by omega
    rw [List.drop_eq_getElem_cons hi]
    rw [List.drop_eq_getElem_cons hj] at hc
    refine .visit (List.getElem?_eq_getElem hj) (hc _ (.head _)) fun a' ha => ?_
    refine each_takes n (i + 1) (ys.set i a') (by omega) (by simpa using hl) ?_ fun y hy => ?_
    · rw [List.take_succ_eq_append_getElem hi, List.take_succ_eq_append_getElem (by simpa using hj)]
      exact List.rel_append (by rw [List.take_set_of_le (Nat.le_refl i)]; exact hr) (.cons (by simpa using ha) .nil)
    · rw [List.drop_set_of_lt (by omega)] at hy
      exact hc y (.tail _ hy)

theorem resizeTo_self (new : A) (xs : List A) : resizeTo new xs.length xs = xs := by simp [resizeTo]

theorem resizeTo_length (new : A) (c : Nat) (xs : List A) : (resizeTo new c xs).length = c := by
  simp [resizeTo]
  omega

theorem resizeTo_all {P : A → Prop} {new : A} (hn : P new) {xs : List A} (h : ∀ x ∈ xs, P x) (c : Nat) :
    ∀ x ∈ resizeTo new c xs, P x := by
  intro x hx
  simp only [resizeTo, List.mem_append, List.mem_replicate] at hx
  rcases hx with hx | ⟨-, rfl⟩
  · exact h x (List.mem_of_mem_take hx)
  · exact hn

/-- Such a class is composed of its element type. -/
theorem Composed.resized {t : CppType A} {u : Usage A} {new : A} {ti : TI} {fresh : List A} {dflt : Option (List A)}
    (c : Bool) (hti : ti.Valid) (h : Composed R cfg env t u) (hn : u.clean new) (hf : ∀ y ∈ fresh, u.clean y)
    (hd : ∀ d, dflt = some d → ∀ y ∈ d, u.clean y) :
    Composed R cfg env (.program cfg ti fresh dflt c (.resized t new)) (.resized u) :=
  .program (ps := (· = ⟨A, t, u⟩)) c (fun xs => .count xs.length :: xs.map (Item.one t u)) hti
    (fun _ => each_within _ _) (by rintro _ rfl; exact h)
    (fun xs hx => ⟨.count (.update (resizeTo_self _ _) (each_writes _ 0 rfl)), by
      intro i hi
      simp only [List.mem_cons, List.mem_map] at hi
      rcases hi with rfl | ⟨x, hm, rfl⟩
      · exact hx.2
      · exact ⟨rfl, hx.1 x hm⟩⟩)
    (fun xs ys _ hy => .count (.update (each_takes _ 0 _ rfl (resizeTo_length _ _ _) .nil
      (by simpa using resizeTo_all hn hy xs.length))))
    hf hd

/-- **C68**: a class that records the size of a vector, resizes it and visits the elements one by one
restores the vector over any other, longer or shorter, for any type of the elements. -/
theorem C68_resized_roundtrip {t : CppType A} {u : Usage A} {new : A} {ti : TI} {fresh : List A}
    {dflt : Option (List A)} (c : Bool) (hv : env.Valid R (· ∈ builtinKinds) cfg) (hti : ti.Valid)
    (h : Composed R cfg env t u) (hn : u.clean new) (hf : ∀ y ∈ fresh, u.clean y)
    (hd : ∀ d, dflt = some d → ∀ y ∈ d, u.clean y) {xs : List A} (hx : ∀ x ∈ xs, u.ok x) (hl : xs.length < 2 ^ 64) :
    RoundTrips cfg (CppType.program cfg ti fresh dflt c (.resized t new)).elem xs (fun ys => ∀ y ∈ ys, u.clean y)
      fun _ ws => List.Forall₂ u.same xs ws :=
  C65_composed_roundtrip hv (Composed.resized c hti h hn hf hd) ⟨hx, hl⟩

/-! ### A raw pointer that owns an object -/

/-- The pointer is null or its object can be written; anything can be read over. -/
def Usage.owned (u : Usage A) : Usage (Option A) where
  ok x := ∀ a, x = some a → u.ok a
  clean _ := True
  same := Option.Rel u.same
  many _ := True

theorem Composed.owned {t : CppType A} {u : Usage A} {new : A} {ti : TI} (fresh : Option A) (dflt : Option (Option A))
    (c : Bool) (hti : ti.Valid) (h : Composed R cfg env t u) (hn : u.clean new) :
    Composed R cfg env (.program cfg ti fresh dflt c (.owned t new)) (.owned u) := by
  refine .program (ps := (· = ⟨A, t, u⟩)) c
    (fun x => .flag x.isNone :: (x.map (Item.one t u)).toList) hti ?_ (by rintro _ rfl; exact h) ?_ ?_ trivial
    (fun _ _ => trivial)
  · rintro (_ | _)
    · exact ⟨⟨⟨u, rfl⟩, trivial⟩, ⟨u, rfl⟩, trivial⟩
    · exact ⟨trivial, trivial⟩
  · rintro (_ | a) hx
    · exact ⟨.flag (.mode .done), by rintro _ (_ | _); exact trivial; contradiction⟩
    · refine ⟨.flag (.mode (.visit u rfl rfl .done)), ?_⟩
      intro i hi
      simp only [Option.isNone_some, Option.map_some, Option.toList_some, List.mem_cons, List.not_mem_nil, or_false] at hi
      rcases hi with rfl | rfl
      · exact trivial
      · exact ⟨rfl, hx a rfl⟩
  · rintro (_ | a) y _ _
    · exact .flag (.mode (.update (.done .none)))
    · exact .flag (.mode (.update (.visit rfl hn fun a' ha => .done (.some ha))))

/-- **C68**: a raw pointer with a recorded null flag is restored over any other pointer, null or not. -/
theorem C68_owned_roundtrip {t : CppType A} {u : Usage A} {new : A} {ti : TI} (fresh : Option A)
    (dflt : Option (Option A)) (c : Bool) (hv : env.Valid R (· ∈ builtinKinds) cfg) (hti : ti.Valid)
    (h : Composed R cfg env t u) (hn : u.clean new) {x : Option A} (hx : ∀ a, x = some a → u.ok a) :
    RoundTrips cfg (CppType.program cfg ti fresh dflt c (.owned t new)).elem x (fun _ => True)
      fun _ w => Option.Rel u.same x w :=
  C65_composed_roundtrip hv (Composed.owned fresh dflt c hti h hn) hx

/-! ### Arbitrary input -/

/-- **C68**: whatever bytes a stream delivers, a class whose `serialize` function, whatever it gets, accesses only what
there is and ends with a well-formed object (`Careful`) is read as in C66. -/
theorem C68_arbitrary_input {U : UB → Prop} {p : Prog O} {I : O → Prop} {fresh : O} {dflt : Option O}
    {ps : TypeShape → Prop} (ti : TI) (c : Bool) (hE : env.Sound cfg) (hU : ∀ u, Hazard cfg env u → U u)
    (hps : ∀ q, ps q → Guarded U cfg env q.2.1 q.2.2) (hp : ∀ y, I y → p.Careful U ps ps I y) (hf : I fresh)
    (hd : ∀ d, dflt = some d → I d) (inp : Bytes) {y : O} (hy : I y) :
    ∃ o, EndsWell U I o ∧ ∃ n0, ∀ n, n0 ≤ n →
      deserializeInPlaceFromStream cfg ((CppType.program cfg ti fresh dflt c p).elem n) inp y = o :=
  C66_stream_in_place hE hU (.program ti c hps hps hp hf hd) inp hy

theorem each_careful {U : UB → Prop} {t : CppType A} {I : A → Prop} : ∀ (n i : Nat) (ys : List A),
    n + i ≤ ys.length → (∀ y ∈ ys, I y) →
    (Prog.each t n i).Careful U (· = ⟨A, t, I⟩) (· = ⟨A, t, I⟩) (fun ys => ∀ y ∈ ys, I y) ys
  | 0, _, _, _, hI => hI
  | n + 1, i, ys, h, hI => by
    have hi : i < ys.length := by omega
    simp only [Prog.each, Prog.Careful, List.getElem?_eq_getElem hi]
    refine ⟨I, rfl, hI _ (List.getElem_mem _), fun a ha => each_careful n (i + 1) _ (by simp; omega) fun y hy => ?_⟩
    rcases List.mem_or_eq_of_mem_set hy with hy | rfl
    · exact hI y hy
    · exact ha

/-- The vector that is resized to a recorded size: no access outside of it, whatever the recorded size. -/
theorem Guarded.resized {U : UB → Prop} {t : CppType A} {I : A → Prop} {new : A} {fresh : List A}
    {dflt : Option (List A)} (ti : TI) (c : Bool) (h : Guarded U cfg env t I) (hn : I new) (hf : ∀ y ∈ fresh, I y)
    (hd : ∀ d, dflt = some d → ∀ y ∈ d, I y) :
    Guarded U cfg env (.program cfg ti fresh dflt c (.resized t new)) (fun ys => ∀ y ∈ ys, I y) :=
  .program (ps := (· = ⟨A, t, I⟩)) (qs := (· = ⟨A, t, I⟩)) ti c (by rintro _ rfl; exact h) (by rintro _ rfl; exact h)
    (fun _ hy _ => each_careful _ 0 _ (by rw [resizeTo_length]; exact Nat.le_refl _) (resizeTo_all hn hy _)) hf hd

/-- The owned object. -/
theorem Guarded.owned {U : UB → Prop} {t : CppType A} {I : A → Prop} {new : A} {fresh : Option A}
    {dflt : Option (Option A)} (ti : TI) (c : Bool) (h : Guarded U cfg env t I) (hn : I new)
    (hf : ∀ a, fresh = some a → I a) (hd : ∀ d, dflt = some d → ∀ a, d = some a → I a) :
    Guarded U cfg env (.program cfg ti fresh dflt c (.owned t new)) (fun x => ∀ a, x = some a → I a) := by
  refine .program (ps := (· = ⟨A, t, I⟩)) (qs := (· = ⟨A, t, I⟩)) ti c (by rintro _ rfl; exact h)
    (by rintro _ rfl; exact h) ?_ hf hd
  rintro y _ (_ | _)
  · refine ⟨I, rfl, hn, fun a ha b hb => ?_⟩
    cases hb
    exact ha
  · intro a ha
    cases ha

/-- **C68**: so for these two, with any type of the elements or of the object. -/
theorem C68_patterns_arbitrary_input {U : UB → Prop} {t : CppType A} {I : A → Prop} {new : A} (ti : TI) (c : Bool)
    (hE : env.Sound cfg) (hU : ∀ u, Hazard cfg env u → U u) (h : Guarded U cfg env t I) (hn : I new) (inp : Bytes) :
    (∀ ys, (∀ y ∈ ys, I y) → ∃ o, EndsWell U (fun ys => ∀ y ∈ ys, I y) o ∧ ∃ n0, ∀ n, n0 ≤ n →
      deserializeInPlaceFromStream cfg ((CppType.program cfg ti [] (some []) c (.resized t new)).elem n) inp ys = o) ∧
    (∀ y, (∀ a, y = some a → I a) → ∃ o, EndsWell U (fun x => ∀ a, x = some a → I a) o ∧ ∃ n0, ∀ n, n0 ≤ n →
      deserializeInPlaceFromStream cfg ((CppType.program cfg ti none (some none) c (.owned t new)).elem n) inp y = o) :=
  ⟨fun _ hy => C66_stream_in_place hE hU
      (Guarded.resized ti c h hn (fun _ h => by cases h) (fun d hd => by cases hd; exact fun _ h => by cases h)) inp hy,
   fun _ hy => C66_stream_in_place hE hU
      (Guarded.owned ti c h hn (fun _ h => by cases h) (fun d hd => by cases hd; exact fun _ h => by cases h)) inp hy⟩

end

/-! ### A vector of owned views, as the values of a map; a member chosen by a local variable -/

namespace Demo
variable (c : Cfg)

/-- `struct Rows { std::vector<Kokkos::View<int*>*> rows; }`, resized when reading, each owned. -/
def ownedRow : CppType (Option (View Val)) :=
  .program c (Demo.env.ti int) none (some none) true (.owned (rowType c) rowTy.empty)
def rowsType : CppType (List (Option (View Val))) :=
  .program c (Demo.env.ti int) [] (some []) true (.resized (ownedRow c) none)
def rowsUse : Usage (List (Option (View Val))) := .resized (.owned (rowUse c))

theorem rowsComposed : Composed .contents c Demo.env (rowsType c) (rowsUse c) :=
  .resized true (ti_valid _) (.owned _ _ true (ti_valid _) (rowComposed c) trivial) trivial (fun _ h => by cases h)
    (fun d hd => by cases hd; exact fun _ h => by cases h)

/-- Whether a number is 0. -/
def isZero : Val → Bool
  | .raw (0 :: _) => true
  | _ => false

/-- `int tag = this->tag; s | tag; this->tag = tag; if (tag != 0) s | row;`. -/
def taggedProg : Prog (Val × View Val) :=
  .value (.base c Demo.env int) Prod.fst fun a => .update (fun o => (a, o.2))
    (if isZero a then .done else .visit (rowType c) (fun o => some o.2) (fun v o => (o.1, v)) .done)

def taggedType : CppType (Val × View Val) :=
  .program c (Demo.env.ti int) (num 0, rowTy.empty) (some (num 0, rowTy.empty)) true (taggedProg c)

def taggedUse : Usage (Val × View Val) where
  ok x := (Usage.base .contents c Demo.env int).ok x.1 ∧ (isZero x.1 = false → (rowUse c).ok x.2)
  clean y := (Usage.base .contents c Demo.env int).clean y.1
  same x y := x.1 = y.1 ∧ (isZero x.1 = false → (rowUse c).same x.2 y.2)
  many _ := True

theorem taggedComposed : Composed .contents c Demo.env (taggedType c) (taggedUse c) := by
  refine .program true (ps := fun q => q = ⟨Val, .base c Demo.env int, .base .contents c Demo.env int⟩ ∨
      q = ⟨View Val, rowType c, rowUse c⟩)
    (fun x => .one (.base c Demo.env int) (.base .contents c Demo.env int) x.1 ::
      if isZero x.1 then [] else [.one (rowType c) (rowUse c) x.2]) (ti_valid _) ?_ ?_ ?_ ?_ ⟨.prim rfl, trivial⟩
    (fun d hd => by cases hd; exact ⟨.prim rfl, trivial⟩)
  · refine ⟨⟨_, .inl rfl⟩, fun a => ?_⟩
    show Prog.Within _ (if _ then _ else _)
    split
    · trivial
    · exact ⟨⟨_, .inr rfl⟩, trivial⟩
  · rintro _ (rfl | rfl)
    · exact .base _
    · exact rowComposed c
  · intro x hx
    refine ⟨.value _ (.update rfl ?_), ?_⟩
    · split
      · exact .done
      · exact .visit _ rfl rfl .done
    · intro i hi
      simp only [List.mem_cons] at hi
      rcases hi with rfl | hi
      · exact ⟨.inl rfl, hx.1⟩
      · split at hi
        · cases hi
        · rename_i h
          simp only [List.mem_cons, List.not_mem_nil, or_false] at hi
          subst hi
          exact ⟨.inr rfl, hx.2 (by simpa using h)⟩
  · intro x y hx hy
    refine .value hy fun a ha => .update ?_
    have key : ∀ {a b : Val}, Rel .contents Demo.env int a b → a = b := by
      intro a b h
      cases h
      rfl
    have : x.1 = a := key ha
    subst this
    split
    · rename_i h
      exact .done ⟨rfl, fun h' => by simp [h] at h'⟩
    · exact .visit rfl trivial fun v hv => .done ⟨rfl, fun _ => hv⟩

/-- `{{}, {0, 1}, null}`. -/
def rows : List (Option (View Val)) := [some (row 0), some (row 2), none]

theorem rows_ok : (rowsUse c).ok rows := by
  refine ⟨?_, by decide⟩
  intro x hx
  simp only [rows, List.mem_cons, List.not_mem_nil, or_false] at hx
  rcases hx with rfl | rfl | rfl <;> intro a ha <;> cases ha <;> exact row_use c _ (by decide)

end Demo

/-- The hypotheses of the theorems are met, also by a `std::deque` of pairs of the two classes. -/
example : Demo.env.Valid .contents (· ∈ builtinKinds) (Demo.cfg true false) ∧
    Composed .contents (Demo.cfg true false) Demo.env
      (.list (Demo.cfg true false) (Demo.env.ti Demo.int) true (.pair (Demo.cfg true false) (Demo.env.ti Demo.int)
        (Demo.rowsType (Demo.cfg true false)) (Demo.taggedType (Demo.cfg true false))))
      (.list (.pair (Demo.cfg true false) (Demo.env.ti Demo.int)
        (Demo.rowsType (Demo.cfg true false)) (Demo.taggedType (Demo.cfg true false)))
        (.pair (Demo.rowsUse (Demo.cfg true false)) (Demo.taggedUse (Demo.cfg true false)))) ∧
    (Demo.rowsUse (Demo.cfg true false)).ok Demo.rows ∧
    (Demo.taggedUse (Demo.cfg true false)).ok (Demo.num 1, Demo.row 3) :=
  ⟨Demo.valid_contents, .list true (Demo.ti_valid _) (.pair (Demo.ti_valid _) (Demo.rowsComposed _) (Demo.taggedComposed _)),
    Demo.rows_ok _, Demo.int_ok _ _, fun _ => Demo.row_use _ _ (by decide)⟩

/-- The vector of owned views is read over one of another size. -/
example : RoundTrips (Demo.cfg true true) (Demo.rowsType (Demo.cfg true true)).elem Demo.rows
    (fun ys => ∀ y ∈ ys, True) fun _ ws => List.Forall₂ (Option.Rel (Demo.rowUse (Demo.cfg true true)).same) Demo.rows ws :=
  C68_resized_roundtrip (u := .owned (Demo.rowUse (Demo.cfg true true))) true Demo.valid_contents (Demo.ti_valid _)
    (.owned _ _ true (Demo.ti_valid _) (Demo.rowComposed _) trivial)
    trivial (fun _ h => by cases h) (fun d hd => by cases hd; exact fun _ h => by cases h) (Demo.rows_ok _).1 (by decide)

/-- Arbitrary input for it. -/
example (inp : Bytes) := (C68_patterns_arbitrary_input (Demo.env.ti Demo.int) true Demo.sound (fun _ => .inl)
  (Demo.rowGuarded (Demo.cfg true false)) (empty_formed _ _) inp).1 [Demo.rowTy.empty] (by simp [empty_formed])

end Ckpt
