import Verif.Proofs.Failure
import Verif.Proofs.SharedTop
import Verif.Proofs.ViewShared
import Verif.Props.File
/-!
# C75: failures of the function of a part come out of every call unchanged

A `serialize` function of a class somewhere within a type throws an exception other than `serialization_error`, fails an
assertion, or has undefined behaviour.  `CppType.PassesOn fl F`: the type `F t`, which has `t` within, fails in the same
way whenever the failure of `t` is noticed at all.
-/

set_option autoImplicit false

namespace Ckpt

section
variable {fl fl' : Failure} {cfg : Cfg} {env : Env} {T A B O : Type}

/-! ### What it means -/

/-- C75: if the function of a part fails in some situations, then the whole fails in the same way or does what it does
with whatever else the function might do in these situations. -/
theorem C75_unchanged {F : CppType T → CppType A} (hF : CppType.PassesOn fl F) {when : Nat → Ser → List T → Bool}
    {t t' : CppType T} (h : t.AgreeBut when t') (n : Nat) (s : Ser) (xs : List A) :
    (F (t.failing fl when)).apply n s xs = fl.out ∨ (F (t.failing fl when)).apply n s xs = (F t').apply n s xs :=
  (hF n _ _ (failing_failsOr h n)).2 s xs

/-- C75: if it makes any difference what the function of the part does in these situations, the whole fails. -/
theorem C75_noticed {F : CppType T → CppType A} (hF : CppType.PassesOn fl F) {when : Nat → Ser → List T → Bool}
    {t t' : CppType T} (h : t.AgreeBut when t') {n : Nat} {s : Ser} {xs : List A}
    (hd : (F t).apply n s xs ≠ (F t').apply n s xs) : (F (t.failing fl when)).apply n s xs = fl.out := by
  rcases C75_unchanged hF (.refl when t) n s xs with h1 | h1
  · exact h1
  · rcases C75_unchanged hF h n s xs with h2 | h2
    · exact h2
    · exact absurd (h1.symm.trans h2) hd

/-- C75: the exception that comes out is the one thrown: another one thrown in the same situations comes out instead. -/
theorem C75_which {F : CppType T → CppType A} (hF : CppType.PassesOn fl F) (hF' : CppType.PassesOn fl' F)
    (when : Nat → Ser → List T → Bool) (t : CppType T) (n : Nat) (s : Ser) (xs : List A) :
    ((F (t.failing fl when)).apply n s xs = fl.out ∧ (F (t.failing fl' when)).apply n s xs = fl'.out) ∨
      (F (t.failing fl when)).apply n s xs = (F (t.failing fl' when)).apply n s xs := by
  have a1 : t.AgreeBut when (t.failing fl' when) :=
    ⟨rfl, fun n s xs hw => by simp [CppType.failing, hw]⟩
  have a2 : t.AgreeBut when (t.failing fl when) :=
    ⟨rfl, fun n s xs hw => by simp [CppType.failing, hw]⟩
  rcases C75_unchanged hF a1 n s xs with h1 | h1
  · rcases C75_unchanged hF' a2 n s xs with h2 | h2
    · exact .inl ⟨h1, h2⟩
    · exact .inr h2.symm
  · exact .inr h1

/-! ### All types pass failures on -/

/-- C75: the type itself, types that do not have it within, and types within others. -/
theorem C75_nested : CppType.PassesOn fl (fun t : CppType T => t) ∧
    (∀ a : CppType A, CppType.PassesOn fl fun _ : CppType T => a) ∧
    ∀ {F : CppType T → CppType A} {G : CppType A → CppType B}, CppType.PassesOn fl G → CppType.PassesOn fl F →
      CppType.PassesOn fl fun t => G (F t) :=
  ⟨.self, .const, fun h h' => .comp h h'⟩

/-- C75: sequential containers and arrays. -/
theorem C75_sequences {F : CppType T → CppType A} (h : CppType.PassesOn fl F) (ti : TI) (c : Bool) (k : Nat) :
    CppType.PassesOn fl (fun t => .vector cfg ti c (F t)) ∧ CppType.PassesOn fl (fun t => .list cfg ti c (F t)) ∧
    CppType.PassesOn fl (fun t => .queue cfg ti c (F t)) ∧ CppType.PassesOn fl (fun t => .array cfg ti k (F t)) :=
  ⟨.vector ti c h, .list ti c h, .queue ti c h, .array ti k h⟩

/-- C75: associative containers. -/
theorem C75_associative {F : CppType T → CppType A} (h : CppType.PassesOn fl F) (ti : TI) (c : Bool) (a : Assoc)
    (lt eq : A → A → Bool) (arrange : List A → List A) :
    CppType.PassesOn fl (fun t => .ordered cfg ti c a lt (F t)) ∧
    CppType.PassesOn fl (fun t => .unordered cfg ti c a eq arrange (F t)) :=
  ⟨.ordered ti c a lt h, .unordered ti c a eq arrange h⟩

/-- C75: pairs, tuples, optional values, variants and owning pointers. -/
theorem C75_values {F : CppType T → CppType A} {G : CppType T → CppType B} {M : CppType T → MemberTypes O}
    {V : CppType T → AltTypes O} (hF : CppType.PassesOn fl F) (hG : CppType.PassesOn fl G)
    (hM : MemberTypes.PassesOn fl M) (hV : AltTypes.PassesOn fl V) (ti : TI) :
    CppType.PassesOn fl (fun t => .pair cfg ti (F t) (G t)) ∧ CppType.PassesOn fl (fun t => .tuple cfg ti (M t)) ∧
    CppType.PassesOn fl (fun t => .optional cfg ti (F t)) ∧ CppType.PassesOn fl (fun t => .variant cfg ti (V t)) ∧
    CppType.PassesOn fl (fun t => .uniquePtr cfg ti (F t)) :=
  ⟨.pair ti hF hG, .tuple ti hM, .optional ti hF, .variant ti hV, .uniquePtr ti hF⟩

/-- C75: Kokkos views and maps. -/
theorem C75_kokkos {F : CppType T → CppType A} {G : CppType T → CppType B} (hF : CppType.PassesOn fl F)
    (hG : CppType.PassesOn fl G) (k : ViewTI) (ty : ViewTy) (kr : DynTI) (l : Layout) (kd : DynamicTI) (km : KMapTI)
    (e : KHash A B) :
    CppType.PassesOn fl (fun t => .view cfg k ty (F t)) ∧ CppType.PassesOn fl (fun t => .constView cfg k ty (F t)) ∧
    CppType.PassesOn fl (fun t => .dynRank cfg kr l (F t)) ∧ CppType.PassesOn fl (fun t => .dynamic cfg kd (F t)) ∧
    CppType.PassesOn fl (fun t => .kmap cfg km e (F t) (G t)) :=
  ⟨.view k ty hF, .constView k ty hF, .dynRank kr l hF, .dynamic kd hF, .kmap km e hF hG⟩

/-- C75: lists of members, of alternatives, of classes. -/
theorem C75_lists {F : CppType T → CppType A} {M : CppType T → MemberTypes O} {V : CppType T → AltTypes O}
    {N : CppType T → MemberTypes B} {D : CppType T → DynTypes O} (hF : CppType.PassesOn fl F)
    (hM : MemberTypes.PassesOn fl M) (hV : AltTypes.PassesOn fl V) (hN : MemberTypes.PassesOn fl N)
    (hD : DynTypes.PassesOn fl D) (d : Nat) (fresh : B) :
    MemberTypes.PassesOn fl (fun _ : CppType T => .nil) ∧ MemberTypes.PassesOn fl (fun t => .cons (F t) (M t)) ∧
    AltTypes.PassesOn fl (fun _ : CppType T => .nil) ∧ AltTypes.PassesOn fl (fun t => .cons (F t) (V t)) ∧
    DynTypes.PassesOn fl (fun _ : CppType T => .nil) ∧ DynTypes.PassesOn fl (fun t => .cons d fresh (N t) (D t)) :=
  ⟨.nil, .cons hF hM, .nil, .cons hF hV, .nil, .cons d fresh hN hD⟩

/-- C75: classes, classes with virtual serialization, and pointers to them. -/
theorem C75_classes {M : CppType T → MemberTypes O} {D : CppType T → DynTypes A} {p : CppType T → Prog O}
    (hM : MemberTypes.PassesOn fl M) (hD : DynTypes.PassesOn fl D) (hp : Prog.PassesOn fl cfg p) (ti cti : TI)
    (fresh : O) (dflt : Option O) (c : Bool) (d : Nat) (any : A) :
    CppType.PassesOn fl (fun t => .cls cfg ti fresh dflt c (M t)) ∧
    CppType.PassesOn fl (fun t => .program cfg ti fresh dflt c (p t)) ∧
    CppType.PassesOn fl (fun t => .object cfg env d ti fresh dflt c (M t)) ∧
    CppType.PassesOn fl (fun t => .polyPtr cfg env ti d cti any (D t)) :=
  ⟨.cls ti fresh dflt c hM, .program ti fresh dflt c hp, .object env d ti fresh dflt c hM, .polyPtr env ti d cti any hD⟩

/-- C75: functions with control flow. -/
theorem C75_functions {F : CppType T → CppType A} {k r w : CppType T → Prog O} {kA : CppType T → A → Prog O}
    {kN : CppType T → Nat → Prog O} {kB : CppType T → Bool → Prog O} {kO : CppType T → O → Prog O}
    (hF : CppType.PassesOn fl F) (hk : Prog.PassesOn fl cfg k) (hr : Prog.PassesOn fl cfg r)
    (hw : Prog.PassesOn fl cfg w) (hA : ∀ a, Prog.PassesOn fl cfg fun t => kA t a)
    (hN : ∀ a, Prog.PassesOn fl cfg fun t => kN t a) (hB : ∀ b, Prog.PassesOn fl cfg fun t => kB t b)
    (hO : ∀ o, Prog.PassesOn fl cfg fun t => kO t o) :
    Prog.PassesOn fl cfg (fun _ : CppType T => (.done : Prog O)) ∧
    (∀ get set, Prog.PassesOn fl cfg fun t => .visit (F t) get set (k t)) ∧
    (∀ get set, Prog.PassesOn fl cfg fun t => .block (F t) get set (k t)) ∧
    (∀ f, Prog.PassesOn fl cfg fun t => .value (F t) f (kA t)) ∧
    (∀ f, Prog.PassesOn fl cfg fun t => .count f (kN t)) ∧
    (∀ f, Prog.PassesOn fl cfg fun t => .flag f (kB t)) ∧
    (∀ g, Prog.PassesOn fl cfg fun t => .update g (k t)) ∧
    Prog.PassesOn fl cfg (fun t => .mode (r t) (w t)) ∧
    (∀ f, Prog.PassesOn fl cfg fun t => .addBytes f (k t)) ∧
    Prog.PassesOn fl cfg (fun t => .look (kO t)) :=
  ⟨.done, fun get set => .visit get set hF hk, fun get set => .block get set hF hk, fun f => .value f hF hA,
    fun f => .count f hN, fun f => .flag f hB, fun g => .update g hk, .mode hr hw, fun f => .addBytes f hk, .look hO⟩

/-- C75: recursive classes, and hierarchies that own objects of the hierarchy. -/
theorem C75_recursive {p : CppType T → CppType O → Prog O} {D : CppType T → CppType (Option A) → DynTypes A}
    (hp : ∀ n t t' r r', t.FailsOr fl n t' → r.FailsOr fl n r' → ∀ s o,
      (p t r).run cfg n s o = fl.out ∨ (p t r).run cfg n s o = (p t' r').run cfg n s o)
    (hD : ∀ n t t' r r', t.FailsOr fl n t' → r.FailsOr fl n r' → (D t r).FailsOr fl n (D t' r')) (ti cti : TI)
    (fresh : O) (dflt : Option O) (c : Bool) (d : Nat) (any : A) :
    CppType.PassesOn fl (fun t => .recursive cfg ti fresh dflt c (p t)) ∧
    CppType.PassesOn fl (fun t => .hierarchyPtr cfg env ti d cti any (D t)) :=
  ⟨.recursive ti fresh dflt c hp, .hierarchyPtr env ti d cti any hD⟩

/-- C75: shared pointers, views that share memory, view contents and sparse matrices. -/
theorem C75_shared {n : Nat} {t t' : CppType T} (h : t.FailsOr fl n t') (ti : TI) (virt : Option (Virt T)) (k : ViewTI)
    (ty : ViewTy) {es es' : List (Elem (View T))} (hs : List.Forall₂ (Elem.FailsOr fl) es es') :
    (sharedElem cfg ti (t.elem n) virt).FailsOr fl (sharedElem cfg ti (t'.elem n) virt) ∧
    (contentsElem cfg ti k ty (t.elem n)).FailsOr fl (contentsElem cfg ti k ty (t'.elem n)) ∧
    (refContentsElem cfg ti k ty (t.elem n)).FailsOr fl (refContentsElem cfg ti k ty (t'.elem n)) ∧
    (refsElem cfg ti es).FailsOr fl (refsElem cfg ti es') :=
  ⟨sharedElem_le h.elem, contentsElem_le h.elem ti k ty, refContentsElem_le h.elem ti k ty, refsElem_le hs ti⟩

/-- C75: sparse matrices. -/
theorem C75_sparse {E R W V Z : Type} {n : Nat} {tO tO' : CppType Z} {tE tE' : CppType E} {tR tR' : CppType R}
    {tB tB' : CppType W} {tV tV' : CppType V} (hO : tO.FailsOr fl n tO') (hE : tE.FailsOr fl n tE')
    (hR : tR.FailsOr fl n tR') (hB : tB.FailsOr fl n tB') (hV : tV.FailsOr fl n tV') (ti : TI) (g : GraphTy E R W)
    (k : ViewTI) (ty : ViewTy) :
    (graphElem cfg g (tE.elem n) (tR.elem n) (tB.elem n)).FailsOr fl (graphElem cfg g (tE'.elem n) (tR'.elem n) (tB'.elem n)) ∧
    (matrixElem cfg ti g k ty (tO.elem n) (tE.elem n) (tR.elem n) (tB.elem n) (tV.elem n)).FailsOr fl
      (matrixElem cfg ti g k ty (tO'.elem n) (tE'.elem n) (tR'.elem n) (tB'.elem n) (tV'.elem n)) :=
  ⟨graphElem_le hE.elem hR.elem hB.elem g, matrixElem_le hO.elem hE.elem hR.elem hB.elem hV.elem ti g k ty⟩

/-! ### Calls of the library -/

/-- C75: calls for memory, streams and sizes. -/
theorem C75_calls_elem {e e' : Elem T} (h : e.FailsOr fl e') : CallsFailOr fl cfg e e' := by
  have h : Elem.Or fl e e' := h
  have hf : e'.fresh = e.fresh := by rw [h.1]
  refine ⟨getSize_le h, footprint_le h, serialize_le h, toStream_le h, custom_le h, fun mem => ?_, inPlace_le h,
    fun inp => ?_, inStream_le h⟩
  · rw [deserialize_eq, deserialize_eq, hf]
    exact inPlace_le h _ _
  · simp only [deserializeFromStream, deserializeUnguarded, hf]
    exact inStream_le h _ _

/-- C75: calls for memory, streams and sizes. -/
theorem C75_calls {n : Nat} {t t' : CppType T} (h : t.FailsOr fl n t') : CallsFailOr fl cfg (t.elem n) (t'.elem n) :=
  C75_calls_elem h.elem

/-- C75: calls for files; the program is ended if the file cannot be closed. -/
theorem C75_files {n : Nat} {t t' : CppType T} (h : t.FailsOr fl n t') (F : Faults) (torn : Bytes → Bytes) (w : World)
    (file : Nat) (x : T) :
    (let r := serializeToFile cfg (t.elem n) F torn w file x
     r.1 = .out fl.out ∨ r.1 = .terminate ∨ r = serializeToFile cfg (t'.elem n) F torn w file x) ∧
    (let r := deserializeInPlaceFromFile cfg (t.elem n) F w file x
     r.1 = .out fl.out ∨ r.1 = .terminate ∨ r = deserializeInPlaceFromFile cfg (t'.elem n) F w file x) ∧
    (let r := deserializeFromFile cfg (t.elem n) F w file
     r.1 = .out fl.out ∨ r.1 = .terminate ∨ r = deserializeFromFile cfg (t'.elem n) F w file) := by
  have hf : (t'.elem n).fresh = (t.elem n).fresh := by rw [h.elem.1]
  have read : ∀ y, let r := deserializeInPlaceFromFile cfg (t.elem n) F w file y
      r.1 = .out fl.out ∨ r.1 = .terminate ∨ r = deserializeInPlaceFromFile cfg (t'.elem n) F w file y := by
    intro y
    unfold deserializeInPlaceFromFile
    cases setupForRead F w file with
    | mk b w' =>
      cases b with
      | none => exact .inr (.inr rfl)
      | some b =>
        dsimp only
        rcases unpackIO_le h.elem ((w'.files file).getD []) y with hu | hu
        · rw [hu]
          rcases leave_cases F w' b (fl.out : Out T) with hl | hl
          · exact .inl hl
          · exact .inr (.inl hl)
        · rw [hu]
          exact .inr (.inr rfl)
  refine ⟨?_, read x, ?_⟩
  · unfold serializeToFile
    rcases getSize_le (cfg := cfg) h.elem x with hg | hg
    · rw [hg]
      refine .inl ?_
      cases fl <;> rfl
    · rw [hg]
      cases getSize cfg (t'.elem n) x with
      | ok p =>
        obtain ⟨len, x⟩ := p
        dsimp only
        cases setupForWrite F w file len with
        | mk b w' =>
          cases b with
          | none => exact .inr (.inr rfl)
          | some b =>
            dsimp only
            rcases packMem_le (cfg := cfg) h.elem .packerIO ((w'.files file).getD []) x with hp | hp
            · rw [hp]
              cases fl with
              | throw e he =>
                rcases leave_cases F (w'.stored file (torn ((w'.files file).getD []))) b (.throw e : Out T) with hl | hl
                · exact .inl hl
                · exact .inr (.inl hl)
              | _ => exact .inl rfl
            · rw [hp]
              exact .inr (.inr rfl)
      | _ => exact .inr (.inr rfl)
  · have := read (t.elem n).fresh
    unfold deserializeFromFile
    rw [hf]
    exact this

/-- C75: a function that fails when the object is sized leaves the file, and all else, as it was. -/
theorem C75_file_kept {e : Elem T} {x : T} (h : getSize cfg e x = fl.out) (F : Faults) (torn : Bytes → Bytes) (w : World)
    (file : Nat) : serializeToFile cfg e F torn w file x = (.out fl.out, w) := by
  unfold serializeToFile
  rw [h]
  cases fl <;> rfl

/-- C75: a function that fails when the object is sized: no memory is asked for, the stream receives nothing. -/
theorem C75_sized_first {e : Elem T} {x : T} (h : getSize cfg e x = fl.out) (fn : Option (Nat → Option Bytes))
    (o : OStream) : serialize cfg e fn x = fl.out ∧ serializeToStream cfg e x o = fl.out := by
  constructor
  · unfold serialize
    rw [h]
    exact fl.bind_out _
  · unfold serializeToStream
    rw [h]
    exact fl.bind_out _

end

/-! ### A class within a map of strings to vectors of optional objects -/

namespace Demo

/-- Somebody's exception. -/
def oops : Failure := .throw (.user 7) (by simp)

/-- An integer class whose function throws for negative numbers. -/
def positive (check : Bool) : CppType Val :=
  (CppType.base (cfg check false) env int).failing oops fun _ _ xs =>
    xs.any fun x => match x with
      | .raw bs => decide (127 < bs.getLastD 0)
      | _ => false

/-- An integer class whose function throws when the object is packed, but not when it is sized. -/
def unpackable (check : Bool) : CppType Val :=
  (CppType.base (cfg check false) env int).failing oops fun _ s _ => s.isPacking

/-- `std::vector<std::optional<T>>`. -/
def options (check : Bool) (t : CppType Val) : CppType (Vec (Option Val)) :=
  .vector (cfg check false) (env.ti (.vec (.opt int))) true (.optional (cfg check false) (env.ti (.opt int)) t)

/-- `std::map<std::string, std::vector<std::optional<T>>>`. -/
def accounts (check : Bool) (lt : Val × Vec (Option Val) → Val × Vec (Option Val) → Bool) (t : CppType Val) :
    CppType (List (Val × Vec (Option Val))) :=
  .ordered (cfg check false) (env.ti (.vec int)) true .map lt
    (.pair (cfg check false) (env.ti (.pair .str int)) (.base (cfg check false) env .str) (options check t))

/-- All of them pass every failure on. -/
theorem accounts_passesOn (fl : Failure) (check : Bool) (lt : Val × Vec (Option Val) → Val × Vec (Option Val) → Bool) :
    CppType.PassesOn fl (accounts check lt) :=
  .ordered _ _ _ _ (.pair _ (.const _) (.vector _ _ (.optional _ .self)))

theorem options_passesOn (fl : Failure) (check : Bool) : CppType.PassesOn fl (options check) :=
  .vector _ _ (.optional _ .self)

/-- No negative number: the object is sized and packed. -/
example : getSize (cfg false false) ((options false (positive false)).elem 4)
    ⟨2, [some (.raw [5, 0, 0, 0]), none]⟩ = .ok (34, ⟨2, [some (.raw [5, 0, 0, 0]), none]⟩) := rfl

/-- A negative number: all calls throw the exception, except `getMemoryFootprint`, which does not look at the values of
optional objects. -/
example : let e := (options true (positive true)).elem 4
    let x : Vec (Option Val) := ⟨2, [some (.raw [5, 0, 0, 0]), some (.raw [255, 255, 255, 255])]⟩
    getSize (cfg true false) e x = .throw (.user 7) ∧ serialize (cfg true false) e none x = .throw (.user 7) ∧
    serializeToStream (cfg true false) e x ⟨[], none⟩ = .throw (.user 7) ∧
    ∃ k, getMemoryFootprint (cfg true false) e x 0 = .ok (k, x) := ⟨rfl, rfl, rfl, _, rfl⟩

/-- What the function does for negative numbers does make a difference there, as `C75_noticed` asks for. -/
example : ∃ (when : Nat → Ser → List Val → Bool) (t t' : CppType Val), t.AgreeBut when t' ∧
    (options true t).apply 4 { core := .sizer 0, kind := .sizer } [⟨1, [some (.raw [255, 255, 255, 255])]⟩] ≠
      (options true t').apply 4 { core := .sizer 0, kind := .sizer } [⟨1, [some (.raw [255, 255, 255, 255])]⟩] :=
  ⟨fun _ _ _ => true, CppType.base (cfg true false) env int,
    (CppType.base (cfg true false) env int).failing .abort fun _ _ _ => true, ⟨rfl, fun _ _ _ h => by cases h⟩,
    fun h => by
      have h1 : (options true (.base (cfg true false) env int)).apply 4 { core := .sizer 0, kind := .sizer }
        [⟨1, [some (.raw [255, 255, 255, 255])]⟩] = .ok _ := rfl
      rw [h1] at h
      cases h⟩

/-- A file with a checkpoint. -/
def saved : World := { world with files := fun q => if q = 0 then some [1, 2, 3] else none }

/-- A function that throws when the object is sized: the file is as before. -/
example : (serializeToFile (cfg true false) ((options true (positive true)).elem 4) noFaults id saved 0
    ⟨1, [some (.raw [255, 255, 255, 255])]⟩).2.files 0 = some [1, 2, 3] := by decide +kernel

/-- A function that throws when the object is packed only: what was in the file is lost, the file is closed. -/
example :
    let r := serializeToFile (cfg false false) ((options false (unpackable false)).elem 4) noFaults id saved 0
      ⟨1, [some (.raw [5, 0, 0, 0])]⟩
    r.1 = .out (.throw (.user 7)) ∧ r.2.files 0 ≠ some [1, 2, 3] ∧ r.2.fds = saved.fds ∧ r.2.maps = saved.maps :=
  ⟨rfl, by decide +kernel, rfl, rfl⟩

end Demo

end Ckpt
