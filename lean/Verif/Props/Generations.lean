import Verif.Proofs.Lasting
import Verif.Props.ComposeApi
import Verif.Props.Recursive
import Verif.Props.KokkosMap
import Mathlib.Logic.Function.Iterate
import Mathlib.Data.List.Perm.Basic
/-!
# C72: checkpoints of restored objects
-/

set_option autoImplicit false

namespace Ckpt

section
variable {R : RelMode} {env : Env} {T : Type} {u : Usage T} {p : Build T} {x z : T} {bs : Bytes}

theorem Build.Saves.bytes (hv : env.Valid R (· ∈ builtinKinds) p.cfg)
    (h : Composed R p.cfg env p.type { u with clean := p.clean }) (hx : u.ok x) (hs : p.Saves x bs) :
    BytesOf p.cfg p.type x bs := by
  obtain ⟨b, h1, -, h3, -⟩ := C65_composed_roundtrip hv h hx
  cases hs with
  | stream hs =>
    have := h1.unique hs
    injection this with e
    injection e with _ e
    injection e with e
    exact e ▸ h1
  | memory hsm hs =>
    have := (h3 (hsm b h1)).unique hs
    simp only [Out.ok.injEq, Prod.mk.injEq] at this
    rw [← this.1]
    exact h1
  | @file _ w torn file _ hsm hw hs =>
    obtain ⟨n0, h0⟩ := hs
    obtain ⟨n1, h1'⟩ := C67_file_write hv h hx h1 (hsm b h1) hw file torn
    obtain ⟨w1, e1, e2⟩ := h0 (max n0 n1) (by omega)
    obtain ⟨w2, f1, f2, -⟩ := h1' (max n0 n1) (by omega)
    rw [e1] at f1
    simp only [Prod.mk.injEq] at f1
    rw [f1.2] at e2
    rw [e2] at f2
    cases f2
    exact h1

theorem Build.Restores.same (hv : env.Valid R (· ∈ builtinKinds) p.cfg)
    (h : Composed R p.cfg env p.type { u with clean := p.clean }) (hx : u.ok x) (hb : BytesOf p.cfg p.type x bs)
    (hr : p.Restores bs z) : u.same x z := by
  obtain ⟨b, h1, -, -, h4⟩ := C65_composed_roundtrip hv h hx
  have : b = bs := by simpa using h1.unique hb
  subst this
  have hfile := fun (w : World) (file : Nat) (rest : Bytes) (hw : w.Ok) (hf : w.files file = some (b ++ rest)) =>
    C67_file_read (rest := rest) hv h hx hb hw hf
  obtain ⟨hf, hn⟩ := C65_composed_deserialize hv h hx h1 []
  have hend : ∀ {f g : Nat → Final T × World} {a c : T}, (∃ n0, ∀ n, n0 ≤ n → ∃ w', f n = (.out (.ok a), w')) →
      (∃ n0, ∀ n, n0 ≤ n → ∃ w', f n = (.out (.ok c), w')) → a = c := by
    rintro f g a c ⟨n0, h0⟩ ⟨n1, h1⟩
    obtain ⟨w, e⟩ := h0 (max n0 n1) (by omega)
    obtain ⟨w', e'⟩ := h1 (max n0 n1) (by omega)
    rw [e] at e'
    simpa using (Prod.mk.inj e').1
  cases hr with
  | @stream rest rest' y _ hy hr =>
    obtain ⟨w, hs, hw⟩ := (h4 y rest hy).2
    have := hw.unique hr
    simp only [Out.ok.injEq, Prod.mk.injEq] at this
    exact this.1 ▸ hs
  | @newFromStream rest rest' _ hr =>
    obtain ⟨w, hs, hw⟩ := (C65_composed_deserialize hv h hx h1 rest).2.2
    have := hw.unique hr
    simp only [Out.ok.injEq, Prod.mk.injEq] at this
    exact this.1 ▸ hs
  | @memory rest y _ k hy hr =>
    obtain ⟨w, hs, hw⟩ := (h4 y rest hy).1
    have := hw.unique hr
    simp only [Out.ok.injEq, Prod.mk.injEq] at this
    exact this.1 ▸ hs
  | @newFromMemory rest _ k hr =>
    obtain ⟨w, hs, hw⟩ := (C65_composed_deserialize hv h hx h1 rest).2.1
    have := hw.unique hr
    simp only [Out.ok.injEq, Prod.mk.injEq] at this
    exact this.1 ▸ hs
  | @file rest y _ w file hy hw hf hr =>
    obtain ⟨z', hs, n0, h0⟩ := (hfile w file rest hw hf).1 y hy
    have := hend (g := fun _ => (.out (.ok x), w)) ⟨n0, fun n hn => let ⟨w', e, _⟩ := h0 n hn; ⟨w', e⟩⟩ hr
    exact this ▸ hs
  | @newFromFile rest _ w file hw hf hr =>
    obtain ⟨z', hs, n0, h0⟩ := (hfile w file rest hw hf).2
    have := hend (g := fun _ => (.out (.ok x), w)) ⟨n0, fun n hn => let ⟨w', e, _⟩ := h0 n hn; ⟨w', e⟩⟩ hr
    exact this ▸ hs

end

section
variable {T : Type} {u : Usage T} {Ps : Build T → Prop} {x z : T} {k : Nat}

/-- **C72**: an object that was written and restored any number of times, by any of the calls and by different builds, is
still equal to the first one, and can be written again. -/
theorem C72_generations (hu : u.Lasting) (hp : ∀ p, Ps p → p.Handles u) (hx : u.ok x) (hg : Generations Ps x k z) :
    u.ok z ∧ (k ≠ 0 → u.same x z) ∧ (k = 0 → z = x) := by
  induction hg with
  | start => exact ⟨hx, fun h => absurd rfl h, fun _ => rfl⟩
  | @next k y z bs p _ hP hs hr ih =>
    obtain ⟨R, env, hv, h⟩ := hp p hP
    have hyz := hr.same hv h ih.1 (hs.bytes hv h ih.1)
    refine ⟨hu.ok ih.1 hyz, fun _ => ?_, fun h => absurd h (Nat.succ_ne_zero k)⟩
    rcases Nat.eq_zero_or_pos k with h0 | h0
    · rw [← ih.2.2 h0]
      exact hyz
    · exact hu.trans hx (ih.2.1 (by omega)) hyz

/-- **C72**: each further checkpoint succeeds, by each of the builds, and gives an object equal to the first one. -/
theorem C72_next (hu : u.Lasting) (hp : ∀ p, Ps p → p.Handles u) (hx : u.ok x) (hg : Generations Ps x k z)
    {p : Build T} (hP : Ps p) :
    RoundTrips p.cfg p.type.elem z p.clean fun _ w => Generations Ps x (k + 1) w ∧ u.same x w := by
  obtain ⟨R, env, hv, h⟩ := hp p hP
  obtain ⟨bs, h1, h2, h3, h4⟩ := C65_composed_roundtrip hv h (C72_generations hu hp hx hg).1
  have next : ∀ {w}, p.Restores bs w → Generations Ps x (k + 1) w ∧ u.same x w := fun hr =>
    have hg' := hg.next hP (.stream h1) hr
    ⟨hg', (C72_generations hu hp hx hg').2.1 (Nat.succ_ne_zero k)⟩
  refine ⟨bs, h1, h2, h3, fun y rest hy => ?_⟩
  obtain ⟨⟨w, _, hw⟩, w', _, hw'⟩ := h4 y rest hy
  exact ⟨⟨w, next (.memory hy hw), hw⟩, w', next (.stream hy hw'), hw'⟩

/-- **C72**: so there are generations of every number. -/
theorem C72_any_number (hu : u.Lasting) (hp : ∀ p, Ps p → p.Handles u) (hx : u.ok x) {p : Build T} (hP : Ps p) (k : Nat) :
    ∃ z, Generations Ps x k z := by
  induction k with
  | zero => exact ⟨x, .start⟩
  | succ k ih =>
    obtain ⟨z, hg⟩ := ih
    obtain ⟨R, env, hv, h⟩ := hp p hP
    obtain ⟨C, hC⟩ := h.composes hv
    obtain ⟨bs, -, -, -, h4⟩ := C72_next hu hp hx hg hP
    obtain ⟨⟨w, hw, _⟩, _⟩ := h4 p.type.fresh [] hC.fresh
    exact ⟨w, hw.1⟩

end

/-- **C72**: what this needs holds of the types of the program, if the equality of keys of unordered containers is
symmetric. -/
theorem C72_base (cfg : Cfg) {env : Env} (heq : ∀ e a b, env.eq e a b = env.eq e b a) (t : Ty) :
    (Usage.base .sized cfg env t).Lasting :=
  base_lasting (R := .sized) cfg (fun _ _ h _ => h) (fun _ _ _ h1 h2 => ⟨Nat.le_trans h1.1 h2.1, h2.2⟩) (fun _ => heq) t

section
variable {T A B : Type} {u : Usage T}

/-- **C72**: of containers of such objects; -/
theorem C72_containers (hu : u.Lasting) :
    (∀ t, (Usage.vector t u).Lasting) ∧ (∀ t, (Usage.list t u).Lasting) ∧ (Usage.queue u).Lasting ∧
    (∀ a (lt : T → T → Bool), (∀ x y x' y', u.same x x' → u.same y y' → lt x y = lt x' y') →
      (Usage.ordered a lt u).Lasting) ∧
    (∀ a (eq : T → T → Bool), (∀ x y, eq x y = eq y x) →
      (∀ x y x' y', u.same x x' → u.same y y' → eq x y = eq x' y') → (Usage.unordered a eq u).Lasting) ∧
    (∀ k, (Usage.array k u).Lasting) ∧ (Usage.optional u).Lasting ∧ (Usage.uniquePtr u).Lasting :=
  ⟨hu.vector, hu.list, hu.queue, fun a _ h => hu.ordered a h, fun a _ h h' => hu.unordered a h h', hu.array, hu.optional,
    hu.uniquePtr⟩

/-- **C72**: of Kokkos classes; -/
theorem C72_kokkos (hu : u.Lasting) {t : CppType T} (hz : u.ok t.zero) :
    (∀ ty, (Usage.view ty t u).allocated.Lasting) ∧ (∀ ty, (Usage.constView ty t u).Lasting) ∧
    (∀ l, (Usage.dynRank l t u).dynAllocated.Lasting) ∧ (Usage.dynamic u).Lasting :=
  ⟨hu.view hz, hu.constView hz, hu.dynRank hz, hu.dynamic⟩

/-- **C72**: and of classes, tuples, variants and pointers to objects of derived classes. -/
theorem C72_classes {O V : Type} {us : MemberUsages O} {vs : AltUsages V} (hus : us.Lasting) (hvs : vs.Lasting) :
    (Usage.cls us).Lasting ∧ (Usage.object us).Lasting ∧ (Usage.variant vs).Lasting ∧
    ∀ env c ds ps, DynTypes.Match ds vs ps → (Usage.polyPtr env c ds vs).Lasting :=
  ⟨.cls hus, .object hus, .variant hvs, fun env c _ _ hm => .polyPtr hvs env c hm⟩

theorem C72_pair {u : Usage A} {v : Usage B} (hu : u.Lasting) (hv : v.Lasting) : (Usage.pair u v).Lasting := hu.pair hv

end


section
variable {A K V : Type} {u : Usage A}

theorem forall₂_trans_of {α : Type} {S : α → α → Prop} : ∀ {xs ys zs : List α},
    (∀ x ∈ xs, ∀ {y z : α}, S x y → S y z → S x z) → List.Forall₂ S xs ys → List.Forall₂ S ys zs → List.Forall₂ S xs zs
  | _, _, _, _, .nil, .nil => .nil
  | _, _, _, h, .cons h1 t1, .cons h2 t2 =>
    .cons (h _ (by simp) h1 h2) (forall₂_trans_of (fun x hx => h x (by simp [hx])) t1 t2)

theorem forall₂_comp_of {α : Type} {S : α → α → Prop} (h : ∀ x y z, S x y → S y z → S x z) {xs ys zs : List α}
    (h1 : List.Forall₂ S xs ys) (h2 : List.Forall₂ S ys zs) : List.Forall₂ S xs zs :=
  forall₂_trans_of (fun x _ {y z} => h x y z) h1 h2

theorem Tree.Same.ok (hu : u.Lasting) : ∀ {x y : Tree A}, x.Ok u → x.Same u y → y.Ok u := by
  intro x y hx
  induction hx generalizing y with
  | @node a n ks ha hl hn hk ih =>
    rintro ⟨hs, hle, hlt, hks⟩
    refine .node (hu.ok ha hs) (by have := hks.length_eq; omega) hlt fun l hl' => ?_
    obtain ⟨k, hk', hkl⟩ := lasting_mem hks l hl'
    exact ih k hk' hkl

theorem Tree.Same.trans (hu : u.Lasting) : ∀ {x y z : Tree A}, x.Ok u → x.Same u y → y.Same u z → x.Same u z := by
  intro x y z hx
  induction hx generalizing y z with
  | @node a n ks ha hl hn hk ih =>
    rintro ⟨hs, hle, hlt, hks⟩ ⟨hs', hle', hlt', hks'⟩
    refine .node (hu.trans ha hs hs') (Nat.le_trans hle hle') hlt' ?_
    exact forall₂_trans_of ih hks hks'

/-- **C72**: so for trees and linked lists. -/
theorem C72_recursive (hu : u.Lasting) : (Tree.usage u).Lasting ∧ (Chain.usage u).Lasting :=
  ⟨⟨Tree.Same.ok hu, Tree.Same.trans hu⟩, ⟨fun hx hs => hu.all hs hx, fun hx h1 h2 => hu.lists hx h1 h2⟩⟩

/-- **C72**: `Kokkos::UnorderedMap` is given a new capacity each time: what the constructor allocates for the capacity of the
map that was written. The entries stay. -/
theorem C72_kokkos_map {h : KHash K V} {rK : K → K → Prop} {rV : V → V → Prop}
    (hK : ∀ a b c, rK a b → rK b c → rK a c) (hV : ∀ a b c, rV a b → rV b c → rV a c) (ms : Nat → KMap K V)
    (hms : ∀ i, KMap.Restored h rK rV (ms i) (ms (i + 1))) (k : Nat) :
    (ms (k + 1)).capacity = h.capacity^[k + 1] (ms 0).capacity ∧ (ms (k + 1)).size = (ms 0).size ∧
    (∀ q, OptRel rV ((ms 0).find h q) ((ms (k + 1)).find h q)) ∧
    ∃ l : List (K × V), (occupied (ms (k + 1)).slots).Perm l ∧
      List.Forall₂ (fun p q => rK p.1 q.1 ∧ rV p.2 q.2) (occupied (ms 0).slots) l := by
  induction k with
  | zero =>
    obtain ⟨hf, -, hc, l, hp, hl⟩ := hms 0
    exact ⟨hc, hp.length_eq.trans hl.length_eq.symm, hf, l, hp, hl⟩
  | succ k ih =>
    obtain ⟨hf, -, hc, l, hp, hl⟩ := hms (k + 1)
    obtain ⟨ic, is, ifd, l', hp', hl'⟩ := ih
    refine ⟨?_, (hp.length_eq.trans hl.length_eq.symm).trans is, fun q => ?_, ?_⟩
    · rw [hc, ic, ← Function.iterate_succ_apply' (f := h.capacity)]
    · have h1 := ifd q
      have h2 := hf q
      cases h1e : (ms 0).find h q <;> cases h2e : (ms (k + 1)).find h q <;> rw [h1e, h2e] at h1 <;> rw [h2e] at h2
      · exact h2
      · cases h1
      · cases h1
      · revert h2
        cases (ms (k + 1 + 1)).find h q with
        | none => intro h2; cases h2
        | some c =>
          intro h2
          cases h1 with | some h1 => cases h2 with | some h2 => exact .some (hV _ _ _ h1 h2)
    · obtain ⟨l2, hp2, hl2⟩ := List.perm_comp_forall₂ hp'.symm hl
      refine ⟨l2, hp.trans hl2.symm, forall₂_comp_of ?_ hl' hp2⟩
      exact fun a b c h1 h2 => ⟨hK _ _ _ h1.1 h2.1, hV _ _ _ h1.2 h2.2⟩

end

/-! ### Examples -/

namespace Demo
variable (c : Cfg)

def sizedInt : Usage Val := .base .sized c Demo.env int
def sizedRow : Usage (View Val) := (Usage.view rowTy (.base c Demo.env int) (sizedInt c)).allocated

/-- `std::map<int, std::vector<Kokkos::View<int*>>>`. -/
def booksType : CppType (List (Val × Vec (View Val))) :=
  .ordered c (Demo.env.ti int) true .map bookLt (.pair c (Demo.env.ti int) (.base c Demo.env int)
    (.vector c (Demo.env.ti int) true (rowType c)))
where
  bookLt (x y : Val × Vec (View Val)) : Bool :=
    match x.1, y.1 with
    | .raw (a :: _), .raw (b :: _) => a < b
    | _, _ => false

def booksUse : Usage (List (Val × Vec (View Val))) :=
  .ordered .map booksType.bookLt (.pair (sizedInt c) (.vector (rowType c) (sizedRow c)))

/-- `{1: {{0, 1}, {0}}, 2: {}}`. -/
def books : List (Val × Vec (View Val)) := [(num 1, ⟨4, [row 2, row 1]⟩), (num 2, ⟨0, []⟩)]

/-- Builds with or without checks of the file format, with or without assertions. -/
inductive IsBuild : Build (List (Val × Vec (View Val))) → Prop
  | mk (check ndebug : Bool) :
      IsBuild ⟨cfg check ndebug, booksType (cfg check ndebug), (booksUse (cfg check ndebug)).clean⟩

theorem sizedRow_ok (n : Nat) (hn : n < 2 ^ 32) : (sizedRow c).ok (row n) := by
  refine ⟨⟨row_ok n hn, fun x hx => ?_, int_arr _⟩, rfl⟩
  obtain ⟨i, -, rfl⟩ := List.mem_map.1 hx
  exact ⟨.prim rfl, trivial⟩

theorem books_ok : (booksUse c).ok books := by
  refine ⟨fun p hp => ?_, by decide, ?_⟩
  · simp only [books, List.mem_cons, List.not_mem_nil, or_false] at hp
    rcases hp with rfl | rfl
    · refine ⟨⟨.prim rfl, trivial⟩, fun v hv => ?_, by decide, by decide, trivial⟩
      simp only [List.mem_cons, List.not_mem_nil, or_false] at hv
      rcases hv with rfl | rfl <;> exact sizedRow_ok c _ (by decide)
    · refine ⟨⟨.prim rfl, trivial⟩, fun v hv => ?_, by decide, by decide, trivial⟩
      cases hv
  · decide

theorem sized_key {a b : Val} (h : (sizedInt c).same a b) : a = b := by
  cases h
  rfl

theorem book_respects (x y x' y' : Val × Vec (View Val))
    (hx : (Usage.pair (sizedInt c) (.vector (rowType c) (sizedRow c))).same x x')
    (hy : (Usage.pair (sizedInt c) (.vector (rowType c) (sizedRow c))).same y y') :
    booksType.bookLt x y = booksType.bookLt x' y' := by
  unfold booksType.bookLt
  rw [sized_key c hx.1, sized_key c hy.1]

theorem env_eq_symm (t : Nat) (a b : Val) : env.eq t a b = env.eq t b a := by
  show (key a == key b) = (key b == key a)
  exact Bool.beq_comm

theorem books_lasting : (booksUse c).Lasting := by
  have hi : (sizedInt c).Lasting := C72_base c env_eq_symm int
  have hz : (sizedInt c).ok (CppType.base c env int).zero := ⟨(.prim rfl : WT .sized env int (.raw [0, 0, 0, 0])), trivial⟩
  have hr : (sizedRow c).Lasting := (C72_kokkos hi hz).1 rowTy
  exact (C72_containers (C72_pair hi ((C72_containers hr).1 (rowType c)))).2.2.2.1 .map _ (book_respects c)

/-- Only what can be read over depends on the build. -/
def Alike {T : Type} (u v : Usage T) : Prop := u.ok = v.ok ∧ u.same = v.same ∧ u.many = v.many

theorem Alike.vector {T : Type} {u v : Usage T} (h : Alike u v) (t t' : CppType T) : Alike (.vector t u) (.vector t' v) := by
  obtain ⟨h1, h2, h3⟩ := h
  simp only [Alike, Usage.vector, h1, h2, h3, and_self]

theorem Alike.pair {A B : Type} {u u' : Usage A} {v v' : Usage B} (h : Alike u u') (h' : Alike v v') :
    Alike (.pair u v) (.pair u' v') := by
  obtain ⟨h1, h2, h3⟩ := h
  obtain ⟨h1', h2', h3'⟩ := h'
  simp only [Alike, Usage.pair, h1, h2, h3, h1', h2', h3', and_self]

theorem Alike.ordered {T : Type} {u v : Usage T} (h : Alike u v) (a : Assoc) (lt : T → T → Bool) :
    Alike (.ordered a lt u) (.ordered a lt v) := by
  obtain ⟨h1, h2, h3⟩ := h
  simp only [Alike, Usage.ordered, h1, h2, and_self]

theorem Alike.handles {T : Type} {R : RelMode} {c : Cfg} {E : Env} {t : CppType T} {u v : Usage T} (h : Alike u v)
    (hv : E.Valid R (· ∈ builtinKinds) c) (hc : Composed R c E t u) : Build.Handles ⟨c, t, u.clean⟩ v := by
  refine ⟨R, E, hv, ?_⟩
  have : ({ v with clean := u.clean } : Usage T) = u := by
    obtain ⟨h1, h2, h3⟩ := h
    cases u
    cases v
    simp_all
  simpa only [this] using hc

theorem books_handled {p : Build (List (Val × Vec (View Val)))} (hp : IsBuild p) (c : Cfg) : p.Handles (booksUse c) := by
  cases hp with
  | mk check ndebug =>
    have hr : Composed .sized (cfg check ndebug) env (rowType (cfg check ndebug)) (sizedRow (cfg check ndebug)) :=
      .weaken (.view viewTI_valid rfl (.base _)) (fun _ h => h.1) (fun _ h => h) (fun _ _ _ h => h) (fun _ h => h) trivial
        (fun _ _ => trivial)
    have h : Composed .sized (cfg check ndebug) env (booksType (cfg check ndebug)) (booksUse (cfg check ndebug)) :=
      .ordered true .map (ti_valid _) (.pair (ti_valid _) (.base _) (.vector true (ti_valid _) hr))
        (book_respects (cfg check ndebug))
    have hi : Alike (sizedInt (cfg check ndebug)) (sizedInt c) := ⟨rfl, rfl, rfl⟩
    have hv : Alike (sizedRow (cfg check ndebug)) (sizedRow c) := ⟨rfl, rfl, rfl⟩
    exact ((hi.pair (hv.vector _ _)).ordered _ _).handles (valid (R := .sized) (fun _ hc => ⟨Nat.le_refl _, hc⟩)) h

end Demo

/-- The map of vectors of views, after a thousand checkpoints made by builds with and without checks. -/
example : (∃ z, Generations Demo.IsBuild Demo.books 1000 z) ∧
    ∀ z, Generations Demo.IsBuild Demo.books 1000 z → (Demo.booksUse (Demo.cfg true true)).same Demo.books z :=
  have hp := fun p hp => Demo.books_handled (p := p) hp (Demo.cfg true true)
  ⟨C72_any_number (Demo.books_lasting (Demo.cfg true true)) hp (Demo.books_ok _) (.mk true false) 1000,
   fun _ hz => (C72_generations (Demo.books_lasting _) hp (Demo.books_ok _) hz).2.1 (by decide)⟩

/-- A map type that allocates a slot more than is asked for, as a `Kokkos::UnorderedMap` allocates more than it is asked for. -/
def Demo.growing : KHash Nat Nat := ⟨fun a b => a == b, fun slots _ => slots.findIdx? fun p => p.2.isNone, (· + 1), 0⟩

/-- A map with one entry, and the maps restored from it: the entry stays, unused slots are added. -/
example : ∀ i : Nat, KMap.Restored Demo.growing Eq Eq
    ⟨(5, some 1) :: List.replicate i (0, none)⟩ ⟨(5, some 1) :: List.replicate (i + 1) (0, none)⟩ := by
  intro i
  have ho : ∀ n, occupied ((5, some 1) :: List.replicate n ((0, none) : Nat × Option Nat)) = [(5, 1)] := by
    intro n
    simp [occupied]
  refine ⟨fun k => ?_, ?_, ?_, [(5, 1)], ?_, ?_⟩
  · simp only [KMap.find, ho]
    generalize List.findSome? _ _ = o
    cases o <;> constructor
    rfl
  · simp only [KMap.Distinct, ho, List.pairwise_singleton]
  · simp [KMap.capacity, Demo.growing]
  · rw [ho]
  · rw [ho]
    exact .cons ⟨rfl, rfl⟩ .nil

end Ckpt
