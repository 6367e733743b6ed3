import Verif.Props.Counts
import Verif.Proofs.Grows
/-!
# C71: recursive classes with members of any types
-/

set_option autoImplicit false

namespace Ckpt

section
variable {R : RelMode} {cfg : Cfg} {env : Env} {O A : Type}

/-- **C71**: a class with any `serialize` function that visits objects of the class itself, and members of any other
types: if, for objects within each other up to every depth, all that is written is taken by the function again when
reading, and the function then ends with an equal object, the class round trips. -/
theorem C71_recursive_roundtrip {p : CppType O → Prog O} {us : Nat → Usage O} {ti : TI} {fresh : O} {dflt : Option O}
    {ps : Nat → TypeUse → Prop} {items : Nat → O → List Item} (c : Bool) (hv : env.Valid R (· ∈ builtinKinds) cfg)
    (hti : ti.Valid) (hp : Prog.Grows cfg p) (hw : ∀ j, (p (.unfold cfg ti fresh dflt c p j)).Within (ps j))
    (hps : ∀ j q, ps j q → Composed R cfg env q.2.1 q.2.2)
    (hi : ∀ j x, (us j).ok x → (p (.unfold cfg ti fresh dflt c p j)).Writes x (items j x) ∧
      ∀ i ∈ items j x, i.Good (ps j))
    (ht : ∀ j x y, (us j).ok x → (us j).clean y →
      (p (.unfold cfg ti fresh dflt c p j)).Takes ((us j).same x) (items j x) y)
    (hf : ∀ j, (us j).clean fresh) (hd : ∀ j d, dflt = some d → (us j).clean d) {j : Nat} {x : O} (hx : (us j).ok x) :
    RoundTrips cfg (CppType.recursive cfg ti fresh dflt c p).elem x (fun y => ∀ j, (us j).clean y)
      fun _ w => ∃ j, (us j).same x w :=
  C65_composed_roundtrip hv (.recursive c items hti hp hw hps hi ht hf hd) ⟨j, hx⟩

/-- **C71**: the recursive class is the class whose function visits the recursive class: they end in the same way for
all objects and all serializers. -/
theorem C71_recursive_is_its_function {p : CppType O → Prog O} {ti : TI} {fresh : O} {dflt : Option O}
    {ps : Nat → TypeUse → Prop} (c : Bool) (hv : env.Valid R (· ∈ builtinKinds) cfg) (hp : Prog.Grows cfg p)
    (hw : ∀ j, (p (.unfold cfg ti fresh dflt c p j)).Within (ps j))
    (hps : ∀ j q, ps j q → Composed R cfg env q.2.1 q.2.2) (s : Ser) (xs : List O) (o : Out (List O × Ser))
    (ho : o ≠ .fuel) :
    (∃ n, (CppType.recursive cfg ti fresh dflt c p).apply n s xs = o) ↔
      ∃ n, (CppType.program cfg ti fresh dflt c (p (.recursive cfg ti fresh dflt c p))).apply n s xs = o := by
  constructor
  · rintro ⟨n, rfl⟩
    refine ⟨n, ?_⟩
    rw [recursive_unfold hp, unfold_apply]
    change (CppType.unfold cfg ti fresh dflt c p n).apply n s xs ≠ .fuel at ho
    show _ = (CppType.unfold cfg ti fresh dflt c p n).apply n s xs
    rw [unfold_apply] at ho ⊢
    exact (dispatchEach_le (fun s x => unfold_below hp n n s x) s xs).eq_of_ne ho
  · rintro ⟨n, rfl⟩
    refine ⟨n + 1, ?_⟩
    rw [recursive_unfold hp, unfold_apply] at ho ⊢
    show (CppType.unfold cfg ti fresh dflt c p (n + 1)).apply (n + 1) s xs = _
    rw [unfold_apply]
    exact (dispatchEach_le (fun s x => prog_le (fun q hq => (hps n q hq).composes hv) (Nat.le_succ n) _ (hw n) s x)
      s xs).eq_of_ne ho

/-- Each depth from the one below. -/
theorem ComposedOf.unfolds {E : Bool} {p : CppType O → Prog O} {us : Nat → Usage O} {ti : TI} {fresh : O}
    {dflt : Option O} {ps : Nat → TypeUse → Prop} (c : Bool) (items : Nat → O → List Item) (hti : ti.Valid)
    (h0 : ∀ x, ¬(us 0).ok x) (hw : ∀ j, (p (.unfold cfg ti fresh dflt c p j)).Within (ps j))
    (hps : ∀ j, ComposedOf E R cfg env (.unfold cfg ti fresh dflt c p j) (us j) →
      ∀ q, ps j q → ComposedOf E R cfg env q.2.1 q.2.2)
    (hi : ∀ j x, (us (j + 1)).ok x → (p (.unfold cfg ti fresh dflt c p j)).Writes x (items j x) ∧
      ∀ i ∈ items j x, i.Good (ps j))
    (ht : ∀ j x y, (us (j + 1)).ok x → (us (j + 1)).clean y →
      (p (.unfold cfg ti fresh dflt c p j)).Takes ((us (j + 1)).same x) (items j x) y)
    (hf : ∀ j, (us j).clean fresh) (hd : ∀ j d, dflt = some d → (us j).clean d) :
    ∀ j, ComposedOf E R cfg env (.unfold cfg ti fresh dflt c p j) (us j)
  | 0 => .weaken (.declared c hti (hf 0) (hd 0)) (fun x h => (h0 x h).elim) (fun _ h => h) (fun x _ h => (h0 x h).elim)
      (fun _ _ => trivial) (hf 0) (hd 0)
  | j + 1 => .program c (items j) hti (hw j) (hps j (ComposedOf.unfolds c items hti h0 hw hps hi ht hf hd j)) (hi j)
      (ht j) (hf _) (hd _)

/-! ### Trees -/

/-- `struct Node { A value; std::vector<Node> kids; };`; `cap` is the capacity of the vector. -/
inductive Tree (A : Type) : Type
  | node (value : A) (cap : Nat) (kids : List (Tree A))

namespace Tree

def value : Tree A → A
  | node a _ _ => a

def kids : Tree A → Vec (Tree A)
  | node _ n ks => ⟨n, ks⟩

/-- The tree can be written. -/
inductive Ok (u : Usage A) : Tree A → Prop
  | node {a : A} {n : Nat} {ks : List (Tree A)} : u.ok a → ks.length ≤ n → n < 2 ^ 64 → (∀ k ∈ ks, Ok u k) →
      Ok u (node a n ks)

/-- It can be read over. -/
inductive Clean (u : Usage A) : Tree A → Prop
  | node {a : A} {n : Nat} {ks : List (Tree A)} : u.clean a → n < 2 ^ 64 → (∀ k ∈ ks, Clean u k) →
      Clean u (node a n ks)

/-- A tree of the same shape, with equal values. -/
inductive Same (u : Usage A) : Tree A → Tree A → Prop
  | node {a b : A} {n m : Nat} {ks ls : List (Tree A)} : u.same a b → n ≤ m → m < 2 ^ 64 →
      List.Forall₂ (Same u) ks ls →
      Same u (node a n ks) (node b m ls)

/-- `s | value; s | kids;`, given the class of the nodes. -/
def serialize (cfg : Cfg) (ti : TI) (c : Bool) (a : CppType A) (t : CppType (Tree A)) : Prog (Tree A) :=
  .visit a (fun o => some o.value) (fun v o => node v o.kids.cap o.kids.elems)
    (.visit (.vector cfg ti c t) (fun o => some o.kids) (fun v o => node o.value v.cap v.elems) .done)

/-- The class of the nodes. -/
def type (cfg : Cfg) (ti vti : TI) (c vc : Bool) (new : A) (a : CppType A) : CppType (Tree A) :=
  .recursive cfg ti (node new 0 []) (some (node new 0 [])) c (serialize cfg vti vc a)

def usage (u : Usage A) : Usage (Tree A) := ⟨Ok u, Clean u, Same u, fun _ => True⟩

/-- Up to depth `j`. -/
def OkTo (u : Usage A) : Nat → Tree A → Prop
  | 0, _ => False
  | j + 1, x => u.ok x.value ∧ x.kids.elems.length ≤ x.kids.cap ∧ x.kids.cap < 2 ^ 64 ∧ ∀ k ∈ x.kids.elems, OkTo u j k

theorem OkTo.step {u : Usage A} : ∀ {j : Nat} {x : Tree A}, OkTo u j x → OkTo u (j + 1) x
  | _ + 1, _, h => ⟨h.1, h.2.1, h.2.2.1, fun k hk => (h.2.2.2 k hk).step⟩

theorem OkTo.mono {u : Usage A} {j m : Nat} (hjm : j ≤ m) {x : Tree A} (h : OkTo u j x) : OkTo u m x := by
  induction hjm with
  | refl => exact h
  | step _ ih => exact ih.step

theorem Ok.okTo {u : Usage A} {x : Tree A} (h : Ok u x) : ∃ j, OkTo u j x := by
  induction h with
  | @node a n ks ha hl hn _ ih =>
    obtain ⟨j, hj⟩ := eventually_list (Q := fun k j => OkTo u j k) fun k hk => by
      obtain ⟨j, hj⟩ := ih k hk
      exact ⟨j, fun m hm => hj.mono hm⟩
    exact ⟨j + 1, ha, hl, hn, hj j (Nat.le_refl _)⟩

theorem unfold_dflt {cfg : Cfg} {ti : TI} {fresh : O} {dflt : Option O} {c : Bool} {p : CppType O → Prog O} (j : Nat) :
    (CppType.unfold cfg ti fresh dflt c p j).dflt = dflt := by
  cases j <;> rfl

/-- The class is composed, and so are the types it visits, up to every depth. -/
theorem composes {E : Bool} {a : CppType A} {u : Usage A} {ti vti : TI} (c vc : Bool) (new : A) (hti : ti.Valid)
    (hvti : vti.Valid) (ha : ComposedOf E R cfg env a u) (hn : u.clean new) :
    ComposedOf E R cfg env (type cfg ti vti c vc new a) (usage u) ∧ ∃ ps : Nat → TypeUse → Prop,
      (∀ j, (serialize cfg vti vc a (.unfold cfg ti (node new 0 []) (some (node new 0 [])) c (serialize cfg vti vc a) j)).Within
        (ps j)) ∧ ∀ j q, ps j q → ComposedOf E R cfg env q.2.1 q.2.2 := by
  let us : Nat → Usage (Tree A) := fun j => ⟨OkTo u j, Clean u, Same u, fun _ => True⟩
  let t : Nat → CppType (Tree A) :=
    CppType.unfold cfg ti (node new 0 []) (some (node new 0 [])) c (serialize cfg vti vc a)
  let ps : Nat → TypeUse → Prop := fun j q =>
    q = ⟨A, a, u⟩ ∨ q = ⟨Vec (Tree A), .vector cfg vti vc (t j), .vector (t j) (us j)⟩
  let items : Nat → Tree A → List Item := fun j x =>
    [.one a u x.value, .one (.vector cfg vti vc (t j)) (.vector (t j) (us j)) x.kids]
  have hw : ∀ j, (serialize cfg vti vc a (t j)).Within (ps j) := fun j =>
    ⟨⟨u, .inl rfl⟩, ⟨_, .inr rfl⟩, trivial⟩
  have hps : ∀ j, ComposedOf E R cfg env (t j) (us j) → ∀ q, ps j q → ComposedOf E R cfg env q.2.1 q.2.2 := by
    rintro j h _ (rfl | rfl)
    · exact ha
    · exact .vector vc hvti h
  have hi : ∀ j x, (us (j + 1)).ok x →
      (serialize cfg vti vc a (t j)).Writes x (items j x) ∧ ∀ i ∈ items j x, i.Good (ps j) := by
    intro j x hx
    obtain ⟨v, n, ks⟩ := x
    refine ⟨.visit u rfl rfl (.visit _ rfl rfl .done), ?_⟩
    intro i hi
    simp only [items, List.mem_cons, List.not_mem_nil, or_false] at hi
    rcases hi with rfl | rfl
    · exact ⟨.inl rfl, hx.1⟩
    · exact ⟨.inr rfl, hx.2.2.2, hx.2.1, hx.2.2.1, trivial⟩
  have ht : ∀ j x y, (us (j + 1)).ok x → (us (j + 1)).clean y →
      (serialize cfg vti vc a (t j)).Takes ((us (j + 1)).same x) (items j x) y := by
    intro j x y _ hy
    obtain ⟨v, n, ks⟩ := x
    cases hy with
    | @node b m ls hb hm hl =>
      refine .visit rfl hb fun b' hb' => .visit rfl ⟨hl, fun h => ?_, hm⟩ fun v' hv' => .done ?_
      · have : (t j).dflt = some (node new 0 []) := unfold_dflt j
        rw [this] at h
        cases h
      · exact .node hb' hv'.2.1 hv'.2.2 hv'.1
  have hf : Clean u (node new 0 []) := .node hn (by decide) (by simp)
  have hd : ∀ d, some (node new 0 []) = some d → Clean u d := by
    rintro _ ⟨⟩
    exact hf
  have hall := ComposedOf.unfolds (us := us) c items hti (fun _ h => h) hw hps hi ht (fun _ => hf) (fun _ => hd)
  have hg : Prog.Grows cfg (serialize cfg vti vc a) := .visit _ _ (.const a) (.visit _ _ (.vector _ _ .self) .done)
  refine ⟨?_, ps, hw, fun j => hps j (hall j)⟩
  refine .weaken (.recursive (us := fun j => us (j + 1)) c items hti hg hw (fun j => hps j (hall j)) hi ht
    (fun _ => hf) (fun _ => hd)) ?_ ?_ ?_ (fun _ _ => trivial) hf hd
  · intro x hx
    obtain ⟨j, hj⟩ := Ok.okTo hx
    exact ⟨j, hj.step⟩
  · exact fun y hy _ => hy
  · rintro x y _ ⟨_, h⟩
    exact h

theorem composed {E : Bool} {a : CppType A} {u : Usage A} {ti vti : TI} (c vc : Bool) (new : A) (hti : ti.Valid)
    (hvti : vti.Valid) (ha : ComposedOf E R cfg env a u) (hn : u.clean new) :
    ComposedOf E R cfg env (type cfg ti vti c vc new a) (usage u) := (composes c vc new hti hvti ha hn).1

end Tree

/-- **C71**: trees of any depth and any number of children, with values of any type, round trip. -/
theorem C71_tree_roundtrip {a : CppType A} {u : Usage A} {ti vti : TI} (c vc : Bool) {new : A}
    (hv : env.Valid R (· ∈ builtinKinds) cfg) (hti : ti.Valid) (hvti : vti.Valid) (ha : Composed R cfg env a u)
    (hn : u.clean new) {x : Tree A} (hx : x.Ok u) :
    RoundTrips cfg (Tree.type cfg ti vti c vc new a).elem x (Tree.Clean u) fun _ w => x.Same u w :=
  C65_composed_roundtrip hv (Tree.composed c vc new hti hvti ha hn) hx

/-! ### Linked lists -/

/-- `struct Link { A value; std::unique_ptr<Link> next; };`. -/
inductive Chain (A : Type) : Type
  | last (value : A)
  | link (value : A) (next : Chain A)

namespace Chain

def value : Chain A → A
  | last a => a
  | link a _ => a

def next : Chain A → Option (Chain A)
  | last _ => none
  | link _ r => some r

def make (a : A) : Option (Chain A) → Chain A
  | none => last a
  | some r => link a r

/-- The values. -/
def toList : Chain A → List A
  | last a => [a]
  | link a r => a :: r.toList

/-- `s | value; s | next;`, given the class of the links. -/
def serialize (cfg : Cfg) (ti : TI) (a : CppType A) (t : CppType (Chain A)) : Prog (Chain A) :=
  .visit a (fun o => some o.value) (fun v o => make v o.next)
    (.visit (.uniquePtr cfg ti t) (fun o => some o.next) (fun v o => make o.value v) .done)

/-- The class of the links. -/
def type (cfg : Cfg) (ti pti : TI) (new : A) (a : CppType A) : CppType (Chain A) :=
  .recursive cfg ti (last new) (some (last new)) false (serialize cfg pti a)

/-- Links with these values; of any length. -/
def usage (u : Usage A) : Usage (Chain A) where
  ok x := ∀ a ∈ x.toList, u.ok a
  clean y := ∀ a ∈ y.toList, u.clean a
  same x y := List.Forall₂ u.same x.toList y.toList
  many _ := True

def OkTo (u : Usage A) : Nat → Chain A → Prop
  | 0, _ => False
  | j + 1, x => u.ok x.value ∧ ∀ r, x.next = some r → OkTo u j r

theorem okTo {u : Usage A} : ∀ {x : Chain A}, (∀ a ∈ x.toList, u.ok a) → ∃ j, OkTo u j x
  | last a, h => ⟨1, h a (.head _), fun _ hr => by cases hr⟩
  | link a r, h => by
    obtain ⟨j, hj⟩ := okTo (x := r) fun b hb => h b (.tail _ hb)
    refine ⟨j + 1, h a (.head _), ?_⟩
    rintro _ ⟨⟩
    exact hj

/-- The class is composed, and so are the types it visits, up to every depth. -/
theorem composes {E : Bool} {a : CppType A} {u : Usage A} {ti pti : TI} (new : A) (hti : ti.Valid)
    (hpti : pti.Valid) (ha : ComposedOf E R cfg env a u) (hn : u.clean new) :
    ComposedOf E R cfg env (type cfg ti pti new a) (usage u) ∧ ∃ ps : Nat → TypeUse → Prop,
      (∀ j, (serialize cfg pti a (.unfold cfg ti (last new) (some (last new)) false (serialize cfg pti a) j)).Within
        (ps j)) ∧ ∀ j q, ps j q → ComposedOf E R cfg env q.2.1 q.2.2 := by
  let us : Nat → Usage (Chain A) := fun j => { usage u with ok := OkTo u j }
  let t : Nat → CppType (Chain A) := CppType.unfold cfg ti (last new) (some (last new)) false (serialize cfg pti a)
  let ps : Nat → TypeUse → Prop := fun j q =>
    q = ⟨A, a, u⟩ ∨ q = ⟨Option (Chain A), .uniquePtr cfg pti (t j), .uniquePtr (us j)⟩
  let items : Nat → Chain A → List Item := fun j x =>
    [.one a u x.value, .one (.uniquePtr cfg pti (t j)) (.uniquePtr (us j)) x.next]
  have hw : ∀ j, (serialize cfg pti a (t j)).Within (ps j) := fun j => ⟨⟨u, .inl rfl⟩, ⟨_, .inr rfl⟩, trivial⟩
  have hps : ∀ j, ComposedOf E R cfg env (t j) (us j) → ∀ q, ps j q → ComposedOf E R cfg env q.2.1 q.2.2 := by
    rintro j h _ (rfl | rfl)
    · exact ha
    · exact .uniquePtr hpti (by cases j <;> rfl) h
  have hi : ∀ j x, (us (j + 1)).ok x →
      (serialize cfg pti a (t j)).Writes x (items j x) ∧ ∀ i ∈ items j x, i.Good (ps j) := by
    intro j x hx
    refine ⟨.visit u rfl (by cases x <;> rfl) (.visit _ rfl (by cases x <;> rfl) .done), ?_⟩
    intro i hi
    simp only [items, List.mem_cons, List.not_mem_nil, or_false] at hi
    rcases hi with rfl | rfl
    · exact ⟨.inl rfl, hx.1⟩
    · exact ⟨.inr rfl, hx.2⟩
  have ht : ∀ j x y, (us (j + 1)).ok x → (us (j + 1)).clean y →
      (serialize cfg pti a (t j)).Takes ((us (j + 1)).same x) (items j x) y := by
    intro j x y _ hy
    refine .visit rfl (hy _ (by cases y <;> exact .head _)) fun b' hb' => .visit rfl ?_ fun v' hv' => .done ?_
    · intro r hr b hb
      cases y with
      | last b0 => cases hr
      | link b0 r0 =>
        cases hr
        exact hy b (.tail _ hb)
    · show List.Forall₂ _ _ _
      have key : (make b' y.next).value = b' := by cases y <;> rfl
      rw [key]
      cases x with
      | last a0 =>
        cases v' with
        | none => exact .cons hb' .nil
        | some r => exact hv'.elim
      | link a0 r0 =>
        cases v' with
        | none => exact hv'.elim
        | some r => exact .cons hb' hv'
  have hf : (usage u).clean (last new) := by
    intro b hb
    cases hb with
    | head => exact hn
    | tail _ h => cases h
  have hd : ∀ d, some (last new) = some d → (usage u).clean d := by
    rintro _ ⟨⟩
    exact hf
  have hall := ComposedOf.unfolds (us := us) false items hti (fun _ h => h) hw hps hi ht (fun _ => hf) (fun _ => hd)
  have hg : Prog.Grows cfg (serialize cfg pti a) := .visit _ _ (.const a) (.visit _ _ (.uniquePtr _ .self) .done)
  refine ⟨?_, ps, hw, fun j => hps j (hall j)⟩
  refine .weaken (.recursive (us := fun j => us (j + 1)) false items hti hg hw (fun j => hps j (hall j)) hi ht
    (fun _ => hf) (fun _ => hd)) ?_ ?_ ?_ (fun _ _ => trivial) hf hd
  · intro x hx
    obtain ⟨j, hj⟩ := okTo hx
    cases j with
    | zero => exact hj.elim
    | succ j => exact ⟨j, hj⟩
  · exact fun y hy _ => hy
  · rintro x y _ ⟨_, h⟩
    exact h

theorem composed {E : Bool} {a : CppType A} {u : Usage A} {ti pti : TI} (new : A) (hti : ti.Valid)
    (hpti : pti.Valid) (ha : ComposedOf E R cfg env a u) (hn : u.clean new) :
    ComposedOf E R cfg env (type cfg ti pti new a) (usage u) := (composes new hti hpti ha hn).1

end Chain

/-- **C71**: linked lists of any length, with values of any type, round trip; read over linked lists of any length. -/
theorem C71_chain_roundtrip {a : CppType A} {u : Usage A} {ti pti : TI} {new : A}
    (hv : env.Valid R (· ∈ builtinKinds) cfg) (hti : ti.Valid) (hpti : pti.Valid) (ha : Composed R cfg env a u)
    (hn : u.clean new) {x : Chain A} (hx : ∀ b ∈ x.toList, u.ok b) :
    RoundTrips cfg (Chain.type cfg ti pti new a).elem x (fun y => ∀ b ∈ y.toList, u.clean b)
      fun _ w => List.Forall₂ u.same x.toList w.toList :=
  C65_composed_roundtrip hv (Chain.composed new hti hpti ha hn) hx

/-! ### Memory footprints -/

/-- **C71**: for an object of a recursive class, the footprinter counts what its function counts for all it visits,
objects of the class included. -/
theorem C71_footprint {p : CppType O → Prog O} {ti : TI} {fresh : O} {dflt : Option O} {ps : Nat → TypeUse → Prop}
    (c : Bool) (hv : env.Valid R (· ∈ builtinKinds) cfg) (hp : Prog.Grows cfg p)
    (hw : ∀ j, (p (.unfold cfg ti fresh dflt c p j)).Within (ps j))
    (hps : ∀ j q, ps j q → Composed R cfg env q.2.1 q.2.2) {x : O} {f : Nat}
    (h : (p (.recursive cfg ti fresh dflt c p)).Counts cfg x f) : Counts cfg (.recursive cfg ti fresh dflt c p) x f := by
  obtain ⟨n0, h0⟩ := C70_program hv h ti fresh dflt c
  refine ⟨n0 + 1, fun n hn m hm => ?_⟩
  obtain ⟨k, rfl⟩ : ∃ k, n = k + 1 := ⟨n - 1, by omega⟩
  have key : Elem.Le ((CppType.program cfg ti fresh dflt c (p (.recursive cfg ti fresh dflt c p))).elem k)
      ((CppType.recursive cfg ti fresh dflt c p).elem (k + 1)) := by
    refine ⟨rfl, fun s xs => ?_⟩
    show Out.Le ((CppType.program cfg ti fresh dflt c (p (.recursive cfg ti fresh dflt c p))).apply k s xs)
      ((CppType.unfold cfg ti fresh dflt c p (k + 1)).apply (k + 1) s xs)
    rw [recursive_unfold hp, unfold_apply, unfold_apply]
    exact dispatchEach_le (fun s x => prog_le (fun q hq => (hps k q hq).composes hv) (Nat.le_succ k) _ (hw k) s x) s xs
  have := h0 k (by omega) m hm
  rw [← this]
  exact ((pipe_le key _ x).eq_of_ne (by rw [this]; exact fun h => by cases h))

/-- What is counted for a tree, with `f a` bytes for the value `a` in a node: for each node the value, the vector, and
the room for children that are not there. -/
def Tree.counted (vector node : Nat) (f : A → Nat) : Tree A → Nat
  | .node a n ks => f a + (vector + (ks.attach.map fun ⟨k, _⟩ => k.counted vector node f).sum + node * (n - ks.length))

theorem Tree.counted_node (vector node : Nat) (f : A → Nat) (a : A) (n : Nat) (ks : List (Tree A)) :
    Tree.counted vector node f (.node a n ks) =
      f a + (vector + (ks.map (Tree.counted vector node f)).sum + node * (n - ks.length)) := by
  simp [Tree.counted]

/-- **C71**: memory footprints of trees of any shape: the nodes are counted as parts of the vectors they are in. -/
theorem C71_tree_footprint {a : CppType A} {u : Usage A} {ti vti : TI} (c vc : Bool) {new : A}
    (hv : env.Valid R (· ∈ builtinKinds) cfg) (hti : ti.Valid) (hvti : vti.Valid) (ha : Composed R cfg env a u)
    (hn : u.clean new) {f : A → Nat} (hf : ∀ b, u.ok b → Counts cfg a b (f b)) {x : Tree A} (hx : x.Ok u) :
    Counts cfg (Tree.type cfg ti vti c vc new a) x (x.counted vti.sizeof ti.sizeof f) := by
  obtain ⟨hc, ps, hw, hps⟩ := Tree.composes c vc new hti hvti ha hn
  induction hx with
  | @node b n ks hb hl hn' hk ih =>
    refine C71_footprint c hv (.visit _ _ (.const a) (.visit _ _ (.vector _ _ .self) .done)) hw hps ?_
    rw [Tree.counted_node, ← Nat.add_zero (_ + _ * _)]
    refine .visit rfl rfl (hf b hb) (.visit rfl rfl ?_ .done)
    exact (C70_containers vti vc).1 ⟨n, ks⟩ _ (C70_arrays hv hc hk trivial ih)

/-- **C71**: memory footprints of linked lists of any length. -/
theorem C71_chain_footprint {a : CppType A} {u : Usage A} {ti pti : TI} {new : A}
    (hv : env.Valid R (· ∈ builtinKinds) cfg) (hti : ti.Valid) (hpti : pti.Valid) (ha : Composed R cfg env a u)
    (hn : u.clean new) {f : A → Nat} (hf : ∀ b, u.ok b → Counts cfg a b (f b)) {x : Chain A}
    (hx : ∀ b ∈ x.toList, u.ok b) :
    Counts cfg (Chain.type cfg ti pti new a) x (x.toList.map fun b => f b + pti.sizeof).sum := by
  obtain ⟨hc, ps, hw, hps⟩ := Chain.composes new hti hpti ha hn
  have hg : Prog.Grows cfg (Chain.serialize cfg pti a) := .visit _ _ (.const a) (.visit _ _ (.uniquePtr _ .self) .done)
  induction x with
  | last b =>
    refine C71_footprint false hv hg hw hps ?_
    have := uniquePtr_null (cfg := cfg) (ti := pti) (t := Chain.type cfg ti pti new a)
    have h2 : (Chain.serialize cfg pti a (Chain.type cfg ti pti new a)).Counts cfg (.last b)
        (f b + (pti.sizeof + 0)) := .visit rfl rfl (hf b (hx b (.head _))) (.visit rfl rfl this .done)
    simpa [Chain.toList, Chain.type] using h2
  | link b r ih =>
    refine C71_footprint false hv hg hw hps ?_
    have := uniquePtr_counts (ti := pti) (ih fun b hb => hx b (.tail _ hb))
    have h2 : (Chain.serialize cfg pti a (Chain.type cfg ti pti new a)).Counts cfg (.link b r)
        (f b + (pti.sizeof + (r.toList.map fun b => f b + pti.sizeof).sum + 0)) :=
      .visit rfl rfl (hf b (hx b (.head _))) (.visit rfl rfl this .done)
    simpa [Chain.toList, Chain.type, Nat.add_assoc] using h2

/-! ### Arbitrary input -/

/-- **C71**: whatever bytes a stream delivers, a recursive class is read as in C66, if its function accesses only what
there is and ends with well-formed objects, where it may take for granted that objects of the class visited after some
number was read, with whatever handler `t.apply`, are read as well-formed objects. -/
theorem C71_arbitrary_input {U : UB → Prop} {p : CppType O → Prog O} {I : O → Prop} {fresh : O} {dflt : Option O}
    {ps qs : CppType O → TypeShape → Prop} (ti : TI) (c : Bool) (hE : env.Sound cfg) (hU : ∀ u, Hazard cfg env u → U u)
    (hp : Prog.Grows cfg p)
    (h1 : ∀ t, (CppType.declared ti fresh dflt c).Like t → ∀ q, ps t q →
      GuardedIn U cfg env (fun _ => False) (· = ⟨O, t, I⟩) q.2.1 q.2.2)
    (h2 : ∀ t, (CppType.declared ti fresh dflt c).Like t → ∀ q, qs t q →
      GuardedIn U cfg env (· = ⟨O, t, I⟩) (· = ⟨O, t, I⟩) q.2.1 q.2.2)
    (h3 : ∀ t, (CppType.declared ti fresh dflt c).Like t → ∀ y, I y → (p t).Careful U (ps t) (qs t) I y)
    (hf : I fresh) (hd : ∀ d, dflt = some d → I d) (inp : Bytes) {y : O} (hy : I y) :
    ∃ o, EndsWell U I o ∧ ∃ n0, ∀ n, n0 ≤ n →
      deserializeInPlaceFromStream cfg ((CppType.recursive cfg ti fresh dflt c p).elem n) inp y = o :=
  C66_stream_in_place hE hU (.recursive ti c hp (fun t ht q hq => (h1 t ht q hq).mono (fun _ h => h) (fun _ => .inr))
    (fun t ht q hq => (h2 t ht q hq).mono (fun _ => .inr) (fun _ => .inr)) h3 hf hd) inp hy

/-- No node has more children than its vector has room for, and the values are well-formed. -/
inductive Tree.Formed (I : A → Prop) : Tree A → Prop
  | node {a : A} {n : Nat} {ks : List (Tree A)} : I a → ks.length ≤ n → (∀ k ∈ ks, Formed I k) → Formed I (node a n ks)

theorem Guarded.tree {U : UB → Prop} {a : CppType A} {I : A → Prop} (ti vti : TI) (c vc : Bool) {new : A}
    (h : Guarded U cfg env a I) (hn : I new) : Guarded U cfg env (Tree.type cfg ti vti c vc new a) (Tree.Formed I) := by
  have hf : Tree.Formed I (.node new 0 []) := .node hn (Nat.le_refl _) (by simp)
  refine .recursive
    (ps := fun t q => q = ⟨A, a, I⟩ ∨
      q = ⟨Vec (Tree A), .vector cfg vti vc t, fun v => v.elems.length ≤ v.cap ∧ ∀ x ∈ v.elems, Tree.Formed I x⟩)
    (qs := fun _ _ => False) ti c (.visit _ _ (.const a) (.visit _ _ (.vector _ _ .self) .done)) ?_
    (fun _ _ _ h => h.elim) ?_ hf (by rintro _ ⟨⟩; exact hf)
  · rintro t - _ (rfl | rfl)
    · exact h.mono (fun _ h => h) (fun _ h => h.elim)
    · exact .vector vti vc (.known (.inr rfl))
  · rintro t - _ ⟨hb, hl, hk⟩
    exact ⟨I, .inl rfl, hb, fun a' ha' => ⟨_, .inr rfl, ⟨hl, hk⟩, fun v hv => .node ha' hv.1 hv.2⟩⟩

theorem Guarded.chain {U : UB → Prop} {a : CppType A} {I : A → Prop} (ti pti : TI) {new : A}
    (h : Guarded U cfg env a I) (hn : I new) :
    Guarded U cfg env (Chain.type cfg ti pti new a) (fun x => ∀ b ∈ x.toList, I b) := by
  have hf : ∀ b ∈ (Chain.last new).toList, I b := by
    intro b hb
    cases hb with
    | head => exact hn
    | tail _ h => cases h
  have hmake : ∀ (v : A) (r : Option (Chain A)), I v → (∀ x, r = some x → ∀ b ∈ x.toList, I b) →
      ∀ b ∈ (Chain.make v r).toList, I b := by
    rintro v (_ | r) hv hr b (_ | ⟨_, hb⟩)
    · exact hv
    · cases hb
    · exact hv
    · exact hr r rfl b hb
  have hnext : ∀ y : Chain A, (∀ b ∈ y.toList, I b) → I y.value ∧ ∀ x, y.next = some x → ∀ b ∈ x.toList, I b := by
    rintro (v | ⟨v, r⟩) hy
    · exact ⟨hy v (.head _), fun _ hx => by cases hx⟩
    · exact ⟨hy v (.head _), fun x hx b hb => by cases hx; exact hy b (.tail _ hb)⟩
  refine .recursive
    (ps := fun t q => q = ⟨A, a, I⟩ ∨
      (q = ⟨Option (Chain A), .uniquePtr cfg pti t, fun x => ∀ v, x = some v → ∀ b ∈ v.toList, I b⟩))
    (qs := fun _ _ => False) ti false (.visit _ _ (.const a) (.visit _ _ (.uniquePtr _ .self) .done)) ?_
    (fun _ _ _ h => h.elim) ?_ hf (by rintro _ ⟨⟩; exact hf)
  · rintro t ht _ (rfl | rfl)
    · exact h.mono (fun _ h => h) (fun _ h => h.elim)
    · exact .uniquePtr pti (by rw [ht]; rfl) (.known (.inr rfl))
  · intro t _ y hy
    refine ⟨I, .inl rfl, (hnext y hy).1, fun a' ha' => ⟨_, .inr rfl, ?_, fun v hv => hmake _ _ ?_ hv⟩⟩
    · exact (hnext _ (hmake _ _ ha' (hnext y hy).2)).2
    · exact (hnext _ (hmake _ _ ha' (hnext y hy).2)).1

/-- **C71**: so for trees and linked lists, with values of any type. -/
theorem C71_patterns_arbitrary_input {U : UB → Prop} {a : CppType A} {I : A → Prop} {new : A} (ti vti : TI)
    (c vc : Bool) (hE : env.Sound cfg) (hU : ∀ u, Hazard cfg env u → U u) (h : Guarded U cfg env a I) (hn : I new)
    (inp : Bytes) :
    (∀ y, Tree.Formed I y → ∃ o, EndsWell U (Tree.Formed I) o ∧ ∃ n0, ∀ n, n0 ≤ n →
      deserializeInPlaceFromStream cfg ((Tree.type cfg ti vti c vc new a).elem n) inp y = o) ∧
    (∀ y : Chain A, (∀ b ∈ y.toList, I b) → ∃ o, EndsWell U (fun y => ∀ b ∈ y.toList, I b) o ∧ ∃ n0, ∀ n, n0 ≤ n →
      deserializeInPlaceFromStream cfg ((Chain.type cfg ti vti new a).elem n) inp y = o) :=
  ⟨fun _ hy => C66_stream_in_place hE hU (Guarded.tree ti vti c vc h hn) inp hy,
   fun _ hy => C66_stream_in_place hE hU (Guarded.chain ti vti h hn) inp hy⟩

end

/-! ### Examples -/

namespace Demo
variable (c : Cfg)

/-- A tree of views: the root has three children, the last one has a child. -/
def views : Tree (View Val) :=
  .node (row 2) 4 [.node (row 0) 0 [], .node (row 3) 1 [], .node (row 1) 1 [.node (row 5) 0 []]]

theorem views_ok : views.Ok (rowUse c) := by
  have leaf : ∀ n k, n < 2 ^ 32 → k < 2 ^ 64 → Tree.Ok (rowUse c) (.node (row n) k []) := fun n k hn hk =>
    .node (row_use c n hn) (Nat.zero_le _) hk (by simp)
  refine .node (row_use c 2 (by decide)) (by decide) (by decide) ?_
  simp only [List.mem_cons, List.not_mem_nil, or_false]
  rintro k (rfl | rfl | rfl)
  · exact leaf 0 0 (by decide) (by decide)
  · exact leaf 3 1 (by decide) (by decide)
  · refine .node (row_use c 1 (by decide)) (by decide) (by decide) ?_
    simp only [List.mem_cons, List.not_mem_nil, or_false]
    rintro k rfl
    exact leaf 5 0 (by decide) (by decide)

/-- A linked list of views. -/
def viewChain : Chain (View Val) := .link (row 2) (.link (row 0) (.last (row 7)))

theorem viewChain_ok : ∀ b ∈ viewChain.toList, (rowUse c).ok b := by
  simp only [viewChain, Chain.toList, List.mem_cons, List.not_mem_nil, or_false]
  rintro b (rfl | rfl | rfl) <;> exact row_use c _ (by decide)

end Demo

/-- The hypotheses are met by trees of views, also as elements of a vector. -/
example : Demo.env.Valid .contents (· ∈ builtinKinds) (Demo.cfg true false) ∧
    Composed .contents (Demo.cfg true false) Demo.env
      (.list (Demo.cfg true false) (Demo.env.ti Demo.int) true (Tree.type (Demo.cfg true false) (Demo.env.ti Demo.int)
        (Demo.env.ti Demo.int) true true Demo.rowTy.empty (Demo.rowType (Demo.cfg true false))))
      (.list (Tree.type (Demo.cfg true false) (Demo.env.ti Demo.int)
        (Demo.env.ti Demo.int) true true Demo.rowTy.empty (Demo.rowType (Demo.cfg true false)))
        (Tree.usage (Demo.rowUse (Demo.cfg true false)))) ∧
    Demo.views.Ok (Demo.rowUse (Demo.cfg true false)) :=
  ⟨Demo.valid_contents, .list true (Demo.ti_valid _) (Tree.composed _ _ _ (Demo.ti_valid _) (Demo.ti_valid _)
    (Demo.rowComposed _) trivial), Demo.views_ok _⟩

/-- The linked list of views is read over one of another length. -/
example : RoundTrips (Demo.cfg true true) (Chain.type (Demo.cfg true true) (Demo.env.ti Demo.int)
      (Demo.env.ti Demo.int) Demo.rowTy.empty (Demo.rowType (Demo.cfg true true))).elem Demo.viewChain
    (fun y => ∀ b ∈ y.toList, True)
    fun _ w => List.Forall₂ (Demo.rowUse (Demo.cfg true true)).same Demo.viewChain.toList w.toList :=
  C71_chain_roundtrip (u := Demo.rowUse (Demo.cfg true true)) Demo.valid_contents (Demo.ti_valid _) (Demo.ti_valid _)
    (Demo.rowComposed _) trivial (Demo.viewChain_ok _)

/-- Trees with trees as values: a recursive class within a recursive class. -/
example : RoundTrips (Demo.cfg true true) (Tree.type (Demo.cfg true true) (Demo.env.ti Demo.int)
      (Demo.env.ti Demo.int) true true Demo.views (Tree.type (Demo.cfg true true) (Demo.env.ti Demo.int)
        (Demo.env.ti Demo.int) true true Demo.rowTy.empty (Demo.rowType (Demo.cfg true true)))).elem
    (.node Demo.views 2 [.node Demo.views 0 []])
    (Tree.Clean (Tree.usage (Demo.rowUse (Demo.cfg true true))))
    fun _ w => Tree.Same (Tree.usage (Demo.rowUse (Demo.cfg true true)))
      (.node Demo.views 2 [.node Demo.views 0 []]) w := by
  refine C71_tree_roundtrip true true Demo.valid_contents (Demo.ti_valid _) (Demo.ti_valid _)
    (Tree.composed true true _ (Demo.ti_valid _) (Demo.ti_valid _) (Demo.rowComposed _) trivial) ?_ ?_
  · repeat' first | exact trivial | decide | apply Tree.Clean.node | (rintro k (_ | ⟨_, (_ | ⟨_, (_ | ⟨_, (_ | ⟨_, h⟩)⟩)⟩)⟩)) | cases h
  · refine .node (Demo.views_ok _) (by decide) (by decide) ?_
    simp only [List.mem_cons, List.not_mem_nil, or_false]
    rintro k rfl
    exact .node (Demo.views_ok _) (by decide) (by decide) (by simp)

/-- The footprint of the tree of views is determined by those of the views. -/
example : Counts (Demo.cfg true true) (Tree.type (Demo.cfg true true) (Demo.env.ti Demo.int)
      (Demo.env.ti Demo.int) true true Demo.rowTy.empty (Demo.rowType (Demo.cfg true true))) Demo.views
    (Demo.views.counted (Demo.env.ti Demo.int).sizeof (Demo.env.ti Demo.int).sizeof Demo.rowFp) :=
  C71_tree_footprint true true Demo.valid_contents (Demo.ti_valid _) (Demo.ti_valid _) (Demo.rowComposed _) trivial
    (fun _ hb => Demo.row_counts _ hb) (Demo.views_ok _)

/-- Arbitrary input for trees of views. -/
example (inp : Bytes) := (C71_patterns_arbitrary_input (Demo.env.ti Demo.int) (Demo.env.ti Demo.int) true true Demo.sound
  (fun _ => .inl) (Demo.rowGuarded (Demo.cfg true false)) (empty_formed _ _) inp).1 (.node Demo.rowTy.empty 0 [])
    (.node (empty_formed _ _) (Nat.le_refl _) (by simp))

end Ckpt
