import Verif.Spec.Universe
import Verif.Proofs.Virtual
import Verif.Proofs.Registry
/-!
# A concrete program

Used in examples that show that the hypotheses of the theorems can be met.  Classes:

* 0: `struct Point { int x; double y; };` with an intrusive `serialize`
* 1: `struct Shape : Base { std::string name; };`, the root of a polymorphic hierarchy
* 2: `struct Circle : Shape { double r; };`
* 3: `struct Group : Shape { std::vector<std::unique_ptr<Shape>> parts; };`
* 4: `struct Node { int v; std::unique_ptr<Node> next; };`
* 5: `struct Opaque : Shape` with pure virtual members (abstract)
* 6: `struct Label { std::string s; int i; };`
* 7: `struct Handle { int fd; };` without default constructor, without copy constructor
-/

set_option autoImplicit false
set_option linter.unnecessarySeqFocus false

namespace Ckpt.Demo

/-- `int`. -/
def int : Ty := .prim 1 4
/-- `double`. -/
def double : Ty := .prim 2 8

/-- The class table. -/
def cls : Nat → ClassDef
  | 0 => { fields := [int, double] }
  | 1 => { fields := [.str], virt := true }
  | 2 => { fields := [double], virt := true, bases := [1] }
  | 3 => { fields := [.vec (.uptr (.cls 1))], virt := true, bases := [1] }
  | 4 => { fields := [int, .uptr (.cls 4)] }
  | 5 => { fields := [], virt := true, bases := [1], abstract := true }
  | 6 => { fields := [.str, int] }
  | 7 => { fields := [int] }
  | _ => { fields := [] }

mutual
/-- A number for each type (as static initialisation could have given). -/
def code : Ty → Nat
  | .prim i _ => 20 + i
  | .enm i _ _ => 120 + i
  | .chrono i _ _ => 220 + i
  | .str => 1
  | .vec t => 13 * code t + 3
  | .vecBool => 2
  | .seq _ t => 13 * code t + 4
  | .queue t => 13 * code t + 5
  | .oset _ _ t => 13 * code t + 6
  | .uset _ _ t => 13 * code t + 7
  | .pair a b => 13 * (code a + 10 * code b) + 8
  | .tuple ts => 13 * codes ts + 9
  | .opt t => 13 * code t + 10
  | .variant ts => 13 * codes ts + 11
  | .uptr t => 13 * code t + 12
  | .arr k t => 13 * (k + code t)
  | .cls c => 10 + c
/-- The same for lists of types. -/
def codes : List Ty → Nat
  | [] => 0
  | t :: ts => code t + 7 * codes ts
end

mutual
/-- Default construction. -/
def fresh : Ty → Val
  | .prim _ size => .raw (List.replicate size 0)
  | .enm _ _ size => .raw (List.replicate size 0)
  | .chrono _ _ size => .raw (List.replicate size 0)
  | .str => .str ⟨15, []⟩
  | .vec _ => .vec 0 []
  | .vecBool => .vbool 0 []
  | .seq _ _ => .coll []
  | .queue _ => .coll []
  | .oset _ _ _ => .coll []
  | .uset _ _ _ => .coll []
  | .pair a b => .coll [fresh a, fresh b]
  | .tuple ts => .coll (freshes ts)
  | .opt _ => .opt none
  | .variant [] => .raw (List.replicate (8 + code (.variant [])) 0)
  | .variant (t :: ts) =>
    if Ty.allOnlyBytes (t :: ts) then .raw (List.replicate (8 + code (.variant (t :: ts))) 0)
    else .variant 0 (fresh t)
  | .uptr _ => .ptr none
  | .arr k t => .coll (List.replicate k (fresh t))
  | .cls 0 => .obj 0 [[.raw [0, 0, 0, 0], .raw [0, 0, 0, 0, 0, 0, 0, 0]]]
  | .cls 1 => .obj 1 [[.str ⟨15, []⟩]]
  | .cls 2 => .obj 2 [[.str ⟨15, []⟩], [.raw [0, 0, 0, 0, 0, 0, 0, 0]]]
  | .cls 3 => .obj 3 [[.str ⟨15, []⟩], [.vec 0 []]]
  | .cls 4 => .obj 4 [[.raw [0, 0, 0, 0], .ptr none]]
  | .cls 5 => .obj 5 [[.str ⟨15, []⟩], []]
  | .cls 6 => .obj 6 [[.str ⟨15, []⟩, .raw [0, 0, 0, 0]]]
  | .cls 7 => .obj 7 [[.raw [0, 0, 0, 0]]]
  | .cls c => .obj c [[]]
/-- Members of a default constructed tuple. -/
def freshes : List Ty → List Val
  | [] => []
  | t :: ts => fresh t :: freshes ts
end

/-- The number a value is compared by: the first integer in it. -/
def key : Val → Nat
  | .raw bs => intVal .little bs
  | .str x => intVal .big x.chars
  | .coll (x :: _) => key x
  | _ => 0

/-- The serializer registry after all classes of the hierarchy were instantiated, derived first. -/
def serReg : SerReg :=
  let r : SerReg := fun _ => []
  ((r.instantiate 3 1).instantiate 2 1).instantiate 1 1

/-- The program. -/
def env : Env where
  ti t := { name := code t, idx := encodeIndex (code t % 65536), sizeof := 8 + code t }
  fresh := fresh
  dflt t := match t with | .cls 7 => none | t => some (fresh t)
  copyable t := match t with | .uptr _ => false | .cls 7 => false | _ => true
  lt _ a b := decide (key a < key b)
  eq _ a b := key a == key b
  arrange _ xs := xs.reverse
  cls := cls
  objReg r := if r = 1 then [2, 1, 3, 5] else []
  serReg := serReg

/-- A platform. -/
def cfg (check ndebug : Bool) : Cfg where
  check := check
  ndebug := ndebug
  endian := .little
  grow n := n
  argOrder n := (List.range n).reverse
  tiSize := { name := 3, idx := encodeIndex 3, sizeof := 8 }
  tiBool := { name := 4, idx := encodeIndex 4, sizeof := 1 }
  tiChar := { name := 5, idx := encodeIndex 5, sizeof := 1 }
  tiInt := { name := 6, idx := encodeIndex 6, sizeof := 4 }

theorem ti_valid (t : Ty) : (env.ti t).Valid :=
  encodeIndex_valid (Nat.mod_lt _ (by decide))

variable {R : RelMode} {check ndebug : Bool}

/-- Default constructed objects are clean. -/
theorem fresh_byVal : ∀ t, ByVal t (fresh t)
  | .cls 0 | .cls 1 | .cls 2 | .cls 3 | .cls 4 | .cls 5 | .cls 6 | .cls 7 | .cls (_ + 8) => by simp [ByVal, fresh]
  | .prim .. | .enm .. | .chrono .. | .str | .vec _ | .vecBool | .seq .. | .queue _ | .oset ..
  | .uset .. | .pair .. | .tuple _ | .opt _ | .variant _ | .uptr _ | .arr .. => by simp [ByVal]

theorem capOk (hR : ∀ c < 2 ^ 64, R.cap c c) : R.CapOk (cfg check ndebug) 0 := by
  intro c hc
  simp only [cfg]
  split
  · have : c = 0 := by omega
    subst this; exact hR 0 hc
  · exact hR c hc

theorem freshes_length : ∀ ts, (freshes ts).length = ts.length
  | [] => rfl
  | _ :: ts => by simp [freshes, freshes_length ts]

theorem freshes_get : ∀ (ts : List Ty) (i : Nat) t x, ts[i]? = some t → (freshes ts)[i]? = some x →
    x = fresh t
  | [], i, t, x, h, _ => by simp at h
  | t' :: ts, 0, t, x, h, h' => by
    simp [freshes] at h h'; subst h; exact h'.symm
  | t' :: ts, i + 1, t, x, h, h' => by
    simp only [freshes, List.getElem?_cons_succ] at h h'
    exact freshes_get ts i t x h h'

mutual
theorem fresh_clean (hR : ∀ c < 2 ^ 64, R.cap c c) : ∀ t, Clean R (cfg check ndebug) env t (fresh t)
  | .prim .. => .prim (by simp)
  | .enm .. => .enm (by simp)
  | .chrono .. => .chrono (by simp)
  | .str => .str
  | .vec _ => .vec (capOk hR) (by simp) (by simp) (by simp)
  | .vecBool => .vecBool (capOk hR)
  | .seq .. => .seq (by simp) (by simp) (by simp)
  | .queue _ => .queue
  | .oset .. => .oset
  | .uset .. => .uset
  | .pair a b => .pair (fresh_byVal a) (fresh_byVal b) (fresh_clean hR a) (fresh_clean hR b)
  | .tuple ts => by
    refine .tuple (freshes_length ts) ?_ ?_
    · intro i t x ht hx
      rw [freshes_get ts i t x ht hx]; exact fresh_byVal t
    · intro i t x ht hx
      rw [freshes_get ts i t x ht hx]; exact freshes_clean hR ts t (List.mem_of_getElem? ht)
  | .opt _ => .opt
  | .variant [] => .variantBytes rfl (by simp [env])
  | .variant (t :: ts) => by
    simp only [fresh]
    split
    · exact .variantBytes ‹_› (by simp [env])
    · exact .variant (Bool.of_not_eq_true ‹_›)
  | .uptr _ => .ptrNull
  | .arr k t => by
    refine .arr (by simp) ?_ ?_
    · intro x hx; rw [List.eq_of_mem_replicate hx]; exact fresh_byVal t
    · intro x hx; rw [List.eq_of_mem_replicate hx]; exact fresh_clean hR t
  | .cls 0 => by
    refine .obj (by decide) rfl ?_ ?_ ?_ <;> simp only [env, cls, Env.chain, List.nil_append] <;>
      rintro (_ | j) k p hk hp <;> simp at hk hp
    · subst hk hp; rfl
    · subst hk hp; rintro (_ | _ | i) t x ht hx <;> simp [int, double] at ht hx <;>
        subst ht hx <;> simp [ByVal]
    · subst hk hp; rintro (_ | _ | i) t x ht hx <;> simp [int, double] at ht hx <;>
        subst ht hx <;> exact .prim rfl
  | .cls 1 => by
    refine .obj (by decide) rfl ?_ ?_ ?_ <;> simp only [env, cls, Env.chain, List.nil_append] <;>
      rintro (_ | j) k p hk hp <;> simp at hk hp
    · subst hk hp; rfl
    · subst hk hp; rintro (_ | i) t x ht hx <;> simp at ht hx <;>
        subst ht hx <;> simp [ByVal]
    · subst hk hp; rintro (_ | i) t x ht hx <;> simp at ht hx <;>
        subst ht hx <;> exact .str
  | .cls 2 => by
    refine .obj (by decide) rfl ?_ ?_ ?_ <;> simp only [env, cls, Env.chain] <;>
      rintro (_ | _ | j) k p hk hp <;> simp at hk hp <;> subst hk hp <;> try rfl
    all_goals
      rintro (_ | i) t x ht hx <;> simp [double] at ht hx <;>
        subst ht hx <;> first | exact .str | exact .prim rfl | simp [ByVal]
  | .cls 3 => by
    refine .obj (by decide) rfl ?_ ?_ ?_ <;> simp only [env, cls, Env.chain] <;>
      rintro (_ | _ | j) k p hk hp <;> simp at hk hp <;> subst hk hp <;> try rfl
    all_goals
      rintro (_ | i) t x ht hx <;> simp at ht hx <;>
        subst ht hx <;>
        first | exact .str | exact .vec (capOk hR) (by simp) (by simp) (by simp) | simp [ByVal]
  | .cls 4 => by
    refine .obj (by decide) rfl ?_ ?_ ?_ <;> simp only [env, cls, Env.chain, List.nil_append] <;>
      rintro (_ | j) k p hk hp <;> simp at hk hp <;> subst hk hp <;> try rfl
    all_goals
      rintro (_ | _ | i) t x ht hx <;> simp [int] at ht hx <;>
        subst ht hx <;> first | exact .prim rfl | exact .ptrNull | simp [ByVal]
  | .cls 5 => by
    refine .obj (by decide) rfl ?_ ?_ ?_ <;> simp only [env, cls, Env.chain] <;>
      rintro (_ | _ | j) k p hk hp <;> simp at hk hp <;> subst hk hp <;> try rfl
    all_goals
      rintro (_ | i) t x ht hx <;> simp at ht hx <;>
        subst ht hx <;> first | exact .str | simp [ByVal]
  | .cls 6 => by
    refine .obj (by decide) rfl ?_ ?_ ?_ <;> simp only [env, cls, Env.chain, List.nil_append] <;>
      rintro (_ | j) k p hk hp <;> simp at hk hp <;> subst hk hp <;> try rfl
    all_goals
      rintro (_ | _ | i) t x ht hx <;> simp [int] at ht hx <;>
        subst ht hx <;> first | exact .prim rfl | exact .str | simp [ByVal]
  | .cls 7 => by
    refine .obj (by decide) rfl ?_ ?_ ?_ <;> simp only [env, cls, Env.chain, List.nil_append] <;>
      rintro (_ | j) k p hk hp <;> simp at hk hp <;> subst hk hp <;> try rfl
    all_goals
      rintro (_ | i) t x ht hx <;> simp [int] at ht hx <;>
        subst ht hx <;> first | exact .prim rfl | simp [ByVal]
  | .cls (c + 8) => by
    have hc : env.cls (c + 8) = { fields := [] } := rfl
    have hch : env.chain (c + 8) = [c + 8] := by simp [Env.chain, hc]
    have hf : fresh (.cls (c + 8)) = .obj (c + 8) [[]] := by simp [fresh]
    rw [hf]
    refine .obj (by simp [hch]) (by simp [hch]) ?_ ?_ ?_ <;> rw [hch] <;>
      rintro (_ | j) k p hk hp <;> simp at hk hp <;> subst hk hp
    · simp [hc]
    all_goals intro i t x ht; simp [hc] at ht
theorem freshes_clean (hR : ∀ c < 2 ^ 64, R.cap c c) : ∀ (ts : List Ty), ∀ t ∈ ts, Clean R (cfg check ndebug) env t (fresh t)
  | [], _, h => by simp at h
  | t :: ts, t', h => by
    rcases List.mem_cons.1 h with h | h
    · rw [h]; exact fresh_clean hR t
    · exact freshes_clean hR ts t' h
end

theorem hier (d : Nat) : ∀ c ∈ env.chain d, env.root c = env.root d := by
  match d with
  | 0 | 1 | 2 | 3 | 4 | 5 | 6 | 7 => decide
  | d + 8 =>
    intro c hc
    have : env.chain (d + 8) = [d + 8] := rfl
    rw [this] at hc
    rw [List.mem_singleton.1 hc]

theorem plain (c : Nat) : (env.cls c).virt = false → (env.cls c).bases = [] := by
  match c with
  | 0 | 1 | 2 | 3 | 4 | 5 | 6 | 7 => decide
  | d + 8 => intro _; rfl

theorem emptyInv (root : Nat → Nat) : SerReg.Inv (fun _ => []) root :=
  ⟨fun _ => by simp, fun _ _ h => by simp at h⟩

theorem serRegInv : serReg.Inv env.root := by
  have h3 := ((emptyInv env.root).instantiate 3).1
  have h2 := (h3.instantiate 2).1
  exact (h2.instantiate 1).1

/-- The program meets the assumptions of the theorems. -/
theorem valid (hR : ∀ c < 2 ^ 64, R.cap c c) :
    env.Valid R (· ∈ builtinKinds) (cfg check ndebug) where
  cfgOk := ⟨encodeIndex_valid (by decide), encodeIndex_valid (by decide), encodeIndex_valid (by decide),
    encodeIndex_valid (by decide), fun n => Nat.le_refl n, fun _ h => h⟩
  ti := ti_valid
  order n := List.reverse_perm _
  arrange _ xs := List.reverse_perm xs
  fresh t := ⟨fresh_clean hR t, fresh_byVal t⟩
  dflt t v h := by
    simp only [env] at h
    split at h
    · cases h
    cases h
    exact ⟨fresh_clean hR t, fresh_byVal t⟩
  hier := hier
  plain := plain
  regSize c := by simp only [env]; split <;> decide
  serRegOk := serRegInv
  kinds _ _ h := h
  sym c := by
    simp only [env]
    unfold cls
    split <;> rfl

theorem valid_contents : env.Valid .contents (· ∈ builtinKinds) (cfg check ndebug) :=
  valid fun _ _ => trivial
theorem valid_capacity : env.Valid .capacity (· ∈ builtinKinds) (cfg check ndebug) :=
  valid fun c _ => Nat.le_refl c
theorem valid_exact : env.Valid .exact (· ∈ builtinKinds) (cfg check ndebug) :=
  valid fun _ _ => rfl

/-! ## A value of most types at once -/

theorem forall₂_get {α β : Type} {S : α → β → Prop} {as : List α} {bs : List β}
    (h : List.Forall₂ S as bs) : ∀ (i : Nat) a b, as[i]? = some a → bs[i]? = some b → S a b := by
  induction h with
  | nil => intro i a b ha; simp at ha
  | cons h _ ih =>
    intro i a b ha hb
    cases i with
    | zero => simp at ha hb; subst ha hb; exact h
    | succ i => simp at ha hb; exact ih i a b ha hb

theorem wt_obj {e : Env} {c d : Nat} {ps : List (List Val)} (h1 : c ∈ e.chain d)
    (h2 : (e.cls c).virt = false → d = c)
    (h : List.Forall₂ (fun k p => List.Forall₂ (fun t x => ByVal t x ∧ WT R e t x) (e.cls k).fields p)
      (e.chain d) ps) : WT R e (.cls c) (.obj d ps) := by
  refine .obj h1 h2 h.length_eq.symm ?_ ?_ ?_
  · intro j k p hk hp; exact (forall₂_get h j k p hk hp).length_eq.symm
  · intro j k p hk hp i t x ht hx; exact (forall₂_get (forall₂_get h j k p hk hp) i t x ht hx).1
  · intro j k p hk hp i t x ht hx; exact (forall₂_get (forall₂_get h j k p hk hp) i t x ht hx).2

theorem wt_tuple {e : Env} {ts : List Ty} {xs : List Val}
    (h : List.Forall₂ (fun t x => ByVal t x ∧ WT R e t x) ts xs) : WT R e (.tuple ts) (.coll xs) :=
  .tuple h.length_eq.symm (fun i t x ht hx => (forall₂_get h i t x ht hx).1)
    (fun i t x ht hx => (forall₂_get h i t x ht hx).2)

/-- A `Circle` called "c". -/
def circle : Val := .obj 2 [[.str ⟨15, [99]⟩], [.raw [0, 0, 0, 0, 0, 0, 240, 63]]]
/-- A `Group` of a circle and a null pointer. -/
def group : Val := .obj 3 [[.str ⟨15, [103]⟩], [.vec 2 [.ptr (some circle), .ptr none]]]

theorem circle_wt (c : Nat) (h : c = 1 ∨ c = 2) : WT R env (.cls c) circle := by
  refine wt_obj ?_ ?_ (.cons (.cons ⟨trivial, .str (by decide)⟩ .nil)
    (.cons (.cons ⟨trivial, .prim rfl⟩ .nil) .nil)) <;> rcases h with rfl | rfl <;> decide

theorem circlePtr_wt : WT R env (.uptr (.cls 1)) (.ptr (some circle)) := by
  refine .ptr (fun h => absurd h (by decide)) ?_ (circle_wt 1 (.inl rfl))
  intro c d ps hc hd _
  cases hc; cases hd
  decide

theorem group_wt : WT R env (.cls 1) group := by
  refine wt_obj (by decide) (by decide)
    (.cons (.cons ⟨trivial, .str (by decide)⟩ .nil)
    (.cons (.cons ⟨trivial, .vec (by decide) (by decide) ⟨by decide, False.elim⟩ ?_ ?_⟩ .nil) .nil))
  · intro x _; trivial
  · intro x hx
    simp only [List.mem_cons, List.not_mem_nil, or_false] at hx
    rcases hx with rfl | rfl
    · exact circlePtr_wt
    · exact .ptrNull

theorem groupPtr_wt : WT R env (.uptr (.cls 1)) (.ptr (some group)) := by
  refine .ptr (fun h => absurd h (by decide)) ?_ group_wt
  intro c d ps hc hd _
  cases hc; cases hd
  decide

/-- Type of the sample value:
`tuple<unique_ptr<Shape>, map<int, string>, variant<int, string>, vector<optional<double>>, Node,
unordered_set<int>, deque<bool>>`. -/
def sampleTy : Ty :=
  .tuple [.uptr (.cls 1), .oset .map 0 (.pair int .str), .variant [int, .str], .vec (.opt double),
    .cls 4, .uset .set 0 int, .vecBool]

/-- The sample value. -/
def sample : Val :=
  .coll [.ptr (some group),
    .coll [.coll [.raw [1, 0, 0, 0], .str ⟨15, [65]⟩], .coll [.raw [2, 0, 0, 0], .str ⟨15, []⟩]],
    .variant 1 (.str ⟨15, [66, 67]⟩),
    .vec 3 [.opt none, .opt (some (.raw [1, 2, 3, 4, 5, 6, 7, 8]))],
    .obj 4 [[.raw [9, 0, 0, 0], .ptr (some (.obj 4 [[.raw [8, 0, 0, 0], .ptr none]]))]],
    .coll [.raw [7, 0, 0, 0]],
    .vbool 64 [true, false, true]]

theorem lt_respects : env.LtRespects R 0 (.pair int .str) := by
  intro a b a' b' h h'
  cases h with
  | pair h1 _ =>
    cases h' with
    | pair h1' _ => cases h1; cases h1'; rfl

theorem eq_respects : env.EqRespects R 0 int := by
  intro a b a' b' h h'
  cases h; cases h'; rfl

theorem node_wt : WT R env (.cls 4)
    (.obj 4 [[.raw [9, 0, 0, 0], .ptr (some (.obj 4 [[.raw [8, 0, 0, 0], .ptr none]]))]]) := by
  refine wt_obj (by decide) (by decide) (.cons (.cons ⟨trivial, .prim rfl⟩
    (.cons ⟨trivial, .ptr (fun _ => rfl) ?_ ?_⟩ .nil)) .nil)
  · intro c d ps hc hd hv
    cases hc
    exact absurd hv (by decide)
  · exact wt_obj (by decide) (by decide)
      (.cons (.cons ⟨trivial, .prim rfl⟩ (.cons ⟨trivial, .ptrNull⟩ .nil)) .nil)

theorem sample_wt : WT R env sampleTy sample := by
  refine wt_tuple (.cons ⟨trivial, groupPtr_wt⟩ (.cons ⟨trivial, ?_⟩ (.cons ⟨trivial, ?_⟩
    (.cons ⟨trivial, ?_⟩ (.cons ⟨rfl, node_wt⟩ (.cons ⟨trivial, ?_⟩ (.cons ⟨trivial, ?_⟩ .nil)))))))
  · refine .oset (by decide) lt_respects (List.Pairwise.cons (by simp; decide) (List.pairwise_singleton _ _)) (fun _ _ => trivial) ?_
    intro x hx
    simp only [List.mem_cons, List.not_mem_nil, or_false] at hx
    rcases hx with rfl | rfl <;>
      exact .pair trivial trivial (.prim rfl) (.str (by decide))
  · exact .variant rfl rfl (by decide) trivial (.str (by decide))
  · refine .vec (by decide) (by decide) ⟨by decide, False.elim⟩ (fun _ _ => trivial) ?_
    intro x hx
    simp only [List.mem_cons, List.not_mem_nil, or_false] at hx
    rcases hx with rfl | rfl
    · exact .optNone
    · exact .optSome trivial (.prim rfl)
  · refine .uset (by decide) eq_respects (by decide) (.inr (by decide)) (fun _ _ => trivial) ?_
    intro x hx
    simp only [List.mem_cons, List.not_mem_nil, or_false] at hx
    subst hx; exact .prim rfl
  · exact .vecBool (by decide) (by decide)

theorem sample_byVal : ByVal sampleTy sample := trivial

end Ckpt.Demo
