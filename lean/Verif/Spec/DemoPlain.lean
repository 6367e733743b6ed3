import Verif.Spec.BytesOnly
import Verif.Spec.Demo
/-!
# A concrete program without polymorphic classes

Class 0 is `struct Point { int x; double y; };`, the other classes are empty.
-/

set_option autoImplicit false

namespace Ckpt.Demo

/-- The class table. -/
def plainCls : Nat → ClassDef
  | 0 => { fields := [int, double] }
  | _ => { fields := [] }

mutual
/-- Default construction. -/
def plainFresh : Ty → Val
  | .prim _ size => .raw (List.replicate size 0)
  | .enm _ _ size => .raw (List.replicate size 0)
  | .chrono _ _ size => .raw (List.replicate size 0)
  | .str => .str ⟨15, []⟩
  | .vec _ => .vec 0 []
  | .vecBool => .vbool 0 []
  | .seq _ _ => .coll []
  | .queue _ => .coll []
  | .oset _ _ _ => .coll []
  | .uset _ _ _ => .coll []
  | .pair a b => .coll [plainFresh a, plainFresh b]
  | .tuple ts => .coll (plainFreshes ts)
  | .opt _ => .opt none
  | .variant [] => .raw (List.replicate (8 + code (.variant [])) 0)
  | .variant (t :: ts) =>
    if Ty.allOnlyBytes (t :: ts) then .raw (List.replicate (8 + code (.variant (t :: ts))) 0)
    else .variant 0 (plainFresh t)
  | .uptr _ => .ptr none
  | .arr k t => .coll (List.replicate k (plainFresh t))
  | .cls 0 => .obj 0 [[.raw [0, 0, 0, 0], .raw [0, 0, 0, 0, 0, 0, 0, 0]]]
  | .cls c => .obj c [[]]
/-- Members of a default constructed tuple. -/
def plainFreshes : List Ty → List Val
  | [] => []
  | t :: ts => plainFresh t :: plainFreshes ts
end

/-- The program. -/
def plainEnv : Env where
  ti := env.ti
  fresh := plainFresh
  dflt t := some (plainFresh t)
  copyable t := match t with | .uptr _ => false | _ => true
  lt := env.lt
  eq := env.eq
  arrange := env.arrange
  cls := plainCls
  objReg _ := []
  serReg _ := []

variable {R : RelMode} {check ndebug : Bool}

theorem plainFresh_byVal : ∀ t, ByVal t (plainFresh t)
  | .cls 0 | .cls (_ + 1) => by simp [ByVal, plainFresh]
  | .prim .. | .enm .. | .chrono .. | .str | .vec _ | .vecBool | .seq .. | .queue _ | .oset ..
  | .uset .. | .pair .. | .tuple _ | .opt _ | .variant _ | .uptr _ | .arr .. => by simp [ByVal]

theorem plainFreshes_length : ∀ ts, (plainFreshes ts).length = ts.length
  | [] => rfl
  | _ :: ts => by simp [plainFreshes, plainFreshes_length ts]

theorem plainFreshes_get : ∀ (ts : List Ty) (i : Nat) t x, ts[i]? = some t → (plainFreshes ts)[i]? = some x →
    x = plainFresh t
  | [], i, t, x, h, _ => by simp at h
  | t' :: ts, 0, t, x, h, h' => by
    simp [plainFreshes] at h h'; subst h; exact h'.symm
  | t' :: ts, i + 1, t, x, h, h' => by
    simp only [plainFreshes, List.getElem?_cons_succ] at h h'
    exact plainFreshes_get ts i t x h h'

mutual
theorem plainFresh_clean (hR : ∀ c < 2 ^ 64, R.cap c c) : ∀ t, Clean R (cfg check ndebug) plainEnv t (plainFresh t)
  | .prim .. => .prim (by simp)
  | .enm .. => .enm (by simp)
  | .chrono .. => .chrono (by simp)
  | .str => .str
  | .vec _ => .vec (capOk hR) (by simp) (by simp) (by simp)
  | .vecBool => .vecBool (capOk hR)
  | .seq .. => .seq (by simp) (by simp) (by simp)
  | .queue _ => .queue
  | .oset .. => .oset
  | .uset .. => .uset
  | .pair a b => .pair (plainFresh_byVal a) (plainFresh_byVal b) (plainFresh_clean hR a) (plainFresh_clean hR b)
  | .tuple ts => by
    refine .tuple (plainFreshes_length ts) ?_ ?_
    · intro i t x ht hx
      rw [plainFreshes_get ts i t x ht hx]; exact plainFresh_byVal t
    · intro i t x ht hx
      rw [plainFreshes_get ts i t x ht hx]; exact plainFreshes_clean hR ts t (List.mem_of_getElem? ht)
  | .opt _ => .opt
  | .variant [] => .variantBytes rfl (by simp [env, plainEnv])
  | .variant (t :: ts) => by
    simp only [plainFresh]
    split
    · exact .variantBytes ‹_› (by simp [env, plainEnv])
    · exact .variant (Bool.of_not_eq_true ‹_›)
  | .uptr _ => .ptrNull
  | .arr k t => by
    refine .arr (by simp) ?_ ?_
    · intro x hx; rw [List.eq_of_mem_replicate hx]; exact plainFresh_byVal t
    · intro x hx; rw [List.eq_of_mem_replicate hx]; exact plainFresh_clean hR t
  | .cls 0 => by
    refine .obj (by decide) rfl ?_ ?_ ?_ <;> simp only [plainEnv, plainCls, Env.chain, List.nil_append] <;>
      rintro (_ | j) k p hk hp <;> simp at hk hp
    · subst hk hp; rfl
    · subst hk hp; rintro (_ | _ | i) t x ht hx <;> simp [int, double] at ht hx <;>
        subst ht hx <;> simp [ByVal]
    · subst hk hp; rintro (_ | _ | i) t x ht hx <;> simp [int, double] at ht hx <;>
        subst ht hx <;> exact .prim rfl
  | .cls (c + 1) => by
    have hc : plainEnv.cls (c + 1) = { fields := [] } := rfl
    have hch : plainEnv.chain (c + 1) = [c + 1] := by simp [Env.chain, hc]
    have hf : plainFresh (.cls (c + 1)) = .obj (c + 1) [[]] := by simp [plainFresh]
    rw [hf]
    refine .obj (by simp [hch]) (by simp [hch]) ?_ ?_ ?_ <;> rw [hch] <;>
      rintro (_ | j) k p hk hp <;> simp at hk hp <;> subst hk hp
    · simp [hc]
    all_goals intro i t x ht; simp [hc] at ht
theorem plainFreshes_clean (hR : ∀ c < 2 ^ 64, R.cap c c) :
    ∀ (ts : List Ty), ∀ t ∈ ts, Clean R (cfg check ndebug) plainEnv t (plainFresh t)
  | [], _, h => by simp at h
  | t :: ts, t', h => by
    rcases List.mem_cons.1 h with h | h
    · rw [h]; exact plainFresh_clean hR t
    · exact plainFreshes_clean hR ts t' h
end

theorem plain_virt (c : Nat) : (plainEnv.cls c).virt = false := by
  match c with
  | 0 => rfl
  | c + 1 => rfl

theorem plain_bases (c : Nat) : (plainEnv.cls c).bases = [] := by
  match c with
  | 0 => rfl
  | c + 1 => rfl

/-- The program meets the assumptions of the theorems, for serializers of any kind. -/
theorem plain_valid (hR : ∀ c < 2 ^ 64, R.cap c c) {K : Kind → Prop} : plainEnv.Valid R K (cfg check ndebug) where
  cfgOk := ⟨encodeIndex_valid (by decide), encodeIndex_valid (by decide), encodeIndex_valid (by decide),
    encodeIndex_valid (by decide), fun n => Nat.le_refl n, fun _ h => h⟩
  ti := ti_valid
  order n := List.reverse_perm _
  arrange _ xs := List.reverse_perm xs
  fresh t := ⟨plainFresh_clean hR t, plainFresh_byVal t⟩
  dflt t v h := by
    cases h
    exact ⟨plainFresh_clean hR t, plainFresh_byVal t⟩
  hier d c h := by
    rw [Env.chain, plain_bases d] at h
    rw [List.mem_singleton.1 h]
  plain c _ := plain_bases c
  regSize c := by simp [plainEnv]
  serRegOk := emptyInv _
  kinds h := by
    obtain ⟨c, h⟩ := h
    rw [plain_virt c] at h
    cases h
  sym c := by
    match c with
    | 0 => rfl
    | c + 1 => rfl

/-- A pair of a string and a vector of points. -/
def plainTy : Ty := .pair .str (.vec (.cls 0))
/-- Its value. -/
def plainVal : Val :=
  .coll [.str ⟨15, [72, 105]⟩, .vec 2 [.obj 0 [[.raw [1, 0, 0, 0], .raw [0, 0, 0, 0, 0, 0, 240, 63]]]]]

theorem plainVal_wt : WT R plainEnv plainTy plainVal := by
  refine .pair trivial trivial (.str (by decide)) (.vec (by decide) (by decide) ?_ ?_ ?_)
  · refine ⟨fun h => by simp, fun h => ?_⟩
    exact absurd rfl h
  · intro x hx
    rw [List.mem_singleton.1 hx]
    rfl
  · intro x hx
    rw [List.mem_singleton.1 hx]
    exact wt_obj (e := plainEnv) (c := 0) (d := 0) (by decide) (fun _ => rfl)
      (.cons (.cons ⟨trivial, .prim rfl⟩ (.cons ⟨trivial, .prim rfl⟩ .nil)) .nil)

end Ckpt.Demo
