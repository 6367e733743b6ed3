import Verif.Spec.DemoFormed
/-!
# A concrete program with recursive classes

Every class is `struct Node { std::unique_ptr<Node> next; };`.
-/

set_option autoImplicit false
set_option linter.unusedSimpArgs false
set_option linter.unnecessarySeqFocus false

namespace Ckpt.Demo

mutual
/-- Default construction. -/
def listFresh : Ty → Val
  | .prim _ size => .raw (List.replicate size 0)
  | .enm _ _ size => .raw (List.replicate size 0)
  | .chrono _ _ size => .raw (List.replicate size 0)
  | .str => .str ⟨15, []⟩
  | .vec _ => .vec 0 []
  | .vecBool => .vbool 0 []
  | .seq _ _ => .coll []
  | .queue _ => .coll []
  | .oset _ _ _ => .coll []
  | .uset _ _ _ => .coll []
  | .pair a b => .coll [listFresh a, listFresh b]
  | .tuple ts => .coll (listFreshes ts)
  | .opt _ => .opt none
  | .variant [] => .raw (List.replicate (8 + code (.variant [])) 0)
  | .variant (t :: ts) =>
    if Ty.allOnlyBytes (t :: ts) then .raw (List.replicate (8 + code (.variant (t :: ts))) 0)
    else .variant 0 (listFresh t)
  | .uptr _ => .ptr none
  | .arr k t => .coll (List.replicate k (listFresh t))
  | .cls c => .obj c [[.ptr none]]
/-- Members of a default constructed tuple. -/
def listFreshes : List Ty → List Val
  | [] => []
  | t :: ts => listFresh t :: listFreshes ts
end

/-- The program. -/
def listEnv : Env where
  ti := env.ti
  fresh := listFresh
  dflt t := some (listFresh t)
  copyable t := match t with | .uptr _ => false | _ => true
  lt := env.lt
  eq := env.eq
  arrange := env.arrange
  cls c := { fields := [.uptr (.cls c)] }
  objReg _ := []
  serReg _ := []

theorem listFresh_byVal : ∀ t, ByVal t (listFresh t)
  | .cls _ => by simp [ByVal, listFresh]
  | .prim .. | .enm .. | .chrono .. | .str | .vec _ | .vecBool | .seq .. | .queue _ | .oset ..
  | .uset .. | .pair .. | .tuple _ | .opt _ | .variant _ | .uptr _ | .arr .. => by simp [ByVal]

theorem listFreshes_length : ∀ ts, (listFreshes ts).length = ts.length
  | [] => rfl
  | _ :: ts => by simp [listFreshes, listFreshes_length ts]

theorem listFreshes_get : ∀ (ts : List Ty) (i : Nat) t x, ts[i]? = some t → (listFreshes ts)[i]? = some x →
    x = listFresh t
  | [], i, t, x, h, _ => by simp at h
  | t' :: ts, 0, t, x, h, h' => by
    simp [listFreshes] at h h'; subst h; exact h'.symm
  | t' :: ts, i + 1, t, x, h, h' => by
    simp only [listFreshes, List.getElem?_cons_succ] at h h'
    exact listFreshes_get ts i t x h h'

mutual
theorem listFresh_formed : ∀ t, Formed listEnv t (listFresh t)
  | .prim .. => .prim (by simp)
  | .enm .. => .enm (by simp)
  | .chrono .. => .chrono (by simp)
  | .str => .str (by simp)
  | .vec _ => .vec (by simp) (by simp) (by simp)
  | .vecBool => .vecBool (by simp)
  | .seq .. => .seq (by simp) (by simp)
  | .queue _ => .queue (by simp) (by simp)
  | .oset .. => .oset (by simp [Env.Sorted]) (by simp) (by simp)
  | .uset .. => .uset (by simp) (by simp) (by simp)
  | .pair a b => .pair (listFresh_byVal a) (listFresh_byVal b) (listFresh_formed a) (listFresh_formed b)
  | .tuple ts => by
    refine .tuple (listFreshes_length ts) ?_ ?_
    · intro i t x ht hx
      rw [listFreshes_get ts i t x ht hx]; exact listFresh_byVal t
    · intro i t x ht hx
      rw [listFreshes_get ts i t x ht hx]; exact listFreshes_formed ts t (List.mem_of_getElem? ht)
  | .opt _ => .optNone
  | .variant [] => .variantBytes rfl (by simp [env, listEnv])
  | .variant (t :: ts) => by
    simp only [listFresh]
    split
    · exact .variantBytes ‹_› (by simp [env, listEnv])
    · exact .variant (Bool.of_not_eq_true ‹_›) rfl (listFresh_byVal t) (listFresh_formed t)
  | .uptr _ => .ptrNull
  | .arr k t => by
    refine .arr (by simp) ?_ ?_
    · intro x hx; rw [List.eq_of_mem_replicate hx]; exact listFresh_byVal t
    · intro x hx; rw [List.eq_of_mem_replicate hx]; exact listFresh_formed t
  | .cls c => by
    have hc : listEnv.cls c = { fields := [.uptr (.cls c)] } := rfl
    have hch : listEnv.chain c = [c] := by simp [Env.chain, hc]
    have hf : listFresh (.cls c) = .obj c [[.ptr none]] := by simp [listFresh]
    rw [hf]
    refine .obj (by simp [hch]) (by simp [hch]) ?_ ?_ ?_ <;> rw [hch] <;>
      rintro (_ | j) k p hk hp <;> simp at hk hp <;> subst hk hp
    · simp [hc]
    all_goals rintro (_ | i) t x ht hx <;> simp [hc] at ht hx <;> subst ht hx
    · exact trivial
    · exact .ptrNull
theorem listFreshes_formed :
    ∀ (ts : List Ty), ∀ t ∈ ts, Formed listEnv t (listFresh t)
  | [], _, h => by simp at h
  | t :: ts, t', h => by
    rcases List.mem_cons.1 h with h | h
    · rw [h]; exact listFresh_formed t
    · exact listFreshes_formed ts t' h
end

/-- The program, for any bytes. -/
theorem list_sound {check ndebug : Bool} : listEnv.Sound (cfg check ndebug) where
  grow n := Nat.le_refl n
  order n := List.reverse_perm _
  arrange _ xs := List.reverse_perm xs
  asymm cmp a b h := (sound (check := true) (ndebug := true)).asymm cmp a b h
  trans cmp a b c h h' := (sound (check := true) (ndebug := true)).trans cmp a b c h h'
  weak cmp a b c h h' := (sound (check := true) (ndebug := true)).weak cmp a b c h h'
  symm e a b := (sound (check := true) (ndebug := true)).symm e a b
  fresh t := ⟨listFresh_formed t, listFresh_byVal t⟩
  dflt t v h := by
    cases h
    exact ⟨listFresh_formed t, listFresh_byVal t⟩
  hier d c h := by
    have hch : listEnv.chain d = [d] := by simp [Env.chain, listEnv]
    rw [hch] at h
    rw [List.mem_singleton.1 h]
  serRegOk := emptyInv _
  sym c := rfl

end Ckpt.Demo
