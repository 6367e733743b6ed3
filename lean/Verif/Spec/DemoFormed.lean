import Verif.Spec.DemoPlain
import Verif.Spec.Formed
/-!
The example program meets the assumptions of the theorems about arbitrary bytes.
-/

set_option autoImplicit false
set_option linter.unusedSimpArgs false
set_option linter.unnecessarySeqFocus false

namespace Ckpt.Demo

mutual
theorem fresh_formed : ∀ t, Formed env t (fresh t)
  | .prim .. => .prim (by simp)
  | .enm .. => .enm (by simp)
  | .chrono .. => .chrono (by simp)
  | .str => .str (by simp)
  | .vec _ => .vec (by simp) (by simp) (by simp)
  | .vecBool => .vecBool (by simp)
  | .seq .. => .seq (by simp) (by simp)
  | .queue _ => .queue (by simp) (by simp)
  | .oset .. => .oset (by simp [Env.Sorted]) (by simp) (by simp)
  | .uset .. => .uset (by simp) (by simp) (by simp)
  | .pair a b => .pair (fresh_byVal a) (fresh_byVal b) (fresh_formed a) (fresh_formed b)
  | .tuple ts => by
    refine .tuple (freshes_length ts) ?_ ?_
    · intro i t x ht hx
      rw [freshes_get ts i t x ht hx]; exact fresh_byVal t
    · intro i t x ht hx
      rw [freshes_get ts i t x ht hx]; exact freshes_formed ts t (List.mem_of_getElem? ht)
  | .opt _ => .optNone
  | .variant [] => .variantBytes rfl (by simp [env])
  | .variant (t :: ts) => by
    simp only [fresh]
    split
    · exact .variantBytes ‹_› (by simp [env])
    · exact .variant (Bool.of_not_eq_true ‹_›) rfl (fresh_byVal t) (fresh_formed t)
  | .uptr _ => .ptrNull
  | .arr k t => by
    refine .arr (by simp) ?_ ?_
    · intro x hx; rw [List.eq_of_mem_replicate hx]; exact fresh_byVal t
    · intro x hx; rw [List.eq_of_mem_replicate hx]; exact fresh_formed t
  | .cls 0 => by
    refine .obj (by decide) rfl ?_ ?_ ?_ <;> simp only [env, cls, Env.chain, List.nil_append] <;>
      rintro (_ | j) k p hk hp <;> simp at hk hp
    · subst hk hp; rfl
    · subst hk hp; rintro (_ | _ | i) t x ht hx <;> simp [int, double] at ht hx <;>
        subst ht hx <;> simp [ByVal]
    · subst hk hp; rintro (_ | _ | i) t x ht hx <;> simp [int, double] at ht hx <;>
        subst ht hx <;> exact .prim rfl
  | .cls 1 => by
    refine .obj (by decide) rfl ?_ ?_ ?_ <;> simp only [env, cls, Env.chain, List.nil_append] <;>
      rintro (_ | j) k p hk hp <;> simp at hk hp
    · subst hk hp; rfl
    · subst hk hp; rintro (_ | i) t x ht hx <;> simp at ht hx <;>
        subst ht hx <;> simp [ByVal]
    · subst hk hp; rintro (_ | i) t x ht hx <;> simp at ht hx <;>
        subst ht hx <;> exact .str (by simp)
  | .cls 2 => by
    refine .obj (by decide) rfl ?_ ?_ ?_ <;> simp only [env, cls, Env.chain] <;>
      rintro (_ | _ | j) k p hk hp <;> simp at hk hp <;> subst hk hp <;> try rfl
    all_goals
      rintro (_ | i) t x ht hx <;> simp [double] at ht hx <;>
        subst ht hx <;> first | exact .str (by simp) | exact .prim rfl | simp [ByVal]
  | .cls 3 => by
    refine .obj (by decide) rfl ?_ ?_ ?_ <;> simp only [env, cls, Env.chain] <;>
      rintro (_ | _ | j) k p hk hp <;> simp at hk hp <;> subst hk hp <;> try rfl
    all_goals
      rintro (_ | i) t x ht hx <;> simp at ht hx <;>
        subst ht hx <;>
        first | exact .str (by simp) | exact .vec (by simp) (by simp) (by simp) | simp [ByVal]
  | .cls 4 => by
    refine .obj (by decide) rfl ?_ ?_ ?_ <;> simp only [env, cls, Env.chain, List.nil_append] <;>
      rintro (_ | j) k p hk hp <;> simp at hk hp <;> subst hk hp <;> try rfl
    all_goals
      rintro (_ | _ | i) t x ht hx <;> simp [int] at ht hx <;>
        subst ht hx <;> first | exact .prim rfl | exact .ptrNull | simp [ByVal]
  | .cls 5 => by
    refine .obj (by decide) rfl ?_ ?_ ?_ <;> simp only [env, cls, Env.chain] <;>
      rintro (_ | _ | j) k p hk hp <;> simp at hk hp <;> subst hk hp <;> try rfl
    all_goals
      rintro (_ | i) t x ht hx <;> simp at ht hx <;>
        subst ht hx <;> first | exact .str (by simp) | simp [ByVal]
  | .cls 6 => by
    refine .obj (by decide) rfl ?_ ?_ ?_ <;> simp only [env, cls, Env.chain, List.nil_append] <;>
      rintro (_ | j) k p hk hp <;> simp at hk hp <;> subst hk hp <;> try rfl
    all_goals
      rintro (_ | _ | i) t x ht hx <;> simp [int] at ht hx <;>
        subst ht hx <;> first | exact .prim rfl | exact .str (by simp) | simp [ByVal]
  | .cls 7 => by
    refine .obj (by decide) rfl ?_ ?_ ?_ <;> simp only [env, cls, Env.chain, List.nil_append] <;>
      rintro (_ | j) k p hk hp <;> simp at hk hp <;> subst hk hp <;> try rfl
    all_goals
      rintro (_ | i) t x ht hx <;> simp [int] at ht hx <;>
        subst ht hx <;> first | exact .prim rfl | simp [ByVal]
  | .cls (c + 8) => by
    have hc : env.cls (c + 8) = { fields := [] } := rfl
    have hch : env.chain (c + 8) = [c + 8] := by simp [Env.chain, hc]
    have hf : fresh (.cls (c + 8)) = .obj (c + 8) [[]] := by simp [fresh]
    rw [hf]
    refine .obj (by simp [hch]) (by simp [hch]) ?_ ?_ ?_ <;> rw [hch] <;>
      rintro (_ | j) k p hk hp <;> simp at hk hp <;> subst hk hp
    · simp [hc]
    all_goals intro i t x ht; simp [hc] at ht
theorem freshes_formed : ∀ (ts : List Ty), ∀ t ∈ ts, Formed env t (fresh t)
  | [], _, h => by simp at h
  | t :: ts, t', h => by
    rcases List.mem_cons.1 h with h | h
    · rw [h]; exact fresh_formed t
    · exact freshes_formed ts t' h
end

/-- The example program, for any bytes. -/
theorem sound {check ndebug : Bool} : env.Sound (cfg check ndebug) where
  grow n := Nat.le_refl n
  order n := List.reverse_perm _
  arrange _ xs := List.reverse_perm xs
  asymm _ a b h := by simp only [env, decide_eq_true_eq, decide_eq_false_iff_not] at h ⊢; omega
  trans _ a b c h h' := by simp only [env, decide_eq_true_eq] at h h' ⊢; omega
  weak _ a b c h h' := by simp only [env, decide_eq_false_iff_not] at h h' ⊢; omega
  symm _ a b := by simp only [env]; exact Bool.beq_comm
  fresh t := ⟨fresh_formed t, fresh_byVal t⟩
  dflt t v h := by
    simp only [env] at h
    split at h
    · cases h
    cases h
    exact ⟨fresh_formed t, fresh_byVal t⟩
  hier := hier
  serRegOk := serRegInv
  sym c := by
    simp only [env]
    unfold cls
    split <;> rfl

mutual
theorem plainFresh_formed : ∀ t, Formed plainEnv t (plainFresh t)
  | .prim .. => .prim (by simp)
  | .enm .. => .enm (by simp)
  | .chrono .. => .chrono (by simp)
  | .str => .str (by simp)
  | .vec _ => .vec (by simp) (by simp) (by simp)
  | .vecBool => .vecBool (by simp)
  | .seq .. => .seq (by simp) (by simp)
  | .queue _ => .queue (by simp) (by simp)
  | .oset .. => .oset (by simp [Env.Sorted]) (by simp) (by simp)
  | .uset .. => .uset (by simp) (by simp) (by simp)
  | .pair a b => .pair (plainFresh_byVal a) (plainFresh_byVal b) (plainFresh_formed a) (plainFresh_formed b)
  | .tuple ts => by
    refine .tuple (plainFreshes_length ts) ?_ ?_
    · intro i t x ht hx
      rw [plainFreshes_get ts i t x ht hx]; exact plainFresh_byVal t
    · intro i t x ht hx
      rw [plainFreshes_get ts i t x ht hx]; exact plainFreshes_formed ts t (List.mem_of_getElem? ht)
  | .opt _ => .optNone
  | .variant [] => .variantBytes rfl (by simp [env, plainEnv])
  | .variant (t :: ts) => by
    simp only [plainFresh]
    split
    · exact .variantBytes ‹_› (by simp [env, plainEnv])
    · exact .variant (Bool.of_not_eq_true ‹_›) rfl (plainFresh_byVal t) (plainFresh_formed t)
  | .uptr _ => .ptrNull
  | .arr k t => by
    refine .arr (by simp) ?_ ?_
    · intro x hx; rw [List.eq_of_mem_replicate hx]; exact plainFresh_byVal t
    · intro x hx; rw [List.eq_of_mem_replicate hx]; exact plainFresh_formed t
  | .cls 0 => by
    refine .obj (by decide) rfl ?_ ?_ ?_ <;> simp only [plainEnv, plainCls, Env.chain, List.nil_append] <;>
      rintro (_ | j) k p hk hp <;> simp at hk hp
    · subst hk hp; rfl
    · subst hk hp; rintro (_ | _ | i) t x ht hx <;> simp [int, double] at ht hx <;>
        subst ht hx <;> simp [ByVal]
    · subst hk hp; rintro (_ | _ | i) t x ht hx <;> simp [int, double] at ht hx <;>
        subst ht hx <;> exact .prim rfl
  | .cls (c + 1) => by
    have hc : plainEnv.cls (c + 1) = { fields := [] } := rfl
    have hch : plainEnv.chain (c + 1) = [c + 1] := by simp [Env.chain, hc]
    have hf : plainFresh (.cls (c + 1)) = .obj (c + 1) [[]] := by simp [plainFresh]
    rw [hf]
    refine .obj (by simp [hch]) (by simp [hch]) ?_ ?_ ?_ <;> rw [hch] <;>
      rintro (_ | j) k p hk hp <;> simp at hk hp <;> subst hk hp
    · simp [hc]
    all_goals intro i t x ht; simp [hc] at ht
theorem plainFreshes_formed :
    ∀ (ts : List Ty), ∀ t ∈ ts, Formed plainEnv t (plainFresh t)
  | [], _, h => by simp at h
  | t :: ts, t', h => by
    rcases List.mem_cons.1 h with h | h
    · rw [h]; exact plainFresh_formed t
    · exact plainFreshes_formed ts t' h
end

/-- The program without virtual classes, for any bytes. -/
theorem plain_sound {check ndebug : Bool} : plainEnv.Sound (cfg check ndebug) where
  grow n := Nat.le_refl n
  order n := List.reverse_perm _
  arrange _ xs := List.reverse_perm xs
  asymm cmp a b h := (sound (check := true) (ndebug := true)).asymm cmp a b h
  trans cmp a b c h h' := (sound (check := true) (ndebug := true)).trans cmp a b c h h'
  weak cmp a b c h h' := (sound (check := true) (ndebug := true)).weak cmp a b c h h'
  symm e a b := (sound (check := true) (ndebug := true)).symm e a b
  fresh t := ⟨plainFresh_formed t, plainFresh_byVal t⟩
  dflt t v h := by
    cases h
    exact ⟨plainFresh_formed t, plainFresh_byVal t⟩
  hier d c h := by
    rw [Env.chain, plain_bases d] at h
    rw [List.mem_singleton.1 h]
  serRegOk := emptyInv _
  sym c := by
    match c with
    | 0 => rfl
    | c + 1 => rfl

end Ckpt.Demo
