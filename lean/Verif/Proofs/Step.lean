import Verif.Spec.BytesOnly
/-!
The two ways of serializing a variant.
-/

set_option autoImplicit false

namespace Ckpt

mutual
theorem byteCopied_eq : (t : Ty) → t.byteCopied = t.onlyBytes
  | .prim _ _ => rfl
  | .variant ts => by simp only [Ty.byteCopied, Ty.onlyBytes, allByteCopied_eq ts]
  | .enm _ _ _ => rfl
  | .chrono _ _ _ => rfl
  | .str => rfl
  | .vec _ => rfl
  | .vecBool => rfl
  | .seq _ _ => rfl
  | .queue _ => rfl
  | .oset _ _ _ => rfl
  | .uset _ _ _ => rfl
  | .pair _ _ => rfl
  | .tuple _ => rfl
  | .opt _ => rfl
  | .uptr _ => rfl
  | .arr _ _ => rfl
  | .cls _ => rfl

theorem allByteCopied_eq : (ts : List Ty) → Ty.allByteCopied ts = Ty.allOnlyBytes ts
  | [] => rfl
  | t :: ts => by simp only [Ty.allByteCopied, Ty.allOnlyBytes, byteCopied_eq t, allByteCopied_eq ts]
end

theorem multi_eq (a : Assoc) : a.multi = a.repeats := by cases a <;> rfl

theorem dispatchStep_variantBytes {cfg : Cfg} {env : Env} {ts : List Ty} (h : Ty.allOnlyBytes ts = true)
    (f : Ty → Handler Val) :
    dispatchStep cfg env f (.variant ts) = onRaw (dispatchByte (env.ti (.variant ts)).sizeof) := by
  simp only [dispatchStep, allByteCopied_eq, h, if_true]

theorem dispatchStep_variant {cfg : Cfg} {env : Env} {ts : List Ty} (h : Ty.allOnlyBytes ts = false)
    (f : Ty → Handler Val) :
    dispatchStep cfg env f (.variant ts) = dispatchVariant cfg (ts.map fun t => env.elemOf (f t) t) := by
  simp only [dispatchStep, allByteCopied_eq, h, Bool.false_eq_true, if_false]

theorem dispatch_variantBytes {cfg : Cfg} {env : Env} {ts : List Ty} (h : Ty.allOnlyBytes ts = true) (n : Nat) :
    dispatch cfg env (n + 1) (.variant ts) = onRaw (dispatchByte (env.ti (.variant ts)).sizeof) :=
  dispatchStep_variantBytes h _

theorem dispatch_variant {cfg : Cfg} {env : Env} {ts : List Ty} (h : Ty.allOnlyBytes ts = false) (n : Nat) :
    dispatch cfg env (n + 1) (.variant ts) = dispatchVariant cfg (ts.map (elem cfg env n)) :=
  dispatchStep_variant h _

end Ckpt
