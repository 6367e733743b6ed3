import Verif.Spec.Shape
/-!
For types that replace their contents, every object is clean.
-/

set_option autoImplicit false

namespace Ckpt

theorem Shape.clean {R : RelMode} {cfg : Cfg} {env : Env} (hcap : ∀ cap, R.CapOk cfg cap) (hsym : env.Symmetric)
    {S : Ty → Prop} (hS : env.Replaces S) {t : Ty} {y : Val} (h : Shape env t y) :
    S t → ByVal t y → Clean R cfg env t y := by
  induction h with
  | prim h => exact fun _ _ => .prim h
  | enm h => exact fun _ _ => .enm h
  | chrono h => exact fun _ _ => .chrono h
  | str => exact fun _ _ => .str
  | vec h1 h2 ih =>
    intro ht _
    have := hS _ ht
    exact .vec (hcap _) (fun h3 h4 => by simp [this.2 h3] at h4) h1 (fun x hx => ih x hx this.1 (h1 x hx))
  | vecBool => exact fun _ _ => .vecBool (hcap _)
  | seq h1 h2 ih =>
    intro ht _
    have := hS _ ht
    exact .seq (fun h3 => by simp [this.2] at h3) h1 (fun x hx => ih x hx this.1 (h1 x hx))
  | queue _ _ _ => exact fun ht _ => (hS _ ht).elim
  | oset _ _ _ => exact fun ht _ => (hS _ ht).elim
  | uset _ _ _ => exact fun ht _ => (hS _ ht).elim
  | pair h1 h2 _ _ ih1 ih2 =>
    intro ht _
    have := hS _ ht
    exact .pair h1 h2 (ih1 this.1 h1) (ih2 this.2 h2)
  | tuple h1 h2 _ ih =>
    intro ht _
    have := hS _ ht
    exact .tuple h1 h2 (fun i t x hi hx => ih i t x hi hx (this t (List.mem_of_getElem? hi)) (h2 i t x hi hx))
  | optNone => exact fun _ _ => .opt
  | optSome _ _ _ => exact fun _ _ => .opt
  | variant h _ _ _ _ => exact fun _ _ => .variant h
  | valueless h => exact fun _ _ => .valueless h
  | variantBytes h h' => exact fun _ _ => .variantBytes h h'
  | ptrNull => exact fun _ _ => .ptrNull
  | ptr h1 _ ih =>
    intro ht _
    have := hS _ ht
    exact .ptr this.2 (h1 this.2) (ih this.1 (h1 this.2))
  | arr h1 h2 _ ih =>
    intro ht _
    exact .arr h1 h2 (fun x hx => ih x hx (hS _ ht) (h2 x hx))
  | obj h1 h2 h3 h4 _ ih =>
    intro ht hb
    have hd := hb
    simp only [ByVal] at hd
    subst hd
    have := hS _ ht
    refine .obj h1 h2 ?_ ?_ ?_
    · intro j k p hk hp
      rw [hsym]
      exact h3 j k p hk hp
    · intro j k p hk hp i t x hi hx
      rw [hsym] at hi
      exact h4 j k p hk hp i t x hi hx
    · intro j k p hk hp i t x hi hx
      rw [hsym] at hi
      exact ih j k p hk hp i t x hi hx (this k (List.mem_of_getElem? hk) t (List.mem_of_getElem? hi))
        (h4 j k p hk hp i t x hi hx)

end Ckpt
