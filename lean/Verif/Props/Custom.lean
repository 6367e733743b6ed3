import Verif.Proofs.Custom
import Verif.Spec.Yields
import Verif.Proofs.Api
import Verif.Spec.DemoPlain
/-!
# Traversers with a dispatcher of their own (C64)
-/

set_option autoImplicit false

namespace Ckpt

section
variable {R : RelMode} {cfg : Cfg} {env : Env} {act : Ty → Action} {t : Ty} {x : Val} {bs : Bytes}

/-- C64: a user-defined traverser with a dispatcher of its own is shown exactly what `Shown` says: the
dispatcher is called once for every object reached whose type has a `serialize` function, in the
order of the objects, elements of arrays included; what it has to say comes before and after what the
object's own function shows, or instead of it.  The object stays the same.  (`Shown` has no rule for
virtually serializable classes; there may be such classes in the program.) -/
theorem C64_traversal (hc : cfg.Valid) (hti : ∀ t, (env.ti t).Valid)
    (ho : ∀ n, (cfg.argOrder n).Perm (List.range n)) (h : Shown cfg env act true t x bs) :
    Yields (fun n => traverseWith cfg env act n t x) (.ok (bs, x)) := by
  obtain ⟨n0, h0⟩ := shown_sees hc hti ho h
  exact ⟨n0, fun n hn => Sees.top (e := env.elemOf (dispatchWith cfg env act n t) t) (h0 n hn)⟩

/-- C64: something is shown for every object of a program without
virtually serializable classes. -/
theorem C64_complete (hv : env.Usable R (fun _ => True) cfg) (hx : WT R env t x) :
    ∃ bs, Shown cfg env act true t x bs ∧
      Yields (fun n => traverseWith cfg env act n t x) (.ok (bs, x)) := by
  have hn : ∀ c, (env.cls c).virt = false := by
    intro c
    cases h : (env.cls c).virt with
    | false => rfl
    | true => exact absurd (hv.kinds ⟨c, h⟩ .custom trivial) (by simp [builtinKinds])
  obtain ⟨bs, h⟩ := shown_asked (act := act) (cfg := cfg) (shown_exists hn (fun c => hv.plain c (hn c)) hx)
  exact ⟨bs, h, C64_traversal hv.cfgOk hv.ti hv.order h⟩

/-- C64: two descriptions of what is shown for an object agree. -/
theorem C64_determined {bs' : Bytes} (hc : cfg.Valid) (hti : ∀ t, (env.ti t).Valid)
    (ho : ∀ n, (cfg.argOrder n).Perm (List.range n)) (h : Shown cfg env act true t x bs)
    (h' : Shown cfg env act true t x bs') : bs' = bs := by
  have := (C64_traversal hc hti ho h').unique (C64_traversal hc hti ho h)
  simpa using this

/-- C64: where the dispatcher does not call the object's own `serialize` function, nothing inside the
object is looked at: any object of the type at all is shown as what the dispatcher says. -/
theorem C64_not_entered {tell : Val → Bytes} (ha : env.ownFunction t = true)
    (hact : act t = .instead tell) :
    Yields (fun n => traverseWith cfg env act n t x) (.ok (tell x, x)) := by
  refine ⟨1, fun n hn => ?_⟩
  obtain ⟨m, rfl⟩ := Nat.exists_eq_add_of_le' hn
  exact Sees.top (e := env.elemOf (dispatchWith cfg env act (m + 1) t) t) (Sees.instead ha hact)

/-- C64: the dispatcher is never called for types copied bytewise and enumerations: the traverser gets
their bytes whatever the dispatcher is. -/
theorem C64_bytes_not_asked (hc : cfg.Valid) (hti : ∀ t, (env.ti t).Valid)
    (ho : ∀ n, (cfg.argOrder n).Perm (List.range n)) {id pid size : Nat} (hl : bs.length = size)
    (ht : t = .prim id size ∨ t = .enm id pid size) :
    Yields (fun n => traverseWith cfg env act n t (.raw bs)) (.ok (bs, .raw bs)) := by
  rcases ht with rfl | rfl
  · exact C64_traversal hc hti ho (.direct rfl (.prim hl))
  · exact C64_traversal hc hti ho (.direct rfl (.enm hl))

/-- C64: a dispatcher that only calls the object's own function, like the library's, makes no difference
(C46 says what is then shown), also for polymorphic classes. -/
theorem C64_library_dispatcher (n : Nat) :
    traverseWith cfg env noAction n t x = traverseCustom cfg (elem cfg env n t) x := by
  simp only [traverseWith, elem, with_noAction]

end

/-! ## The hypotheses are met -/

namespace Demo

/-- A dispatcher that marks vectors and does not look into strings. -/
def marks : Ty → Action
  | .vec _ => .around (fun _ => [0x5b]) (fun _ => [0x5d])
  | .str => .instead fun _ => [0x22]
  | _ => .around (fun _ => []) (fun _ => [])

/-- A vector of two strings: the mark, capacity, size, what is said of each string, the mark. -/
example : Yields
    (fun n => traverseWith (Demo.cfg true false) plainEnv marks n (.vec .str)
      (.vec 2 [.str ⟨3, [1, 2, 3]⟩, .str ⟨0, []⟩]))
    (.ok ([0x5b] ++ [2, 0, 0, 0, 0, 0, 0, 0] ++ [2, 0, 0, 0, 0, 0, 0, 0] ++ [0x22, 0x22] ++ [0x5d],
      .vec 2 [.str ⟨3, [1, 2, 3]⟩, .str ⟨0, []⟩])) := by
  have hv : plainEnv.Valid .contents (fun _ => True) (Demo.cfg true false) := plain_valid fun _ _ => trivial
  have h : Shown (Demo.cfg true false) plainEnv marks true (.vec .str)
      (.vec 2 [.str ⟨3, [1, 2, 3]⟩, .str ⟨0, []⟩]) _ :=
    .around rfl rfl (.vec (b := fun _ => [0x22]) (by simp) (by decide)
      (fun x _ => .instead (tell := fun _ => [0x22]) rfl rfl))
  have := C64_traversal hv.cfgOk hv.ti hv.order h
  exact this

/-- Every dispatcher and the sample. -/
example (act : Ty → Action) : ∃ bs, Shown (Demo.cfg true false) plainEnv act true plainTy plainVal bs ∧
    Yields (fun n => traverseWith (Demo.cfg true false) plainEnv act n plainTy plainVal) (.ok (bs, plainVal)) :=
  C64_complete (R := .contents) (plain_valid fun _ _ => trivial).toUsable plainVal_wt

end Demo

end Ckpt
