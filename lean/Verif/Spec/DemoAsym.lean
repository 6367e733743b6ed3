import Verif.Spec.Demo
import Verif.Spec.Visits
/-!
# A concrete program with a mistake

The program of `Demo`, except that `Label::serialize` packs its members in another order than it
unpacks them.
-/

set_option autoImplicit false

namespace Ckpt

/-- `Clean` depends on these parts of the program only. -/
theorem Clean.congr {R : RelMode} {cfg : Cfg} {env env' : Env} (h1 : env'.dflt = env.dflt)
    (h2 : env'.copyable = env.copyable) (h3 : ∀ c, env'.chain c = env.chain c)
    (h4 : ∀ t, env'.isVirt t = env.isVirt t)
    (h5 : ∀ c, (env'.cls c).rfields = (env.cls c).rfields) (h6 : env'.ti = env.ti) {t : Ty} {v : Val}
    (h : Clean R cfg env t v) : Clean R cfg env' t v := by
  induction h with
  | prim h => exact .prim h
  | enm h => exact .enm h
  | chrono h => exact .chrono h
  | str => exact .str
  | vec a b c _ ih => exact .vec a (by rw [h1, h2]; exact b) c ih
  | vecBool a => exact .vecBool a
  | seq a b _ ih => exact .seq (by rw [h2]; exact a) b ih
  | queue => exact .queue
  | oset => exact .oset
  | uset => exact .uset
  | pair a b _ _ ih1 ih2 => exact .pair a b ih1 ih2
  | tuple a b _ ih => exact .tuple a b ih
  | opt => exact .opt
  | variant h => exact .variant h
  | valueless h => exact .valueless h
  | variantBytes h h' => exact .variantBytes h (by rw [h6]; exact h')
  | ptrNull => exact .ptrNull
  | ptr a b _ ih => exact .ptr (by rw [h4]; exact a) b ih
  | arr a b _ ih => exact .arr a b ih
  | obj a b c d _ ih =>
    refine .obj (by rw [h3]; exact a) (by rw [h3]; exact b) ?_ ?_ ?_
    · intro j k p hk hp; rw [h3] at hk; rw [h5]; exact c j k p hk hp
    · intro j k p hk hp i t x ht; rw [h3] at hk; rw [h5] at ht; exact d j k p hk hp i t x ht
    · intro j k p hk hp i t x ht; rw [h3] at hk; rw [h5] at ht; exact ih j k p hk hp i t x ht

namespace Demo

/-- The class table with the mistake. -/
def asymCls (c : Nat) : ClassDef :=
  if c = 6 then { fields := [int, .str], rfields := [.str, int] } else cls c

/-- The program with the mistake. -/
def asymEnv : Env := { env with cls := asymCls }

theorem asym_bases (c : Nat) : (asymEnv.cls c).bases = (env.cls c).bases ∧
    (asymEnv.cls c).virt = (env.cls c).virt ∧ (asymEnv.cls c).rfields = (env.cls c).rfields := by
  by_cases h : c = 6
  · subst h; exact ⟨rfl, rfl, rfl⟩
  · simp only [asymEnv, asymCls, if_neg h]; exact ⟨rfl, rfl, rfl⟩

theorem asym_chain (c : Nat) : asymEnv.chain c = env.chain c := by
  simp only [Env.chain, (asym_bases c).1]

theorem asym_isVirt (t : Ty) : asymEnv.isVirt t = env.isVirt t := by
  cases t <;> simp only [Env.isVirt]
  exact (asym_bases _).2.1

theorem asym_root (c : Nat) : asymEnv.root c = env.root c := by
  simp only [Env.root]
  congr 2
  exact (asym_bases c).1

variable {R : RelMode} {check ndebug : Bool}

/-- The program with the mistake still meets the general assumptions. -/
theorem asym_usable (hR : ∀ c < 2 ^ 64, R.cap c c) :
    asymEnv.Usable R (· ∈ builtinKinds) (cfg check ndebug) := by
  have hv := (valid (R := R) (check := check) (ndebug := ndebug) hR).toUsable
  have hcl := fun {t v} => Clean.congr (R := R) (cfg := cfg check ndebug) (env := env) (env' := asymEnv)
    rfl rfl asym_chain asym_isVirt (fun c => (asym_bases c).2.2) (t := t) (v := v)
  have hroot : asymEnv.root = env.root := funext asym_root
  exact
    { cfgOk := hv.cfgOk, ti := hv.ti, order := hv.order, arrange := hv.arrange
      fresh := fun t => ⟨hcl rfl (hv.fresh t).1, (hv.fresh t).2⟩
      dflt := fun t v h => ⟨hcl rfl (hv.dflt t v h).1, (hv.dflt t v h).2⟩
      hier := fun d c h => by rw [asym_chain] at h; rw [hroot]; exact hv.hier d c h
      plain := fun c h => by
        rw [(asym_bases c).2.1] at h; rw [(asym_bases c).1]; exact hv.plain c h
      regSize := hv.regSize
      serRegOk := by rw [hroot]; exact hv.serRegOk
      kinds := fun ⟨c, h⟩ => hv.kinds ⟨c, by rw [← (asym_bases c).2.1]; exact h⟩ }

/-- A label inside an optional inside a vector. -/
def label : Val := .obj 6 [[.raw [1, 0, 0, 0], .str ⟨15, [108]⟩]]

/-- `std::vector<std::optional<Label>>`. -/
def labelsTy : Ty := .vec (.opt (.cls 6))

/-- A vector with an empty element and a label. -/
def labels : Val := .vec 2 [.opt none, .opt (some label)]

theorem label_wt : WT R asymEnv (.cls 6) label :=
  wt_obj (by decide) (by decide)
    (.cons (.cons ⟨trivial, .prim rfl⟩ (.cons ⟨trivial, .str (by decide)⟩ .nil)) .nil)

theorem labels_wt : WT R asymEnv labelsTy labels := by
  refine .vec (by decide) (by decide) ⟨by decide, False.elim⟩ (fun _ _ => trivial) ?_
  intro x hx
  simp only [List.mem_cons, List.not_mem_nil, or_false] at hx
  rcases hx with rfl | rfl
  · exact .optNone
  · exact .optSome rfl label_wt

theorem labels_visit : Visits asymEnv labelsTy labels 6 :=
  .vec (x := .opt (some label)) (by simp) (.opt (.here (by decide)))

end Demo

end Ckpt
