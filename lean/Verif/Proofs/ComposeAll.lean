import Verif.Proofs.ComposeMore
import Verif.Proofs.ComposePoly
import Verif.Proofs.ProgramChecked
import Verif.Proofs.Recursive
import Verif.Proofs.RecursivePoly
import Verif.Proofs.Visits
/-!
Every composed type obeys a codec.
-/

set_option autoImplicit false

namespace Ckpt

variable {R : RelMode} {cfg : Cfg} {env : Env} {K : Scope}

theorem checkedBase_composes (hv : env.Usable R K.kinds cfg) (hA : env.AsymOk K cfg) (t : Ty) :
    Composes K cfg (.base cfg env t) (.checkedBase R cfg env t) (fun n => (codec R cfg env n t).byVal t) :=
  { base_composes hv hA t with
    rel := fun n _ y h => ⟨codec_rel _ _ _ _ h, fun _ hk => visits_sym hk n y h⟩ }

/-- Every composed type has laws. -/
theorem ComposedOf.composes {E : Bool} (hK : ∀ k, K.kinds k ↔ k ∈ builtinKinds) (hv : env.Usable R K.kinds cfg)
    (hA : env.AsymOk K cfg) (hE : E = true → cfg.check = true ∧ ∀ k d tr, K.errs (.ser k d tr)) {T : Type} {t : CppType T}
    {u : Usage T} (h : ComposedOf E R cfg env t u) : ∃ C, Composes K cfg t u C := by
  have hc := hv.cfgOk
  induction h with
  | base t => exact ⟨_, base_composes hv hA t⟩
  | vector c hti _ ih => obtain ⟨C, h⟩ := ih; exact ⟨_, vector_composes hc h hti c⟩
  | list c hti _ ih => obtain ⟨C, h⟩ := ih; exact ⟨_, list_composes hc h hti c⟩
  | queue c hti _ ih => obtain ⟨C, h⟩ := ih; exact ⟨_, queue_composes hc h hti c⟩
  | ordered c a hti _ hlt ih => obtain ⟨C, h⟩ := ih; exact ⟨_, ordered_composes hc h hti c a hlt⟩
  | unordered c a hti _ heq harr ih => obtain ⟨C, h⟩ := ih; exact ⟨_, unordered_composes hc h hti c a heq harr⟩
  | pair hti _ _ ih1 ih2 =>
    obtain ⟨C, h1⟩ := ih1
    obtain ⟨D, h2⟩ := ih2
    exact ⟨_, pair_composes h1 h2 hti⟩
  | optional hti _ ih => obtain ⟨C, h⟩ := ih; exact ⟨_, optional_composes hc h hti⟩
  | uniquePtr hti _ _ ih => obtain ⟨C, h⟩ := ih; exact ⟨_, uniquePtr_composes hc h hti⟩
  | array k hti _ ih => obtain ⟨C, h⟩ := ih; exact ⟨_, array_composes h hti k⟩
  | view hk hh _ ih => obtain ⟨C, h⟩ := ih; exact ⟨_, view_composes hc h hk hh⟩
  | dynRank l hk _ ih => obtain ⟨C, h⟩ := ih; exact ⟨_, dynRank_composes hc h hk l⟩
  | dynamic hk _ ih => obtain ⟨C, h⟩ := ih; exact ⟨_, dynamic_composes hc h hk⟩
  | cls c hti hm _ hf hd ih =>
    obtain ⟨C, h⟩ := members_compose hm ih
    exact ⟨_, cls_composes h hti c hf hd⟩
  | deviceView hk hf hz _ ih => obtain ⟨C, h⟩ := ih; exact ⟨_, deviceView_composes hK hc h hk hf hz⟩
  | constView hk hf hz _ ih => obtain ⟨C, h⟩ := ih; exact ⟨_, constView_composes hK hc h hk hf hz⟩
  | kmap hk hu hl hk' _ _ ih1 ih2 =>
    obtain ⟨C, h1⟩ := ih1
    obtain ⟨D, h2⟩ := ih2
    exact ⟨_, kmap_composes h1 h2 hk hu hl hk'⟩
  | tuple hti hm _ ih =>
    obtain ⟨D, h⟩ := parts_law hm ih
    exact ⟨_, tuple_composes hv.order h hti⟩
  | variant hti _ hl hm _ ih =>
    obtain ⟨D, h⟩ := alts_law hm ih
    exact ⟨_, variant_composes hc h hl hti⟩
  | object c d hti hm _ hl hf hd ih =>
    obtain ⟨C, h⟩ := chain_handles hm ih _ hl (chain_lookup hK hv d)
    exact ⟨_, object_composes h hti c hf hd⟩
  | polyPtr c any hti hcti hm _ hfit hnd ih =>
    obtain ⟨C, h, hmade⟩ := dyn_handles hK hv hm ih hfit hnd
    exact ⟨_, polyPtr_composes hv h hmade hti hcti c any⟩
  | program c items hti hw _ hi hr hf hd ih => exact ⟨_, program_composes hc c hti hw ih hi hr hf hd⟩
  | declared c hti hf hd => exact ⟨_, declared_composes c hti hf hd⟩
  | recursive c items hti hp hw _ hi hr hf hd ih => exact recursive_composes hc hti hp hw ih hi hr hf hd
  | hierarchyPtr c any hti hcti hg hm _ hfit hnd ih => exact hierarchyPtr_composes hK hv hti hcti hg hm ih hfit hnd
  | weaken _ ho hcl hs hm hf hd ih =>
    obtain ⟨C, h⟩ := ih
    exact ⟨_, weaken_composes h ho hcl hs hm hf hd⟩
  | checkedBase t _ => exact ⟨_, checkedBase_composes hv hA t⟩
  | checkedProgram c items he hti hw _ hi hr hf hd hone hsz ih =>
    exact ⟨_, checkedProgram_composes hc (hE he).1 (hE he).2 c hti hw ih hi hr hf hd hone hsz⟩

theorem asymOk_sym (h : ∀ c, (env.cls c).rfields = (env.cls c).fields) : env.AsymOk K cfg :=
  fun c hne => absurd (h c) hne

theorem Composed.composes (hv : env.Valid R (· ∈ builtinKinds) cfg) {T : Type} {t : CppType T} {u : Usage T}
    (h : Composed R cfg env t u) : ∃ C, Composes (Scope.quiet (· ∈ builtinKinds)) cfg t u C :=
  ComposedOf.composes (K := Scope.quiet (· ∈ builtinKinds)) (fun _ => Iff.rfl) hv.toUsable (asymOk_sym hv.sym)
    (by simp) h

/-- With error checking. -/
theorem ComposedOf.composes_checked (hch : cfg.check = true) (hv : env.Usable R (· ∈ builtinKinds) cfg)
    (hd : env.Distinguishable) {E : Bool} {T : Type} {t : CppType T} {u : Usage T}
    (h : ComposedOf E R cfg env t u) : ∃ C, Composes checkedScope cfg t u C :=
  ComposedOf.composes (K := checkedScope) (fun _ => Iff.rfl) hv (asymOk_checked hch hd)
    (fun _ => ⟨hch, fun k d tr => ⟨k, d, tr, rfl⟩⟩) h

end Ckpt
