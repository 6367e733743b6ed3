import Verif.Proofs.ComposeAll
/-!
Every type whose objects are read over objects that exist obeys a codec that allows to.
-/

set_option autoImplicit false

namespace Ckpt

variable {R : RelMode} {cfg : Cfg} {env : Env} {K : Scope}

theorem OverOf.composes (hK : ∀ k, K.kinds k ↔ k ∈ builtinKinds) (hv : env.Usable R K.kinds cfg) (hA : env.AsymOk K cfg)
    {T : Type} {t : CppType T} {u : Usage T} {o : T → T → Prop} (h : OverOf R cfg env t u o) :
    ∃ C, Composes K cfg t u C ∧ Codec.ReadsOver C o := by
  have hc := hv.cfgOk
  induction h with
  | clean h =>
    obtain ⟨C, hC⟩ := ComposedOf.composes hK hv hA (by simp) h
    exact ⟨C, hC, hC.prior⟩
  | vector c hti _ ih =>
    obtain ⟨C, h, ho⟩ := ih
    exact ⟨_, vector_composes hc h hti c, fun n x y hx hy => ⟨⟨fun i a b ha hb =>
      ho n a b (hx.all a (List.mem_of_getElem? ha)) (hy.1 i a b ha hb), hy.2.1⟩, hy.2.2⟩⟩
  | list c hti _ ih =>
    obtain ⟨C, h, ho⟩ := ih
    exact ⟨_, list_composes hc h hti c, fun n x y hx hy => ⟨fun _ i a b ha hb =>
      ho n a b (hx.all a (List.mem_of_getElem? ha)) (hy.1 i a b ha hb), hy.2⟩⟩
  | pair hti _ _ ih1 ih2 =>
    obtain ⟨C, h1, o1⟩ := ih1
    obtain ⟨D, h2, o2⟩ := ih2
    exact ⟨_, pair_composes h1 h2 hti, fun n x y hx hy => ⟨o1 n _ _ hx.1 hy.1, o2 n _ _ hx.2 hy.2⟩⟩
  | uniquePtr hti _ _ ih =>
    obtain ⟨C, h, ho⟩ := ih
    exact ⟨_, uniquePtr_composes hc h hti, fun n x y hx hy =>
      ⟨fun a b ha hb => ⟨ho n a b (hx a ha) (hy a b ha hb), fun _ h => by cases h⟩,
        fun a ha _ _ => h.prior n a _ (hx a ha) h.fresh, fun _ _ _ _ h => by cases h⟩⟩
  | array k hti _ ih =>
    obtain ⟨C, h, ho⟩ := ih
    exact ⟨_, array_composes h hti k, fun n x y hx hy => List.forall₂_iff_get.2 ⟨hy.length_eq, fun i h1 h2 =>
      ho n _ _ (hx.1 _ (List.get_mem _ _)) ((List.forall₂_iff_get.1 hy).2 i h1 h2)⟩⟩
  | cls c hti hm _ hf hd ih =>
    obtain ⟨C, h, ho⟩ := members_compose_over hm ih
    exact ⟨_, cls_composes h hti c hf hd, ho⟩
  | @tuple _ ms _ _ _ _ hti hm _ ih =>
    obtain ⟨D, h, ho⟩ := parts_law_over hm ih
    refine ⟨_, tuple_composes hv.order h hti, fun n x y hx hy i hi => ho n x y hx hy i ?_⟩
    rw [(hv.order _).mem_iff] at hi
    exact List.mem_range.1 hi
  | object c d hti hm _ hl hf hd ih =>
    obtain ⟨C, h, ho⟩ := chain_handles_over hm ih _ hl (chain_lookup hK hv d)
    exact ⟨_, object_composes h hti c hf hd, ho⟩
  | program c items r hti hw _ hi hr hf hd ih =>
    exact ⟨_, program_composes_over hc c hti hw ih hi hr hf hd, fun _ _ _ _ h => .inr h⟩
  | recursive c items r hti hp hw _ hi hr hf hd ih => exact recursive_composes_over hc hti hp hw ih hi hr hf hd
  | polyPtr c any hti hcti hm _ hfit hnd ih =>
    obtain ⟨C, h, hmade, ho⟩ := dyn_handles_over hK hv hm ih hfit hnd
    exact ⟨_, polyPtr_composes hv h hmade hti hcti c any, polyPtr_over hv h hmade hti hcti c any ho hm.classOf⟩
  | hierarchyPtr c any hti hcti hg hm _ hfit hnd ih => exact hierarchyPtr_composes_over hK hv hti hcti hg hm ih hfit hnd
  | either _ ih =>
    obtain ⟨C, h, ho⟩ := ih
    exact ⟨C, h, fun n x y hx hy => hy.elim (ho n x y hx) (h.prior n x y hx)⟩
  | fewer _ hle ih =>
    obtain ⟨C, h, ho⟩ := ih
    exact ⟨C, h, fun n x y hx hy => ho n x y hx (hle x y hy)⟩
  | weaken _ hok hcl hs hm hf hd hle ih =>
    obtain ⟨C, h, ho⟩ := ih
    exact ⟨_, weaken_composes h hok hcl hs hm hf hd, fun n x y hx hy => ho n x y hx.2 (hle x y hx.1 hy)⟩

theorem OverOf.composes_valid (hv : env.Valid R (· ∈ builtinKinds) cfg) {T : Type} {t : CppType T} {u : Usage T}
    {o : T → T → Prop} (h : OverOf R cfg env t u o) :
    ∃ C, Composes (Scope.quiet (· ∈ builtinKinds)) cfg t u C ∧ Codec.ReadsOver C o :=
  h.composes (K := Scope.quiet (· ∈ builtinKinds)) (fun _ => Iff.rfl) hv.toUsable (asymOk_sym hv.sym)

end Ckpt
