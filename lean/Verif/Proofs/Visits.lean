import Verif.Spec.Visits
import Verif.Proofs.Api
/-!
An object that was read holds only parts of classes that read what they write.
-/

set_option autoImplicit false

namespace Ckpt

variable {R : RelMode} {cfg : Cfg} {env : Env}

theorem forall₂_mem {α β : Type} {S : α → β → Prop} {xs : List α} {ys : List β}
    (h : List.Forall₂ S xs ys) : ∀ x ∈ xs, ∃ y, S x y := by
  induction h with
  | nil => simp
  | cons h1 _ ih =>
    intro x hx
    rcases List.mem_cons.1 hx with rfl | hx
    · exact ⟨_, h1⟩
    · exact ih x hx

theorem All3.get_left {ι A : Type} {S : ι → A → A → Prop} {ts : List ι} {xs ys : List A}
    (h : All3 S ts xs ys) {i : Nat} {t : ι} {x : A} (ht : ts[i]? = some t) (hx : xs[i]? = some x) :
    ∃ y, S t x y := by
  obtain ⟨⟨h1, h2⟩, h3⟩ := All3.get h
  have hi : i < ys.length := by
    have := (List.getElem?_eq_some_iff.1 hx).1
    omega
  exact ⟨_, h3 i t x ys[i] ht hx (List.getElem?_eq_getElem hi)⟩

theorem visits_sym {t : Ty} {x : Val} {k : Nat} (h : Visits env t x k) :
    ∀ (n : Nat) (y : Val), (codec R cfg env n t).rel x y → (env.cls k).rfields = (env.cls k).fields := by
  induction h with
  | @here c d k ps hk =>
    intro n y hr
    cases n with
    | zero => exact hr.elim
    | succ n =>
      cases y <;> simp only [codec] at hr
      obtain ⟨rfl, hr⟩ := hr
      obtain ⟨i, hi⟩ := List.getElem?_of_mem hk
      obtain ⟨⟨h1, h2⟩, h3⟩ := All3.get hr
      have hl := (List.getElem?_eq_some_iff.1 hi).1
      obtain ⟨q, hq⟩ := All3.get_left hr hi (List.getElem?_eq_getElem (by omega))
      exact hq.1
  | member hm hp ht hx _ ih =>
    intro n y hr
    cases n with
    | zero => exact hr.elim
    | succ n =>
      cases y <;> simp only [codec] at hr
      obtain ⟨rfl, hr⟩ := hr
      obtain ⟨q, hq⟩ := All3.get_left hr hm hp
      obtain ⟨z, hz⟩ := All3.get_left hq.2 ht hx
      exact ih n z hz
  | vec hx _ ih =>
    intro n y hr
    cases n with
    | zero => exact hr.elim
    | succ n =>
      cases y <;> simp only [codec] at hr
      obtain ⟨z, hz⟩ := forall₂_mem hr.1 _ hx
      exact ih n z hz
  | seq hx _ ih | queue hx _ ih | oset hx _ ih =>
    intro n y hr
    cases n with
    | zero => exact hr.elim
    | succ n =>
      cases y <;> simp only [codec] at hr
      obtain ⟨z, hz⟩ := forall₂_mem hr _ hx
      exact ih n z hz
  | uset hx _ ih =>
    intro n y hr
    cases n with
    | zero => exact hr.elim
    | succ n =>
      cases y <;> simp only [codec] at hr
      obtain ⟨zs, hr, _⟩ := hr
      obtain ⟨z, hz⟩ := forall₂_mem hr _ hx
      exact ih n z hz
  | fst _ ih =>
    intro n y hr
    cases n with
    | zero => exact hr.elim
    | succ n =>
      cases y <;> try exact hr.elim
      rename_i ys
      match ys, hr with
      | [], hr => exact hr.elim
      | [_], hr => exact hr.elim
      | [a, b], hr => exact ih n _ hr.1
      | _ :: _ :: _ :: _, hr => exact hr.elim
  | snd _ ih =>
    intro n y hr
    cases n with
    | zero => exact hr.elim
    | succ n =>
      cases y <;> try exact hr.elim
      rename_i ys
      match ys, hr with
      | [], hr => exact hr.elim
      | [_], hr => exact hr.elim
      | [a, b], hr => exact ih n _ hr.2
      | _ :: _ :: _ :: _, hr => exact hr.elim
  | tuple ht hx _ ih =>
    intro n y hr
    cases n with
    | zero => exact hr.elim
    | succ n =>
      cases y <;> simp only [codec] at hr
      obtain ⟨z, hz⟩ := All3.get_left hr ht hx
      exact ih n z hz
  | opt _ ih | uptr _ ih =>
    intro n y hr
    cases n with
    | zero => exact hr.elim
    | succ n =>
      cases y <;> simp only [codec] at hr
      rcases hr with ⟨h, _⟩ | ⟨a, b, h, _, hz⟩
      · cases h
      · cases h; exact ih n _ hz
  | variant ht _ ih =>
    intro n y hr
    cases n with
    | zero => exact hr.elim
    | succ n =>
      simp only [codec] at hr
      split at hr
      · cases y <;> exact hr.elim
      cases y <;> try exact hr.elim
      obtain ⟨_, t', ht', hz⟩ : _ ∧ ∃ t', _ ∧ _ := hr
      rw [ht] at ht'
      cases ht'
      exact ih n _ hz
  | arr hx _ ih =>
    intro n y hr
    cases n with
    | zero => exact hr.elim
    | succ n =>
      cases y <;> simp only [codec] at hr
      obtain ⟨z, hz⟩ := forall₂_mem hr.2 _ hx
      exact ih n z hz

end Ckpt
