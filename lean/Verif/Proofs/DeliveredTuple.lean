import Verif.Proofs.Delivered
import Verif.Proofs.Post
import Verif.Proofs.Torn
/-!
Reading stopped, but some of the members of a tuple had been read completely: they are as restored.
-/

set_option autoImplicit false

namespace Ckpt

section
variable {T ι : Type} {K : Kind → Prop} {cfg : Cfg} {E : ι → Elem T} {C : ι → Codec T}

theorem visitEnd_other {es : List (Elem T × Residue T)} : ∀ (is : List Nat) {s : Ser} {ys zs : List T},
    visitMembersEnd cfg es is s ys = .ok zs → ∀ i, i ∉ is → zs[i]? = ys[i]?
  | [], _, _, _, h => by cases h; exact fun _ _ => rfl
  | i :: is, s, ys, zs, h => by
    unfold visitMembersEnd at h
    intro j hj
    rw [List.mem_cons, not_or] at hj
    split at h
    · next e x he hx =>
      cases hp : pipe cfg e.1 s x with
      | ok q =>
        rw [hp] at h
        rw [visitEnd_other is (show visitMembersEnd cfg es is q.2 (ys.set i q.1) = .ok zs from h) j hj.2,
          List.getElem?_set_ne (Ne.symm hj.1)]
      | throw _ =>
        rw [hp] at h
        obtain ⟨y, _, h2⟩ := bind_eq_ok h
        cases h2
        rw [List.getElem?_set_ne (Ne.symm hj.1)]
      | _ => rw [hp] at h; cases h
    · cases h

/-- The members that were read completely, in the order in which they are read. -/
theorem visit_delivered {R : ι → Residue T} {ts : List ι} {xs : List T} (hL : ∀ t ∈ ts, Law (Scope.quiet K) cfg (E t).ti (E t).apply (C t))
    (h : All2 (fun t x => (C t).P x) ts xs) : ∀ {k : Nat} {is : List Nat} {ys zs : List T} {s : Ser},
    (∀ i ∈ is, i < ts.length) → is.Nodup → ys.length = ts.length →
    (∀ i ∈ is, ∀ t x y, ts[i]? = some t → xs[i]? = some x → ys[i]? = some y → (C t).prior x y) →
    s.Reader (Scope.quiet K) → (rest : Bytes) →
    s.remaining = (is.take k).flatMap (memberEnc cfg cfg.check E C ts xs) ++ rest →
    ((∃ s', visitMembers cfg (ts.map E) is s ys = .ok (zs, s')) ∨
      visitMembersEnd cfg (ts.map fun t => (E t, R t)) is s ys = .ok zs) →
    ∀ (i : Nat) t x, i ∈ is.take k → ts[i]? = some t → xs[i]? = some x → ∃ z, zs[i]? = some z ∧ (C t).rel x z
  | 0, _, _, _, _, _, _, _, _, _, _, _, _ => fun i _ _ hi => by simp at hi
  | _ + 1, [], _, _, _, _, _, _, _, _, _, _, _ => fun i _ _ hi => by simp at hi
  | k + 1, i :: is, ys, zs, s, hi, hn, hl, hp, hs, rest, hr, hz => by
    have hlt := hi i (by simp)
    obtain ⟨hlen, hget⟩ := All2.get h
    have ht : ts[i]? = some ts[i] := List.getElem?_eq_getElem hlt
    have hx : xs[i]? = some (xs[i]'(by omega)) := List.getElem?_eq_getElem (by omega)
    have hy : ys[i]? = some (ys[i]'(by omega)) := List.getElem?_eq_getElem (by omega)
    have hni : i ∉ is := (List.nodup_cons.1 hn).1
    have hme : memberEnc cfg cfg.check E C ts xs i =
        nodeEnc cfg cfg.check (E ts[i]).ti (C ts[i]) (xs[i]'(by omega)) := by
      simp [memberEnc, ht, hx]
    simp only [List.take_succ_cons, List.flatMap_cons, List.append_assoc] at hr
    rcases (pipe_rd (hL _ (List.getElem_mem hlt)) (hget i _ _ ht hx) (hp i (by simp) _ _ _ ht hx hy) s hs).1 _
      (by rw [hr, hme]) with ⟨b, hb, he⟩ | ⟨_, hf, _⟩
    case inr => exact hf.elim
    dsimp only at he
    rw [← hme] at he
    simp only [visitMembers, visitMembersEnd, List.getElem?_map, ht, hy, Option.map_some, he, Out.bind_eq, Out.bind_ok,
      Out.after] at hz
    have hother : zs[i]? = some b := by
      have : zs[i]? = (ys.set i b)[i]? := by
        rcases hz with ⟨s', hz⟩ | hz
        · exact (visitMembers_ok is hz).2 i hni
        · exact visitEnd_other is hz i hni
      rw [this, List.getElem?_set_self (by omega)]
    have ih := visit_delivered (R := R) hL h (k := k) (is := is) (ys := ys.set i b) (fun j hj => hi j (by simp [hj]))
      (List.nodup_cons.1 hn).2 (by simp [hl]) (fun j hj t x y htj hxj hyj => by
        have hne : i ≠ j := by rintro rfl; exact hni hj
        rw [List.getElem?_set_ne hne] at hyj
        exact hp j (by simp [hj]) t x y htj hxj hyj) (hs.advance (by rw [hr]; simp)) rest
      (by rw [Ser.remaining_advance, hr, List.drop_left]) hz
    intro j t x hj htj hxj
    rw [List.take_succ_cons] at hj
    rcases List.mem_cons.1 hj with rfl | hj
    · rw [ht] at htj
      rw [hx] at hxj
      cases htj
      cases hxj
      exact ⟨b, hother, hb⟩
    · exact ih j t x hj htj hxj

end
end Ckpt
