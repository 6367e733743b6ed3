import Verif.Proofs.Top
/-!
Restoring over containers that are not empty.
-/

set_option autoImplicit false

namespace Ckpt

/-! ### Insertion into a non-empty container -/

section
variable {T : Type} {lt : T → T → Bool}

theorem emplaceUnique_sublist (ys : List T) (x : T) : ys.Sublist (emplaceUnique lt ys x) := by
  induction ys with
  | nil => simp [emplaceUnique]
  | cons y ys ih =>
    simp only [emplaceUnique]
    split
    · exact ih.cons_cons y
    · split
      · exact List.sublist_cons_self x (y :: ys)
      · exact List.Sublist.refl _

theorem emplaceUnique_mem (htr : ∀ a b c, lt a b = true → lt b c = true → lt a c = true) {ys : List T}
    (hs : ys.Pairwise (fun a b => lt a b = true)) (x v : T) :
    v ∈ emplaceUnique lt ys x ↔ v ∈ ys ∨ (v = x ∧ ∀ y ∈ ys, lt y x = true ∨ lt x y = true) := by
  induction ys with
  | nil => simp [emplaceUnique]
  | cons y ys ih =>
    rw [List.pairwise_cons] at hs
    simp only [emplaceUnique]
    split
    · rename_i h1
      rw [List.mem_cons, ih hs.2, List.mem_cons]
      constructor
      · rintro (h | h | ⟨h, h'⟩)
        · exact .inl (.inl h)
        · exact .inl (.inr h)
        · refine .inr ⟨h, fun z hz => ?_⟩
          rcases List.mem_cons.1 hz with rfl | hz
          · exact .inl h1
          · exact h' z hz
      · rintro ((h | h) | ⟨h, h'⟩)
        · exact .inl h
        · exact .inr (.inl h)
        · exact .inr (.inr ⟨h, fun z hz => h' z (by simp [hz])⟩)
    · split
      · rename_i h1 h2
        rw [List.mem_cons]
        constructor
        · rintro (h | h)
          · refine .inr ⟨h, fun z hz => ?_⟩
            rcases List.mem_cons.1 hz with rfl | hz
            · exact .inr h2
            · exact .inr (htr _ _ _ h2 (hs.1 z hz))
          · exact .inl h
        · rintro (h | ⟨h, _⟩)
          · exact .inr h
          · exact .inl h
      · rename_i h1 h2
        constructor
        · exact .inl
        · rintro (h | ⟨_, h'⟩)
          · exact h
          · rcases h' y (by simp) with h | h
            · exact (h1 h).elim
            · exact (h2 h).elim

theorem emplaceUnique_sorted (htr : ∀ a b c, lt a b = true → lt b c = true → lt a c = true) {ys : List T}
    (hs : ys.Pairwise (fun a b => lt a b = true)) (x : T) :
    (emplaceUnique lt ys x).Pairwise (fun a b => lt a b = true) := by
  induction ys with
  | nil => simp [emplaceUnique]
  | cons y ys ih =>
    have hs' := hs
    rw [List.pairwise_cons] at hs
    simp only [emplaceUnique]
    split
    · rename_i h1
      refine List.pairwise_cons.2 ⟨fun z hz => ?_, ih hs.2⟩
      rcases (emplaceUnique_mem htr hs.2 x z).1 hz with h | ⟨rfl, _⟩
      · exact hs.1 z h
      · exact h1
    · split
      · rename_i h1 h2
        refine List.pairwise_cons.2 ⟨fun z hz => ?_, hs'⟩
        rcases List.mem_cons.1 hz with rfl | hz
        · exact h2
        · exact htr _ _ _ h2 (hs.1 z hz)
      · exact hs'

theorem foldl_unique (htr : ∀ a b c, lt a b = true → lt b c = true → lt a c = true) :
    ∀ {zs acc : List T}, acc.Pairwise (fun a b => lt a b = true) → zs.Pairwise (fun a b => lt a b = true) →
    (zs.foldl (emplaceUnique lt) acc).Pairwise (fun a b => lt a b = true) ∧
    acc.Sublist (zs.foldl (emplaceUnique lt) acc) ∧
    ∀ v, v ∈ zs.foldl (emplaceUnique lt) acc ↔
      v ∈ acc ∨ (v ∈ zs ∧ ∀ o ∈ acc, lt o v = true ∨ lt v o = true)
  | [], acc, h, _ => ⟨h, List.Sublist.refl _, by simp⟩
  | z :: zs, acc, h, hz => by
    rw [List.pairwise_cons] at hz
    obtain ⟨h1, h2, h3⟩ := foldl_unique htr (zs := zs) (emplaceUnique_sorted htr h z) hz.2
    refine ⟨h1, (emplaceUnique_sublist acc z).trans h2, fun v => ?_⟩
    rw [List.foldl_cons, h3, emplaceUnique_mem htr h]
    constructor
    · rintro ((h | ⟨rfl, h'⟩) | ⟨hv, ho⟩)
      · exact .inl h
      · exact .inr ⟨by simp, h'⟩
      · exact .inr ⟨by simp [hv], fun o hh => ho o ((emplaceUnique_mem htr h z o).2 (.inl hh))⟩
    · rintro (h' | ⟨hv, ho⟩)
      · exact .inl (.inl h')
      · rcases List.mem_cons.1 hv with rfl | hv
        · exact .inl (.inr ⟨rfl, ho⟩)
        · refine .inr ⟨hv, fun o hh => ?_⟩
          rcases (emplaceUnique_mem htr h z o).1 hh with h' | ⟨he, _⟩
          · exact ho o h'
          · rw [he]; exact .inl (hz.1 v hv)

theorem emplaceMulti_perm (ys : List T) (x : T) : (emplaceMulti lt ys x).Perm (ys ++ [x]) := by
  induction ys with
  | nil => simp [emplaceMulti]
  | cons y ys ih =>
    simp only [emplaceMulti]
    split
    · exact (List.perm_append_comm (l₁ := [x]) (l₂ := y :: ys))
    · exact ih.cons y

theorem emplaceMulti_sublist (ys : List T) (x : T) : ys.Sublist (emplaceMulti lt ys x) := by
  induction ys with
  | nil => simp [emplaceMulti]
  | cons y ys ih =>
    simp only [emplaceMulti]
    split
    · exact List.sublist_cons_self x (y :: ys)
    · exact ih.cons_cons y

/-- Inserting keeps the order if "not greater" is transitive. -/
theorem emplaceMulti_sorted (hirr : ∀ a b, lt a b = true → lt b a = false)
    (htr : ∀ a b c, lt b a = false → lt c b = false → lt c a = false) {ys : List T}
    (hs : ys.Pairwise (fun a b => lt b a = false)) (x : T) :
    (emplaceMulti lt ys x).Pairwise (fun a b => lt b a = false) := by
  induction ys with
  | nil => simp [emplaceMulti]
  | cons y ys ih =>
    have hs' := hs
    rw [List.pairwise_cons] at hs
    simp only [emplaceMulti]
    split
    · rename_i h1
      refine List.pairwise_cons.2 ⟨fun z hz => ?_, hs'⟩
      rcases List.mem_cons.1 hz with rfl | hz
      · exact hirr _ _ h1
      · exact htr _ _ _ (hirr _ _ h1) (hs.1 z hz)
    · rename_i h1
      refine List.pairwise_cons.2 ⟨fun z hz => ?_, ih hs.2⟩
      have := (emplaceMulti_perm (lt := lt) ys x).subset hz
      rcases List.mem_append.1 this with h | h
      · exact hs.1 z h
      · simp only [List.mem_singleton] at h
        subst h
        simpa using h1

/-- Elements that do not compare greater than `x` stay before it. -/
theorem foldl_multi (hirr : ∀ a b, lt a b = true → lt b a = false)
    (htr : ∀ a b c, lt b a = false → lt c b = false → lt c a = false) :
    ∀ {zs acc : List T}, acc.Pairwise (fun a b => lt b a = false) →
    (zs.foldl (emplaceMulti lt) acc).Pairwise (fun a b => lt b a = false) ∧
    acc.Sublist (zs.foldl (emplaceMulti lt) acc) ∧
    (zs.foldl (emplaceMulti lt) acc).Perm (acc ++ zs)
  | [], acc, h => ⟨h, List.Sublist.refl _, by simp⟩
  | z :: zs, acc, h => by
    obtain ⟨h1, h2, h3⟩ := foldl_multi hirr htr (zs := zs) (emplaceMulti_sorted hirr htr h z)
    refine ⟨h1, (emplaceMulti_sublist acc z).trans h2, ?_⟩
    rw [List.foldl_cons]
    refine h3.trans (((emplaceMulti_perm (lt := lt) acc z).append_right zs).trans ?_)
    simp

theorem foldl_unordered {multi : Bool} {eq : T → T → Bool} {arr : List T → List T}
    (harr : ∀ xs, (arr xs).Perm xs) : ∀ (zs acc : List T),
    (multi = false → zs.Pairwise (fun x y => eq x y = false)) →
    (zs.foldl (emplaceUnordered multi eq arr) acc).Perm
      (acc ++ zs.filter (fun z => multi || !acc.any (fun o => eq o z)))
  | [], acc, _ => by simp
  | z :: zs, acc, h => by
    have ih := fun acc => foldl_unordered (multi := multi) (eq := eq) harr zs acc
      (fun hm => (List.pairwise_cons.1 (h hm)).2)
    rw [List.foldl_cons]
    refine (ih _).trans ?_
    unfold emplaceUnordered
    by_cases hc : (!multi && acc.any fun y => eq y z) = true
    · simp only [hc, if_true]
      rw [List.filter_cons_of_neg]
      cases multi <;> simp_all
    · simp only [hc, Bool.false_eq_true, if_false]
      rw [List.filter_cons_of_pos (by cases multi <;> simp_all)]
      have hf : zs.filter (fun x => multi || !(arr (z :: acc)).any fun o => eq o x) =
          zs.filter (fun x => multi || !acc.any fun o => eq o x) := by
        apply List.filter_congr
        intro x hx
        cases hm : multi with
        | true => rfl
        | false =>
          have hzx := (List.pairwise_cons.1 (h hm)).1 x hx
          simp only [Bool.false_or]
          congr 1
          rw [Bool.eq_iff_iff, List.any_eq_true, List.any_eq_true]
          constructor
          · rintro ⟨o, ho, he⟩
            rcases List.mem_cons.1 ((harr _).subset ho) with rfl | ho
            · rw [hzx] at he; simp at he
            · exact ⟨o, ho, he⟩
          · rintro ⟨o, ho, he⟩
            exact ⟨o, (harr _).symm.subset (by simp [ho]), he⟩
      rw [hf]
      refine ((harr _).append_right _).trans ?_
      exact List.perm_middle.symm.trans (by simp)

end

/-! ### Reading over a container -/

section
variable {R : RelMode} {K : Kind → Prop} {cfg : Cfg} {env : Env} {t : Ty}

theorem rel_of_codec {n : Nat} {xs zs : List Val}
    (h : List.Forall₂ ((codec R cfg env n t).byVal t).rel xs zs) : List.Forall₂ (Rel R env t) xs zs :=
  h.imp fun _ _ h => codec_rel n t _ _ h

/-- A list of move-only elements: the restored elements are appended. -/
theorem list_rd_append {T : Type} {K : Scope} {e : Elem T} {c : Codec T} (hc : cfg.Valid)
    (L : Law K cfg e.ti e.apply c) (F : Fresh e c) {sz : Nat} {xs ys : List T} (h : SeqOk c xs)
    (hcp : e.copyable = false) :
    Rd K (fun s => serList cfg sz e s ys) (seqEnc cfg cfg.check e.ti c xs)
      (fun r => ∃ zs, List.Forall₂ c.rel xs zs ∧ r = ys ++ zs) := by
  unfold serList
  refine (contSize_rd hc h.lt).bind ?_
  rintro _ rfl
  refine (unpackLoop_rd L F h.all (add := fun acc y => acc ++ [y]) (acc := ys)).congr ?_ rfl ?_
  · intro s hs
    simp [hs.unpacking, deserializeOrderedElems, hcp]
  · rintro _ ⟨zs, hz, rfl⟩
    exact ⟨zs, hz, foldl_append_singleton _ _⟩

theorem law_byVal (hv : env.Valid R K cfg) (n : Nat) (t : Ty) :
    Law (Scope.quiet K) cfg (elem cfg env n t).ti (elem cfg env n t).apply
      ((codec R cfg env n t).byVal t) := by
  obtain ⟨h1, h2, h3, h4, h5⟩ := law (R := R) hv n t
  exact ⟨h1, h2, fun xs hx => h3 xs (fun x hx' => (hx x hx').1),
    fun xs ys hx => h4 xs ys (fun x hx' => (hx x hx').1), fun xs hx => h5 xs (fun x hx' => (hx x hx').1)⟩

theorem merge_coll {T : Ty} {g : Ser → List Val → Out (List Val × Ser)} (hv : env.Valid R K cfg) {n : Nat}
    (hd : ∀ s ys, dispatch cfg env (n + 1) T s [.coll ys] =
      dispatchEach (fun s v => match v with
        | .coll xs => do
          let (xs, s) ← g s xs
          .ok (.coll xs, s)
        | _ => .ub .typeConfusion) s [.coll ys])
    {ys : List Val} {p : Bytes} {Q : List Val → Prop} (h : Rd (Scope.quiet K) (fun s => g s ys) p Q) :
    Rd (Scope.quiet K) (fun s => traverseTop cfg (elem cfg env (n + 1) T) s (.coll ys))
      (node cfg true (env.ti T) 1 p) (fun z => ∃ zs, z = .coll zs ∧ Q zs) := by
  refine top_rd_of (e := elem cfg env (n + 1) T) (hv.ti T) ?_
  have h1 := each_rd (T := Val) (y := .coll ys) (f := fun s v => match v with
        | .coll xs => do
          let (xs, s) ← g s xs
          .ok (.coll xs, s)
        | _ => .ub .typeConfusion) (h.map Val.coll (Q' := fun z => ∃ zs, z = .coll zs ∧ Q zs)
          (fun zs hz => ⟨zs, rfl, hz⟩))
  exact h1.congr (fun s _ => hd s ys) rfl (fun _ h => h)

variable {xs ys : List Val} {bs : Bytes}

theorem IsEnc.at (h : IsEnc R cfg env t (.coll xs) bs) : ∃ n, (codec R cfg env (n + 1) t).P (.coll xs) ∧
    node cfg true (env.ti t) 1 ((codec R cfg env (n + 1) t).enc cfg.check (.coll xs)) = bs := by
  obtain ⟨n0, h0⟩ := h
  exact ⟨n0, h0 (n0 + 1) (by omega)⟩

theorem merge_oset (hv : env.Valid R K cfg) {a : Assoc} {cmp : Nat}
    (he : IsEnc R cfg env (.oset a cmp t) (.coll xs) bs) : ∃ n,
    Rd (Scope.quiet K) (fun s => traverseTop cfg (elem cfg env n (.oset a cmp t)) s (.coll ys)) bs
      (fun z => ∃ zs, List.Forall₂ (Rel R env t) xs zs ∧ z = .coll (zs.foldl (env.emplaceO a cmp) ys)) := by
  obtain ⟨n, hP, rfl⟩ := he.at
  refine ⟨n + 1, (merge_coll (n := n) hv (fun s ys => rfl) (mapLike_rd hv.cfgOk (law_byVal hv n t)
    (codec_fresh hv.toUsable n t) hP.1)).mono ?_⟩
  rintro _ ⟨_, rfl, zs, hz, rfl⟩
  exact ⟨zs, rel_of_codec hz, rfl⟩

theorem merge_uset (hv : env.Valid R K cfg) {a : Assoc} {eq : Nat}
    (he : IsEnc R cfg env (.uset a eq t) (.coll xs) bs) : ∃ n,
    Rd (Scope.quiet K) (fun s => traverseTop cfg (elem cfg env n (.uset a eq t)) s (.coll ys)) bs
      (fun z => ∃ zs, List.Forall₂ (Rel R env t) xs zs ∧ z = .coll (zs.foldl (env.emplaceU a eq) ys)) := by
  obtain ⟨n, hP, rfl⟩ := he.at
  refine ⟨n + 1, (merge_coll (n := n) hv (fun s ys => rfl) (mapLike_rd hv.cfgOk (law_byVal hv n t)
    (codec_fresh hv.toUsable n t) hP.1)).mono ?_⟩
  rintro _ ⟨_, rfl, zs, hz, rfl⟩
  exact ⟨zs, rel_of_codec hz, rfl⟩

theorem merge_queue (hv : env.Valid R K cfg) (he : IsEnc R cfg env (.queue t) (.coll xs) bs) : ∃ n,
    Rd (Scope.quiet K) (fun s => traverseTop cfg (elem cfg env n (.queue t)) s (.coll ys)) bs
      (fun z => ∃ zs, List.Forall₂ (Rel R env t) xs zs ∧ z = .coll (ys ++ zs)) := by
  obtain ⟨n, hP, rfl⟩ := he.at
  refine ⟨n + 1, (merge_coll (n := n) hv (fun s ys => rfl) (queue_rd hv.cfgOk (law_byVal hv n t)
    (codec_fresh hv.toUsable n t) hP)).mono ?_⟩
  rintro _ ⟨_, rfl, zs, hz, rfl⟩
  exact ⟨zs, rel_of_codec hz, rfl⟩

theorem merge_seq (hv : env.Valid R K cfg) {k : SeqKind} (hcp : env.copyable t = false)
    (he : IsEnc R cfg env (.seq k t) (.coll xs) bs) : ∃ n,
    Rd (Scope.quiet K) (fun s => traverseTop cfg (elem cfg env n (.seq k t)) s (.coll ys)) bs
      (fun z => ∃ zs, List.Forall₂ (Rel R env t) xs zs ∧ z = .coll (ys ++ zs)) := by
  obtain ⟨n, hP, rfl⟩ := he.at
  refine ⟨n + 1, (merge_coll (n := n) hv (fun s ys => rfl) (list_rd_append hv.cfgOk (law_byVal hv n t)
    (codec_fresh hv.toUsable n t) hP hcp)).mono ?_⟩
  rintro _ ⟨_, rfl, zs, hz, rfl⟩
  exact ⟨zs, rel_of_codec hz, rfl⟩

end
end Ckpt
