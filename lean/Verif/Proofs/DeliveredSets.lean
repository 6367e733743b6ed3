import Verif.Proofs.DeliveredLists
/-!
Reading stopped, but some of the elements of a set or map had been read completely: they are there.
-/

set_option autoImplicit false

namespace Ckpt

section
variable {T : Type} {K : Kind → Prop} {cfg : Cfg} {e : Elem T} {c : Codec T} {add : List T → T → List T}

/-- What is left is what was there with some elements added. -/
theorem loop_added {zs : List T} : ∀ {n : Nat} {acc : List T} {s : Ser},
    ((∃ s', unpackLoop cfg e add n s acc = .ok (zs, s')) ∨ unpackLoopEnd cfg e add n s acc = .ok zs) →
    ∃ vs : List T, zs = vs.foldl add acc
  | 0, acc, s, hz => ⟨[], by rcases hz with ⟨s', hz⟩ | hz <;> cases hz <;> rfl⟩
  | n + 1, acc, s, hz => by
    rcases hz with ⟨s', hz⟩ | hz
    · obtain ⟨⟨b, s1⟩, h1, hz⟩ := bind_eq_ok hz
      obtain ⟨vs, rfl⟩ := loop_added (.inl ⟨_, hz⟩)
      exact ⟨b :: vs, rfl⟩
    · unfold unpackLoopEnd at hz
      cases h1 : pipe cfg e s e.fresh with
      | ok q =>
        rw [h1] at hz
        obtain ⟨vs, rfl⟩ := loop_added (.inr hz)
        exact ⟨q.1 :: vs, rfl⟩
      | throw _ => rw [h1] at hz; cases hz; exact ⟨[], rfl⟩
      | _ => rw [h1] at hz; cases hz

/-- The first of them are those that were read completely. -/
theorem loop_read (L : Law (Scope.quiet K) cfg e.ti e.apply c) (F : Fresh e c) : ∀ {k : Nat} {xs acc zs : List T} {s : Ser},
    (∀ x ∈ xs, c.P x) → s.Reader (Scope.quiet K) → (rest : Bytes) → s.remaining = elemsEnc cfg e.ti c k xs ++ rest →
    ((∃ s', unpackLoop cfg e add xs.length s acc = .ok (zs, s')) ∨ unpackLoopEnd cfg e add xs.length s acc = .ok zs) →
    ∃ us vs, List.Forall₂ c.rel (xs.take k) us ∧ zs = (us ++ vs).foldl add acc
  | k, [], acc, zs, s, _, _, _, _, hz => by
    obtain ⟨vs, rfl⟩ := loop_added hz
    exact ⟨[], vs, by simp, rfl⟩
  | 0, x :: xs, acc, zs, s, h, hs, rest, hr, hz => by
    obtain ⟨vs, rfl⟩ := loop_added hz
    exact ⟨[], vs, by simp, rfl⟩
  | k + 1, x :: xs, acc, zs, s, h, hs, rest, hr, hz => by
    simp only [elemsEnc, List.take_succ_cons, List.flatMap_cons, List.append_assoc] at hr
    rcases (pipe_rd L (h x (by simp)) (F.fresh x (h x (by simp))) s hs).1 _ hr with ⟨b, hb, he⟩ | ⟨_, hf, _⟩
    case inr => exact hf.elim
    dsimp only at he
    simp only [List.length_cons, unpackLoop, unpackLoopEnd, he, Out.bind_eq, Out.bind_ok, Out.after] at hz
    obtain ⟨us, vs, hu, rfl⟩ := loop_read L F (k := k) (xs := xs) (fun x' hx => h x' (by simp [hx]))
      (hs.advance (by rw [hr]; simp)) rest (by rw [Ser.remaining_advance, hr, List.drop_left]; rfl) hz
    exact ⟨b :: us, vs, by simpa using ⟨hb, hu⟩, rfl⟩

/-- Sets and maps, into an empty one. -/
theorem grow_delivered (hc : cfg.Valid) (L : Law (Scope.quiet K) cfg e.ti e.apply c) (F : Fresh e c) {sz k : Nat}
    {xs zs : List T} {s : Ser} (h : SeqOk c xs) (hs : s.Reader (Scope.quiet K)) (rest : Bytes)
    (hr : s.remaining = sizeNode cfg cfg.check xs.length ++ (elemsEnc cfg e.ti c k xs ++ rest))
    (hz : (∃ s', serMapLike cfg sz add e s [] = .ok (zs, s')) ∨ serGrowEnd cfg add e s [] = .ok zs) :
    ∃ us vs, List.Forall₂ c.rel (xs.take k) us ∧ zs = (us ++ vs).foldl add [] := by
  rcases (pipeSize_rd (m := 0) hc h.lt s hs).1 _ hr with ⟨_, rfl, he⟩ | ⟨_, hf, _⟩
  case inr => exact hf.elim
  have hs2 := hs.advance (n := (sizeNode cfg cfg.check xs.length).length) (by rw [hr]; simp)
  have hr2 : (s.advance (sizeNode cfg cfg.check xs.length).length).remaining = elemsEnc cfg e.ti c k xs ++ rest := by
    rw [Ser.remaining_advance, hr, List.drop_left]
  simp only [serMapLike, serializeContainerSize, hs.not_footprinting, Bool.false_eq_true, if_false, he, Out.bind_eq, Out.bind_ok,
    hs2.unpacking, if_true, serGrowEnd, Out.after, List.length_nil] at hz
  exact loop_read L F h.all hs2 rest hr2 hz

/-! Adding an element removes none. -/

theorem emplaceUnique_stays {lt : T → T → Bool} {x y : T} : ∀ {acc : List T}, x ∈ acc → x ∈ emplaceUnique lt acc y
  | z :: zs, h => by
    unfold emplaceUnique
    split
    · rcases List.mem_cons.1 h with rfl | h
      · simp
      · exact List.mem_cons_of_mem _ (emplaceUnique_stays h)
    · split
      · exact List.mem_cons_of_mem _ h
      · exact h

theorem emplaceMulti_stays {lt : T → T → Bool} {x y : T} : ∀ {acc : List T}, x ∈ acc → x ∈ emplaceMulti lt acc y
  | z :: zs, h => by
    unfold emplaceMulti
    split
    · exact List.mem_cons_of_mem _ h
    · rcases List.mem_cons.1 h with rfl | h
      · simp
      · exact List.mem_cons_of_mem _ (emplaceMulti_stays h)

theorem emplaceUnordered_stays {multi : Bool} {eq : T → T → Bool} {arr : List T → List T} (harr : ∀ xs, (arr xs).Perm xs)
    {x y : T} {acc : List T} (h : x ∈ acc) : x ∈ emplaceUnordered multi eq arr acc y := by
  unfold emplaceUnordered
  split
  · exact h
  · exact (harr _).mem_iff.2 (List.mem_cons_of_mem _ h)

theorem foldl_stays (hadd : ∀ {x y : T} {acc : List T}, x ∈ acc → x ∈ add acc y) {x : T} : ∀ {vs acc : List T}, x ∈ acc →
    x ∈ vs.foldl add acc
  | [], _, h => h
  | _ :: vs, _, h => foldl_stays hadd (vs := vs) (hadd h)

/-- The counterpart of an element. -/
theorem forall₂_partner {S : T → T → Prop} : ∀ {xs zs : List T}, List.Forall₂ S xs zs → ∀ {i : Nat} {x : T}, xs[i]? = some x →
    ∃ z, zs[i]? = some z ∧ S x z
  | _, _, .nil, i, x, h => by simp at h
  | _, _, .cons h1 h2, 0, x, h => by cases h; exact ⟨_, rfl, h1⟩
  | _, _, .cons h1 h2, i + 1, x, h => forall₂_partner h2 (i := i) h

end
end Ckpt
