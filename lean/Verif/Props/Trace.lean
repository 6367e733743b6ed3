import Verif.Proofs.Trace
import Verif.Spec.Demo
/-!
# C16: what a `serialization_error` tells about the place where it was raised
-/

set_option autoImplicit false

namespace Ckpt

variable {cfg : Cfg} {env : Env} {T : Type}

/-- The traversal behind a read. -/
theorem ReadThrows.top {e : Elem T} {k : SerErrKind} {d : Nat} {tr : List Nat}
    (h : ReadThrows cfg e (.ser k d tr)) :
    ∃ s y, s.vdis = false ∧ traverseTop cfg e s y = .throw (.ser k d tr) := by
  have key : ∀ {β : Type} {s : Ser} {y : T} {f : T × Ser → Out β}, (∀ r, ∃ b, f r = .ok b) →
      (traverseTop cfg e s y >>= f) = .throw (.ser k d tr) → traverseTop cfg e s y = .throw (.ser k d tr) := by
    intro β s y f hf h
    cases hx : traverseTop cfg e s y with
    | ok r =>
      rw [hx] at h
      obtain ⟨b, hb⟩ := hf r
      change f r = _ at h
      rw [hb] at h
      cases h
    | throw err => rw [hx] at h; injection h with h; rw [h]
    | abort => rw [hx] at h; cases h
    | ub u => rw [hx] at h; cases h
    | fuel => rw [hx] at h; cases h
  have hfile : ∀ F w file y, (deserializeInPlaceFromFile cfg e F w file y).1 = .out (.throw (.ser k d tr)) →
      ∃ s y, s.vdis = false ∧ traverseTop cfg e s y = .throw (.ser k d tr) := by
    intro F w file y h
    unfold deserializeInPlaceFromFile at h
    split at h
    · cases h
    · next b w' _ =>
      refine ⟨_, y, rfl, key (fun _ => ⟨_, rfl⟩)
        (show unpackIO cfg e ((w'.files file).getD []) y = _ from ?_)⟩
      unfold leave at h
      cases hu : unpackIO cfg e ((w'.files file).getD []) y with
      | ok r => rw [hu] at h; dsimp only at h; split at h <;> cases h
      | throw err =>
        rw [hu] at h
        dsimp only at h
        split at h
        · injection h
        · cases h
      | abort => rw [hu] at h; cases h
      | ub u => rw [hu] at h; cases h
      | fuel => rw [hu] at h; cases h
  cases h with
  | memory mem h =>
    refine ⟨_, e.fresh, rfl, key (fun _ => ⟨_, rfl⟩) (show deserializeInPlace cfg e mem e.fresh = _ from ?_)⟩
    unfold deserialize deserializeType at h
    dsimp only at h
    split at h
    · next he => rw [he]; exact h
    · exact h
  | memoryInPlace mem y h => exact ⟨_, y, rfl, key (fun _ => ⟨_, rfl⟩) h⟩
  | stream inp h => exact ⟨_, e.fresh, rfl, key (fun _ => ⟨_, rfl⟩) h⟩
  | streamInPlace inp y h => exact ⟨_, y, rfl, key (fun _ => ⟨_, rfl⟩) h⟩
  | file F w file h => exact hfile F w file _ h
  | fileInPlace F w file y h => exact hfile F w file y h

/-- C16: with error checking, whatever the type, the data and the way of reading: a `serialization_error` that
reaches the caller was raised by the traversal of some object (or count, flag, ...) reached from the object being
read through traversals nested in each other.  Its depth is the number of enclosing traversals, its trace names
their types, innermost first, the type being read last, and the reason describes the innermost one. -/
theorem C16_located (hc : cfg.check = true) {n : Nat} {t : Ty} {k : SerErrKind} {d : Nat} {tr : List Nat}
    (h : ReadThrows cfg (elem cfg env n t) (.ser k d tr)) : Located cfg env (.obj t) k d tr := by
  obtain ⟨s, y, hs, h⟩ := h.top
  exact traverseTop_located hc n t hs h

/-- C16: so the trace ends with the name of the type being read, unless it is empty. -/
theorem C16_outermost (hc : cfg.check = true) {n : Nat} {t : Ty} {k : SerErrKind} {d : Nat} {tr : List Nat}
    (h : ReadThrows cfg (elem cfg env n t) (.ser k d tr)) :
    (tr = [] ∧ d = 0) ∨ ∃ tr', tr = tr' ++ [(env.ti t).name] := by
  obtain ⟨b, around, own, hl, hr, rfl, rfl⟩ := C16_located hc h
  have hlast : ∀ {p : List Traversed}, Leads env (.obj t) p → ∃ q, p = q ++ [.obj t] := by
    intro p hp
    induction hp with
    | here => exact ⟨[], rfl⟩
    | inside _ _ ih => obtain ⟨q, hq⟩ := ih; exact ⟨_ :: q, by rw [hq]; rfl⟩
  obtain ⟨q, hq⟩ := hlast hl
  cases q with
  | nil =>
    simp only [List.nil_append, List.cons.injEq] at hq
    obtain ⟨rfl, rfl⟩ := hq
    cases hr with
    | wrongType _ => exact .inr ⟨[], rfl⟩
    | memUsed _ => exact .inl ⟨rfl, rfl⟩
  | cons c q =>
    simp only [List.cons_append, List.cons.injEq] at hq
    obtain ⟨rfl, rfl⟩ := hq
    exact .inr ⟨own ++ q.map fun c => (c.info cfg env).name, by simp [Traversed.info]⟩

/-- C16: without error checking only the object being read is checked: a `serialization_error` has depth 0 and
describes that object. -/
theorem C16_unchecked (hc : cfg.check = false) {n : Nat} {t : Ty} {k : SerErrKind} {d : Nat} {tr : List Nat}
    (h : ReadThrows cfg (elem cfg env n t) (.ser k d tr)) : d = 0 ∧ Raised cfg env (.obj t) k tr := by
  obtain ⟨s, y, hs, h⟩ := h.top
  exact traverseTop_located_top hc n t hs h

/-- A count as it is stored with error checking. -/
def Demo.countBytes (n : Nat) : Bytes :=
  intBytes .little 4 (Demo.cfg true false).tiSize.idx ++ intBytes .little 8 n ++ intBytes .little 8 8

/-- Reading a vector of strings from the encoding of a vector of one `int`: the error is raised by the string. -/
example : ReadThrows (Demo.cfg true false) (elem (Demo.cfg true false) Demo.env 5 (.vec .str))
    (.ser (.wrongType (Demo.env.ti .str).idx (Demo.env.ti Demo.int).idx) 1
      [(Demo.env.ti .str).name, (Demo.env.ti (.vec .str)).name]) :=
  .memory (intBytes .little 4 (Demo.env.ti (.vec .str)).idx ++ Demo.countBytes 1 ++ Demo.countBytes 1 ++
    intBytes .little 4 (Demo.env.ti Demo.int).idx) (by rfl)

/-- Without error checking: the type of the vector itself is wrong. -/
example : ReadThrows (Demo.cfg false false) (elem (Demo.cfg false false) Demo.env 5 (.vec .str))
    (.ser (.wrongType (Demo.env.ti (.vec .str)).idx (Demo.env.ti .str).idx) 0 [(Demo.env.ti (.vec .str)).name]) :=
  .memory (intBytes .little 4 (Demo.env.ti .str).idx) (by rfl)

end Ckpt
