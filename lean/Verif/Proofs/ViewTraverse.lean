import Verif.Model.View
import Verif.Proofs.Laws
/-!
The order in which the traversals of views visit indices.
-/

set_option autoImplicit false

namespace Ckpt

/-- Run a body over a list of indices. -/
def runAll {α σ : Type} (body : α → σ → Out σ) : List α → σ → Out σ
  | [], st => .ok st
  | i :: is, st => (body i st).bind (runAll body is)

theorem runAll_append {α σ : Type} (body : α → σ → Out σ) : ∀ (a b : List α) (st : σ),
    runAll body (a ++ b) st = (runAll body a st).bind (runAll body b)
  | [], b, st => rfl
  | i :: is, b, st => by
    simp only [List.cons_append, runAll, Out.bind_assoc]
    congr 1; funext st; exact runAll_append body is b st

theorem runAll_foldlM {α σ : Type} (body : α → σ → Out σ) : ∀ (l : List α) (st : σ),
    runAll body l st = l.foldlM (fun st a => body a st) st
  | [], _ => rfl
  | i :: is, st => by
    simp only [runAll, List.foldlM_cons, Out.bind_eq]
    congr 1; funext st; exact runAll_foldlM body is st

theorem lex_irrefl : ∀ (l : List Nat), ¬ List.Lex (· < ·) l l
  | [], h => by cases h
  | a :: l, h => by
    cases h with
    | cons h => exact lex_irrefl l h
    | rel h => exact Nat.lt_irrefl _ h

theorem runAll_map {α β σ : Type} (body : β → σ → Out σ) (f : α → β) : ∀ (l : List α) (st : σ),
    runAll body (l.map f) st = runAll (fun a => body (f a)) l st
  | [], st => rfl
  | i :: is, st => by
    simp only [List.map_cons, runAll]
    congr 1; funext st; exact runAll_map body f is st

theorem runAll_flatMap {α β σ : Type} (body : β → σ → Out σ) (f : α → List β) : ∀ (l : List α) (st : σ),
    runAll body (l.flatMap f) st = runAll (fun a => runAll body (f a)) l st
  | [], st => rfl
  | i :: is, st => by
    simp only [List.flatMap_cons, runAll, runAll_append]
    congr 1; funext st; exact runAll_flatMap body f is st

/-- All indices within the extents, last index fastest. -/
def allIdx : List Nat → List (List Nat)
  | [] => [[]]
  | n :: ns => (List.range n).flatMap fun i => (allIdx ns).map (i :: ·)

theorem forLoop_eq {σ : Type} (body : Nat → σ → Out σ) : ∀ (n i : Nat) (st : σ),
    forLoop body n i st = runAll body (List.range' i n) st
  | 0, i, st => rfl
  | n + 1, i, st => by
    simp only [forLoop, List.range'_succ, runAll, Out.bind_eq]
    congr 1; funext st; exact forLoop_eq body n (i + 1) st

theorem traverseManual_eq {σ : Type} (body : List Nat → σ → Out σ) : ∀ (ns pre : List Nat) (st : σ),
    traverseManual body ns pre st = runAll (fun idx => body (pre ++ idx)) (allIdx ns) st
  | [], pre, st => by
    simp [traverseManual, allIdx, runAll]
  | n :: ns, pre, st => by
    simp only [traverseManual, allIdx, runAll_flatMap, forLoop_eq, List.range_eq_range']
    congr 1; funext i st
    rw [traverseManual_eq body ns (pre ++ [i]) st, runAll_map]
    simp

theorem mem_allIdx : ∀ {ns idx : List Nat}, idx ∈ allIdx ns ↔ List.Forall₂ (· < ·) idx ns
  | [], idx => by simp [allIdx]
  | n :: ns, idx => by
    simp only [allIdx, List.mem_flatMap, List.mem_range, List.mem_map]
    constructor
    · rintro ⟨i, hi, rest, hr, rfl⟩
      exact .cons hi (mem_allIdx.1 hr)
    · intro h
      cases h with
      | cons h1 h2 => exact ⟨_, h1, _, mem_allIdx.2 h2, rfl⟩

theorem allIdx_sorted : ∀ (ns : List Nat), (allIdx ns).Pairwise (List.Lex (· < ·))
  | [] => by simp [allIdx]
  | n :: ns => by
    rw [allIdx, List.pairwise_flatMap]
    refine ⟨fun i _ => ?_, ?_⟩
    · rw [List.pairwise_map]
      exact (allIdx_sorted ns).imp fun h => .cons h
    · have := List.pairwise_lt_range (n := n)
      refine this.imp ?_
      intro a b hab x hx y hy
      simp only [List.mem_map] at hx hy
      obtain ⟨x, _, rfl⟩ := hx
      obtain ⟨y, _, rfl⟩ := hy
      exact .rel hab

theorem allIdx_length : ∀ (ns : List Nat), (allIdx ns).length = ns.prod
  | [] => by simp [allIdx]
  | n :: ns => by
    simp [allIdx, allIdx_length ns]

theorem countLoop_visits {σ : Type} (child : Nat → σ → Out (Nat × σ)) : ∀ (n i neq : Nat) (st : σ),
    (countLoop child n i neq st).bind (fun r => .ok r.2)
      = runAll (fun i st => (child i st).bind fun r => .ok r.2) (List.range' i n) st
  | 0, i, neq, st => rfl
  | n + 1, i, neq, st => by
    simp only [countLoop, List.range'_succ, runAll, Out.bind_eq, Out.bind_assoc, Out.bind_ok]
    congr 1; funext r
    exact countLoop_visits child n (i + 1) _ r.2

theorem traverseRecur_visits {σ : Type} (call : List Nat → σ → Out (Bool × σ)) : ∀ (ns pre : List Nat) (st : σ),
    (traverseRecur call ns pre st).bind (fun r => .ok r.2)
      = runAll (fun idx st => (call (pre ++ idx) st).bind fun r => .ok r.2) (allIdx ns) st
  | [], pre, st => by
    simp [traverseRecur, allIdx, runAll, Out.bind_assoc]
  | n :: ns, pre, st => by
    simp only [traverseRecur, allIdx, runAll_flatMap, countLoop_visits, List.range_eq_range']
    congr 1; funext i st
    rw [traverseRecur_visits call ns (pre ++ [i]) st, runAll_map]
    simp

end Ckpt
