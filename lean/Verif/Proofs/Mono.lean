import Verif.Model.Universe
import Verif.Proofs.Laws
import Verif.Spec.Failure
/-!
A failure of a part, other than with `serialization_error`, is passed on.  As a special case the nesting bound of the
model only decides between "not finished" and the one final outcome: raising it never changes an outcome.
-/

set_option autoImplicit false

namespace Ckpt

/-- `a` is this failure or equals `b`. -/
def Out.Or (fl : Failure) {α : Type} (a b : Out α) : Prop := a = fl.out ∨ a = b

@[simp] theorem Failure.out_fuel {α : Type} : (Failure.fuel.out : Out α) = .fuel := rfl

/-- `a` is unfinished or equals `b`. -/
abbrev Out.Le {α : Type} (a b : Out α) : Prop := Out.Or .fuel a b

theorem Failure.bind_out {α β : Type} (fl : Failure) (f : α → Out β) : (fl.out : Out α) >>= f = fl.out := by
  cases fl <;> rfl

theorem Failure.catchDepth_out {α : Type} (fl : Failure) (ti : TI) : catchDepth ti (fl.out : Out α) = fl.out := by
  cases fl with
  | throw e h =>
    cases e with
    | ser k d t => exact absurd rfl (h k d t)
    | _ => rfl
  | _ => rfl

namespace Out.Or
variable {α β : Type} {fl : Failure}

theorem refl (a : Out α) : Out.Or fl a a := .inr rfl
theorem trans {a b c : Out α} (h1 : Out.Or fl a b) (h2 : Out.Or fl b c) : Out.Or fl a c := by
  rcases h1 with h1 | rfl
  · exact .inl h1
  · exact h2

theorem bind {a b : Out α} {f g : α → Out β} (h : Out.Or fl a b) (hf : ∀ x, Out.Or fl (f x) (g x)) :
    Out.Or fl (a >>= f) (b >>= g) := by
  rcases h with rfl | rfl
  · exact .inl (fl.bind_out f)
  · cases a with
    | ok x => exact hf x
    | _ => exact .inr rfl

theorem catchDepth {a b : Out α} (ti : TI) (h : Out.Or fl a b) :
    Out.Or fl (Ckpt.catchDepth ti a) (Ckpt.catchDepth ti b) := by
  rcases h with rfl | rfl
  · exact .inl (fl.catchDepth_out ti)
  · exact refl _

theorem eq_of_ne {a b : Out α} (h : Out.Or fl a b) (hne : a ≠ fl.out) : b = a := by
  rcases h with h | h
  · exact absurd h hne
  · exact h.symm

end Out.Or

namespace Out.Le
variable {α β : Type}

theorem refl (a : Out α) : Out.Le a a := .inr rfl

theorem bind {a b : Out α} {f g : α → Out β} (h : Out.Le a b) (hf : ∀ x, Out.Le (f x) (g x)) :
    Out.Le (a >>= f) (b >>= g) := Out.Or.bind h hf

theorem eq_of_ne {a b : Out α} (h : Out.Le a b) (hne : a ≠ .fuel) : b = a := by
  rcases h with h | h
  · exact absurd h hne
  · exact h.symm

end Out.Le

/-- One dispatch is another one, or fails. -/
def Handler.Or (fl : Failure) {T : Type} (h h' : Handler T) : Prop := ∀ s xs, Out.Or fl (h s xs) (h' s xs)

/-- One dispatch refines another. -/
abbrev Handler.Le {T : Type} (h h' : Handler T) : Prop := Handler.Or .fuel h h'

/-- Element types that differ only in their dispatch, one being the other or failing. -/
def Elem.Or (fl : Failure) {T : Type} (e e' : Elem T) : Prop :=
  e' = { e with apply := e'.apply } ∧ Handler.Or fl e.apply e'.apply

/-- Element types that differ only in their dispatch, which is refined. -/
abbrev Elem.Le {T : Type} (e e' : Elem T) : Prop := Elem.Or .fuel e e'

section
variable {T : Type} {cfg : Cfg} {e e' : Elem T} {fl : Failure}

theorem traverse_le {ti : TI} {h h' : Handler T} (hh : Handler.Or fl h h') (s : Ser) (xs : List T) :
    Out.Or fl (traverse cfg ti h s xs) (traverse cfg ti h' s xs) := by
  unfold traverse
  split
  · refine Out.Or.bind (.refl _) (fun s => Out.Or.bind (Out.Or.catchDepth _ (hh s xs)) (fun _ => .refl _))
  · exact hh s xs

theorem pipe_le (h : Elem.Or fl e e') (s : Ser) (x : T) : Out.Or fl (pipe cfg e s x) (pipe cfg e' s x) := by
  obtain ⟨he, hh⟩ := h
  rw [he]
  exact Out.Or.bind (traverse_le hh s [x]) (fun _ => .refl _)

theorem pipeEach_le (h : Elem.Or fl e e') : ∀ (xs : List T) (s : Ser),
    Out.Or fl (pipeEach cfg e s xs) (pipeEach cfg e' s xs)
  | [], _ => .refl _
  | x :: xs, s => by
    refine Out.Or.bind (pipe_le h s x) (fun p => ?_)
    exact Out.Or.bind (pipeEach_le h xs _) (fun _ => .refl _)

theorem serializeArray_le (h : Elem.Or fl e e') (s : Ser) (xs : List T) :
    Out.Or fl (serializeArray cfg e s xs) (serializeArray cfg e' s xs) := by
  obtain ⟨he, hh⟩ := h
  unfold serializeArray
  split
  · rw [he]; exact traverse_le hh s xs
  · exact .refl _

theorem dispatchEach_le {f g : Ser → T → Out (T × Ser)} (h : ∀ s x, Out.Or fl (f s x) (g s x)) :
    Handler.Or fl (dispatchEach f) (dispatchEach g) := by
  intro s xs
  induction xs generalizing s with
  | nil => exact .refl _
  | cons x xs ih =>
    refine Out.Or.bind (h s x) (fun p => ?_)
    exact Out.Or.bind (ih _) (fun _ => .refl _)

theorem constructVectorData_le (h : Elem.Or fl e e') (n : Nat) (v : Vec T) :
    constructVectorData cfg e' n v = constructVectorData cfg e n v := by
  rw [h.1]; rfl

theorem serVector_le (h : Elem.Or fl e e') (sz : Nat) (s : Ser) (v : Vec T) :
    Out.Or fl (serVector cfg sz e s v) (serVector cfg sz e' s v) := by
  unfold serVector
  have hti : e'.ti = e.ti := by rw [h.1]
  simp only [constructVectorData_le h, hti]
  split
  · exact Out.Or.bind (serializeArray_le h _ _) (fun _ => .refl _)
  · refine Out.Or.bind (.refl _) (fun _ => ?_)
    exact Out.Or.bind (serializeArray_le h _ _) (fun _ => .refl _)

theorem unpackLoop_le (h : Elem.Or fl e e') (add : List T → T → List T) : ∀ (n : Nat) (s : Ser)
    (acc : List T), Out.Or fl (unpackLoop cfg e add n s acc) (unpackLoop cfg e' add n s acc)
  | 0, _, _ => .refl _
  | n + 1, s, acc => by
    have hf : e'.fresh = e.fresh := by rw [h.1]
    unfold unpackLoop
    rw [hf]
    exact Out.Or.bind (pipe_le h s _) (fun p => unpackLoop_le h add n _ _)

theorem serList_le (h : Elem.Or fl e e') (sz : Nat) (s : Ser) (xs : List T) :
    Out.Or fl (serList cfg sz e s xs) (serList cfg sz e' s xs) := by
  have hf : e'.fresh = e.fresh := by rw [h.1]
  have hc : e'.copyable = e.copyable := by rw [h.1]
  unfold serList
  refine Out.Or.bind (.refl _) (fun p => ?_)
  obtain ⟨_, _⟩ := p
  dsimp only
  split
  · unfold deserializeOrderedElems
    rw [hf, hc]
    split
    · exact pipeEach_le h _ _
    · exact unpackLoop_le h _ _ _ _
  · exact pipeEach_le h _ _

theorem serMapLike_le (h : Elem.Or fl e e') (sz : Nat) (em : List T → T → List T) (s : Ser) (xs : List T) :
    Out.Or fl (serMapLike cfg sz em e s xs) (serMapLike cfg sz em e' s xs) := by
  unfold serMapLike
  refine Out.Or.bind (.refl _) (fun p => ?_)
  obtain ⟨_, _⟩ := p
  dsimp only
  split
  · exact unpackLoop_le h _ _ _ _
  · exact pipeEach_le h _ _

theorem serializeQueueElems_le (h : Elem.Or fl e e') : ∀ (xs : List T) (s : Ser),
    Out.Or fl (serializeQueueElems cfg e s xs) (serializeQueueElems cfg e' s xs)
  | [], _ => .refl _
  | x :: xs, s => Out.Or.bind (pipe_le h s x) (fun _ => serializeQueueElems_le h xs _)

theorem serQueue_le (h : Elem.Or fl e e') (sz : Nat) (s : Ser) (xs : List T) :
    Out.Or fl (serQueue cfg sz e s xs) (serQueue cfg sz e' s xs) := by
  have hti : e'.ti = e.ti := by rw [h.1]
  unfold serQueue
  rw [hti]
  split
  · exact .refl _
  · refine Out.Or.bind (.refl _) (fun p => ?_)
    obtain ⟨_, _⟩ := p
    dsimp only
    split
    · exact unpackLoop_le h _ _ _ _
    · exact Out.Or.bind (serializeQueueElems_le h _ _) (fun _ => .refl _)

theorem serMembers_le : ∀ {es es' : List (Elem T)}, List.Forall₂ (Elem.Or fl) es es' → ∀ (s : Ser)
    (xs : List T), Out.Or fl (serMembers cfg es s xs) (serMembers cfg es' s xs)
  | [], [], _, _, [] => .refl _
  | [], [], _, _, _ :: _ => .refl _
  | _ :: _, _ :: _, .cons h hs, s, x :: xs => by
    refine Out.Or.bind (pipe_le h s x) (fun p => ?_)
    exact Out.Or.bind (serMembers_le hs _ xs) (fun _ => .refl _)
  | _ :: _, _ :: _, .cons _ _, _, [] => .refl _

theorem serPair_le {A B : Type} {e1 e1' : Elem A} {e2 e2' : Elem B} (h1 : Elem.Or fl e1 e1') (h2 : Elem.Or fl e2 e2') (sz : Nat)
    (s : Ser) (x : A × B) : Out.Or fl (serPair cfg sz e1 e2 s x) (serPair cfg sz e1' e2' s x) := by
  unfold serPair
  refine Out.Or.bind (pipe_le h1 _ _) (fun _ => ?_)
  exact Out.Or.bind (pipe_le h2 _ _) (fun _ => .refl _)

theorem forall₂_getElem? {α β : Type} {R : α → β → Prop} {as : List α} {bs : List β}
    (h : List.Forall₂ R as bs) (i : Nat) :
    (as[i]? = none ∧ bs[i]? = none) ∨ ∃ a b, as[i]? = some a ∧ bs[i]? = some b ∧ R a b := by
  induction h generalizing i with
  | nil => simp
  | @cons a b as bs hab h ih =>
    cases i with
    | zero => right; exact ⟨a, b, by simp, by simp, hab⟩
    | succ i => simpa using ih i

theorem visitMembers_le {es es' : List (Elem T)} (h : List.Forall₂ (Elem.Or fl) es es') :
    ∀ (is : List Nat) (s : Ser) (xs : List T),
    Out.Or fl (visitMembers cfg es is s xs) (visitMembers cfg es' is s xs)
  | [], _, _ => .refl _
  | i :: is, s, xs => by
    unfold visitMembers
    rcases forall₂_getElem? h i with ⟨h1, h2⟩ | ⟨a, b, h1, h2, hab⟩
    · simp only [h1, h2]; exact .refl _
    · simp only [h1, h2]
      cases xs[i]? with
      | none => exact .refl _
      | some x => exact Out.Or.bind (pipe_le hab s x) (fun _ => visitMembers_le h is _ _)

theorem serTuple_le {es es' : List (Elem T)} (h : List.Forall₂ (Elem.Or fl) es es') (s : Ser) (xs : List T) :
    Out.Or fl (serTuple cfg es s xs) (serTuple cfg es' s xs) := by
  unfold serTuple
  rw [h.length_eq]
  exact visitMembers_le h _ _ _

theorem serOptional_le (h : Elem.Or fl e e') (sz : Nat) (s : Ser) (x : Option T) :
    Out.Or fl (serOptional cfg sz e s x) (serOptional cfg sz e' s x) := by
  have hti : e'.ti = e.ti := by rw [h.1]
  have hf : e'.fresh = e.fresh := by rw [h.1]
  unfold serOptional
  rw [hti, hf]
  split
  · exact .refl _
  · split
    · refine Out.Or.bind (.refl _) (fun p => ?_)
      obtain ⟨_, _⟩ := p
      dsimp only
      split
      · exact Out.Or.bind (pipe_le h _ _) (fun _ => .refl _)
      · exact .refl _
    · refine Out.Or.bind (.refl _) (fun p => ?_)
      cases x with
      | none => exact .refl _
      | some v => exact Out.Or.bind (pipe_le h _ _) (fun _ => .refl _)

theorem serializeEntry_le : ∀ {es es' : List (Elem T)}, List.Forall₂ (Elem.Or fl) es es' → ∀ (s : Ser)
    (v : Variant T) (entry cur : Nat),
    Out.Or fl (serializeEntry cfg es s v entry cur) (serializeEntry cfg es' s v entry cur)
  | [], [], _, _, _, _, _ => .refl _
  | e :: _, e' :: _, .cons h hs, s, v, entry, cur => by
    have hf : e'.fresh = e.fresh := by rw [h.1]
    unfold serializeEntry
    rw [hf]
    split
    · split
      · exact Out.Or.bind (pipe_le h _ _) (fun _ => .refl _)
      · cases v with
        | valueless => exact .refl _
        | holds i x =>
          simp only
          split
          · exact Out.Or.bind (pipe_le h _ _) (fun _ => .refl _)
          · exact .refl _
    · exact serializeEntry_le hs s v entry (cur + 1)

theorem serVariant_le {es es' : List (Elem T)} (h : List.Forall₂ (Elem.Or fl) es es') (s : Ser)
    (v : Variant T) : Out.Or fl (serVariant cfg es s v) (serVariant cfg es' s v) :=
  Out.Or.bind (.refl _) (fun _ => serializeEntry_le h _ _ _ _)

theorem serUniquePtr_le (h : Elem.Or fl e e') (sz : Nat) (virt : Option (Virt T)) (s : Ser) (p : Option T) :
    Out.Or fl (serUniquePtr cfg sz e virt s p) (serUniquePtr cfg sz e' virt s p) := by
  have hf : e'.fresh = e.fresh := by rw [h.1]
  have hr : ∀ s t, reconstructPointedTo cfg e' virt s t = reconstructPointedTo cfg e virt s t := by
    intro s t
    unfold reconstructPointedTo
    rw [hf]
  have key : ∀ (r : Bool × Ser), Out.Or fl
      (if r.1 then .ok (if r.2.isUnpacking then none else p, r.2)
        else reconstructPointedTo cfg e virt r.2 p >>= fun q => match q.1 with
          | none => .ub .nullDeref
          | some t => pipe cfg e q.2 t >>= fun z => .ok (some z.1, z.2))
      (if r.1 then .ok (if r.2.isUnpacking then none else p, r.2)
        else reconstructPointedTo cfg e' virt r.2 p >>= fun q => match q.1 with
          | none => .ub .nullDeref
          | some t => pipe cfg e' q.2 t >>= fun z => .ok (some z.1, z.2)) := by
    intro r
    rw [hr]
    split
    · exact .refl _
    · refine Out.Or.bind (.refl _) (fun q => ?_)
      obtain ⟨t, s'⟩ := q
      cases t with
      | none => exact .refl _
      | some t => exact Out.Or.bind (pipe_le h _ _) (fun _ => .refl _)
  unfold serUniquePtr
  by_cases hfp : s.isFootprinting = true
  · simp only [hfp, if_true]
    exact key (p.isNone, s.addBytes sz)
  · simp only [hfp]
    exact Out.Or.bind (.refl _) key

end

theorem serChain_le {fl : Failure} {P : Type} {cfg : Cfg} {reg : SerReg} {root : Nat} {part part' : Nat → Elem P}
    (h : ∀ k, Elem.Or fl (part k) (part' k)) : ∀ (ks : List Nat) (s : Ser) (ps : List P),
    Out.Or fl (serChain cfg reg root part ks s ps) (serChain cfg reg root part' ks s ps)
  | [], _, [] => .refl _
  | [], _, _ :: _ => .refl _
  | _ :: _, _, [] => .refl _
  | k :: ks, s, p :: ps => by
    unfold serChain
    refine Out.Or.bind (.refl _) (fun kind => ?_)
    split
    · exact .refl _
    · refine Out.Or.bind (pipe_le (h k) _ _) (fun _ => ?_)
      exact Out.Or.bind (serChain_le h ks _ ps) (fun _ => .refl _)

section
variable {cfg : Cfg} {env : Env} {h h' : Ty → Handler Val} {fl : Failure}

theorem elemOf_le (hh : ∀ t, Handler.Or fl (h t) (h' t)) (t : Ty) :
    Elem.Or fl (env.elemOf (h t) t) (env.elemOf (h' t) t) := ⟨rfl, hh t⟩

theorem elems_le (hh : ∀ t, Handler.Or fl (h t) (h' t)) (ts : List Ty) :
    List.Forall₂ (Elem.Or fl) (ts.map fun t => env.elemOf (h t) t) (ts.map fun t => env.elemOf (h' t) t) := by
  induction ts with
  | nil => exact .nil
  | cons t ts ih => exact .cons (elemOf_le hh t) ih

theorem onPart_le {c : Nat} {f g : Ser → List Val → Out (List Val × Ser)}
    (hfg : ∀ s p, Out.Or fl (f s p) (g s p)) (s : Ser) (v : Val) :
    Out.Or fl (onPart env c f s v) (onPart env c g s v) := by
  cases v <;> try exact .refl _
  unfold onPart
  simp only
  split
  · exact Out.Or.bind (hfg _ _) (fun _ => .refl _)
  · exact .refl _

theorem dispatchStep_le (hh : ∀ t, Handler.Or fl (h t) (h' t)) (t : Ty) :
    Handler.Or fl (dispatchStep cfg env h t) (dispatchStep cfg env h' t) := by
  have he := elemOf_le (env := env) hh
  have hes := elems_le (env := env) hh
  cases t with
  | prim | enm | chrono | str | vecBool => exact fun s xs => .refl _
  | vec t =>
    refine dispatchEach_le (fun s x => ?_)
    cases x <;> try exact .refl _
    exact Out.Or.bind (serVector_le (he t) _ _ _) (fun _ => .refl _)
  | seq k t =>
    refine dispatchEach_le (fun s x => ?_)
    cases x <;> try exact .refl _
    exact Out.Or.bind (serList_le (he t) _ _ _) (fun _ => .refl _)
  | queue t =>
    refine dispatchEach_le (fun s x => ?_)
    cases x <;> try exact .refl _
    exact Out.Or.bind (serQueue_le (he t) _ _ _) (fun _ => .refl _)
  | oset a cmp t =>
    refine dispatchEach_le (fun s x => ?_)
    cases x <;> try exact .refl _
    exact Out.Or.bind (serMapLike_le (he t) _ _ _ _) (fun _ => .refl _)
  | uset a eq t =>
    refine dispatchEach_le (fun s x => ?_)
    cases x <;> try exact .refl _
    exact Out.Or.bind (serMapLike_le (he t) _ _ _ _) (fun _ => .refl _)
  | pair a b =>
    refine dispatchEach_le (fun s x => ?_)
    split
    · exact Out.Or.bind (serPair_le (he a) (he b) _ _ _) (fun _ => .refl _)
    · exact .refl _
  | tuple ts =>
    refine dispatchEach_le (fun s x => ?_)
    cases x <;> try exact .refl _
    exact Out.Or.bind (serTuple_le (hes ts) _ _) (fun _ => .refl _)
  | opt t =>
    refine dispatchEach_le (fun s x => ?_)
    cases x <;> try exact .refl _
    exact Out.Or.bind (serOptional_le (he t) _ _ _) (fun _ => .refl _)
  | variant ts =>
    simp only [dispatchStep]
    split
    · exact fun s xs => .refl _
    refine dispatchEach_le (fun s x => ?_)
    cases x <;> try exact .refl _
    · exact Out.Or.bind (.refl _) (fun _ => Out.Or.bind (serVariant_le (hes ts) _ _) (fun _ => .refl _))
    · exact Out.Or.bind (.refl _) (fun _ => Out.Or.bind (serVariant_le (hes ts) _ _) (fun _ => .refl _))
  | uptr t =>
    refine dispatchEach_le (fun s x => ?_)
    cases x <;> try exact .refl _
    exact Out.Or.bind (serUniquePtr_le (he t) _ _ _ _) (fun _ => .refl _)
  | arr k t =>
    refine dispatchEach_le (fun s x => ?_)
    cases x <;> try exact .refl _
    simp only
    split
    · exact Out.Or.bind (serializeArray_le (he t) _ _) (fun _ => .refl _)
    · exact .refl _
  | cls c =>
    have hm : ∀ k s p, Out.Or fl
        (serMembers cfg (((env.cls k).visited s).map fun t => env.elemOf (h t) t) s p)
        (serMembers cfg (((env.cls k).visited s).map fun t => env.elemOf (h' t) t) s p) :=
      fun k s p => serMembers_le (hes _) s p
    have ho : Handler.Or fl
        (dispatchEach (onPart env c fun s p => serMembers cfg
          (((env.cls c).visited s).map fun t => env.elemOf (h t) t) s p))
        (dispatchEach (onPart env c fun s p => serMembers cfg
          (((env.cls c).visited s).map fun t => env.elemOf (h' t) t) s p)) :=
      dispatchEach_le (fun s x => onPart_le (hm c) s x)
    unfold dispatchStep
    simp only
    split
    · intro s xs
      dsimp only
      split
      · exact ho _ _
      · split
        · refine Out.Or.bind (serChain_le (fun k => ⟨rfl, fun s ps => ?_⟩) _ _ _) (fun _ => .refl _)
          exact dispatchEach_le (fun s x => hm k s x) _ _
        · exact .refl _
    · exact ho

theorem dispatch_le_succ (cfg : Cfg) (env : Env) : ∀ (n : Nat) (t : Ty),
    Handler.Le (dispatch cfg env n t) (dispatch cfg env (n + 1) t)
  | 0, _ => fun _ _ => .inl rfl
  | n + 1, t => dispatchStep_le (fun t => dispatch_le_succ cfg env n t) t

theorem dispatch_le (cfg : Cfg) (env : Env) {n m : Nat} (hnm : n ≤ m) (t : Ty) :
    Handler.Le (dispatch cfg env n t) (dispatch cfg env m t) := by
  induction hnm with
  | refl => exact fun _ _ => .refl _
  | step _ ih => exact fun s xs => (ih s xs).trans (dispatch_le_succ cfg env _ t s xs)

/-- Raising the nesting bound. -/
theorem elem_le (cfg : Cfg) (env : Env) {n m : Nat} (hnm : n ≤ m) (t : Ty) :
    Elem.Le (elem cfg env n t) (elem cfg env m t) := ⟨rfl, dispatch_le cfg env hnm t⟩

theorem traverseTop_le {T : Type} {e e' : Elem T} (he : Elem.Or fl e e') (s : Ser) (x : T) :
    Out.Or fl (traverseTop cfg e s x) (traverseTop cfg e' s x) := by
  have hti : e'.ti = e.ti := by rw [he.1]
  unfold traverseTop
  rw [hti]
  split
  · exact pipe_le he s x
  · refine Out.Or.bind (.refl _) (fun s => ?_)
    exact Out.Or.bind (pipe_le he s x) (fun _ => .refl _)

end
end Ckpt
