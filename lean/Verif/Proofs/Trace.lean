import Verif.Proofs.Frame
/-!
What a `serialization_error` says about where it was raised.
-/

set_option autoImplicit false

namespace Ckpt

theorem Leads.snoc {env : Env} {a c : Traversed} (hi : Inside env a c) : ∀ {path : List Traversed},
    Leads env c path → Leads env a (path ++ [a])
  | _, .here => .inside hi .here
  | _, .inside h hl => .inside h (Leads.snoc hi hl)

/-- Exceptions of the serialization code of `a`. -/
def BodyErr (cfg : Cfg) (env : Env) (a : Traversed) (e : Err) : Prop :=
  ∀ k d tr, e = .ser k d tr → ∃ b, Inside env a b ∧ Located cfg env b k d tr

/-- Exceptions that leave the traversal of `a`. -/
def OutErr (cfg : Cfg) (env : Env) (a : Traversed) (e : Err) : Prop :=
  ∀ k d tr, e = .ser k d tr → Located cfg env a k d tr

section
variable {cfg : Cfg} {env : Env}

theorem bodyErr_other (a : Traversed) : Other (BodyErr cfg env a) := fun _ h k d tr he => absurd he (h k d tr)

theorem outErr_lifts (hc : cfg.check = true) (b : Traversed) :
    Lifts cfg (b.info cfg env) (BodyErr cfg env b) (OutErr cfg env b) where
  other := fun _ h k d tr he => absurd he (h k d tr)
  wrongType := fun _ i hi k d tr he => by
    injection he with h1 h2 h3
    subst h1 h2 h3
    exact ⟨b, [], _, .here, .wrongType hi, rfl, rfl⟩
  memUsed := fun _ i n hi k d tr he => by
    injection he with h1 h2 h3
    subst h1 h2 h3
    exact ⟨b, [], _, .here, .memUsed hi, rfl, rfl⟩
  deeper := fun _ k d tr h k' d' tr' he => by
    injection he with h1 h2 h3
    subst h1 h2 h3
    obtain ⟨c, hi, x, around, own, hl, hr, rfl, rfl⟩ := h _ _ _ rfl
    exact ⟨x, around ++ [b], own, hl.snoc hi, hr, by simp, by simp⟩
  plain := fun h => by rw [hc] at h; cases h

theorem bodyErr_lifts (hc : cfg.check = true) (a b : Traversed) (hi : Inside env a b) :
    Lifts cfg (b.info cfg env) (BodyErr cfg env b) (BodyErr cfg env a) where
  other := bodyErr_other a
  wrongType := fun h i hb k d tr he => ⟨b, hi, (outErr_lifts hc b).wrongType h i hb k d tr he⟩
  memUsed := fun h i n hb k d tr he => ⟨b, hi, (outErr_lifts hc b).memUsed h i n hb k d tr he⟩
  deeper := fun h k d tr hb k' d' tr' he => ⟨b, hi, (outErr_lifts hc b).deeper h k d tr hb k' d' tr' he⟩
  plain := fun h => by rw [hc] at h; cases h

theorem movesAny : Moves (fun _ _ => True) :=
  ⟨fun _ => trivial, fun _ _ => trivial, fun _ _ => trivial, fun _ _ => trivial, fun _ _ _ _ _ _ => trivial⟩

theorem traverseTop_located (hc : cfg.check = true) (n : Nat) (t : Ty) {s : Ser} (hs : s.vdis = false) {x : Val}
    {k : SerErrKind} {d : Nat} {tr : List Nat}
    (h : traverseTop cfg (elem cfg env n t) s x = .throw (.ser k d tr)) : Located cfg env (.obj t) k d tr := by
  have he : (elem cfg env n t).Tr cfg (OutErr cfg env (.obj t)) (fun _ _ => True) false :=
    Elem.Tr.lift (e := elem cfg env n t) (outErr_lifts hc (.obj t)) movesAny
      (dispatch_lift bodyErr_other (bodyErr_lifts hc) movesAny n t)
  have := traverseTop_fr (cfg := cfg) (outErr_lifts hc (.obj t)).other movesAny
    (fun h => by rw [hc] at h; cases h) (fun h => by rw [hc] at h; cases h) he hs x
  rw [h] at this
  exact this _ _ _ rfl

/-- Without error checking. -/
theorem traverseTop_located_top (hc : cfg.check = false) (n : Nat) (t : Ty) {s : Ser} (hs : s.vdis = false) {x : Val}
    {k : SerErrKind} {d : Nat} {tr : List Nat}
    (h : traverseTop cfg (elem cfg env n t) s x = .throw (.ser k d tr)) :
    d = 0 ∧ Raised cfg env (.obj t) k tr := by
  let E : Err → Prop := fun e => ∀ k d tr, e ≠ .ser k d tr
  have hE : ∀ ti, Lifts cfg ti E E := fun ti =>
    ⟨fun _ h => h, fun h => (by rw [hc] at h; cases h), fun h => (by rw [hc] at h; cases h),
      fun h => (by rw [hc] at h; cases h), fun _ _ h => h⟩
  let E' : Err → Prop := fun e => ∀ k d tr, e = .ser k d tr → d = 0 ∧ Raised cfg env (.obj t) k tr
  have he : (elem cfg env n t).Tr cfg E' (fun _ _ => True) false :=
    Elem.Tr.mono (E := E) (fun _ h k d tr he => absurd he (h k d tr))
      (Elem.Tr.lift (e := elem cfg env n t) (hE _) movesAny
        (dispatch_lift (E := fun _ => E) (fun _ _ h => h) (fun _ _ _ => hE _) movesAny n t))
  have := traverseTop_fr (cfg := cfg) (E := E') (e := elem cfg env n t)
    (fun _ h k d tr he => absurd he (h k d tr)) movesAny
    (fun _ i hi k d tr he => by
      injection he with h1 h2 h3
      subst h1 h2 h3
      exact ⟨rfl, .wrongType hi⟩)
    (fun _ i m hi k d tr he => by
      injection he with h1 h2 h3
      subst h1 h2 h3
      exact ⟨rfl, .memUsed hi⟩) he hs x
  rw [h] at this
  exact this _ _ _ rfl

end
end Ckpt
