import Verif.Model.Compose
import Verif.Proofs.Laws
/-!
# C65: containers over the types of `Verif.Model.Universe`

A container of types of `Verif.Model.Universe` is described twice: as a type of that universe, and as a `CppType` over
its element types.  Both run the same functions.
-/

set_option autoImplicit false

namespace Ckpt

/-- `h` and `g` do the same to objects that are represented by `f` for `g`. -/
def RunsAs {T U : Type} (f : T → U) (h : Handler T) (g : Handler U) : Prop :=
  ∀ s xs, g s (xs.map f) = (do
    let (ys, s) ← h s xs
    .ok (ys.map f, s))

section
variable {T U : Type} {f : T → U} {cfg : Cfg} {env : Env}

/-- An array is handled alike if every object is. -/
theorem RunsAs.each {h : Ser → T → Out (T × Ser)} {g : Ser → U → Out (U × Ser)}
    (H : ∀ s x, g s (f x) = (do
      let (y, s) ← h s x
      .ok (f y, s))) : RunsAs f (dispatchEach h) (dispatchEach g) := by
  intro s xs
  induction xs generalizing s with
  | nil => rfl
  | cons x xs ih =>
    simp only [List.map_cons, dispatchEach, H]
    cases h s x with
    | ok r =>
      obtain ⟨y, s⟩ := r
      simp only [Out.bind_eq, Out.bind_ok, ih]
      cases dispatchEach h s xs with
      | ok q => rfl
      | _ => rfl
    | _ => rfl

/-- A vector as a value of the universe. -/
def Vec.toVal (v : Vec Val) : Val := .vec v.cap v.elems

/-- A pair as a value of the universe. -/
def pairToVal (p : Val × Val) : Val := .coll [p.1, p.2]

/-- **C65**: containers of types of the universe are the types of the universe. -/
theorem C65_containers_agree (cfg : Cfg) (env : Env) (t u : Ty) (n k : Nat) (a : Assoc) (cmp : Nat) (c : Bool)
    (kind : SeqKind) :
    RunsAs Vec.toVal ((CppType.vector cfg (env.ti (.vec t)) c (.base cfg env t)).apply n)
      (dispatch cfg env (n + 1) (.vec t)) ∧
    RunsAs Val.coll ((CppType.list cfg (env.ti (.seq kind t)) c (.base cfg env t)).apply n)
      (dispatch cfg env (n + 1) (.seq kind t)) ∧
    RunsAs Val.coll ((CppType.queue cfg (env.ti (.queue t)) c (.base cfg env t)).apply n)
      (dispatch cfg env (n + 1) (.queue t)) ∧
    RunsAs Val.coll ((CppType.ordered cfg (env.ti (.oset a cmp t)) c a (env.lt cmp) (.base cfg env t)).apply n)
      (dispatch cfg env (n + 1) (.oset a cmp t)) ∧
    RunsAs Val.coll ((CppType.unordered cfg (env.ti (.uset a cmp t)) c a (env.eq cmp) (env.arrange cmp)
      (.base cfg env t)).apply n) (dispatch cfg env (n + 1) (.uset a cmp t)) ∧
    RunsAs pairToVal ((CppType.pair cfg (env.ti (.pair t u)) (.base cfg env t) (.base cfg env u)).apply n)
      (dispatch cfg env (n + 1) (.pair t u)) ∧
    RunsAs Val.opt ((CppType.optional cfg (env.ti (.opt t)) (.base cfg env t)).apply n)
      (dispatch cfg env (n + 1) (.opt t)) ∧
    RunsAs Val.coll ((CppType.array cfg (env.ti (.arr k t)) k (.base cfg env t)).apply n)
      (dispatch cfg env (n + 1) (.arr k t)) := by
  refine ⟨.each fun s x => rfl, .each fun s x => rfl, .each fun s x => rfl, .each fun s x => rfl,
    .each fun s x => rfl, .each fun s x => rfl, .each fun s x => rfl, .each fun s x => ?_⟩
  show (if x.length = k then _ else _) = _
  by_cases h : x.length = k
  · simp only [if_pos h]; rfl
  · simp only [if_neg h]; rfl

/-- **C65**: so is a pointer to objects that are not serialized virtually; and a class of the universe is serialized
virtually exactly if the universe says so. -/
theorem C65_pointers_agree (cfg : Cfg) (env : Env) (t : Ty) (n : Nat) :
    ((CppType.base cfg env t).poly = false → RunsAs Val.ptr
      ((CppType.uniquePtr cfg (env.ti (.uptr t)) (.base cfg env t)).apply n) (dispatch cfg env (n + 1) (.uptr t))) ∧
    ((CppType.base cfg env t).poly = true ↔ (env.virt cfg t).isSome) := by
  have hv : (CppType.base cfg env t).poly = (env.virt cfg t).isSome := by
    show env.isVirt t = _
    cases t <;> try rfl
    rename_i c
    show (env.cls c).virt = (if (env.cls c).virt then _ else _ : Option _).isSome
    cases (env.cls c).virt <;> rfl
  refine ⟨fun h => ?_, by rw [hv]⟩
  have : env.virt cfg t = none := by simpa [h] using hv.symm
  refine .each fun s x => ?_
  show (do
    let (x, s) ← serUniquePtr cfg (env.ti (.uptr t)).sizeof (env.elemOf (dispatch cfg env n t) t) (env.virt cfg t) s x
    .ok (Val.ptr x, s)) = _
  rw [this]
  rfl

/-! ### `std::variant` -/

/-- The values of alternatives of types of the universe. -/
abbrev AltVal : List Ty → Type
  | [] => Empty
  | _ :: ts => Val ⊕ AltVal ts

/-- Alternatives of types of the universe. -/
def AltTypes.ofTys (cfg : Cfg) (env : Env) : (ts : List Ty) → AltTypes (AltVal ts)
  | [] => .nil
  | t :: ts => .cons (.base cfg env t) (AltTypes.ofTys cfg env ts)

/-- A value of alternative `i` and later ones. -/
def AltVal.holds : (ts : List Ty) → Nat → AltVal ts → Variant Val
  | _ :: _, i, .inl x => .holds i x
  | _ :: ts, i, .inr v => AltVal.holds ts (i + 1) v

/-- A variant in both descriptions. -/
def AltVal.variant (ts : List Ty) (i : Nat) : Option (AltVal ts) → Variant Val
  | some v => AltVal.holds ts i v
  | none => .valueless

/-- A variant as a value of the universe. -/
def Variant.toVal : Variant Val → Val
  | .holds i x => .variant i x
  | .valueless => .valueless

/-- A variant as a value of the universe. -/
def AltVal.toVal (ts : List Ty) (v : Option (AltVal ts)) : Val := (AltVal.variant ts 0 v).toVal

theorem AltVal.holds_index (ts : List Ty) (i : Nat) (v : AltVal ts) :
    (AltVal.holds ts i v).index = i + (AltTypes.ofTys cfg env ts).at v := by
  induction ts generalizing i with
  | nil => exact v.elim
  | cons t ts ih =>
    match v with
    | .inl x => rfl
    | .inr v => simp only [AltVal.holds, ih, AltTypes.ofTys, AltTypes.at]; omega

theorem AltVal.holds_ge (ts : List Ty) (i : Nat) (v : AltVal ts) : ∃ j x, i ≤ j ∧ AltVal.holds ts i v = .holds j x := by
  induction ts generalizing i with
  | nil => exact v.elim
  | cons t ts ih =>
    match v with
    | .inl x => exact ⟨i, x, Nat.le_refl _, rfl⟩
    | .inr v =>
      obtain ⟨j, x, h, e⟩ := ih (i + 1) v
      exact ⟨j, x, by omega, e⟩

/-- `SerializeEntry` past some alternatives. -/
theorem entry_agrees (ts : List Ty) (n e cur : Nat) (s : Ser) (v : Option (AltVal ts)) (w : Variant Val)
    (hw : ∀ r, v = some r → w = AltVal.holds ts cur r)
    (hn : v = none → w = .valueless ∨ ∃ j x, j < cur ∧ w = .holds j x) :
    serializeEntry cfg (ts.map (elem cfg env n)) s w (cur + e) cur =
      ((AltTypes.ofTys cfg env ts).entry cfg n s v e).bind fun q =>
        .ok (match q.1 with
          | some r => AltVal.holds ts cur r
          | none => w, q.2) := by
  induction ts generalizing e cur with
  | nil =>
    cases v with
    | some r => exact r.elim
    | none => rfl
  | cons t ts ih =>
    cases e with
    | zero =>
      simp only [List.map_cons, serializeEntry, Nat.add_zero, if_true, AltTypes.ofTys, AltTypes.entry]
      by_cases hu : s.isUnpacking
      · simp only [if_pos hu]
        show _ = Out.bind (Out.bind (pipe cfg (elem cfg env n t) s (elem cfg env n t).fresh) _) _
        cases pipe cfg (elem cfg env n t) s (elem cfg env n t).fresh <;> rfl
      · simp only [if_neg hu]
        match v, hw, hn with
        | none, _, hn =>
          rcases hn rfl with rfl | ⟨j, x, h, rfl⟩
          · rfl
          · simp only [if_neg (Nat.ne_of_lt h)]; rfl
        | some (.inl x), hw, _ =>
          obtain rfl := hw _ rfl
          simp only [AltVal.holds, if_true]
          show _ = Out.bind (Out.bind (pipe cfg (elem cfg env n t) s x) _) _
          cases pipe cfg (elem cfg env n t) s x <;> rfl
        | some (.inr r), hw, _ =>
          obtain rfl := hw _ rfl
          obtain ⟨j, x, h, e⟩ := AltVal.holds_ge ts (cur + 1) r
          simp only [AltVal.holds, e, if_neg (show j ≠ cur by omega)]
          rfl
    | succ e =>
      simp only [List.map_cons, serializeEntry, if_neg (show cur + (e + 1) ≠ cur by omega), AltTypes.ofTys,
        AltTypes.entry]
      rw [show cur + (e + 1) = cur + 1 + e by omega, ih e (cur + 1) (beyondFirst v)]
      · show _ = Out.bind (Out.bind _ _) _
        cases hq : (AltTypes.ofTys cfg env ts).entry cfg n s (beyondFirst v) e with
        | ok q =>
          obtain ⟨q, s'⟩ := q
          cases q with
          | some r => rfl
          | none =>
            simp only [Out.bind]
            cases v with
            | none => rfl
            | some r => obtain rfl := hw _ rfl; rfl
        | _ => rfl
      · intro r hr
        match v, hr with
        | some (.inr r'), hr => cases hr; exact hw _ rfl
      · intro hr
        match v, hr with
        | none, _ =>
          rcases hn rfl with h | ⟨j, x, h, e⟩
          · exact .inl h
          · exact .inr ⟨j, x, by omega, e⟩
        | some (.inl x), _ => exact .inr ⟨cur, x, by omega, hw _ rfl⟩

/-- A variant that is valueless afterwards was before. -/
theorem entry_none {V : Type} {as : AltTypes V} {n e : Nat} {s s' : Ser} {v : Option V}
    (h : as.entry cfg n s v e = .ok (none, s')) : v = none := by
  induction as generalizing e with
  | nil => cases v with
    | none => rfl
    | some r => exact r.elim
  | cons t as ih =>
    cases e with
    | zero =>
      simp only [AltTypes.entry] at h
      split at h
      · cases hp : pipe cfg (t.elem n) s t.fresh <;> simp [hp] at h
      · split at h
        · rename_i x
          cases hp : pipe cfg (t.elem n) s x <;> simp [hp] at h
        · cases h
    | succ e =>
      simp only [AltTypes.entry] at h
      cases hq : as.entry cfg n s (beyondFirst v) e with
      | ok q =>
        obtain ⟨w, s''⟩ := q
        cases w with
        | some r => simp [hq] at h
        | none => simp [hq] at h; exact h.1
      | _ => simp [hq] at h

/-- **C65**: a variant of types of the universe is the type of the universe; and it is copied bytewise exactly if the
universe says so. -/
theorem C65_variants_agree (cfg : Cfg) (env : Env) (ts : List Ty) (n : Nat) :
    ((AltTypes.ofTys cfg env ts).allBytes = false → RunsAs (AltVal.toVal ts)
      ((CppType.variant cfg (env.ti (.variant ts)) (AltTypes.ofTys cfg env ts)).apply n)
      (dispatch cfg env (n + 1) (.variant ts))) ∧
    (AltTypes.ofTys cfg env ts).allBytes = Ty.allByteCopied ts := by
  have hb : (AltTypes.ofTys cfg env ts).allBytes = Ty.allByteCopied ts := by
    induction ts with
    | nil => rfl
    | cons t ts ih =>
      show (t.byteCopied && _) = _
      rw [ih]
      rfl
  refine ⟨fun h => ?_, hb⟩
  rw [hb] at h
  show RunsAs _ _ (dispatchStep cfg env (dispatch cfg env n) (.variant ts))
  simp only [dispatchStep, h, Bool.false_eq_true, if_false]
  refine .each fun s v => ?_
  have e2 : (AltVal.variant ts 0 v).index = (AltTypes.ofTys cfg env ts).index v := by
    cases v with
    | none => rfl
    | some v => simpa [AltVal.variant, AltTypes.index] using AltVal.holds_index (cfg := cfg) (env := env) ts 0 v
  have e1 : ∀ (g : Ser → Variant Val → Out (Variant Val × Ser)) (w : Variant Val), (do
      let x : Variant Val ← match w.toVal with
        | .variant i x => .ok (.holds i x)
        | .valueless => .ok .valueless
        | _ => .ub .typeConfusion
      let (x, s) ← g s x
      match x with
      | .holds i x => .ok (.variant i x, s)
      | .valueless => .ok (.valueless, s) : Out (Val × Ser)) = (g s w).bind fun q => .ok (q.1.toVal, q.2) := by
    intro g w
    have : ∀ o : Out (Variant Val × Ser), (do
        let (x, s) ← o
        match x with
        | .holds i x => .ok (.variant i x, s)
        | .valueless => .ok (.valueless, s) : Out (Val × Ser)) = o.bind fun q => .ok (q.1.toVal, q.2) := by
      rintro (⟨x, s⟩ | _ | _ | _ | _)
      · cases x <;> rfl
      all_goals rfl
    cases w <;> exact this _
  refine (e1 (serVariant cfg (ts.map (elem cfg env n))) (AltVal.variant ts 0 v)).trans ?_
  simp only [serVariant, AltTypes.serialize, e2]
  cases hp : pipeSize cfg s ((AltTypes.ofTys cfg env ts).index v) with
  | ok q =>
    obtain ⟨i, s⟩ := q
    have := entry_agrees (cfg := cfg) (env := env) ts n i 0 s v (AltVal.variant ts 0 v)
      (fun r hr => by subst hr; rfl) (fun hr => by subst hr; exact .inl rfl)
    rw [Nat.zero_add] at this
    show Out.bind (serializeEntry cfg (ts.map (elem cfg env n)) s _ i 0) _ =
      Out.bind ((AltTypes.ofTys cfg env ts).entry cfg n s v i) _
    rw [this]
    cases hq : (AltTypes.ofTys cfg env ts).entry cfg n s v i with
    | ok q =>
      obtain ⟨q, s'⟩ := q
      cases q with
      | some r => rfl
      | none =>
        have := entry_none hq
        subst this
        rfl
    | _ => rfl
  | _ => rfl

/-! ### `std::tuple` -/

/-- The values of members of types of the universe. -/
abbrev MemberVal : List Ty → Type
  | [] => Unit
  | _ :: ts => Val × MemberVal ts

/-- Members of types of the universe. -/
def MemberTypes.ofTys (cfg : Cfg) (env : Env) : (ts : List Ty) → MemberTypes (MemberVal ts)
  | [] => .nil
  | t :: ts => .cons (.base cfg env t) (MemberTypes.ofTys cfg env ts)

/-- Their values, one after the other. -/
def MemberVal.toList : (ts : List Ty) → MemberVal ts → List Val
  | [], _ => []
  | _ :: ts, v => v.1 :: MemberVal.toList ts v.2

/-- One member. -/
theorem visitAt_agrees (ts : List Ty) (n i : Nat) (s : Ser) (v : MemberVal ts) :
    (match (ts.map (elem cfg env n))[i]?, (MemberVal.toList ts v)[i]? with
      | some e, some x => (pipe cfg e s x).bind fun q => .ok ((MemberVal.toList ts v).set i q.1, q.2)
      | _, _ => .ub .badRegion) =
      ((MemberTypes.ofTys cfg env ts).visitAt cfg n i s v).bind fun q => .ok (MemberVal.toList ts q.1, q.2) := by
  induction ts generalizing i with
  | nil => rfl
  | cons t ts ih =>
    cases i with
    | zero =>
      show Out.bind (pipe cfg (elem cfg env n t) s v.1) _ = Out.bind (Out.bind (pipe cfg (elem cfg env n t) s v.1) _) _
      cases pipe cfg (elem cfg env n t) s v.1 <;> rfl
    | succ i =>
      have := ih i v.2
      simp only [List.map_cons, MemberVal.toList, List.getElem?_cons_succ, MemberTypes.ofTys, MemberTypes.visitAt,
        List.set_cons_succ]
      generalize (ts.map (elem cfg env n))[i]? = a at this ⊢
      generalize (MemberVal.toList ts v.2)[i]? = b at this ⊢
      show _ = Out.bind (Out.bind _ _) _
      cases hq : (MemberTypes.ofTys cfg env ts).visitAt cfg n i s v.2 <;> rw [hq] at this <;>
        rcases a with _ | e <;> rcases b with _ | x <;> simp_all
      all_goals
        cases hp : pipe cfg e s x <;> simp_all

/-- **C65**: a tuple of types of the universe is the type of the universe. -/
theorem C65_tuples_agree (cfg : Cfg) (env : Env) (ts : List Ty) (n : Nat) :
    RunsAs (fun v => Val.coll (MemberVal.toList ts v))
      ((CppType.tuple cfg (env.ti (.tuple ts)) (MemberTypes.ofTys cfg env ts)).apply n)
      (dispatch cfg env (n + 1) (.tuple ts)) := by
  have hl : (MemberTypes.ofTys cfg env ts).length = (ts.map (elem cfg env n)).length := by
    induction ts with
    | nil => rfl
    | cons t ts ih => simpa [MemberTypes.ofTys, MemberTypes.length] using ih
  have key : ∀ (o : List Nat) (s : Ser) (v : MemberVal ts),
      visitMembers cfg (ts.map (elem cfg env n)) o s (MemberVal.toList ts v) =
        ((MemberTypes.ofTys cfg env ts).visitOrder cfg n o s v).bind fun q => .ok (MemberVal.toList ts q.1, q.2) := by
    intro o
    induction o with
    | nil => intro s v; rfl
    | cons i o ih =>
      intro s v
      have := visitAt_agrees (cfg := cfg) (env := env) ts n i s v
      simp only [visitMembers, MemberTypes.visitOrder]
      generalize (ts.map (elem cfg env n))[i]? = a at this ⊢
      generalize (MemberVal.toList ts v)[i]? = b at this ⊢
      show _ = Out.bind (Out.bind _ _) _
      cases hq : (MemberTypes.ofTys cfg env ts).visitAt cfg n i s v <;> rw [hq] at this <;>
        rcases a with _ | e <;> rcases b with _ | x <;> simp_all
      all_goals
        cases hp : pipe cfg e s x <;> simp_all
  refine .each fun s v => ?_
  show Out.bind (visitMembers cfg (ts.map (elem cfg env n)) (cfg.argOrder (ts.map (elem cfg env n)).length) s
    (MemberVal.toList ts v)) _ = Out.bind ((MemberTypes.ofTys cfg env ts).visitOrder cfg n
      (cfg.argOrder (MemberTypes.ofTys cfg env ts).length) s v) _
  rw [key, hl]
  cases (MemberTypes.ofTys cfg env ts).visitOrder cfg n (cfg.argOrder (ts.map (elem cfg env n)).length) s v <;> rfl

/-- Examples: a variant of a string and a number, and a pointer to a string, are such types. -/
example (cfg : Cfg) (env : Env) : (AltTypes.ofTys cfg env [.str, .prim 0 4]).allBytes = false ∧
    (CppType.base cfg env .str).poly = false := ⟨rfl, rfl⟩

end

end Ckpt
