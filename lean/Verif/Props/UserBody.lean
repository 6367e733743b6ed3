import Verif.Proofs.UserBody
import Verif.Props.Kokkos
/-!
# Serialize functions with control flow (C61)
-/

set_option autoImplicit false

namespace Ckpt

variable {R : RelMode} {cfg : Cfg} {env : Env}

/-- C61: a class whose `serialize` records numbers, decides by them and by what it has visited, allocates and visits a
variable number of objects is written and read back over any target that has the members it reads into: what was visited
is as it was, everything else of the target is kept. -/
theorem C61_body_roundtrip (hv : env.Valid R (· ∈ builtinKinds) cfg) {ti : TI} (hti : ti.Valid) (fresh : Slots)
    {b : Body} {x : Slots} (hx : Fits R env x (b.steps x)) (hd : b.Determined R env x []) :
    RoundTrips cfg (fun n => bodyElem cfg env ti fresh b (elem cfg env n)) x
      (fun y => Ready R cfg env y (b.steps x)) (fun y w => Restored R env x y (b.steps x) w) := by
  obtain ⟨n0, h0⟩ : ∃ n0, ∀ n ≥ n0, ∀ st ∈ b.steps x, ∀ m t k bl, st = Step.visit m t k bl →
      ∀ v ∈ (x m).take k, (codec R cfg env n t).P v := by
    refine eventually_list fun st hst => ?_
    match st, hst with
    | .visit m t k bl, hst =>
      obtain ⟨n0, h0⟩ := eventually_list (xs := (x m).take k) (Q := fun v n => (codec R cfg env n t).P v)
        (fun v hv' => codec_P ((hx.values m t k bl hst).2 v hv').1)
      exact ⟨n0, fun n hn _ _ _ _ e => by cases e; exact h0 n hn⟩
    | .make .., _ => exact ⟨0, fun _ _ _ _ _ _ e => by cases e⟩
    | .count _, _ => exact ⟨0, fun _ _ _ _ _ _ e => by cases e⟩
  have hP : BodyP (fun t => (codec R cfg env n0 t).byVal t) x (b.steps x) :=
    ⟨fun m t n bl h => ⟨(hx.values m t n bl h).1, fun v hm =>
        ⟨h0 n0 (Nat.le_refl _) _ h m t n bl rfl v hm, ((hx.values m t n bl h).2 v hm).2⟩⟩,
      fun m t n h => multi_of (hx.blocks m t n h), hx.counts⟩
  refine roundTrips_of (K := (· ∈ builtinKinds)) (fun _ h => h) (n0 := n0)
    (C := bodyCodec R cfg env (elem cfg env n0) (fun t => (codec R cfg env n0 t).byVal t) b)
    (fun hnm => ⟨rfl, dispatchEach_le fun s o => run_le (fun t => elem_le cfg env hnm t) b s o⟩)
    (fun y => bodyLaw hv.cfgOk hti (fun t => (law hv n0 t).byVal t) (fun t v w h => codec_rel _ _ _ _ h)
      (fun t v h => prior_zero hv n0 v h) fresh b y)
    (fun _ => ⟨hP, hx.order, hd⟩) (fun y hy => ⟨rfl, fun m t n bl h => ?_⟩) (fun _ _ h => h)
  rcases hy m t n bl h with h1 | ⟨h1, h2, h3⟩
  · exact .inl h1
  · refine .inr ⟨h1, h2, List.forall₂_iff_get.2 ⟨?_, fun i hi hj => ?_⟩⟩
    · rw [List.length_take, List.length_take, Nat.min_eq_left h2, Nat.min_eq_left (hx.values m t n bl h).1]
    · have hp := (hP.values m t n bl h).2 _ (List.get_mem _ ⟨i, hi⟩)
      have hq := h3 _ (List.get_mem _ ⟨i, hj⟩)
      exact codec_prior hv.toUsable n0 t _ _ hp.1 hq.1 fun c e => by
        subst e
        exact sameDyn_of_byVal hp.2 hq.2

/-- C61: if nothing is visited after a decision, nothing is read: a target that decides differently keeps what it has
and the bytes of the object stay where they are. -/
theorem C61_unrecorded {ti : TI} {fresh : Slots} {el : Ty → Elem Val} {k : Slots → Body} {s : Ser} {y : Slots}
    (hc : cfg.check = false) (hy : k y = .done) :
    pipe cfg (bodyElem cfg env ti fresh (.look k) el) s y = .ok (y, s) := by
  simp [pipe, traverse, hc, bodyElem, dispatchEach, Body.run, hy]

/-! ### Two such classes -/

/-- `size_t n; T* p; void serialize(S& s) { s | n; if (s.isUnpacking()) p = new T[n]{}; serializeArray(s, p, n); }` -/
def ownedArray (t : Ty) : Body :=
  .count (fun o => (o 0).length) fun n => .make 0 t n (.array 0 t n .done)

/-- C61: a dynamic array owned through a pointer is restored with its size and all its elements, whatever the target
held. -/
theorem C61_owned_array (hv : env.Valid R (· ∈ builtinKinds) cfg) {ti : TI} (hti : ti.Valid) (fresh : Slots) {t : Ty}
    {x : Slots} (hx : ∀ v ∈ x 0, WT R env t v ∧ ByVal t v) (hn : (x 0).length < 2 ^ 64) (hm : env.ArrOk t (x 0).length) :
    RoundTrips cfg (fun n => bodyElem cfg env ti fresh (ownedArray t) (elem cfg env n)) x (fun _ => True)
      (fun y w => List.Forall₂ (Rel R env t) (x 0) (w 0) ∧ ∀ m, m ≠ 0 → w m = y m) := by
  have hsteps : (ownedArray t).steps x =
      [.count (x 0).length, .make 0 t (x 0).length, .visit 0 t (x 0).length true] := rfl
  obtain ⟨bs, h1, h2, h3, h4⟩ := C61_body_roundtrip hv hti fresh (b := ownedArray t) (x := x)
    ⟨by
      intro m t' n b h
      rw [hsteps] at h
      simp only [List.mem_cons, reduceCtorEq, false_or, List.not_mem_nil, or_false, Step.visit.injEq] at h
      obtain ⟨rfl, rfl, rfl, _⟩ := h
      exact ⟨Nat.le_refl _, fun v hv' => hx v (List.mem_of_mem_take hv')⟩, by
      intro m t' n h
      rw [hsteps] at h
      simp only [List.mem_cons, reduceCtorEq, false_or, List.not_mem_nil, or_false, Step.visit.injEq] at h
      obtain ⟨rfl, rfl, rfl, _⟩ := h
      exact hm, by
      intro c h
      rw [hsteps] at h
      simp only [List.mem_cons, reduceCtorEq, List.not_mem_nil, or_false, Step.count.injEq] at h
      rw [h]; exact hn, by
      rw [hsteps]
      simp [Step.Before]⟩ trivial
  have hr : ∀ y, Ready R cfg env y ((ownedArray t).steps x) := by
    intro y m t' n b h
    rw [hsteps] at h ⊢
    simp only [List.mem_cons, reduceCtorEq, false_or, List.not_mem_nil, or_false, Step.visit.injEq] at h
    obtain ⟨rfl, rfl, rfl, _⟩ := h
    exact .inl ⟨_, Nat.le_refl _, by simp⟩
  have hw : ∀ y w, Restored R env x y ((ownedArray t).steps x) w →
      List.Forall₂ (Rel R env t) (x 0) (w 0) ∧ ∀ m, m ≠ 0 → w m = y m := by
    intro y w h
    rw [hsteps] at h
    have hl : (w 0).length = (x 0).length := by
      obtain ⟨vs, h1, h2, _⟩ := h.beyond 0 t (x 0).length true (by simp)
      rcases h1 with ⟨t', n', h1, rfl⟩ | ⟨h1, _⟩
      · simp only [List.mem_cons, reduceCtorEq, false_or, List.not_mem_nil, or_false, Step.make.injEq] at h1
        rw [h2, h1.2.2]; simp [madeOf]
      · exact (h1 t (x 0).length (by simp)).elim
    refine ⟨List.forall₂_iff_get.2 ⟨hl.symm, fun i hi hj => ?_⟩, fun m hm => ?_⟩
    · obtain ⟨v, v', e1, e2, e3⟩ := h.visited 0 t (x 0).length true (by simp) i hi
      rw [List.getElem?_eq_getElem hi] at e1
      rw [List.getElem?_eq_getElem hj] at e2
      cases e1; cases e2
      exact e3
    · rcases h.others m (by intro t' n' b' h'; simp at h'; exact hm h'.1) with ⟨t', n', h1, _⟩ | ⟨_, h1⟩
      · simp at h1; exact (hm h1.1).elim
      · exact h1
  refine ⟨bs, h1, h2, h3, fun y rest _ => ?_⟩
  obtain ⟨⟨w, a, b⟩, ⟨w', a', b'⟩⟩ := h4 y rest (hr y)
  exact ⟨⟨w, hw y w a, b⟩, ⟨w', hw y w' a', b'⟩⟩

example : Demo.env.Valid .contents (· ∈ builtinKinds) (Demo.cfg true true) ∧ (Demo.env.ti .str).Valid ∧
    (∀ v ∈ [Val.raw [1, 0, 0, 0], .raw [2, 0, 0, 0]], WT .contents Demo.env Demo.int v ∧ ByVal Demo.int v) ∧
    Demo.env.ArrOk Demo.int 2 := by
  refine ⟨Demo.valid_contents, Demo.ti_valid _, fun v hv => ?_, Demo.int_arr _⟩
  simp only [List.mem_cons, List.not_mem_nil, or_false] at hv
  rcases hv with rfl | rfl <;> exact ⟨.prim rfl, trivial⟩

/-- `K kind; A a; B b; void serialize(S& s) { s | kind; if (first(kind)) s | a; else s | b; }` -/
def taggedUnion (tag tA tB : Ty) (first : Val → Bool) : Body :=
  .one 0 tag (.look fun o => if ((o 0).take 1).any first then .one 1 tA .done else .one 2 tB .done)

theorem two_visits {tag t : Ty} {j : Nat} {x y w : Slots} {k v : Val} (h0 : x 0 = [k]) (h1 : x j = [v])
    (hj : j ≠ 0) (hy0 : (y 0).length = 1) (hyj : (y j).length = 1)
    (h : Restored R env x y [.visit 0 tag 1 false, .visit j t 1 false] w) :
    (∃ k', w 0 = [k'] ∧ Rel R env tag k k') ∧ (∃ v', w j = [v'] ∧ Rel R env t v v') ∧
      ∀ m, m ≠ 0 → m ≠ j → w m = y m := by
  have key : ∀ m t' u, x m = [u] → (y m).length = 1 → Step.visit m t' 1 false ∈
      [Step.visit 0 tag 1 false, Step.visit j t 1 false] → ∃ u', w m = [u'] ∧ Rel R env t' u u' := by
    intro m t' u hm hym hmem
    obtain ⟨a, a', e1, e2, e3⟩ := h.visited m t' 1 false hmem 0 (by decide)
    obtain ⟨vs, f1, f2, _⟩ := h.beyond m t' 1 false hmem
    rcases f1 with ⟨_, _, f1, _⟩ | ⟨_, rfl⟩
    · simp at f1
    · rw [hym] at f2
      obtain ⟨u', hu⟩ := List.length_eq_one_iff.1 f2
      rw [hm] at e1; rw [hu] at e2
      cases e1; cases e2
      exact ⟨_, hu, e3⟩
  refine ⟨key 0 tag k h0 hy0 (by simp), key j t v h1 hyj (by simp), fun m hm hmj => ?_⟩
  rcases h.others m (by
    intro t' n' b' h'
    simp only [List.mem_cons, List.not_mem_nil, or_false, Step.visit.injEq] at h'
    rcases h' with h' | h'
    · exact hm h'.1
    · exact hmj h'.1) with ⟨_, _, f1, _⟩ | ⟨_, f1⟩
  · simp at f1
  · exact f1

theorem visits_fit {tag t : Ty} {j : Nat} {x : Slots} {k v : Val} (h0 : x 0 = [k]) (h1 : x j = [v]) (hj : j ≠ 0)
    (hk : WT R env tag k ∧ ByVal tag k) (hv : WT R env t v ∧ ByVal t v) :
    Fits R env x [.visit 0 tag 1 false, .visit j t 1 false] := by
  refine ⟨fun m t' n b h => ?_, fun m t' n h => by simp at h, fun c h => by simp at h, by simp [Step.Before, hj.symm]⟩
  simp only [List.mem_cons, List.not_mem_nil, or_false, Step.visit.injEq] at h
  rcases h with ⟨rfl, rfl, rfl, _⟩ | ⟨rfl, rfl, rfl, _⟩
  · rw [h0]; exact ⟨by simp, by simpa using hk⟩
  · rw [h1]; exact ⟨by simp, by simpa using hv⟩

theorem visits_ready {tag t : Ty} {j : Nat} {y : Slots} {k v : Val} (h0 : y 0 = [k]) (h1 : y j = [v])
    (hk : Clean R cfg env tag k ∧ ByVal tag k) (hv : Clean R cfg env t v ∧ ByVal t v) :
    Ready R cfg env y [.visit 0 tag 1 false, .visit j t 1 false] := by
  intro m t' n b h
  refine .inr ⟨by simp, ?_⟩
  simp only [List.mem_cons, List.not_mem_nil, or_false, Step.visit.injEq] at h
  rcases h with ⟨rfl, rfl, rfl, _⟩ | ⟨rfl, rfl, rfl, _⟩
  · rw [h0]; exact ⟨by simp, by simpa using hk⟩
  · rw [h1]; exact ⟨by simp, by simpa using hv⟩

/-- C61: the choice is made again when reading, if it is made by something that has been read before. -/
theorem C61_tagged (hv : env.Valid R (· ∈ builtinKinds) cfg) {ti : TI} (hti : ti.Valid) (fresh : Slots)
    {tag tA tB : Ty} {first : Val → Bool} {x : Slots} {k a b : Val} (h0 : x 0 = [k]) (h1 : x 1 = [a]) (h2 : x 2 = [b])
    (hk : WT R env tag k ∧ ByVal tag k) (ha : WT R env tA a ∧ ByVal tA a) (hb : WT R env tB b ∧ ByVal tB b)
    (hex : ∀ k', Rel R env tag k k' → first k' = first k) :
    RoundTrips cfg (fun n => bodyElem cfg env ti fresh (taggedUnion tag tA tB first) (elem cfg env n)) x
      (fun y => ∃ k' a' b', y 0 = [k'] ∧ y 1 = [a'] ∧ y 2 = [b'] ∧ (Clean R cfg env tag k' ∧ ByVal tag k') ∧
        (Clean R cfg env tA a' ∧ ByVal tA a') ∧ (Clean R cfg env tB b' ∧ ByVal tB b'))
      (fun y w => (∃ k', w 0 = [k'] ∧ Rel R env tag k k') ∧
        (first k = true → (∃ a', w 1 = [a'] ∧ Rel R env tA a a') ∧ w 2 = y 2) ∧
        (first k = false → (∃ b', w 2 = [b'] ∧ Rel R env tB b b') ∧ w 1 = y 1)) := by
  have hdet : (taggedUnion tag tA tB first).Determined R env x [] := by
    refine ⟨fun y hy => ?_, ?_⟩
    · obtain ⟨hl, hr⟩ := hy.1 0 tag 1 false (by simp)
      match hy0 : y 0, hl with
      | k' :: ks, _ =>
        have hr := hr 0 (by decide) k k' (by rw [h0]; rfl) (by rw [hy0]; rfl)
        simp only [hy0, h0, List.take_succ_cons, List.take_zero, List.any_cons, List.any_nil, hex k' hr]
    · dsimp only
      split <;> trivial
  cases hf : first k with
  | true =>
    have hsteps : (taggedUnion tag tA tB first).steps x = [.visit 0 tag 1 false, .visit 1 tA 1 false] := by
      simp [taggedUnion, Body.steps, h0, hf]
    obtain ⟨bs, r1, r2, r3, r4⟩ := C61_body_roundtrip hv hti fresh (b := taggedUnion tag tA tB first) (x := x)
      (by rw [hsteps]; exact visits_fit h0 h1 (by decide) hk ha) hdet
    rw [hsteps] at r4
    refine ⟨bs, r1, r2, r3, fun y rest ⟨k', a', b', e0, e1, e2, c0, c1, c2⟩ => ?_⟩
    have hw : ∀ w, Restored R env x y [.visit 0 tag 1 false, .visit 1 tA 1 false] w → _ := fun w h =>
      two_visits h0 h1 (by decide) (by rw [e0]; rfl) (by rw [e1]; rfl) h
    obtain ⟨⟨w, p, q⟩, ⟨w', p', q'⟩⟩ := r4 y rest (visits_ready e0 e1 c0 c1)
    exact ⟨⟨w, ⟨(hw w p).1, fun _ => ⟨(hw w p).2.1, (hw w p).2.2 2 (by decide) (by decide)⟩, fun h => by cases h⟩, q⟩,
      ⟨w', ⟨(hw w' p').1, fun _ => ⟨(hw w' p').2.1, (hw w' p').2.2 2 (by decide) (by decide)⟩, fun h => by cases h⟩, q'⟩⟩
  | false =>
    have hsteps : (taggedUnion tag tA tB first).steps x = [.visit 0 tag 1 false, .visit 2 tB 1 false] := by
      simp [taggedUnion, Body.steps, h0, hf]
    obtain ⟨bs, r1, r2, r3, r4⟩ := C61_body_roundtrip hv hti fresh (b := taggedUnion tag tA tB first) (x := x)
      (by rw [hsteps]; exact visits_fit h0 h2 (by decide) hk hb) hdet
    rw [hsteps] at r4
    refine ⟨bs, r1, r2, r3, fun y rest ⟨k', a', b', e0, e1, e2, c0, c1, c2⟩ => ?_⟩
    have hw : ∀ w, Restored R env x y [.visit 0 tag 1 false, .visit 2 tB 1 false] w → _ := fun w h =>
      two_visits h0 h2 (by decide) (by rw [e0]; rfl) (by rw [e2]; rfl) h
    obtain ⟨⟨w, p, q⟩, ⟨w', p', q'⟩⟩ := r4 y rest (visits_ready e0 e2 c0 c2)
    exact ⟨⟨w, ⟨(hw w p).1, fun h => (by cases h), fun _ => ⟨(hw w p).2.1, (hw w p).2.2 1 (by decide) (by decide)⟩⟩, q⟩,
      ⟨w', ⟨(hw w' p').1, fun h => (by cases h), fun _ => ⟨(hw w' p').2.1, (hw w' p').2.2 1 (by decide) (by decide)⟩⟩, q'⟩⟩

example : WT .contents Demo.env Demo.int (.raw [1, 0, 0, 0]) ∧ ByVal Demo.int (.raw [1, 0, 0, 0]) ∧
    (∀ (first : Val → Bool) k', Rel .contents Demo.env Demo.int (.raw [1, 0, 0, 0]) k' →
      first k' = first (.raw [1, 0, 0, 0])) ∧
    Clean .contents (Demo.cfg true true) Demo.env Demo.int (.raw [7, 0, 0, 0]) :=
  ⟨.prim rfl, trivial, fun first k' h => by cases h; rfl, .prim rfl⟩

/-- `bool has; T a; void serialize(S& s) { if (has) s | a; }`: the choice is not recorded. -/
example (t : Ty) : ¬ (Body.look fun o => if (o 0).isEmpty then .done else .one 1 t .done).Determined .contents Demo.env
    (fun _ => [.raw [1]]) [] := by
  intro h
  have := h.1 (fun _ => []) ⟨nofun, nofun⟩
  simp at this

end Ckpt
