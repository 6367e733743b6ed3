import Verif.Proofs.Pointers
/-!
The footprint of objects that hold pointers to no object.
-/

set_option autoImplicit false

namespace Ckpt

section
variable {T : Type} {cfg : Cfg} {u : UB}

theorem traverse_ub {ti : TI} {h : Handler T} {m : Nat} {xs : List T}
    (hh : h (fpS m) xs = .ub u) : traverse cfg ti h (fpS m) xs = .ub u := by
  unfold traverse
  split
  · simp only [fpS_header, Out.bind_eq, Out.bind_ok, hh, catchDepth]
    rfl
  · exact hh

theorem pipe_ub {e : Elem T} {m : Nat} {x : T} (hh : e.apply (fpS m) [x] = .ub u) :
    pipe cfg e (fpS m) x = .ub u := by
  simp only [pipe, traverse_ub hh, Out.bind_eq]
  rfl

theorem dispatchEach_one_ub {f : Ser → T → Out (T × Ser)} {s : Ser} {x : T} (h : f s x = .ub u) :
    dispatchEach f s [x] = .ub u := by
  simp only [dispatchEach, h, Out.bind_eq]
  rfl

end

section
variable {cfg : Cfg} {env : Env} {H : Heap} {u : UB}

theorem follow_none {a n m : Nat} (ho : H a = none) : follow cfg env H (n + 1) (fpS m) a = .ub .badRegion := by
  refine pipe_ub (dispatchEach_one_ub ?_)
  simp only [serObject, ho]

theorem follow_ub {a n m : Nat} {o : HObj} (ho : H a = some o)
    (h : serMemberList cfg env n (follow cfg env H n) (fpS m) o.members = .ub u) :
    follow cfg env H (n + 1) (fpS m) a = .ub u := by
  refine pipe_ub (dispatchEach_one_ub ?_)
  simp only [serObject, ho]
  show (serMemberList cfg env n (follow cfg env H n) (fpS m) o.members).bind _ = _
  rw [h]
  rfl

section
variable {n : Nat} {obj : Ser → Nat → Out (Nat × Ser)} {m m' : Nat}

theorem serPointer_ub {ti : TI} {a : Nat} (h : obj (fpS ((m + ti.sizeof) % 2 ^ 64)) a = .ub u) :
    serPointer ti obj (fpS m) (some a) = .ub u := by
  simp only [serPointer, fpS_add, h, Out.bind_eq]
  rfl

theorem serMember_pointer_ub {ti : TI} {p : Option Nat} (h : serPointer ti obj (fpS m) p = .ub u) :
    serMember cfg env n obj (fpS m) (.pointer ti p) = .ub u := by
  simp only [serMember, pipe_ub (e := pointerElem ti obj) (dispatchEach_one_ub h), Out.bind_eq]
  rfl

theorem serVector_ub {tiv ti : TI} {cap : Nat} {as : List (Option Nat)}
    (h : dispatchEach (serPointer ti obj) (fpS ((m + tiv.sizeof) % 2 ^ 64)) as = .ub u) :
    serVector cfg tiv.sizeof (pointerElem ti obj) (fpS m) ⟨cap, as⟩ = .ub u := by
  have hf : (fpS m).isFootprinting = true := rfl
  have ha : serializeArray cfg (pointerElem ti obj) (fpS ((m + tiv.sizeof) % 2 ^ 64)) as = .ub u := by
    unfold serializeArray
    split
    · exact traverse_ub h
    · have h0 : as = [] := List.length_eq_zero_iff.1 (by omega)
      subst h0
      simp [dispatchEach] at h
  simp only [serVector, hf, if_true, fpS_add, ha, Out.bind_eq]
  rfl

theorem serMember_pointers_ub {tiv ti : TI} {cap : Nat} {as : List (Option Nat)}
    (h : dispatchEach (serPointer ti obj) (fpS ((m + tiv.sizeof) % 2 ^ 64)) as = .ub u) :
    serMember cfg env n obj (fpS m) (.pointers tiv ti cap as) = .ub u := by
  have := pipe_ub (cfg := cfg) (e := pointerVecElem cfg tiv ti obj)
    (dispatchEach_one_ub (serVector_ub (cfg := cfg) (cap := cap) h))
  simp only [serMember, this, Out.bind_eq]
  rfl

end

theorem Yields.bind_ub {α β : Type} {f : Nat → Out α} {g : Nat → α → Out β}
    (h1 : Yields f (.ub u)) : Yields (fun n => f n >>= g n) (.ub u) := by
  obtain ⟨n1, h1⟩ := h1
  refine ⟨n1, fun n hn => ?_⟩
  show (f n).bind (g n) = _
  rw [h1 n hn]
  rfl

/-- A count results. -/
def CountsMs (x : Nat → Ser → Out Ser) : Prop :=
  ∀ m < 2 ^ 64, ∃ m' < 2 ^ 64, Yields (fun n => x n (fpS m)) (.ok (fpS m'))

/-- No object is found where one should be. -/
def DanglesMs (x : Nat → Ser → Out Ser) : Prop := ∀ m < 2 ^ 64, Yields (fun n => x n (fpS m)) (.ub .badRegion)

/-- The same for what returns the object, too. -/
def CountsAll {α : Type} (a : α) (x : Nat → Ser → α → Out (α × Ser)) : Prop :=
  ∀ m < 2 ^ 64, ∃ m' < 2 ^ 64, Yields (fun n => x n (fpS m) a) (.ok (a, fpS m'))

def Dangles {α : Type} (a : α) (x : Nat → Ser → α → Out (α × Ser)) : Prop :=
  ∀ m < 2 ^ 64, Yields (fun n => x n (fpS m) a) (.ub .badRegion)

variable {obj : Nat → Ser → Nat → Out (Nat × Ser)}

theorem mod64 (k : Nat) : k % 2 ^ 64 < 2 ^ 64 := Nat.mod_lt _ (by decide)

theorem pointer_either {ti : TI} {p : Option Nat} (h : ∀ a ∈ p, CountsAll a obj ∨ Dangles a obj) :
    (CountsAll p fun n => serPointer ti (obj n)) ∨ Dangles p fun n => serPointer ti (obj n) := by
  cases p with
  | none => exact .inl fun m _ => ⟨_, mod64 _, 0, fun n _ => rfl⟩
  | some a =>
    rcases h a rfl with h | h
    · refine .inl fun m _ => ?_
      obtain ⟨m', hm', n0, h0⟩ := h _ (mod64 (m + ti.sizeof))
      exact ⟨m', hm', n0, fun n hn => serPointer_ok (h0 n hn)⟩
    · refine .inr fun m _ => ?_
      obtain ⟨n0, h0⟩ := h _ (mod64 (m + ti.sizeof))
      exact ⟨n0, fun n hn => serPointer_ub (h0 n hn)⟩

theorem pointer_bad {ti : TI} {b : Nat} (h : Dangles b obj) : Dangles (some b) fun n => serPointer ti (obj n) := by
  intro m _
  obtain ⟨n0, h0⟩ := h _ (mod64 (m + ti.sizeof))
  exact ⟨n0, fun n hn => serPointer_ub (h0 n hn)⟩

theorem pointers_either {ti : TI} : ∀ {as : List (Option Nat)}, (∀ p ∈ as, ∀ a ∈ p, CountsAll a obj ∨ Dangles a obj) →
    ((∀ m < 2 ^ 64, ∃ m' < 2 ^ 64, Yields (fun n => dispatchEach (serPointer ti (obj n)) (fpS m) as)
        (.ok (as, fpS m'))) ∨
      ∀ m < 2 ^ 64, Yields (fun n => dispatchEach (serPointer ti (obj n)) (fpS m) as) (.ub .badRegion)) ∧
    ∀ b, some b ∈ as → Dangles b obj →
      ∀ m < 2 ^ 64, Yields (fun n => dispatchEach (serPointer ti (obj n)) (fpS m) as) (.ub .badRegion)
  | [], _ => ⟨.inl fun m hm => ⟨m, hm, 0, fun _ _ => rfl⟩, by simp⟩
  | p :: as, h => by
    obtain ⟨i1, i2⟩ := pointers_either (ti := ti) (as := as) fun q hq => h q (by simp [hq])
    have hbad : (Dangles p fun n => serPointer ti (obj n)) → ∀ m < 2 ^ 64,
        Yields (fun n => dispatchEach (serPointer ti (obj n)) (fpS m) (p :: as)) (.ub .badRegion) := fun hb m hm =>
      (hb m hm).bind_ub (g := fun n (q : Option Nat × Ser) => (dispatchEach (serPointer ti (obj n)) q.2 as) >>=
        fun r => Out.ok (q.1 :: r.1, r.2))
    have hgood : (CountsAll p fun n => serPointer ti (obj n)) → (∀ m < 2 ^ 64, Yields (fun n =>
        dispatchEach (serPointer ti (obj n)) (fpS m) as) (.ub .badRegion)) → ∀ m < 2 ^ 64,
        Yields (fun n => dispatchEach (serPointer ti (obj n)) (fpS m) (p :: as)) (.ub .badRegion) := fun hg hb m hm => by
      obtain ⟨m', hm', hy⟩ := hg m hm
      exact hy.bind (g := fun n (q : Option Nat × Ser) => (dispatchEach (serPointer ti (obj n)) q.2 as) >>=
        fun r => Out.ok (q.1 :: r.1, r.2)) ((hb m' hm').bind_ub (g := fun _ r => Out.ok (p :: r.1, r.2)))
    rcases pointer_either (ti := ti) (h p (by simp)) with hp | hp
    · refine ⟨?_, fun b hb hB => ?_⟩
      · rcases i1 with i1 | i1
        · refine .inl fun m hm => ?_
          obtain ⟨m', hm', hy⟩ := hp m hm
          obtain ⟨m2, hm2, hy2⟩ := i1 m' hm'
          exact ⟨m2, hm2, hy.bind (g := fun n (q : Option Nat × Ser) => (dispatchEach (serPointer ti (obj n)) q.2 as) >>=
            fun r => Out.ok (q.1 :: r.1, r.2)) (hy2.bind (g := fun _ r => Out.ok (p :: r.1, r.2)) (.const _))⟩
        · exact .inr (hgood hp i1)
      · by_cases he : p = some b
        · subst he
          exact hbad (pointer_bad hB)
        · exact hgood hp (i2 b (by simpa [Ne.symm he] using hb) hB)
    · exact ⟨.inr (hbad hp), fun _ _ _ => hbad hp⟩

theorem member_either {mem : Member} (hv : ∀ t x, mem = .value t x → ∃ f, Counted cfg env t x f)
    (h : ∀ a ∈ mem.targets, CountsAll a obj ∨ Dangles a obj) :
    ((CountsMs fun n s => serMember cfg env n (obj n) s mem) ∨ DanglesMs fun n s => serMember cfg env n (obj n) s mem) ∧
    ∀ b ∈ mem.targets, Dangles b obj → DanglesMs fun n s => serMember cfg env n (obj n) s mem := by
  cases mem with
  | value t x =>
    obtain ⟨f, hf⟩ := hv t x rfl
    exact ⟨.inl fun m hm => ⟨_, mod64 _, (hf m hm).bind (g := fun _ (p : Val × Ser) => Out.ok p.2) (.const _)⟩,
      fun b hb => by simp [Member.targets] at hb⟩
  | handle ti =>
    exact ⟨.inl fun m _ => ⟨_, mod64 _, 0, fun _ _ => serMember_handle⟩, fun b hb => by simp [Member.targets] at hb⟩
  | pointer ti p =>
    have hbad : (Dangles p fun n => serPointer ti (obj n)) →
        DanglesMs fun n s => serMember cfg env n (obj n) s (.pointer ti p) := fun hb m hm => by
      obtain ⟨n0, h0⟩ := hb m hm
      exact ⟨n0, fun n hn => serMember_pointer_ub (h0 n hn)⟩
    refine ⟨?_, fun b hb hB => ?_⟩
    · rcases pointer_either (ti := ti) (p := p) (fun a ha => h a (by simpa [Member.targets] using ha)) with hp | hp
      · refine .inl fun m hm => ?_
        obtain ⟨m', hm', n0, h0⟩ := hp m hm
        exact ⟨m', hm', n0, fun n hn => serMember_pointer_ok (h0 n hn)⟩
      · exact .inr (hbad hp)
    · have hp : p = some b := by simpa [Member.targets] using hb
      subst hp
      exact hbad (pointer_bad hB)
  | pointers tiv ti cap as =>
    obtain ⟨i1, i2⟩ := pointers_either (ti := ti) (as := as) (obj := obj) (by
      intro p hp a ha
      refine h a ?_
      rw [Option.mem_def] at ha
      subst ha
      simpa [Member.targets] using hp)
    have hbad : (∀ m < 2 ^ 64, Yields (fun n => dispatchEach (serPointer ti (obj n)) (fpS m) as) (.ub .badRegion)) →
        DanglesMs fun n s => serMember cfg env n (obj n) s (.pointers tiv ti cap as) := fun hb m _ => by
      obtain ⟨n0, h0⟩ := hb _ (mod64 (m + tiv.sizeof))
      exact ⟨n0, fun n hn => serMember_pointers_ub (h0 n hn)⟩
    refine ⟨?_, fun b hb hB => hbad (i2 b (by simpa [Member.targets] using hb) hB)⟩
    rcases i1 with i1 | i1
    · refine .inl fun m _ => ?_
      obtain ⟨m', hm', n0, h0⟩ := i1 _ (mod64 (m + tiv.sizeof))
      exact ⟨_, mod64 _, n0, fun n hn => serMember_pointers_ok (h0 n hn)⟩
    · exact .inr (hbad i1)

theorem members_either : ∀ {ms : List Member}, MembersOk cfg env ms →
    (∀ mem ∈ ms, ∀ a ∈ mem.targets, CountsAll a obj ∨ Dangles a obj) →
    ((CountsMs fun n s => serMemberList cfg env n (obj n) s ms) ∨ DanglesMs fun n s => serMemberList cfg env n (obj n) s ms) ∧
    ∀ mem ∈ ms, ∀ b ∈ mem.targets, Dangles b obj → DanglesMs fun n s => serMemberList cfg env n (obj n) s ms
  | [], _, _ => ⟨.inl fun m hm => ⟨m, hm, 0, fun _ _ => rfl⟩, by simp⟩
  | mem :: ms, hv, h => by
    obtain ⟨j1, j2⟩ := member_either (cfg := cfg) (env := env) (mem := mem) (fun t x e => hv t x (by simp [e]))
      (h mem (by simp))
    obtain ⟨i1, i2⟩ := members_either (ms := ms) (fun t x e => hv t x (by simp [e])) fun q hq => h q (by simp [hq])
    have hbad : (DanglesMs fun n s => serMember cfg env n (obj n) s mem) →
        DanglesMs fun n s => serMemberList cfg env n (obj n) s (mem :: ms) := fun hb m hm =>
      (hb m hm).bind_ub (g := fun n s => serMemberList cfg env n (obj n) s ms)
    have hgood : (CountsMs fun n s => serMember cfg env n (obj n) s mem) →
        (DanglesMs fun n s => serMemberList cfg env n (obj n) s ms) →
        DanglesMs fun n s => serMemberList cfg env n (obj n) s (mem :: ms) := fun hg hb m hm => by
      obtain ⟨m', hm', hy⟩ := hg m hm
      exact hy.bind (g := fun n s => serMemberList cfg env n (obj n) s ms) (hb m' hm')
    rcases j1 with j1 | j1
    · refine ⟨?_, fun q hq b hb hB => ?_⟩
      · rcases i1 with i1 | i1
        · refine .inl fun m hm => ?_
          obtain ⟨m', hm', hy⟩ := j1 m hm
          obtain ⟨m2, hm2, hy2⟩ := i1 m' hm'
          exact ⟨m2, hm2, hy.bind (g := fun n s => serMemberList cfg env n (obj n) s ms) hy2⟩
        · exact .inr (hgood j1 i1)
      · rcases List.mem_cons.1 hq with rfl | hq
        · exact hbad (j2 b hb hB)
        · exact hgood j1 (i2 q hq b hb hB)
    · exact ⟨.inr (hbad j1), fun _ _ _ _ _ => hbad j1⟩

theorem Heap.Reaches.first {a b : Nat} (h : H.Reaches a b) : a = b ∨ ∃ c, H.Points a c ∧ H.Reaches c b := by
  induction h with
  | refl => exact .inl rfl
  | step hr hp ih =>
    rcases ih with rfl | ⟨c, hc, hr'⟩
    · exact .inr ⟨_, hp, .refl⟩
    · exact .inr ⟨c, hc, .step hr' hp⟩

theorem follow_either {a : Nat} (hf : H.Finite a)
    (h : ∀ b, H.Reaches a b → ∀ o, H b = some o → MembersOk cfg env o.members) :
    (CountsAll a (follow cfg env H) ∨ Dangles a (follow cfg env H)) ∧
    ∀ b, H.Reaches a b → H b = none → Dangles a (follow cfg env H) := by
  induction hf with
  | intro a _ ih =>
    cases ho : H a with
    | none =>
      have hb : Dangles a (follow cfg env H) := fun m _ => ⟨1, fun n hn => by
        obtain ⟨n, rfl⟩ : ∃ i, n = i + 1 := ⟨n - 1, by omega⟩
        exact follow_none ho⟩
      exact ⟨.inr hb, fun _ _ _ => hb⟩
    | some o =>
      have hih : ∀ mem ∈ o.members, ∀ c ∈ mem.targets, _ := fun mem hm c hc =>
        have hp : H.Points a c := ⟨o, ho, mem, hm, hc⟩
        ih c hp fun b hb => h b (hb.head hp)
      obtain ⟨i1, i2⟩ := members_either (h a .refl o ho) fun mem hm c hc => (hih mem hm c hc).1
      have hbad : (DanglesMs fun n s => serMemberList cfg env n (follow cfg env H n) s o.members) →
          Dangles a (follow cfg env H) := fun hb m hm => by
        obtain ⟨n0, h0⟩ := hb m hm
        refine ⟨n0 + 1, fun n hn => ?_⟩
        obtain ⟨n, rfl⟩ : ∃ i, n = i + 1 := ⟨n - 1, by omega⟩
        exact follow_ub ho (h0 n (by omega))
      refine ⟨?_, fun b hr hb => ?_⟩
      · rcases i1 with i1 | i1
        · refine .inl fun m hm => ?_
          obtain ⟨m', hm', n0, h0⟩ := i1 m hm
          refine ⟨m', hm', n0 + 1, fun n hn => ?_⟩
          obtain ⟨n, rfl⟩ : ∃ i, n = i + 1 := ⟨n - 1, by omega⟩
          exact follow_ok ho (h0 n (by omega))
        · exact .inr (hbad i1)
      · rcases hr.first with rfl | ⟨c, ⟨o', ho', mem, hm, hc⟩, hr⟩
        · rw [ho] at hb; cases hb
        · rw [ho] at ho'
          cases ho'
          exact hbad (i2 mem hm c hc ((hih mem hm c hc).2 b hr hb))

theorem footprint_dangling {a : Nat} (hf : H.Finite a)
    (h : ∀ b, H.Reaches a b → ∀ o, H b = some o → MembersOk cfg env o.members)
    {b : Nat} (hr : H.Reaches a b) (hb : H b = none) (off : Nat) :
    Yields (fun n => getMemoryFootprint cfg (heapElem cfg env H n a) a off) (.ub .badRegion) := by
  obtain ⟨n0, h0⟩ := (follow_either hf h).2 b hr hb 0 (by decide)
  refine ⟨n0, fun n hn => ?_⟩
  have h1 : follow cfg env H n (fpS 0) a = .ub .badRegion := h0 n hn
  have h2 : traverseTop cfg (heapElem cfg env H n a) (fpS 0) a = .ub .badRegion := by
    unfold traverseTop
    split
    · exact h1
    · rw [fpS_header]
      show (follow cfg env H n (fpS 0) a).bind _ = _
      rw [h1]
      rfl
  simp only [getMemoryFootprint, h2, Out.bind_eq]
  rfl

end

end Ckpt
