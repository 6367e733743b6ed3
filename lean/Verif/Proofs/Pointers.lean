import Verif.Spec.Pointers
import Verif.Props.Footprint
/-!
Proofs about the footprint of objects with pointers.
-/

set_option autoImplicit false

namespace Ckpt

/-- A footprinter that has counted `m` bytes. -/
abbrev fpS (m : Nat) : Ser := { core := .footprinter m, kind := .footprinter }

theorem fpS_add (m k : Nat) : (fpS m).addBytes k = fpS ((m + k) % 2 ^ 64) := rfl

section
variable {T : Type} {cfg : Cfg}

theorem fpS_header (ti : TI) (m : Nat) : withTypeIdx cfg ti (fpS m) = .ok (fpS m) := rfl
theorem fpS_trailer (ti : TI) (m len : Nat) : withMemUsed cfg ti (fpS m) len = .ok (fpS m) := rfl

theorem traverse_ok {ti : TI} {h : Handler T} {m m' : Nat} {xs ys : List T}
    (hh : h (fpS m) xs = .ok (ys, fpS m')) : traverse cfg ti h (fpS m) xs = .ok (ys, fpS m') := by
  unfold traverse
  split
  · simp only [fpS_header, Out.bind_eq, Out.bind_ok, hh, catchDepth, fpS_trailer]
  · exact hh

theorem traverse_fuel {ti : TI} {h : Handler T} {m : Nat} {xs : List T}
    (hh : h (fpS m) xs = .fuel) : traverse cfg ti h (fpS m) xs = .fuel := by
  unfold traverse
  split
  · simp only [fpS_header, Out.bind_eq, Out.bind_ok, hh, catchDepth]
    rfl
  · exact hh

theorem pipe_ok {e : Elem T} {m m' : Nat} {x y : T} (hh : e.apply (fpS m) [x] = .ok ([y], fpS m')) :
    pipe cfg e (fpS m) x = .ok (y, fpS m') := by
  simp only [pipe, traverse_ok hh, Out.bind_eq, Out.bind_ok]

theorem pipe_fuel {e : Elem T} {m : Nat} {x : T} (hh : e.apply (fpS m) [x] = .fuel) :
    pipe cfg e (fpS m) x = .fuel := by
  simp only [pipe, traverse_fuel hh, Out.bind_eq]
  rfl

theorem dispatchEach_one_ok {f : Ser → T → Out (T × Ser)} {s s' : Ser} {x y : T} (h : f s x = .ok (y, s')) :
    dispatchEach f s [x] = .ok ([y], s') := by
  simp [dispatchEach, h]

theorem dispatchEach_one_fuel {f : Ser → T → Out (T × Ser)} {s : Ser} {x : T} (h : f s x = .fuel) :
    dispatchEach f s [x] = .fuel := by
  simp only [dispatchEach, h, Out.bind_eq]
  rfl

theorem Yields.bind {α β : Type} {f : Nat → Out α} {g : Nat → α → Out β} {a : α} {r : Out β}
    (h1 : Yields f (.ok a)) (h2 : Yields (fun n => g n a) r) : Yields (fun n => f n >>= g n) r := by
  obtain ⟨n1, h1⟩ := h1
  obtain ⟨n2, h2⟩ := h2
  refine ⟨max n1 n2, fun n hn => ?_⟩
  show (f n).bind (g n) = r
  rw [h1 n (by omega)]
  exact h2 n (by omega)

end

section
variable {cfg : Cfg} {env : Env} {H : Heap}

/-- `s | *p`. -/
abbrev follow (cfg : Cfg) (env : Env) (H : Heap) (n : Nat) : Ser → Nat → Out (Nat × Ser) :=
  fun s c => pipe cfg (heapElem cfg env H n c) s c

theorem follow_ok {a n m m' : Nat} {o : HObj} (ho : H a = some o)
    (h : serMemberList cfg env n (follow cfg env H n) (fpS m) o.members = .ok (fpS m')) :
    follow cfg env H (n + 1) (fpS m) a = .ok (a, fpS m') := by
  refine pipe_ok (dispatchEach_one_ok ?_)
  simp only [serObject, ho]
  show (serMemberList cfg env n (follow cfg env H n) (fpS m) o.members).bind _ = _
  rw [h]
  rfl

theorem follow_fuel {a n m : Nat} {o : HObj} (ho : H a = some o)
    (h : serMemberList cfg env n (follow cfg env H n) (fpS m) o.members = .fuel) :
    follow cfg env H (n + 1) (fpS m) a = .fuel := by
  refine pipe_fuel (dispatchEach_one_fuel ?_)
  simp only [serObject, ho]
  show (serMemberList cfg env n (follow cfg env H n) (fpS m) o.members).bind _ = _
  rw [h]
  rfl

theorem follow_zero {a m : Nat} : follow cfg env H 0 (fpS m) a = .fuel :=
  pipe_fuel (dispatchEach_one_fuel rfl)

/-! ## Members -/

section
variable {n : Nat} {obj : Ser → Nat → Out (Nat × Ser)} {m m' : Nat}

theorem serPointer_ok {ti : TI} {a : Nat}
    (h : obj (fpS ((m + ti.sizeof) % 2 ^ 64)) a = .ok (a, fpS m')) :
    serPointer ti obj (fpS m) (some a) = .ok (some a, fpS m') := by
  simp only [serPointer, fpS_add, h, Out.bind_eq, Out.bind_ok]

theorem serPointer_fuel {ti : TI} {a : Nat} (h : obj (fpS ((m + ti.sizeof) % 2 ^ 64)) a = .fuel) :
    serPointer ti obj (fpS m) (some a) = .fuel := by
  simp only [serPointer, fpS_add, h, Out.bind_eq]
  rfl

theorem serMember_pointer_ok {ti : TI} {p : Option Nat} (h : serPointer ti obj (fpS m) p = .ok (p, fpS m')) :
    serMember cfg env n obj (fpS m) (.pointer ti p) = .ok (fpS m') := by
  simp only [serMember, pipe_ok (e := pointerElem ti obj) (dispatchEach_one_ok h), Out.bind_eq, Out.bind_ok]

theorem serMember_pointer_fuel {ti : TI} {p : Option Nat} (h : serPointer ti obj (fpS m) p = .fuel) :
    serMember cfg env n obj (fpS m) (.pointer ti p) = .fuel := by
  simp only [serMember, pipe_fuel (e := pointerElem ti obj) (dispatchEach_one_fuel h), Out.bind_eq]
  rfl

theorem serVector_ok {tiv ti : TI} {cap : Nat} {as : List (Option Nat)}
    (h : dispatchEach (serPointer ti obj) (fpS ((m + tiv.sizeof) % 2 ^ 64)) as = .ok (as, fpS m')) :
    serVector cfg tiv.sizeof (pointerElem ti obj) (fpS m) ⟨cap, as⟩ =
      .ok (⟨cap, as⟩, fpS ((m' + ti.sizeof * (cap - as.length)) % 2 ^ 64)) := by
  have hf : (fpS m).isFootprinting = true := rfl
  have ha : serializeArray cfg (pointerElem ti obj) (fpS ((m + tiv.sizeof) % 2 ^ 64)) as = .ok (as, fpS m') := by
    unfold serializeArray
    split
    · exact traverse_ok h
    · have h0 : as = [] := List.length_eq_zero_iff.1 (by omega)
      subst h0
      simpa [dispatchEach] using h
  simp only [serVector, hf, if_true, fpS_add, ha, Out.bind_eq, Out.bind_ok]
  rfl

theorem serVector_fuel {tiv ti : TI} {cap : Nat} {as : List (Option Nat)}
    (h : dispatchEach (serPointer ti obj) (fpS ((m + tiv.sizeof) % 2 ^ 64)) as = .fuel) :
    serVector cfg tiv.sizeof (pointerElem ti obj) (fpS m) ⟨cap, as⟩ = .fuel := by
  have hf : (fpS m).isFootprinting = true := rfl
  have ha : serializeArray cfg (pointerElem ti obj) (fpS ((m + tiv.sizeof) % 2 ^ 64)) as = .fuel := by
    unfold serializeArray
    split
    · exact traverse_fuel h
    · have h0 : as = [] := List.length_eq_zero_iff.1 (by omega)
      subst h0
      simp [dispatchEach] at h
  simp only [serVector, hf, if_true, fpS_add, ha, Out.bind_eq]
  rfl

theorem serMember_pointers_ok {tiv ti : TI} {cap : Nat} {as : List (Option Nat)}
    (h : dispatchEach (serPointer ti obj) (fpS ((m + tiv.sizeof) % 2 ^ 64)) as = .ok (as, fpS m')) :
    serMember cfg env n obj (fpS m) (.pointers tiv ti cap as) =
      .ok (fpS ((m' + ti.sizeof * (cap - as.length)) % 2 ^ 64)) := by
  have := pipe_ok (cfg := cfg) (e := pointerVecElem cfg tiv ti obj) (dispatchEach_one_ok (serVector_ok (cfg := cfg) (cap := cap) h))
  simp only [serMember, this, Out.bind_eq, Out.bind_ok]

theorem serMember_pointers_fuel {tiv ti : TI} {cap : Nat} {as : List (Option Nat)}
    (h : dispatchEach (serPointer ti obj) (fpS ((m + tiv.sizeof) % 2 ^ 64)) as = .fuel) :
    serMember cfg env n obj (fpS m) (.pointers tiv ti cap as) = .fuel := by
  have := pipe_fuel (cfg := cfg) (e := pointerVecElem cfg tiv ti obj) (dispatchEach_one_fuel (serVector_fuel (cfg := cfg) (cap := cap) h))
  simp only [serMember, this, Out.bind_eq]
  rfl

theorem serMember_handle {ti : TI} :
    serMember cfg env n obj (fpS m) (.handle ti) = .ok (fpS ((m + ti.sizeof) % 2 ^ 64)) := by
  have : pipe cfg (handleElem ti) (fpS m) () = .ok ((), fpS ((m + ti.sizeof) % 2 ^ 64)) :=
    pipe_ok (e := handleElem ti) (dispatchEach_one_ok rfl)
  simp only [serMember, this, Out.bind_eq, Out.bind_ok]

end

/-! ## Counting -/

theorem Yields.congr {α : Type} {f g : Nat → Out α} {r : Out α} (h : Yields f r) (hg : ∀ n, g n = f n) : Yields g r := by
  obtain ⟨n0, h⟩ := h
  exact ⟨n0, fun n hn => (hg n).trans (h n hn)⟩

theorem Yields.const {α : Type} (r : Out α) : Yields (fun _ => r) r := ⟨0, fun _ _ => rfl⟩

theorem members_yield {ms : List Member} {k : Nat} (hc : H.Counts (Counted cfg env) ms k) :
    (∀ m, m < 2 ^ 64 → Yields (fun n => serMemberList cfg env n (follow cfg env H n) (fpS m) ms)
      (.ok (fpS ((m + k) % 2 ^ 64)))) ∧
    (∀ (ti : TI) (as : List (Option Nat)), ms = as.map (.pointer ti) → ∀ m, m < 2 ^ 64 →
      Yields (fun n => dispatchEach (serPointer ti (follow cfg env H n)) (fpS m) as)
        (.ok (as, fpS ((m + k) % 2 ^ 64)))) := by
  have hlt : ∀ x : Nat, x % 2 ^ 64 < 2 ^ 64 := fun x => Nat.mod_lt _ (by decide)
  have hmod : ∀ x y z : Nat, (x + y) % 2 ^ 64 = z % 2 ^ 64 → fpS ((x + y) % 2 ^ 64) = fpS (z % 2 ^ 64) := by
    intro x y z h; rw [h]
  induction hc with
  | nil =>
    refine ⟨fun m hm => ?_, fun ti as has m hm => ?_⟩
    · refine ⟨0, fun n _ => ?_⟩
      simp [serMemberList, Nat.mod_eq_of_lt hm]
    · cases as with
      | nil => exact ⟨0, fun n _ => by simp [dispatchEach, Nat.mod_eq_of_lt hm]⟩
      | cons => simp at has
  | @value t x f k ms hf _ ih =>
    refine ⟨fun m hm => ?_, fun ti as has m hm => ?_⟩
    · have h1 : Yields (fun n => serMember cfg env n (follow cfg env H n) (fpS m) (.value t x))
          (.ok (fpS ((m + f) % 2 ^ 64))) := by
        refine Yields.bind (hf m hm) (.const _)
      have h2 := ih.1 _ (hlt (m + f))
      have h3 := h1.bind (g := fun n s => serMemberList cfg env n (follow cfg env H n) s ms) h2
      have he : ((m + f) % 2 ^ 64 + k) % 2 ^ 64 = (m + (f + k)) % 2 ^ 64 := by omega
      rw [he] at h3
      exact h3
    · cases as <;> simp at has
  | @handle ti k ms _ ih =>
    refine ⟨fun m hm => ?_, fun ti as has m hm => ?_⟩
    · have h1 : Yields (fun n => serMember cfg env n (follow cfg env H n) (fpS m) (.handle ti))
          (.ok (fpS ((m + ti.sizeof) % 2 ^ 64))) := ⟨0, fun n _ => serMember_handle⟩
      have h3 := h1.bind (g := fun n s => serMemberList cfg env n (follow cfg env H n) s ms) (ih.1 _ (hlt _))
      have he : ((m + ti.sizeof) % 2 ^ 64 + k) % 2 ^ 64 = (m + (ti.sizeof + k)) % 2 ^ 64 := by omega
      rw [he] at h3
      exact h3
    · cases as <;> simp at has
  | @null ti k ms _ ih =>
    refine ⟨fun m hm => ?_, fun ti' as has m hm => ?_⟩
    · have h1 : Yields (fun n => serMember cfg env n (follow cfg env H n) (fpS m) (.pointer ti none))
          (.ok (fpS ((m + ti.sizeof) % 2 ^ 64))) := ⟨0, fun n _ => serMember_pointer_ok rfl⟩
      have h3 := h1.bind (g := fun n s => serMemberList cfg env n (follow cfg env H n) s ms) (ih.1 _ (hlt _))
      have he : ((m + ti.sizeof) % 2 ^ 64 + k) % 2 ^ 64 = (m + (ti.sizeof + k)) % 2 ^ 64 := by omega
      rw [he] at h3
      exact h3
    · cases as with
      | nil => simp at has
      | cons a as =>
        simp only [List.map_cons, List.cons.injEq, Member.pointer.injEq] at has
        obtain ⟨⟨rfl, rfl⟩, rfl⟩ := has
        have h2 := ih.2 ti as rfl _ (hlt (m + ti.sizeof))
        have h1 : Yields (fun n => serPointer ti (follow cfg env H n) (fpS m) none)
          (.ok (none, fpS ((m + ti.sizeof) % 2 ^ 64))) := ⟨0, fun n _ => rfl⟩
        have h4 : Yields (fun n => (dispatchEach (serPointer ti (follow cfg env H n))
            (fpS ((m + ti.sizeof) % 2 ^ 64)) as) >>= fun p => Out.ok ((none : Option Nat) :: p.1, p.2))
            (.ok (none :: as, fpS (((m + ti.sizeof) % 2 ^ 64 + k) % 2 ^ 64))) := h2.bind (.const _)
        have h3 := h1.bind (g := fun n p => (dispatchEach (serPointer ti (follow cfg env H n)) p.2 as) >>=
            fun q => Out.ok (p.1 :: q.1, q.2)) h4
        have he : ((m + ti.sizeof) % 2 ^ 64 + k) % 2 ^ 64 = (m + (ti.sizeof + k)) % 2 ^ 64 := by omega
        rw [he] at h3
        exact h3
  | @pointer ti a o j k ms ho _ _ ih1 ih2 =>
    have hp : ∀ m, m < 2 ^ 64 → Yields (fun n => serPointer ti (follow cfg env H n) (fpS m) (some a))
        (.ok (some a, fpS ((m + (ti.sizeof + j)) % 2 ^ 64))) := by
      intro m hm
      obtain ⟨n0, h0⟩ := ih1.1 _ (hlt (m + ti.sizeof))
      refine ⟨n0 + 1, fun n hn => ?_⟩
      obtain ⟨n, rfl⟩ : ∃ i, n = i + 1 := ⟨n - 1, by omega⟩
      have he : ((m + ti.sizeof) % 2 ^ 64 + j) % 2 ^ 64 = (m + (ti.sizeof + j)) % 2 ^ 64 := by omega
      have := follow_ok ho (h0 n (by omega))
      rw [he] at this
      exact serPointer_ok this
    refine ⟨fun m hm => ?_, fun ti' as has m hm => ?_⟩
    · have h1 : Yields (fun n => serMember cfg env n (follow cfg env H n) (fpS m) (.pointer ti (some a)))
          (.ok (fpS ((m + (ti.sizeof + j)) % 2 ^ 64))) := by
        obtain ⟨n0, h0⟩ := hp m hm
        exact ⟨n0, fun n hn => serMember_pointer_ok (h0 n hn)⟩
      have h3 := h1.bind (g := fun n s => serMemberList cfg env n (follow cfg env H n) s ms) (ih2.1 _ (hlt _))
      have he : ((m + (ti.sizeof + j)) % 2 ^ 64 + k) % 2 ^ 64 = (m + (ti.sizeof + j + k)) % 2 ^ 64 := by omega
      rw [he] at h3
      exact h3
    · cases as with
      | nil => simp at has
      | cons b as =>
        simp only [List.map_cons, List.cons.injEq, Member.pointer.injEq] at has
        obtain ⟨⟨rfl, rfl⟩, rfl⟩ := has
        have h2 := ih2.2 ti as rfl _ (hlt (m + (ti.sizeof + j)))
        have h4 : Yields (fun n => (dispatchEach (serPointer ti (follow cfg env H n))
            (fpS ((m + (ti.sizeof + j)) % 2 ^ 64)) as) >>= fun p => Out.ok (some a :: p.1, p.2))
            (.ok (some a :: as, fpS (((m + (ti.sizeof + j)) % 2 ^ 64 + k) % 2 ^ 64))) := h2.bind (.const _)
        have h3 := (hp m hm).bind (g := fun n p => (dispatchEach (serPointer ti (follow cfg env H n)) p.2 as) >>=
            fun q => Out.ok (p.1 :: q.1, q.2)) h4
        have he : ((m + (ti.sizeof + j)) % 2 ^ 64 + k) % 2 ^ 64 = (m + (ti.sizeof + j + k)) % 2 ^ 64 := by omega
        rw [he] at h3
        exact h3
  | @pointers tiv ti cap as j k ms _ _ ih1 ih2 =>
    refine ⟨fun m hm => ?_, fun ti' as has m hm => ?_⟩
    · have h1 : Yields (fun n => serMember cfg env n (follow cfg env H n) (fpS m) (.pointers tiv ti cap as))
          (.ok (fpS ((((m + tiv.sizeof) % 2 ^ 64 + j) % 2 ^ 64 + ti.sizeof * (cap - as.length)) % 2 ^ 64))) := by
        obtain ⟨n0, h0⟩ := ih1.2 ti as rfl _ (hlt (m + tiv.sizeof))
        exact ⟨n0, fun n hn => serMember_pointers_ok (h0 n hn)⟩
      have h3 := h1.bind (g := fun n s => serMemberList cfg env n (follow cfg env H n) s ms) (ih2.1 _ (hlt _))
      generalize ti.sizeof * (cap - as.length) = u at h3 ⊢
      have he : ((((m + tiv.sizeof) % 2 ^ 64 + j) % 2 ^ 64 + u) % 2 ^ 64 + k) % 2 ^ 64 =
        (m + (tiv.sizeof + j + u + k)) % 2 ^ 64 := by omega
      rw [he] at h3
      exact h3
    · cases as <;> simp at has

theorem footprint_yields {a : Nat} {o : HObj} {k : Nat} (ho : H a = some o)
    (hc : H.Counts (Counted cfg env) o.members k) (off : Nat) :
    Yields (fun n => getMemoryFootprint cfg (heapElem cfg env H n a) a off)
      (.ok ((off + max (k % 2 ^ 64) o.ti.sizeof) % 2 ^ 64, a)) := by
  obtain ⟨n0, h0⟩ := (members_yield hc).1 0 (by decide)
  refine ⟨n0 + 1, fun n hn => ?_⟩
  obtain ⟨n, rfl⟩ : ∃ i, n = i + 1 := ⟨n - 1, by omega⟩
  have h1 := follow_ok ho (h0 n (by omega))
  have h2 : traverseTop cfg (heapElem cfg env H (n + 1) a) (fpS 0) a = .ok (a, fpS ((0 + k) % 2 ^ 64)) := by
    unfold traverseTop
    split
    · exact h1
    · rw [fpS_header]
      show (follow cfg env H (n + 1) (fpS 0) a).bind _ = _
      rw [h1]
      rfl
  have hti : (heapElem cfg env H (n + 1) a).ti = o.ti := by simp [heapElem, objectAt, ho]
  simp only [getMemoryFootprint, h2, hti, Out.bind_eq, Out.bind_ok]
  simp [Ser.count, sizeMod]

/-! ## Not terminating -/

/-- Not finished, or finished with some count. -/
def Tame (o : Out Ser) : Prop := o = .fuel ∨ ∃ m < 2 ^ 64, o = .ok (fpS m)

/-- The same for a computation that returns the object, too. -/
def TameP {α : Type} (x : α) (o : Out (α × Ser)) : Prop := o = .fuel ∨ ∃ m < 2 ^ 64, o = .ok (x, fpS m)

theorem value_tame {t : Ty} {x : Val} {f : Nat} (hf : Counted cfg env t x f) (n : Nat)
    (obj : Ser → Nat → Out (Nat × Ser)) {m : Nat} (hm : m < 2 ^ 64) :
    Tame (serMember cfg env n obj (fpS m) (.value t x)) := by
  obtain ⟨n0, h0⟩ := hf m hm
  have hle := pipe_le (cfg := cfg) (elem_le cfg env (Nat.le_max_left n n0) t) (fpS m) x
  simp only [serMember]
  rcases hle with h | h
  · rw [h]; exact .inl rfl
  · have h1 : pipe cfg (elem cfg env (max n n0) t) (fpS m) x = _ := h0 _ (Nat.le_max_right n n0)
    rw [h, h1]
    exact .inr ⟨_, Nat.mod_lt _ (by decide), rfl⟩

section
variable {obj : Ser → Nat → Out (Nat × Ser)}

theorem pointer_tame {ti : TI} {p : Option Nat} (h : ∀ a ∈ p, ∀ m < 2 ^ 64, TameP a (obj (fpS m) a)) {m : Nat}
    (_hm : m < 2 ^ 64) : TameP p (serPointer ti obj (fpS m) p) := by
  cases p with
  | none => exact .inr ⟨_, Nat.mod_lt _ (by decide), rfl⟩
  | some a =>
    rcases h a rfl _ (Nat.mod_lt (m + ti.sizeof) (show 0 < 2 ^ 64 by decide)) with h | ⟨m', hm', h⟩
    · exact .inl (serPointer_fuel h)
    · exact .inr ⟨m', hm', serPointer_ok h⟩

theorem pointers_tame {ti : TI} : ∀ {as : List (Option Nat)},
    (∀ p ∈ as, ∀ a ∈ p, ∀ m < 2 ^ 64, TameP a (obj (fpS m) a)) → ∀ {m : Nat}, m < 2 ^ 64 →
    TameP as (dispatchEach (serPointer ti obj) (fpS m) as)
  | [], _, m, hm => .inr ⟨m, hm, rfl⟩
  | p :: as, h, m, hm => by
    rcases pointer_tame (ti := ti) (h p (by simp)) hm with h1 | ⟨m', hm', h1⟩
    · refine .inl ?_
      simp only [dispatchEach, h1, Out.bind_eq]; rfl
    · rcases pointers_tame (ti := ti) (as := as) (fun q hq => h q (by simp [hq])) hm' with h2 | ⟨m2, hm2, h2⟩
      · refine .inl ?_
        simp only [dispatchEach, h1, h2, Out.bind_eq, Out.bind_ok]; rfl
      · refine .inr ⟨m2, hm2, ?_⟩
        simp only [dispatchEach, h1, h2, Out.bind_eq, Out.bind_ok]

theorem pointers_fuel {ti : TI} {b : Nat} (hb : ∀ m < 2 ^ 64, obj (fpS m) b = .fuel) : ∀ {as : List (Option Nat)},
    (∀ p ∈ as, ∀ a ∈ p, ∀ m < 2 ^ 64, TameP a (obj (fpS m) a)) → some b ∈ as → ∀ {m : Nat}, m < 2 ^ 64 →
    dispatchEach (serPointer ti obj) (fpS m) as = .fuel
  | p :: as, h, hmem, m, hm => by
    rcases pointer_tame (ti := ti) (h p (by simp)) hm with h1 | ⟨m', hm', h1⟩
    · simp only [dispatchEach, h1, Out.bind_eq]; rfl
    · by_cases hp : p = some b
      · subst hp
        rw [serPointer_fuel (hb _ (Nat.mod_lt _ (by decide)))] at h1
        exact absurd h1 (by simp)
      · have h2 := pointers_fuel (ti := ti) hb (as := as) (fun q hq => h q (by simp [hq]))
          (by simpa [Ne.symm hp] using hmem) hm'
        simp only [dispatchEach, h1, h2, Out.bind_eq, Out.bind_ok]; rfl

/-- What is needed of the members. -/
def MembersOk (cfg : Cfg) (env : Env) (ms : List Member) : Prop :=
  ∀ t x, Member.value t x ∈ ms → ∃ f, Counted cfg env t x f

theorem member_tame {n : Nat} {mem : Member} (hv : ∀ t x, mem = .value t x → ∃ f, Counted cfg env t x f)
    (h : ∀ a ∈ mem.targets, ∀ m < 2 ^ 64, TameP a (obj (fpS m) a)) {m : Nat} (hm : m < 2 ^ 64) :
    Tame (serMember cfg env n obj (fpS m) mem) ∧
    (∀ b ∈ mem.targets, (∀ m < 2 ^ 64, obj (fpS m) b = .fuel) → serMember cfg env n obj (fpS m) mem = .fuel) := by
  cases mem with
  | value t x =>
    obtain ⟨f, hf⟩ := hv t x rfl
    exact ⟨value_tame hf n obj hm, fun b hb => by simp [Member.targets] at hb⟩
  | handle ti =>
    exact ⟨.inr ⟨_, Nat.mod_lt _ (by decide), serMember_handle⟩, fun b hb => by simp [Member.targets] at hb⟩
  | pointer ti p =>
    have h' : ∀ a ∈ p, ∀ m < 2 ^ 64, TameP a (obj (fpS m) a) := fun a ha => h a (by simpa [Member.targets] using ha)
    refine ⟨?_, fun b hb hf => ?_⟩
    · rcases pointer_tame (ti := ti) h' hm with h1 | ⟨m', hm', h1⟩
      · exact .inl (serMember_pointer_fuel h1)
      · exact .inr ⟨m', hm', serMember_pointer_ok h1⟩
    · have hp : p = some b := by simpa [Member.targets] using hb
      subst hp
      exact serMember_pointer_fuel (serPointer_fuel (hf _ (Nat.mod_lt _ (by decide))))
  | pointers tiv ti cap as =>
    have h' : ∀ p ∈ as, ∀ a ∈ p, ∀ m < 2 ^ 64, TameP a (obj (fpS m) a) := by
      intro p hp a ha
      refine h a ?_
      rw [Option.mem_def] at ha
      subst ha
      simpa [Member.targets] using hp
    refine ⟨?_, fun b hb hf => ?_⟩
    · rcases pointers_tame (ti := ti) h' (Nat.mod_lt (m + tiv.sizeof) (show 0 < 2 ^ 64 by decide)) with h1 | ⟨m', hm', h1⟩
      · exact .inl (serMember_pointers_fuel h1)
      · exact .inr ⟨_, Nat.mod_lt _ (by decide), serMember_pointers_ok h1⟩
    · exact serMember_pointers_fuel (pointers_fuel hf h' (by simpa [Member.targets] using hb)
        (Nat.mod_lt _ (by decide)))

theorem members_tame {n : Nat} : ∀ {ms : List Member}, MembersOk cfg env ms →
    (∀ mem ∈ ms, ∀ a ∈ mem.targets, ∀ m < 2 ^ 64, TameP a (obj (fpS m) a)) → ∀ {m : Nat}, m < 2 ^ 64 →
    Tame (serMemberList cfg env n obj (fpS m) ms) ∧
    (∀ mem ∈ ms, ∀ b ∈ mem.targets, (∀ m < 2 ^ 64, obj (fpS m) b = .fuel) →
      serMemberList cfg env n obj (fpS m) ms = .fuel)
  | [], _, _, m, hm => ⟨.inr ⟨m, hm, rfl⟩, by simp⟩
  | mem :: ms, hv, h, m, hm => by
    obtain ⟨h1, h1f⟩ := member_tame (n := n) (mem := mem) (fun t x e => hv t x (by simp [e])) (h mem (by simp)) hm
    have hnext := fun {m' : Nat} (hm' : m' < 2 ^ 64) => members_tame (n := n) (ms := ms)
      (fun t x e => hv t x (by simp [e])) (fun q hq => h q (by simp [hq])) hm'
    constructor
    · rcases h1 with h1 | ⟨m', hm', h1⟩
      · refine .inl ?_
        simp only [serMemberList, h1, Out.bind_eq]; rfl
      · simp only [serMemberList, h1, Out.bind_eq, Out.bind_ok]
        exact (hnext hm').1
    · intro q hq b hb hf
      rcases List.mem_cons.1 hq with rfl | hq
      · simp only [serMemberList, h1f b hb hf, Out.bind_eq]; rfl
      · rcases h1 with h1 | ⟨m', hm', h1⟩
        · simp only [serMemberList, h1, Out.bind_eq]; rfl
        · simp only [serMemberList, h1, Out.bind_eq, Out.bind_ok]
          exact (hnext hm').2 q hq b hb hf

end

/-- Every pointer that can be reached points to an object with countable values. -/
def Heap.Ok (cfg : Cfg) (env : Env) (H : Heap) (a : Nat) : Prop :=
  ∀ b, H.Reaches a b → ∃ o, H b = some o ∧ MembersOk cfg env o.members

theorem Heap.Reaches.head {a b c : Nat} (h1 : H.Points a b) (h2 : H.Reaches b c) : H.Reaches a c := by
  induction h2 with
  | refl => exact .step .refl h1
  | step _ h ih => exact .step ih h

theorem Heap.Ok.next {a b : Nat} (h : Heap.Ok cfg env H a) (hp : H.Points a b) : Heap.Ok cfg env H b :=
  fun c hc => h c (.head hp hc)

theorem follow_tame : ∀ (n : Nat) {a : Nat}, Heap.Ok cfg env H a → ∀ m < 2 ^ 64, TameP a (follow cfg env H n (fpS m) a)
  | 0, _, _, _, _ => .inl follow_zero
  | n + 1, a, h, m, hm => by
    obtain ⟨o, ho, hmo⟩ := h a .refl
    rcases (members_tame (n := n) (obj := follow cfg env H n) hmo (fun mem hmem b hb m hm =>
      follow_tame n (h.next ⟨o, ho, mem, hmem, hb⟩) m hm) hm).1 with h1 | ⟨m', hm', h1⟩
    · exact .inl (follow_fuel ho h1)
    · exact .inr ⟨m', hm', follow_ok ho h1⟩

theorem follow_never : ∀ (n : Nat) {a : Nat}, Heap.Ok cfg env H a → ¬ H.Finite a → ∀ m < 2 ^ 64,
    follow cfg env H n (fpS m) a = .fuel
  | 0, _, _, _, _, _ => follow_zero
  | n + 1, a, h, hi, m, hm => by
    obtain ⟨b, hb, hib⟩ : ∃ b, H.Points a b ∧ ¬ H.Finite b := by
      by_contra hc
      refine hi ⟨_, fun b hb => ?_⟩
      by_contra hn
      exact hc ⟨b, hb, hn⟩
    obtain ⟨o, ho, mem, hmem, ht⟩ := hb
    obtain ⟨o', ho', hmo⟩ := h a .refl
    rw [ho, Option.some.injEq] at ho'
    subst ho'
    refine follow_fuel ho ?_
    exact (members_tame (n := n) (obj := follow cfg env H n) hmo (fun mem hmem b hb m hm =>
      follow_tame n (h.next ⟨o, ho, mem, hmem, hb⟩) m hm) hm).2 mem hmem b ht
      (fun m hm => follow_never n (h.next ⟨o, ho, mem, hmem, ht⟩) hib m hm)

theorem footprint_never {a : Nat} (h : Heap.Ok cfg env H a) (hi : ¬ H.Finite a) (off n : Nat) :
    getMemoryFootprint cfg (heapElem cfg env H n a) a off = .fuel := by
  have h1 := follow_never n h hi 0 (by decide)
  have h2 : traverseTop cfg (heapElem cfg env H n a) (fpS 0) a = .fuel := by
    unfold traverseTop
    split
    · exact h1
    · rw [fpS_header]
      show (follow cfg env H n (fpS 0) a).bind _ = _
      rw [h1]
      rfl
  unfold getMemoryFootprint
  rw [h2]
  rfl

theorem counts_members : ∀ {ms : List Member}, MembersOk cfg env ms →
    (∀ mem ∈ ms, ∀ a ∈ mem.targets, ∃ o k, H a = some o ∧ H.Counts (Counted cfg env) o.members k) →
    ∃ k, H.Counts (Counted cfg env) ms k := by
  have hptr : ∀ (ti : TI) (as : List (Option Nat)),
      (∀ p ∈ as, ∀ a ∈ p, ∃ o k, H a = some o ∧ H.Counts (Counted cfg env) o.members k) →
      ∃ k, H.Counts (Counted cfg env) (as.map (.pointer ti)) k := by
    intro ti as
    induction as with
    | nil => exact fun _ => ⟨_, .nil⟩
    | cons p as ih =>
      intro h
      obtain ⟨k, hk⟩ := ih (fun q hq => h q (by simp [hq]))
      cases p with
      | none => exact ⟨_, .null hk⟩
      | some a =>
        obtain ⟨o, j, ho, hj⟩ := h (some a) (by simp) a rfl
        exact ⟨_, .pointer ho hj hk⟩
  intro ms
  induction ms with
  | nil => exact fun _ _ => ⟨_, .nil⟩
  | cons mem ms ih =>
    intro hv h
    obtain ⟨k, hk⟩ := ih (fun t x e => hv t x (by simp [e])) (fun q hq => h q (by simp [hq]))
    cases mem with
    | value t x =>
      obtain ⟨f, hf⟩ := hv t x (by simp)
      exact ⟨_, .value hf hk⟩
    | handle ti => exact ⟨_, .handle hk⟩
    | pointer ti p =>
      cases p with
      | none => exact ⟨_, .null hk⟩
      | some a =>
        obtain ⟨o, j, ho, hj⟩ := h _ List.mem_cons_self a (by simp [Member.targets])
        exact ⟨_, .pointer ho hj hk⟩
    | pointers tiv ti cap as =>
      obtain ⟨j, hj⟩ := hptr ti as (fun p hp a ha => h _ List.mem_cons_self a (by
        rw [Option.mem_def] at ha
        subst ha
        simpa [Member.targets] using hp))
      exact ⟨_, .pointers hj hk⟩

theorem counts_of_finite {a : Nat} (h : Heap.Ok cfg env H a) (hf : H.Finite a) :
    ∃ o k, H a = some o ∧ H.Counts (Counted cfg env) o.members k := by
  induction hf with
  | intro a _ ih =>
    obtain ⟨o, ho, hmo⟩ := h a .refl
    obtain ⟨k, hk⟩ := counts_members hmo (fun mem hmem b hb =>
      ih b ⟨o, ho, mem, hmem, hb⟩ (h.next ⟨o, ho, mem, hmem, hb⟩))
    exact ⟨o, k, ho, hk⟩

end
end Ckpt
