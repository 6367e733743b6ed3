import Verif.Proofs.Unwound
import Verif.Proofs.VecAppend
import Verif.Spec.Between
/-!
What a call that throws has left in the object, compared with the value the same call returns on a longer stream.
-/

set_option autoImplicit false

namespace Ckpt

/-- The serializer with `m` behind the unread input of its stream. -/
def Ser.more (m : Bytes) (s : Ser) : Ser :=
  match s.core with
  | .streamUnpacker inp n => { s with core := .streamUnpacker (inp ++ m) n }
  | _ => s

/-- `o`: a call; `o'`: the same call with more input; `p`: the value after `o`. -/
def Cut {α : Type} (m : Bytes) (B : α → α → Prop) : Out (α × Ser) → Out (α × Ser) → Out α → Prop
  | .ok r, o', p => o' = .ok (r.1, r.2.more m) ∧ r.2.isUnpacking = true ∧ p = .ok r.1
  | .throw _, o', p => ∀ w s', o' = .ok (w, s') → ∃ z, p = .ok z ∧ B w z
  | _, _, _ => True

/-- A call on a local variable. -/
def CutL {α : Type} (m : Bytes) : Out (α × Ser) → Out (α × Ser) → Prop
  | .ok r, o' => o' = .ok (r.1, r.2.more m) ∧ r.2.isUnpacking = true
  | _, _ => True

/-- A call that returns the serializer only. -/
def CutS (m : Bytes) : Out Ser → Out Ser → Prop
  | .ok s, o' => o' = .ok (s.more m) ∧ s.isUnpacking = true
  | _, _ => True

section
variable {α β : Type} {m : Bytes} {B : α → α → Prop} {P : β → β → Prop}

theorem Cut.loc {o o' : Out (α × Ser)} {p : Out α} (h : Cut m B o o' p) : CutL m o o' := by
  cases o with
  | ok r => exact ⟨h.1, h.2.1⟩
  | _ => trivial

theorem Cut.imp {B' : α → α → Prop} {o o' : Out (α × Ser)} {p : Out α} (h : Cut m B o o' p)
    (hB : ∀ w z, B w z → B' w z) : Cut m B' o o' p := by
  cases o with
  | ok r => exact h
  | throw e => intro w s' hw; obtain ⟨z, hz, hb⟩ := h w s' hw; exact ⟨z, hz, hB w z hb⟩
  | _ => trivial

theorem Cut.ok {a : α} {s : Ser} (hs : s.isUnpacking = true) : Cut m B (.ok (a, s)) (.ok (a, s.more m)) (.ok a) :=
  ⟨rfl, hs, rfl⟩

/-- A call on a local variable first. -/
theorem Cut.bind {o o' : Out (β × Ser)} {f : β × Ser → Out (α × Ser)} {f' : β × Ser → Out α} {g : Out α} (h : CutL m o o')
    (hf : ∀ r, r.2.isUnpacking = true → Cut m B (f r) (f (r.1, r.2.more m)) (f' r))
    (hg : ∃ b, g = .ok b ∧ ∀ r w s', f r = .ok (w, s') → B w b) : Cut m B (o >>= f) (o' >>= f) (o.after f' g) := by
  cases o with
  | ok r => obtain ⟨rfl, hs⟩ := h; exact hf r hs
  | throw e =>
    intro w s' hw
    obtain ⟨b, hb, hB⟩ := hg
    cases o' with
    | ok r => exact ⟨b, hb, hB r w s' hw⟩
    | _ => cases hw
  | _ => trivial

theorem Cut.bindS {o o' : Out Ser} {f : Ser → Out (α × Ser)} {f' : Ser → Out α} {g : Out α} (h : CutS m o o')
    (hf : ∀ s, s.isUnpacking = true → Cut m B (f s) (f (s.more m)) (f' s))
    (hg : ∃ b, g = .ok b ∧ ∀ r w s', f r = .ok (w, s') → B w b) : Cut m B (o >>= f) (o' >>= f) (o.after f' g) := by
  cases o with
  | ok r => obtain ⟨rfl, hs⟩ := h; exact hf r hs
  | throw e =>
    intro w s' hw
    obtain ⟨b, hb, hB⟩ := hg
    cases o' with
    | ok r => exact ⟨b, hb, hB r w s' hw⟩
    | _ => cases hw
  | _ => trivial

/-- A call on a part first. -/
theorem Cut.part {o o' : Out (β × Ser)} {p : Out β} {f : β × Ser → Out (α × Ser)} {f' : β × Ser → Out α} {g : β → Out α}
    (h : Cut m P o o' p) (hf : ∀ r, r.2.isUnpacking = true → Cut m B (f r) (f (r.1, r.2.more m)) (f' r))
    (hg : ∀ b c, P b c → ∃ a, g c = .ok a ∧ ∀ s w s', f (b, s) = .ok (w, s') → B w a) :
    Cut m B (o >>= f) (o' >>= f) (o.after f' (p >>= g)) := by
  cases o with
  | ok r => obtain ⟨rfl, hs, _⟩ := h; exact hf r hs
  | throw e =>
    intro w s' hw
    cases o' with
    | ok r =>
      obtain ⟨c, rfl, hc⟩ := h r.1 r.2 rfl
      obtain ⟨a, ha, hB⟩ := hg r.1 c hc
      exact ⟨a, ha, hB r.2 w s' hw⟩
    | _ => cases hw
  | _ => trivial

/-- A call on a part last. -/
theorem Cut.map {o o' : Out (β × Ser)} {p : Out β} {f : β → α} (h : Cut m P o o' p) (hf : ∀ b c, P b c → B (f b) (f c)) :
    Cut m B (o >>= fun r => .ok (f r.1, r.2)) (o' >>= fun r => .ok (f r.1, r.2)) (p >>= fun b => .ok (f b)) := by
  cases o with
  | ok r => obtain ⟨rfl, hs, rfl⟩ := h; exact ⟨rfl, hs, rfl⟩
  | throw e =>
    intro w s' hw
    cases o' with
    | ok r =>
      obtain ⟨c, rfl, hc⟩ := h r.1 r.2 rfl
      cases hw
      exact ⟨f c, rfl, hf _ _ hc⟩
    | _ => cases hw
  | _ => trivial

theorem Cut.also {Q : α → Prop} {o o' : Out (α × Ser)} {p : Out α} (h : Cut m B o o' p) (hq : Loc Q o') :
    Cut m (fun w z => Q w ∧ B w z) o o' p := by
  cases o with
  | ok r => exact h
  | throw e =>
    intro w s' hw
    obtain ⟨z, hz, hb⟩ := h w s' hw
    rw [hw] at hq
    exact ⟨z, hz, hq.1, hb⟩
  | _ => trivial

theorem Cut.catch {o o' : Out (α × Ser)} {p : Out α} (ti : TI) (h : Cut m B o o' p) :
    Cut m B (catchDepth ti o) (catchDepth ti o') p := by
  have key : ∀ {q : Out (α × Ser)} {r}, catchDepth ti q = .ok r → q = .ok r := by
    intro q r hq
    cases q with
    | throw e => cases e <;> cases hq
    | _ => exact hq
  cases o with
  | ok r => obtain ⟨rfl, h1, h2⟩ := h; exact ⟨rfl, h1, h2⟩
  | throw e =>
    have : ∀ w s', catchDepth ti o' = .ok (w, s') → ∃ z, p = .ok z ∧ B w z := fun w s' hw => h w s' (key hw)
    cases e <;> exact this
  | _ => trivial

end

/-- Arrays read from the front. -/
inductive CutAt {T : Type} (B : T → T → T → Prop) : List T → List T → List T → Prop
  | kept {ys ws : List T} : CutAt B ys ws ys
  | done {ys ws : List T} : CutAt B ys ws ws
  | part {y w z : T} {ys ws : List T} : B y w z → CutAt B (y :: ys) (w :: ws) (z :: ys)
  | next {y w : T} {ys ws zs : List T} : CutAt B ys ws zs → CutAt B (y :: ys) (w :: ws) (w :: zs)

theorem CutAt.torn {I T : Type} {B : I → T → T → T → Prop} {i : I} {ys ws zs : List T} (h : CutAt (B i) ys ws zs) :
    PartRead B (List.replicate ys.length i) ys ws zs := by
  induction h with
  | kept => exact .kept
  | done => exact .done
  | part h => exact .part h
  | next _ ih => exact .next ih

theorem CutAt.one {T : Type} {B : T → T → T → Prop} {y w : T} {zs : List T} (h : CutAt B [y] [w] zs) (hk : ∀ y w, B y w y)
    (hd : ∀ y w, B y w w) : ∃ z, zs = [z] ∧ B y w z := by
  cases h with
  | kept => exact ⟨y, rfl, hk y w⟩
  | done => exact ⟨w, rfl, hd y w⟩
  | part h => exact ⟨_, rfl, h⟩
  | next h => cases h <;> exact ⟨w, rfl, hd y w⟩

theorem CutAt.map {T U : Type} {B : T → T → T → Prop} {C : U → U → U → Prop} {f : T → U}
    (hB : ∀ y w z, B y w z → C (f y) (f w) (f z)) {ys ws zs : List T} (h : CutAt B ys ws zs) :
    CutAt C (ys.map f) (ws.map f) (zs.map f) := by
  induction h with
  | kept => exact .kept
  | done => exact .done
  | part h => exact .part (hB _ _ _ h)
  | next _ ih => exact .next ih

/-- Objects satisfying `P`, read through `h`: `B old new left`. -/
structure Tears {T : Type} (m : Bytes) (P : T → Prop) (B : T → T → T → Prop) (h : Handler T) (r : Residue T) : Prop where
  cut : ∀ s xs, s.isUnpacking = true → xs ≠ [] → (∀ x ∈ xs, P x) → Cut m (CutAt B xs) (h s xs) (h (s.more m) xs) (r s xs)
  kept : ∀ y w, B y w y
  done : ∀ y w, B y w w

section
variable {T : Type} {P : T → Prop} {B : T → T → T → Prop} {cfg : Cfg} {m : Bytes}

theorem more_unp {s : Ser} (h : s.isUnpacking = true) : (s.more m).isUnpacking = true := by
  obtain ⟨core, kind, vdis⟩ := s
  cases core <;> first | rfl | cases h

theorem more_kind (s : Ser) : (s.more m).kind = s.kind := by
  obtain ⟨core, kind, vdis⟩ := s
  cases core <;> rfl

theorem more_vdis (s : Ser) : (s.more m).vdis = s.vdis := by
  obtain ⟨core, kind, vdis⟩ := s
  cases core <;> rfl

theorem more_setVdis (s : Ser) (b : Bool) : (s.more m).setVdis b = (s.setVdis b).more m := by
  obtain ⟨core, kind, vdis⟩ := s
  cases core <;> rfl

/-- The bytes of a region, read from the front. -/
theorem bytes_cut {s : Ser} (hs : s.isUnpacking = true) (size num : Nat) (data : Bytes) (hd : data.length = size * num) :
    Cut m (fun w z => ∃ k, w.length = size * num ∧ z = w.take k ++ data.drop k) (s.contiguousBytes size num data)
      ((s.more m).contiguousBytes size num data) (bytesEnd s size num data) := by
  obtain ⟨core, kind, vdis⟩ := s
  unfold bytesEnd Ser.more
  cases core with
  | unpacker mem cur used =>
    simp only [Ser.contiguousBytes, hd, ne_eq, not_true_eq_false, if_false]
    split
    · exact ⟨rfl, rfl, rfl⟩
    · trivial
  | streamUnpacker inp n =>
    simp only [Ser.contiguousBytes, hd, ne_eq, not_true_eq_false, if_false]
    by_cases hl : size * num ≤ inp.length
    · rw [if_pos hl, if_pos (by rw [List.length_append]; omega), List.take_append_of_le_length hl,
        List.drop_append_of_le_length hl]
      exact ⟨rfl, rfl, rfl⟩
    · rw [if_neg hl]
      intro w s' hw
      split at hw
      · next hl' =>
        cases hw
        rw [List.length_append] at hl'
        refine ⟨_, rfl, inp.length, by simp; omega, ?_⟩
        rw [List.take_take, Nat.min_eq_left (by omega), List.take_append_of_le_length (Nat.le_refl _), List.take_length]
      · cases hw
  | _ => cases hs

/-- One value of a type that is copied as bytes. -/
def TornBytes (y w z : Bytes) : Prop := ∃ k, z = w.take k ++ y.drop k

theorem tornBytes_kept (y w : Bytes) : TornBytes y w y := ⟨0, by simp⟩

theorem tornBytes_done (y w : Bytes) : TornBytes y w w :=
  ⟨max y.length w.length, by
    rw [List.take_of_length_le (Nat.le_max_right ..), List.drop_of_length_le (Nat.le_max_left ..), List.append_nil]⟩

theorem chunks_cut {size : Nat} : ∀ (xs : List Bytes) (k : Nat) (w : Bytes), (∀ x ∈ xs, x.length = size) →
    w.length = size * xs.length →
    CutAt TornBytes xs (chunks size xs.length w) (chunks size xs.length (w.take k ++ xs.flatten.drop k))
  | [], _, _, _, _ => .kept
  | x :: xs, k, w, hx, hw => by
    have hx0 : x.length = size := hx x (by simp)
    have hxs := fun y hy => hx y (List.mem_cons_of_mem x hy)
    rw [List.length_cons, Nat.mul_succ] at hw
    simp only [List.length_cons, chunks, List.flatten_cons]
    by_cases hk : size ≤ k
    · have e1 : (w.take k ++ (x ++ xs.flatten).drop k).take size = w.take size := by
        rw [List.take_append_of_le_length (by simp; omega), List.take_take, Nat.min_eq_left hk]
      have e2 : (w.take k ++ (x ++ xs.flatten).drop k).drop size
          = (w.drop size).take (k - size) ++ xs.flatten.drop (k - size) := by
        rw [List.drop_append_of_le_length (by simp; omega), List.drop_take, List.drop_append, hx0,
          List.drop_of_length_le (by omega : x.length ≤ k), List.nil_append]
      rw [e1, e2]
      exact .next (chunks_cut xs (k - size) (w.drop size) hxs (by simp; omega))
    · have hl : (w.take k ++ x.drop k).length = size := by simp; omega
      have e0 : w.take k ++ (x ++ xs.flatten).drop k = (w.take k ++ x.drop k) ++ xs.flatten := by
        rw [List.drop_append_of_le_length (by omega), List.append_assoc]
      have e1 : ((w.take k ++ x.drop k) ++ xs.flatten).take size = w.take k ++ x.drop k := by
        rw [List.take_append_of_le_length (by omega), List.take_of_length_le (by omega)]
      have e2 : ((w.take k ++ x.drop k) ++ xs.flatten).drop size = xs.flatten := by
        rw [List.drop_append_of_le_length (by omega), List.drop_of_length_le (by omega), List.nil_append]
      rw [e0, e1, e2, chunks_flatten size xs hxs]
      refine .part ⟨k, ?_⟩
      rw [List.take_take, Nat.min_eq_left (by omega)]

theorem dispatchByte_cut {s : Ser} (hs : s.isUnpacking = true) {size : Nat} {xs : List Bytes}
    (hx : ∀ x ∈ xs, x.length = size) :
    Cut m (CutAt TornBytes xs) (dispatchByte size s xs) (dispatchByte size (s.more m) xs) (dispatchByteEnd size s xs) := by
  unfold dispatchByte dispatchByteEnd
  refine (bytes_cut hs size xs.length xs.flatten (flatten_length_of size xs hx)).map (f := chunks size xs.length) ?_
  rintro w z ⟨k, hw, rfl⟩
  exact chunks_cut xs k w hx hw

theorem dispatchByte_tears (size : Nat) :
    Tears m (fun x : Bytes => x.length = size) TornBytes (dispatchByte size) (dispatchByteEnd size) :=
  ⟨fun _ _ hs _ hx => dispatchByte_cut hs hx, tornBytes_kept, tornBytes_done⟩

/-- A string as an array of characters. -/
theorem chars_cut {s : Ser} (hs : s.isUnpacking = true) {xs : List Bytes} (hx : ∀ x ∈ xs, x.length = 1) :
    Cut m (fun ws zs => TornBytes xs.flatten ws.flatten zs.flatten) (dispatchByte 1 s xs) (dispatchByte 1 (s.more m) xs)
      (dispatchByteEnd 1 s xs) := by
  unfold dispatchByte dispatchByteEnd
  have hl := flatten_length_of 1 xs hx
  refine (bytes_cut hs 1 xs.length xs.flatten hl).map (f := chunks 1 xs.length) ?_
  rintro w z ⟨k, hw, rfl⟩
  refine ⟨k, ?_⟩
  rw [chunks_flatten_of 1 xs.length w hw, chunks_flatten_of]
  simp only [List.length_append, List.length_take, List.length_drop, hl, hw]
  omega

theorem dispatchInt_cut {s : Ser} (hs : s.isUnpacking = true) (n : Nat) (xs : List Nat) :
    CutL m (dispatchInt cfg n s xs) (dispatchInt cfg n (s.more m) xs) := by
  have h := (dispatchByte_cut (m := m) hs (size := n) (xs := xs.map (intBytes cfg.endian n)) (by
    intro x hx
    obtain ⟨y, _, rfl⟩ := List.mem_map.1 hx
    simp)).loc
  unfold dispatchInt
  cases ho : dispatchByte n s (xs.map (intBytes cfg.endian n)) with
  | ok r =>
    rw [ho] at h
    rw [h.1]
    exact ⟨rfl, h.2⟩
  | _ => trivial

theorem rawInt_cut {s : Ser} (hs : s.isUnpacking = true) (n v : Nat) :
    CutL m (rawInt cfg n s v) (rawInt cfg n (s.more m) v) := by
  have h := dispatchInt_cut (m := m) (cfg := cfg) hs n [v]
  unfold rawInt
  cases ho : dispatchInt cfg n s [v] with
  | ok r =>
    rw [ho] at h
    rw [h.1]
    obtain ⟨ys, s'⟩ := r
    match ys, h with
    | [y], h => exact ⟨rfl, h.2⟩
    | [], _ => trivial
    | _ :: _ :: _, _ => trivial
  | _ => trivial

theorem withTypeIdx_cut {s : Ser} (hs : s.isUnpacking = true) (ti : TI) :
    CutS m (withTypeIdx cfg ti s) (withTypeIdx cfg ti (s.more m)) := by
  unfold withTypeIdx
  simp only [unp_modes hs, unp_modes (more_unp (m := m) hs), hs, more_unp (m := m) hs, Bool.or_self, Bool.false_eq_true,
    if_false, if_true]
  have h := rawInt_cut (m := m) (cfg := cfg) hs 4 0
  cases ho : rawInt cfg 4 s 0 with
  | ok r =>
    rw [ho] at h
    rw [h.1]
    obtain ⟨v, s'⟩ := r
    show CutS m (if _ then _ else _) (if _ then _ else _)
    split
    · trivial
    · exact ⟨rfl, h.2⟩
  | _ => trivial

theorem withMemUsed_cut {s : Ser} (hs : s.isUnpacking = true) (ti : TI) (len : Nat) :
    CutS m (withMemUsed cfg ti s len) (withMemUsed cfg ti (s.more m) len) := by
  unfold withMemUsed
  simp only [unp_modes hs, unp_modes (more_unp (m := m) hs), hs, more_unp (m := m) hs, Bool.or_self, Bool.false_eq_true,
    if_false, if_true]
  have h := rawInt_cut (m := m) (cfg := cfg) hs 8 0
  cases ho : rawInt cfg 8 s 0 with
  | ok r =>
    rw [ho] at h
    rw [h.1]
    obtain ⟨v, s'⟩ := r
    show CutS m (if _ then _ else _) (if _ then _ else _)
    split
    · trivial
    · exact ⟨rfl, h.2⟩
  | _ => trivial

theorem trailer_cut {α : Type} {C : α → α → Prop} {o o' : Out (α × Ser)} {p : Out α} (ti : TI) (len : Nat)
    (hd : ∀ w, C w w) (h : Cut m C o o' p) :
    Cut m C (o >>= fun r => withMemUsed cfg ti r.2 len >>= fun s => .ok (r.1, s))
      (o' >>= fun r => withMemUsed cfg ti r.2 len >>= fun s => .ok (r.1, s))
      (o.after (fun r => (withMemUsed cfg ti r.2 len).after (fun _ => .ok r.1) (.ok r.1)) p) := by
  cases o with
  | ok r =>
    obtain ⟨rfl, hs, _⟩ := h
    exact Cut.bindS (f := fun s => .ok (r.1, s)) (f' := fun _ => .ok r.1) (withMemUsed_cut hs ti len)
      (fun s hs => ⟨rfl, hs, rfl⟩) ⟨r.1, rfl, fun _ w s' hw => by cases hw; exact hd _⟩
  | throw e =>
    intro w s' hw
    cases o' with
    | ok r =>
      have e1 : r.1 = w := by
        cases hm : withMemUsed cfg ti r.2 len with
        | ok s => simp only [Out.bind_eq, Out.bind_ok, hm] at hw; cases hw; rfl
        | _ => simp only [Out.bind_eq, Out.bind_ok, hm] at hw; cases hw
      subst e1
      exact h r.1 r.2 rfl
    | _ => cases hw
  | _ => trivial

theorem traverse_cut {R : List T → List T → Prop} {h : Handler T} {r : Residue T} {s : Ser} (hs : s.isUnpacking = true)
    (ti : TI) {xs : List T} (hk : ∀ w, R w xs) (hd : ∀ w, R w w)
    (hh : ∀ s, s.isUnpacking = true → Cut m R (h s xs) (h (s.more m) xs) (r s xs)) :
    Cut m R (traverse cfg ti h s xs) (traverse cfg ti h (s.more m) xs) (traverseEnd cfg ti h r s xs) := by
  unfold traverse traverseEnd
  split
  · refine Cut.bindS (withTypeIdx_cut hs ti) (fun s' hs' => ?_) ⟨xs, rfl, fun _ w _ _ => hk w⟩
    have := trailer_cut (cfg := cfg) ti xs.length hd ((hh s' hs').catch ti)
    rw [after_catch] at this
    exact this
  · exact hh s hs

theorem pipe_cut {e : Elem T} {r : Residue T} (hh : Tears m P B e.apply r) {s : Ser} (hs : s.isUnpacking = true) {x : T}
    (hx : P x) : Cut m (B x) (pipe cfg e s x) (pipe cfg e (s.more m) x) (pipeEnd cfg e r s x) := by
  have h := traverse_cut (cfg := cfg) (R := CutAt B [x]) (h := e.apply) (r := r) (xs := [x]) hs e.ti
    (fun _ => .kept) (fun _ => .done) (fun s' hs' => hh.cut s' [x] hs' (by simp) (by simpa using hx))
  unfold pipe pipeEnd
  cases ho : traverse cfg e.ti e.apply s [x] with
  | ok q =>
    rw [ho] at h
    obtain ⟨h1, h2, h3⟩ := h
    obtain ⟨ys, s'⟩ := q
    rw [h1, h3]
    match ys with
    | [y] => exact ⟨rfl, h2, rfl⟩
    | [] => trivial
    | _ :: _ :: _ => trivial
  | throw e' =>
    rw [ho] at h
    intro w s' hw
    cases ho' : traverse cfg e.ti e.apply (s.more m) [x] with
    | ok q =>
      rw [ho'] at hw h
      obtain ⟨ws, s''⟩ := q
      obtain ⟨zs, hz, hc⟩ := h ws s'' rfl
      match ws, hw, hc with
      | [w'], hw, hc =>
        cases hw
        obtain ⟨z, rfl, hb⟩ := hc.one hh.kept hh.done
        rw [hz]
        exact ⟨z, rfl, hb⟩
    | _ => rw [ho'] at hw; cases hw
  | _ => trivial

theorem pipeInt_cut {s : Ser} {k : Nat} {e : Elem Nat} (he : e.apply = dispatchInt cfg k) (hs : s.isUnpacking = true)
    (v : Nat) : CutL m (pipe cfg e s v) (pipe cfg e (s.more m) v) :=
  (pipe_cut (cfg := cfg) (m := m) (P := fun _ : Nat => True) (B := fun _ _ _ => True) (e := e)
    (r := fun s xs => (dispatchInt cfg k s xs).after (fun q => .ok q.1) (.ok xs)) (by
      refine ⟨fun s xs hs _ _ => ?_, fun _ _ => trivial, fun _ _ => trivial⟩
      rw [he]
      have := dispatchInt_cut (m := m) (cfg := cfg) hs k xs
      cases ho : dispatchInt cfg k s xs with
      | ok r => rw [ho] at this; exact ⟨this.1, this.2, rfl⟩
      | throw e => exact fun w s' _ => ⟨xs, rfl, .kept⟩
      | _ => trivial) hs (x := v) trivial).loc

theorem pipeSize_cut {s : Ser} (hs : s.isUnpacking = true) (n : Nat) :
    CutL m (pipeSize cfg s n) (pipeSize cfg (s.more m) n) := pipeInt_cut (k := 8) (e := sizeElem cfg) rfl hs n

theorem pipeBool_cut {s : Ser} (hs : s.isUnpacking = true) (b : Bool) :
    CutL m (pipeBool cfg s b) (pipeBool cfg (s.more m) b) := by
  have h := pipeInt_cut (m := m) (cfg := cfg) (k := 1) (e := boolElem cfg) rfl hs b.toNat
  unfold pipeBool
  cases ho : pipe cfg (boolElem cfg) s b.toNat with
  | ok r =>
    rw [ho] at h
    rw [h.1]
    show CutL m (if _ then _ else if _ then _ else _) (if _ then _ else if _ then _ else _)
    split
    · exact ⟨rfl, h.2⟩
    · split
      · exact ⟨rfl, h.2⟩
      · trivial
  | _ => trivial

/-- One object, then the rest. -/
theorem cons_cut {α : Type} {C : α → α → Prop} {D : List α → List α → Prop} {o o' : Out (α × Ser)} {p : Out α}
    {f : Ser → Out (List α × Ser)} {f' : Ser → Out (List α)} {xs : List α} {R : List α → List α → Prop}
    (h : Cut m C o o' p) (hf : ∀ s, s.isUnpacking = true → Cut m D (f s) (f (s.more m)) (f' s))
    (h1 : ∀ y z ys, C y z → R (y :: ys) (z :: xs)) (h2 : ∀ y ys zs, D ys zs → R (y :: ys) (y :: zs)) :
    Cut m R (o >>= fun r => f r.2 >>= fun q => .ok (r.1 :: q.1, q.2))
      (o' >>= fun r => f r.2 >>= fun q => .ok (r.1 :: q.1, q.2))
      (o.after (fun r => f' r.2 >>= fun ys => .ok (r.1 :: ys)) (p >>= fun y => .ok (y :: xs))) :=
  h.part (f := fun r => f r.2 >>= fun q => .ok (r.1 :: q.1, q.2)) (f' := fun r => f' r.2 >>= fun ys => .ok (r.1 :: ys))
    (fun r hs => (hf r.2 hs).map (f := fun ys => r.1 :: ys) (fun ys zs hd => h2 r.1 ys zs hd))
    (fun y z hyz => ⟨z :: xs, rfl, fun s w s' hw => by
      cases hq : f s with
      | ok q => rw [hq] at hw; cases hw; exact h1 _ _ _ hyz
      | _ => rw [hq] at hw; cases hw⟩)

theorem pipeEach_cut {e : Elem T} {r : Residue T} (hh : Tears m P B e.apply r) : ∀ (xs : List T) {s : Ser},
    s.isUnpacking = true → (∀ x ∈ xs, P x) →
    Cut m (CutAt B xs) (pipeEach cfg e s xs) (pipeEach cfg e (s.more m) xs) (pipeEachEnd cfg e r s xs)
  | [], _, hs, _ => Cut.ok hs
  | x :: xs, s, hs, hx => by
    have hxs := fun y hy => hx y (List.mem_cons_of_mem x hy)
    exact cons_cut (f := fun s => pipeEach cfg e s xs) (f' := fun s => pipeEachEnd cfg e r s xs) (xs := xs)
      (pipe_cut (cfg := cfg) hh hs (hx x (by simp))) (fun s' hs' => pipeEach_cut hh xs hs' hxs)
      (fun _ _ _ h => .part h) (fun _ _ _ h => .next h)

theorem serializeArray_cut {e : Elem T} {r : Residue T} (hh : Tears m P B e.apply r) {s : Ser} (hs : s.isUnpacking = true)
    {xs : List T} (hx : ∀ x ∈ xs, P x) :
    Cut m (CutAt B xs) (serializeArray cfg e s xs) (serializeArray cfg e (s.more m) xs) (serializeArrayEnd cfg e r s xs) := by
  unfold serializeArray serializeArrayEnd
  split
  · next hl =>
    exact traverse_cut hs e.ti (fun _ => .kept) (fun _ => .done)
      (fun s' hs' => hh.cut s' xs hs' (by rintro rfl; simp at hl) hx)
  · exact Cut.ok hs

theorem dispatchEach_tears {f : Ser → T → Out (T × Ser)} {g : Ser → T → Out T} (hk : ∀ y w, B y w y) (hd : ∀ y w, B y w w)
    (hf : ∀ s x, s.isUnpacking = true → P x → Cut m (B x) (f s x) (f (s.more m) x) (g s x)) :
    Tears m P B (dispatchEach f) (dispatchEachEnd f g) := by
  refine ⟨fun s xs hs _ hx => ?_, hk, hd⟩
  induction xs generalizing s with
  | nil => exact Cut.ok hs
  | cons x xs ih =>
    have hxs := fun y hy => hx y (List.mem_cons_of_mem x hy)
    exact cons_cut (f := fun s => dispatchEach f s xs) (f' := fun s => dispatchEachEnd f g s xs) (xs := xs)
      (hf s x hs (hx x (by simp))) (fun s' hs' => by
        cases xs with
        | nil => exact Cut.ok hs'
        | cons a as => exact ih s' hs' (by simp) hxs)
      (fun _ _ _ h => .part h) (fun _ _ _ h => .next h)

/-! ### Containers -/

/-- What `constructVectorData` and `resize` leave. -/
def ResizedTo (e : Elem T) (ys : List T) (n : Nat) (rs : List T) : Prop :=
  ∃ c, (c = e.fresh ∨ e.dflt = some c) ∧ rs = ys.take n ++ List.replicate (n - ys.length) c

theorem takeFill_length (ys : List T) (n : Nat) (c : T) : (ys.take n ++ List.replicate (n - ys.length) c).length = n := by
  simp only [List.length_append, List.length_take, List.length_replicate]; omega

theorem constructVectorData_resized (e : Elem T) (n : Nat) (v : Vec T) :
    ResizedTo e v.elems (constructVectorData cfg e n v).elems.length (constructVectorData cfg e n v).elems := by
  have key : ∀ c, (c = e.fresh ∨ e.dflt = some c) →
      ResizedTo e v.elems (v.resize cfg n c).elems.length (v.resize cfg n c).elems := by
    intro c hc
    refine ⟨c, hc, ?_⟩
    simp only [Vec.resize, takeFill_length]
  unfold constructVectorData
  cases hd : e.dflt with
  | some d => exact key d (.inr hd)
  | none =>
    dsimp only
    split
    · exact key _ (.inl rfl)
    · refine ⟨_, .inl rfl, ?_⟩
      simp only [List.length_append, List.length_replicate]
      rw [List.take_of_length_le (by omega), Nat.add_sub_cancel_left]

theorem serVector_cut {sz : Nat} {e : Elem T} {r : Residue T} (hh : Tears m P B e.apply r) (hK : Keeps P e.apply r)
    (he : Makes P e) {s : Ser} (hs : s.isUnpacking = true) {v : Vec T} (hv : ∀ x ∈ v.elems, P x) :
    Cut m (fun w z => z.elems = v.elems ∨ ∃ rs, ResizedTo e v.elems w.elems.length rs ∧ CutAt B rs w.elems z.elems)
      (serVector cfg sz e s v) (serVector cfg sz e (s.more m) v) (serVectorEnd cfg e r s v) := by
  unfold serVector serVectorEnd serializeVectorMeta
  simp only [unp_modes hs, unp_modes (more_unp (m := m) hs), Bool.false_eq_true, if_false, Out.bind_eq, Out.bind_assoc,
    Out.bind_ok]
  refine Cut.bind (pipeSize_cut hs _) (fun q hq => ?_) ⟨v, rfl, fun _ _ _ _ => .inl rfl⟩
  have hv' : ∀ x ∈ (v.reserve cfg q.1).elems, P x := by rw [reserve_elems]; exact hv
  refine Cut.bind (pipeSize_cut hq _) (fun q' hq' => ?_) ⟨_, rfl, fun _ _ _ _ => .inl (reserve_elems ..)⟩
  simp only [hq', more_unp (m := m) hq', if_true]
  have hm := constructVectorData_mem (cfg := cfg) he q'.1 hv'
  have hr := constructVectorData_resized (cfg := cfg) e q'.1 (v.reserve cfg q.1)
  rw [reserve_elems] at hr
  exact Cut.map (f := fun es => (⟨(constructVectorData cfg e q'.1 (v.reserve cfg q.1)).cap, es⟩ : Vec T))
    ((serializeArray_cut hh hq' hm).also (serializeArray_fin hK (more_unp hq') hm).loc)
    (fun ws zs hc => Or.inr ⟨_, by dsimp only; rw [hc.1.1]; exact hr, hc.2⟩)

theorem unpackBools_cut : ∀ (bs : List Bool) {s : Ser}, s.isUnpacking = true →
    Cut m (fun w z => ∃ k, z = w.take k ++ bs.drop k) (unpackBools cfg s bs) (unpackBools cfg (s.more m) bs)
      (unpackBoolsEnd cfg s bs)
  | [], _, hs => Cut.ok hs
  | b :: bs, s, hs => by
    refine Cut.bind (pipeBool_cut hs _) (fun q hq => ?_) ⟨b :: bs, rfl, fun _ _ _ _ => ⟨0, by simp⟩⟩
    refine Cut.map (f := fun cs => q.1 :: cs) (unpackBools_cut bs hq) ?_
    rintro w z ⟨k, rfl⟩
    exact ⟨k + 1, by simp⟩

theorem serVectorBool_cut {sz : Nat} {s : Ser} (hs : s.isUnpacking = true) {v : Vec Bool} :
    Cut m (fun w z => z.elems = v.elems ∨ ∃ k, z.elems = w.elems.take k ++
        (v.elems.take w.elems.length ++ List.replicate (w.elems.length - v.elems.length) false).drop k)
      (serVectorBool cfg sz s v) (serVectorBool cfg sz (s.more m) v) (serVectorBoolEnd cfg s v) := by
  unfold serVectorBool serVectorBoolEnd serializeVectorMeta
  simp only [unp_modes hs, unp_modes (more_unp (m := m) hs), Bool.false_eq_true, if_false, Out.bind_eq, Out.bind_assoc,
    Out.bind_ok]
  refine Cut.bind (pipeSize_cut hs _) (fun q hq => ?_) ⟨v, rfl, fun _ _ _ _ => .inl rfl⟩
  refine Cut.bind (pipeSize_cut hq _) (fun q' hq' => ?_) ⟨_, rfl, fun _ _ _ _ => .inl (reserve_elems ..)⟩
  simp only [hq', more_unp (m := m) hq', if_true]
  refine Cut.map (f := fun es => { (v.reserve cfg q.1).resize cfg q'.1 false with elems := es })
    ((unpackBools_cut _ hq').also (unpackBools_fin _ (more_unp hq')).loc) ?_
  rintro w z ⟨hl, k, rfl⟩
  refine .inr ⟨k, ?_⟩
  simp only [Vec.resize, reserve_elems, takeFill_length] at hl ⊢
  rw [hl]

theorem serString_cut {sz : Nat} {s : Ser} (hs : s.isUnpacking = true) {x : Str} :
    Cut m (fun w z => z = x ∨ ∃ k, z.chars = w.chars.take k ++
        (x.chars.take w.chars.length ++ List.replicate (w.chars.length - x.chars.length) 0).drop k)
      (serString cfg sz s x) (serString cfg sz (s.more m) x) (serStringEnd cfg s x) := by
  unfold serString serStringEnd serializeChars
  simp only [unp_modes hs, unp_modes (more_unp (m := m) hs), Bool.false_eq_true, if_false, Out.bind_eq, Out.bind_assoc,
    Out.bind_ok]
  refine Cut.bind (pipeSize_cut hs _) (fun q hq => ?_) ⟨x, rfl, fun _ _ _ _ => .inl rfl⟩
  have h : Cut m (fun ws zs => TornBytes ((x.resize cfg q.1).chars.map fun c => [c]).flatten ws.flatten zs.flatten)
      (serializeArray cfg (charElem cfg) q.2 ((x.resize cfg q.1).chars.map fun c => [c]))
      (serializeArray cfg (charElem cfg) (q.2.more m) ((x.resize cfg q.1).chars.map fun c => [c]))
      (serializeArrayEnd cfg (charElem cfg) (dispatchByteEnd 1) q.2 ((x.resize cfg q.1).chars.map fun c => [c])) := by
    unfold serializeArray serializeArrayEnd
    split
    · exact traverse_cut hq _ (fun _ => tornBytes_kept ..) (fun _ => tornBytes_done ..)
        (fun s' hs' => chars_cut hs' (by simp))
    · exact Cut.ok hq
  have hl := (serializeArray_fin (cfg := cfg) (e := charElem cfg) (dispatchByte_residue 1) (more_unp (m := m) hq)
    (xs := (x.resize cfg q.1).chars.map fun c => [c]) (by simp)).loc
  refine Cut.map (f := fun ys => { x.resize cfg q.1 with chars := ys.flatten }) (h.also hl) ?_
  rintro ws zs ⟨⟨hl1, hl2⟩, k, hk⟩
  have hl3 : ws.flatten.length = q.1 := by
    rw [flatten_length_of 1 ws hl2, hl1, List.length_map, Nat.one_mul]
    exact takeFill_length ..
  refine .inr ⟨k, ?_⟩
  dsimp only
  rw [hl3]
  have e : ((x.resize cfg q.1).chars.map fun c => [c]).flatten = (x.resize cfg q.1).chars := by
    induction (x.resize cfg q.1).chars with
    | nil => rfl
    | cons c cs ih => rw [List.map_cons, List.flatten_cons, ih]; rfl
  rw [e] at hk
  exact hk

theorem unpackLoop_ok {e : Elem T} {add : List T → T → List T} : ∀ (n : Nat) {s s' : Ser} {acc w : List T},
    unpackLoop cfg e add n s acc = .ok (w, s') → ∃ es : List T, w = es.foldl add acc
  | 0, _, _, _, _, h => by cases h; exact ⟨[], rfl⟩
  | n + 1, s, s', acc, w, h => by
    unfold unpackLoop at h
    cases hp : pipe cfg e s e.fresh with
    | ok q =>
      rw [hp] at h
      obtain ⟨es, he⟩ := unpackLoop_ok n (show unpackLoop cfg e add n q.2 (add acc q.1) = .ok (w, s') from h)
      exact ⟨q.1 :: es, he⟩
    | _ => rw [hp] at h; cases h

theorem unpackLoop_cut {e : Elem T} {r : Residue T} (hh : Tears m P B e.apply r) (hf : P e.fresh)
    {add : List T → T → List T} : ∀ (n : Nat) {s : Ser} {acc : List T}, s.isUnpacking = true →
    Cut m (fun w z => ∃ (es : List T) (i : Nat), w = es.foldl add acc ∧ z = (es.take i).foldl add acc) (unpackLoop cfg e add n s acc)
      (unpackLoop cfg e add n (s.more m) acc) (unpackLoopEnd cfg e add n s acc)
  | 0, _, _, hs => Cut.ok hs
  | n + 1, s, acc, hs =>
    Cut.bind (pipe_cut hh hs hf).loc (fun q hq => (unpackLoop_cut hh hf n hq).imp (by
        rintro w z ⟨es, i, rfl, rfl⟩
        exact ⟨q.1 :: es, i + 1, rfl, rfl⟩))
      ⟨acc, rfl, fun q w s' hw => by
        obtain ⟨es, he⟩ := unpackLoop_ok n hw
        exact ⟨q.1 :: es, 0, he, rfl⟩⟩

theorem foldl_snoc (acc es : List T) : es.foldl (fun acc y => acc ++ [y]) acc = acc ++ es := by
  induction es generalizing acc with
  | nil => simp
  | cons x es ih => rw [List.foldl_cons, ih]; simp

theorem serList_cut {sz : Nat} {e : Elem T} {r : Residue T} (hh : Tears m P B e.apply r) (hK : Keeps P e.apply r) (hf : P e.fresh) {s : Ser}
    (hs : s.isUnpacking = true) {xs : List T} (hx : ∀ x ∈ xs, P x) :
    Cut m (fun w z => z = xs ∨ (e.copyable = true ∧ ∃ rs, ResizedTo e xs w.length rs ∧ CutAt B rs w z) ∨
        (e.copyable = false ∧ ∃ (es : List T) (i : Nat), w = xs ++ es ∧ z = xs ++ es.take i))
      (serList cfg sz e s xs) (serList cfg sz e (s.more m) xs) (serListEnd cfg e r s xs) := by
  unfold serList serListEnd serializeContainerSize
  simp only [unp_modes hs, unp_modes (more_unp (m := m) hs), Bool.false_eq_true, if_false]
  refine Cut.bind (pipeSize_cut hs _) (fun q hq => ?_) ⟨xs, rfl, fun _ _ _ _ => .inl rfl⟩
  simp only [hq, more_unp (m := m) hq, if_true]
  unfold deserializeOrderedElems deserializeOrderedElemsEnd
  split
  · next hc =>
    refine ((pipeEach_cut hh _ hq (seqResize_mem hf hx)).also
      (pipeEach_fin hK _ (more_unp hq) (seqResize_mem hf hx)).loc).imp (fun w _ h => .inr (.inl ⟨hc, _, ⟨_, .inl rfl, ?_⟩, h.2⟩))
    rw [h.1.1]
    simp only [seqResize, takeFill_length]
  · next hc =>
    refine (unpackLoop_cut hh hf _ hq).imp ?_
    rintro w z ⟨es, i, rfl, rfl⟩
    exact .inr (.inr ⟨by simpa using hc, es, i, foldl_snoc .., foldl_snoc ..⟩)

theorem serMapLike_cut {sz : Nat} {e : Elem T} {r : Residue T} (hh : Tears m P B e.apply r) (hf : P e.fresh)
    {add : List T → T → List T} {s : Ser} (hs : s.isUnpacking = true) {xs : List T} :
    Cut m (fun w z => z = xs ∨ ∃ (es : List T) (i : Nat), w = es.foldl add xs ∧ z = (es.take i).foldl add xs) (serMapLike cfg sz add e s xs)
      (serMapLike cfg sz add e (s.more m) xs) (serGrowEnd cfg add e s xs) := by
  unfold serMapLike serGrowEnd serializeContainerSize
  simp only [unp_modes hs, unp_modes (more_unp (m := m) hs), Bool.false_eq_true, if_false]
  refine Cut.bind (pipeSize_cut hs _) (fun q hq => ?_) ⟨xs, rfl, fun _ _ _ _ => .inl rfl⟩
  simp only [hq, more_unp (m := m) hq, if_true]
  exact (unpackLoop_cut hh hf _ hq).imp (fun _ _ h => .inr h)

theorem serQueue_cut {sz : Nat} {e : Elem T} {r : Residue T} (hh : Tears m P B e.apply r) (hf : P e.fresh) {s : Ser}
    (hs : s.isUnpacking = true) {xs : List T} :
    Cut m (fun w z => z = xs ∨ ∃ (es : List T) (i : Nat), w = xs ++ es ∧ z = xs ++ es.take i) (serQueue cfg sz e s xs)
      (serQueue cfg sz e (s.more m) xs) (serGrowEnd cfg (fun acc y => acc ++ [y]) e s xs) := by
  unfold serQueue serGrowEnd serializeContainerSize
  simp only [unp_modes hs, unp_modes (more_unp (m := m) hs), Bool.false_eq_true, if_false]
  refine Cut.bind (pipeSize_cut hs _) (fun q hq => ?_) ⟨xs, rfl, fun _ _ _ _ => .inl rfl⟩
  simp only [hq, more_unp (m := m) hq, if_true]
  refine (unpackLoop_cut hh hf _ hq).imp ?_
  rintro w z ⟨es, i, rfl, rfl⟩
  exact .inr ⟨es, i, foldl_snoc .., foldl_snoc ..⟩

/-- The members, read in order. -/
theorem serMembers_cut {I : Type} {Q : I → T → Prop} {C : I → T → T → T → Prop} : ∀ {is : List I}
    {es : List (Elem T × Residue T)}, List.Forall₂ (fun i e => Tears m (Q i) (C i) e.1.apply e.2) is es → ∀ {s : Ser}
    {xs : List T}, s.isUnpacking = true → List.Forall₂ Q is xs →
    Cut m (PartRead C is xs) (serMembers cfg (es.map (·.1)) s xs) (serMembers cfg (es.map (·.1)) (s.more m) xs)
      (serMembersEnd cfg es s xs)
  | [], _, .nil, _, [], hs, _ => Cut.ok hs
  | _ :: _, _ :: es, .cons he hes, _, _ :: xs, hs, .cons hx hxs =>
    cons_cut (f := fun s => serMembers cfg (es.map (·.1)) s xs) (f' := fun s => serMembersEnd cfg es s xs) (xs := xs)
      (pipe_cut (cfg := cfg) he hs hx) (fun _ hs' => serMembers_cut hes hs' hxs)
      (fun _ _ _ h => .part h) (fun _ _ _ h => .next h)

theorem serPair_cut {A A' : Type} {P : A → Prop} {Q : A' → Prop} {B : A → A → A → Prop} {B' : A' → A' → A' → Prop}
    {sz : Nat} {e1 : Elem A} {r1 : Residue A} {e2 : Elem A'} {r2 : Residue A'} (h1 : Tears m P B e1.apply r1)
    (h2 : Tears m Q B' e2.apply r2) {s : Ser} (hs : s.isUnpacking = true) {x : A × A'} (hx : P x.1) (hx' : Q x.2) :
    Cut m (fun w z => (z.2 = x.2 ∧ B x.1 w.1 z.1) ∨ (z.1 = w.1 ∧ B' x.2 w.2 z.2)) (serPair cfg sz e1 e2 s x)
      (serPair cfg sz e1 e2 (s.more m) x) (serPairEnd cfg e1 r1 e2 r2 s x) := by
  unfold serPair serPairEnd
  rw [unp_addBytes hs, unp_addBytes (more_unp hs)]
  refine Cut.part (pipe_cut h1 hs hx) (fun q hq => ?_) (fun a c hac => ⟨_, rfl, fun s w s' hw => .inl ⟨rfl, ?_⟩⟩)
  · exact Cut.map (f := fun b => (q.1, b)) (pipe_cut h2 hq hx') (fun b c hbc => .inr ⟨rfl, hbc⟩)
  · dsimp only at hw
    cases hp : pipe cfg e2 s x.2 with
    | ok q => simp only [Out.bind_eq, Out.bind_ok, hp] at hw; cases hw; exact hac
    | _ => simp only [Out.bind_eq, Out.bind_ok, hp] at hw; cases hw

theorem visitMembers_ok {es : List (Elem T)} : ∀ (is : List Nat) {s s' : Ser} {xs ws : List T},
    visitMembers cfg es is s xs = .ok (ws, s') → ws.length = xs.length ∧ ∀ i, i ∉ is → ws[i]? = xs[i]?
  | [], _, _, _, _, h => by cases h; exact ⟨rfl, fun _ _ => rfl⟩
  | i :: is, s, s', xs, ws, h => by
    unfold visitMembers at h
    split at h
    · next e x he hx =>
      cases hp : pipe cfg e s x with
      | ok q =>
        rw [hp] at h
        obtain ⟨h1, h2⟩ := visitMembers_ok is (show visitMembers cfg es is q.2 (xs.set i q.1) = .ok (ws, s') from h)
        refine ⟨by simpa using h1, fun j hj => ?_⟩
        rw [List.mem_cons, not_or] at hj
        rw [h2 j hj.2, List.getElem?_set_ne (Ne.symm hj.1)]
      | _ => rw [hp] at h; cases h
    · cases h

/-- The members of a tuple, in some order. -/
theorem visitMembers_cut {I : Type} {Q : I → T → Prop} {C : I → T → T → T → Prop} {ks : List I}
    {es : List (Elem T × Residue T)} (he : List.Forall₂ (fun i e => Tears m (Q i) (C i) e.1.apply e.2) ks es) :
    ∀ (is : List Nat) {s : Ser} {xs : List T}, is.Nodup → s.isUnpacking = true →
    (∀ (i : Nat) k x, i ∈ is → ks[i]? = some k → xs[i]? = some x → Q k x) →
    Cut m (fun ws zs => ws.length = xs.length ∧ zs.length = xs.length ∧ (∀ i, i ∉ is → ws[i]? = xs[i]? ∧ zs[i]? = xs[i]?) ∧
        ∀ (i : Nat) k x w z, ks[i]? = some k → xs[i]? = some x → ws[i]? = some w → zs[i]? = some z → C k x w z)
      (visitMembers cfg (es.map (·.1)) is s xs) (visitMembers cfg (es.map (·.1)) is (s.more m) xs)
      (visitMembersEnd cfg es is s xs)
  | [], _, _, _, hs, _ => Cut.ok hs
  | i :: is, s, xs, hn, hs, hx => by
    rw [List.nodup_cons] at hn
    unfold visitMembers visitMembersEnd
    rw [List.getElem?_map]
    rcases forall₂_getElem? he i with ⟨_, h2⟩ | ⟨k, e, hk, h2, ht⟩
    · simp only [h2, Option.map_none]
      trivial
    · simp only [h2, Option.map_some]
      cases hxi : xs[i]? with
      | none => trivial
      | some x =>
        have hil : i < xs.length := (List.getElem?_eq_some_iff.1 hxi).1
        refine Cut.part (pipe_cut ht hs (hx i _ x (by simp) hk hxi)) (fun q hq => ?_) (fun w z hwz => ⟨_, rfl, ?_⟩)
        · refine (visitMembers_cut he is hn.2 hq (fun j l y hj hl hy => ?_)).imp ?_
          · have hij : i ≠ j := by rintro rfl; exact hn.1 hj
            rw [List.getElem?_set_ne hij] at hy
            exact hx j l y (by simp [hj]) hl hy
          · rintro ws zs ⟨h1, h3, h4, h5⟩
            refine ⟨by simpa using h1, by simpa using h3, fun j hj => ?_, fun j l y w z hl hy hw hz => ?_⟩
            · rw [List.mem_cons, not_or] at hj
              have := h4 j hj.2
              rwa [List.getElem?_set_ne (Ne.symm hj.1)] at this
            · by_cases hij : i = j
              · subst hij
                have := h4 i hn.1
                rw [List.getElem?_set_self hil] at this
                rw [this.1] at hw; rw [this.2] at hz
                cases hw; cases hz
                rw [hk] at hl; cases hl
                exact ht.done _ _
              · exact h5 j l y w z hl (by rw [List.getElem?_set_ne hij]; exact hy) hw hz
        · intro s1 ws s' hw
          obtain ⟨h1, h3⟩ := visitMembers_ok is hw
          refine ⟨by simpa using h1, by simp, fun j hj => ?_, fun j l y w' z' hl hy hw' hz' => ?_⟩
          · rw [List.mem_cons, not_or] at hj
            have := h3 j hj.2
            rw [List.getElem?_set_ne (Ne.symm hj.1)] at this ⊢
            exact ⟨this, rfl⟩
          · by_cases hij : i = j
            · subst hij
              rw [h3 i hn.1, List.getElem?_set_self hil] at hw'
              rw [List.getElem?_set_self hil] at hz'
              cases hw'; cases hz'
              rw [hk] at hl; cases hl
              rw [hxi] at hy; cases hy
              exact hwz
            · rw [List.getElem?_set_ne hij] at hz'
              rw [hy] at hz'; cases hz'
              rcases forall₂_getElem? he j with ⟨h5, _⟩ | ⟨k', e', hk', _, ht'⟩
              · rw [h5] at hl; cases hl
              · rw [hk'] at hl; cases hl
                exact ht'.kept _ _

theorem serOptional_cut {sz : Nat} {e : Elem T} {r : Residue T} (hh : Tears m P B e.apply r) (hf : P e.fresh) {s : Ser}
    (hs : s.isUnpacking = true) {x : Option T} :
    Cut m (fun _ z => z = x) (serOptional cfg sz e s x) (serOptional cfg sz e (s.more m) x) (serOptionalEnd cfg e s x) := by
  unfold serOptional serOptionalEnd
  simp only [unp_modes hs, hs, unp_modes (more_unp (m := m) hs), more_unp (m := m) hs, Bool.false_eq_true, if_false, if_true]
  refine Cut.bind (pipeBool_cut hs _) (fun q hq => ?_) ⟨x, rfl, fun _ _ _ _ => rfl⟩
  dsimp only
  split
  · exact Cut.bind (pipe_cut hh hq hf).loc (fun q' hs' => Cut.ok hs') ⟨x, rfl, fun _ _ _ _ => rfl⟩
  · exact Cut.ok hq

theorem serUnderlying_cut {u : Elem T} {r : Residue T} (hh : Tears m P B u.apply r) {s : Ser} (hs : s.isUnpacking = true)
    {x : T} (hx : P x) :
    Cut m (fun _ z => z = x) (serUnderlying cfg u s x) (serUnderlying cfg u (s.more m) x) (serUnderlyingEnd cfg u s x) :=
  Cut.bind (pipe_cut hh hs hx).loc (fun _ hs' => Cut.ok hs') ⟨x, rfl, fun _ _ _ _ => rfl⟩

theorem serializeEntry_cut : ∀ {es : List (Elem T × Residue T)}
    (_ : ∀ e ∈ es, ∃ P B, Tears m P B e.1.apply e.2 ∧ P e.1.fresh) (cur : Nat) {s : Ser} {v : Variant T} (entry : Nat),
    s.isUnpacking = true →
    Cut m (fun _ z => z = v) (serializeEntry cfg (es.map (·.1)) s v entry cur)
      (serializeEntry cfg (es.map (·.1)) (s.more m) v entry cur) (serializeEntryEnd cfg (es.map (·.1)) s v entry cur)
  | [], _, _, _, _, _, hs => Cut.ok hs
  | e :: es, he, cur, s, v, entry, hs => by
    simp only [List.map_cons, serializeEntry, serializeEntryEnd, hs, more_unp (m := m) hs, if_true]
    split
    · obtain ⟨P, B, hh, hf⟩ := he e (by simp)
      exact Cut.bind (pipe_cut hh hs hf).loc (fun q hs' => Cut.ok hs') ⟨v, rfl, fun _ _ _ _ => rfl⟩
    · exact serializeEntry_cut (fun e' h' => he e' (by simp [h'])) (cur + 1) entry hs

theorem serVariant_cut {es : List (Elem T × Residue T)} (he : ∀ e ∈ es, ∃ P B, Tears m P B e.1.apply e.2 ∧ P e.1.fresh)
    {s : Ser} (hs : s.isUnpacking = true) {v : Variant T} :
    Cut m (fun _ z => z = v) (serVariant cfg (es.map (·.1)) s v) (serVariant cfg (es.map (·.1)) (s.more m) v)
      (serVariantEnd cfg (es.map (·.1)) s v) :=
  Cut.bind (pipeSize_cut hs _) (fun q hq => serializeEntry_cut he 0 q.1 hq) ⟨v, rfl, fun _ _ _ _ => rfl⟩

theorem reconstruct_cut {e : Elem T} {virt : Option (Virt T)} {s : Ser} (hs : s.isUnpacking = true) (p : Option T) :
    CutL m (reconstructPointedTo cfg e virt s p) (reconstructPointedTo cfg e virt (s.more m) p) := by
  unfold reconstructPointedTo
  cases virt with
  | none =>
    cases p with
    | some t => exact ⟨rfl, hs⟩
    | none =>
      simp only [hs, more_unp (m := m) hs, if_true]
      exact ⟨rfl, hs⟩
  | some vi =>
    simp only [hs, more_unp (m := m) hs, unp_modes hs, unp_modes (more_unp (m := m) hs), if_true, Bool.false_eq_true, if_false,
      Out.bind_eq, Out.bind_ok]
    have h := pipeInt_cut (m := m) (cfg := cfg) (k := 4) (e := intElem cfg) rfl hs (2 ^ 32 - 1)
    cases ho : pipe cfg (intElem cfg) s (2 ^ 32 - 1) with
    | ok q =>
      rw [ho] at h
      rw [h.1]
      simp only [Out.bind_ok]
      cases p with
      | some t =>
        dsimp only
        cases (Out.assertThat cfg.ndebug (q.1 == vi.dynIdx t)) with
        | ok _ => exact ⟨rfl, h.2⟩
        | _ => trivial
      | none =>
        simp only [h.2, more_unp (m := m) h.2, if_true]
        cases hq : vi.construct q.1 with
        | ok t => exact ⟨rfl, h.2⟩
        | _ => trivial
    | _ => trivial

/-- The object a pointer owned is the one that is read. -/
theorem reconstruct_same {e : Elem T} {virt : Option (Virt T)} {s s' : Ser} {p t : Option T}
    (h : reconstructPointedTo cfg e virt s p = .ok (t, s')) : ∀ x, p = some x → t = some x := by
  rintro x rfl
  unfold reconstructPointedTo at h
  cases virt with
  | none => cases h; rfl
  | some vi =>
    simp only [Out.bind_eq] at h
    split at h
    · simp only [Out.bind_ok] at h
      split at h
      · unfold Out.assertThat at h
        split at h
        · cases h; rfl
        · cases h
      · cases hp : pipe cfg (intElem cfg) s (2 ^ 32 - 1) with
        | ok q =>
          rw [hp] at h
          simp only [Out.bind_ok] at h
          unfold Out.assertThat at h
          split at h
          · cases h; rfl
          · cases h
        | _ => rw [hp] at h; cases h
    · simp only [Out.bind_ok] at h
      split at h
      · unfold Out.assertThat at h
        split at h
        · cases h; rfl
        · cases h
      · cases hp : pipe cfg (intElem cfg) s (vi.dynIdx x) with
        | ok q =>
          rw [hp] at h
          simp only [Out.bind_ok] at h
          unfold Out.assertThat at h
          split at h
          · cases h; rfl
          · cases h
        | _ => rw [hp] at h; cases h

theorem serUniquePtr_cut {sz : Nat} {e : Elem T} {r : Residue T} (hh : Tears m P B e.apply r) {virt : Option (Virt T)}
    (hf : virt = none → P e.fresh) (hc : ∀ vi, virt = some vi → ∀ i t, vi.construct i = .ok (some t) → P t) {s : Ser}
    (hs : s.isUnpacking = true) {p : Option T} (hp : ∀ x, p = some x → P x) :
    Cut m (fun w z => z = p ∨ ∃ y w' z', (∀ x, p = some x → y = x) ∧ w = some w' ∧ z = some z' ∧ B y w' z')
      (serUniquePtr cfg sz e virt s p) (serUniquePtr cfg sz e virt (s.more m) p) (serUniquePtrEnd cfg e r virt s p) := by
  unfold serUniquePtr serUniquePtrEnd
  simp only [unp_modes hs, unp_modes (more_unp (m := m) hs), Bool.false_eq_true, if_false]
  refine Cut.bind (pipeBool_cut hs _) (fun q hq => ?_) ⟨p, rfl, fun _ _ _ _ => .inl rfl⟩
  obtain ⟨b, s'⟩ := q
  cases b with
  | true =>
    have hq : s'.isUnpacking = true := hq
    simp only [hq, more_unp (m := m) hq, if_true]
    exact Cut.ok hq
  | false =>
    have hl := reconstruct_loc (cfg := cfg) hf hc hq hp
    have hsm := fun t s'' => reconstruct_same (cfg := cfg) (e := e) (virt := virt) (s := s') (s' := s'') (p := p) (t := t)
    have h := reconstruct_cut (m := m) (cfg := cfg) (e := e) (virt := virt) hq p
    simp only [Bool.false_eq_true, if_false, Out.bind_eq]
    cases ho : reconstructPointedTo cfg e virt s' p with
    | ok q' =>
      rw [ho] at h hl
      rw [h.1]
      obtain ⟨t, s''⟩ := q'
      have hsm := hsm t s'' ho
      cases t with
      | none => trivial
      | some t =>
        refine Cut.map (f := fun t => some t) (pipe_cut hh h.2 (hl.1 t rfl)) (fun w z hwz => .inr ⟨t, w, z, ?_, rfl, rfl, hwz⟩)
        intro x hx
        have := hsm x hx
        cases this; rfl
    | throw er =>
      intro w s'' _
      exact ⟨p, rfl, .inl rfl⟩
    | _ => trivial

/-- The parts of an object, one class after the other. -/
def ChainCut {R : Type} (C : Nat → R → R → R → Prop) (ks : List Nat) (ps qs zs : List R) : Prop :=
  zs = qs ∨ ∃ j k p q z, ks[j]? = some k ∧ ps[j]? = some p ∧ qs[j]? = some q ∧ C k p q z ∧
    zs = qs.take j ++ z :: ps.drop (j + 1)

theorem serChain_cut {R : Type} {reg : SerReg} {root : Nat} {part : Nat → Elem R} {rpart : Nat → Residue R}
    {I : Nat → R → Prop} {C : Nat → R → R → R → Prop} (hh : ∀ k, Tears m (I k) (C k) (part k).apply (rpart k)) :
    ∀ (ks : List Nat) {s : Ser} {ps : List R}, s.isUnpacking = true → List.Forall₂ I ks ps →
    Cut m (ChainCut C ks ps) (serChain cfg reg root part ks s ps) (serChain cfg reg root part ks (s.more m) ps)
      (serChainEnd cfg reg root part rpart ks s ps)
  | [], _, _, hs, .nil => Cut.ok hs
  | k :: ks, s, p :: ps, hs, .cons hp hps => by
    unfold serChain serChainEnd
    simp only [more_kind, more_setVdis]
    cases hl : reg.lookup cfg.ndebug k root s.kind with
    | ok kind =>
      simp only [Out.bind_eq, Out.bind_ok, Out.after]
      split
      · trivial
      · refine cons_cut (f := fun s => serChain cfg reg root part ks s ps)
          (f' := fun s => serChainEnd cfg reg root part rpart ks s ps) (xs := ps)
          (pipe_cut (cfg := cfg) (hh k) (unp_setVdis hs true) hp) (fun s' hs' => serChain_cut hh ks hs' hps) ?_ ?_
        · intro y z ys h
          exact .inr ⟨0, k, p, y, z, rfl, rfl, rfl, h, rfl⟩
        · rintro y ys zs (rfl | ⟨j, k', p', q', z, h1, h2, h3, h4, rfl⟩)
          · exact .inl rfl
          · exact .inr ⟨j + 1, k', p', q', z, h1, h2, h3, h4, rfl⟩
    | throw e =>
      intro w s' hw
      cases hw
    | _ => trivial

end
end Ckpt
