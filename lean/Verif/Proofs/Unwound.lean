import Verif.Model.Unwound
import Verif.Proofs.Mono
import Verif.Proofs.SafeUniverse
/-!
The value of an object after a call that has ended: it exists whenever the call returns or throws, it is the returned one
when the call returns, it does not depend on the nesting bound, and it keeps the invariants of its type.
-/

set_option autoImplicit false

namespace Ckpt

/-- `p` is the value after the call with outcome `o`: the returned value, or some value when the call threw; the value
satisfies `Q`. -/
def Settles {α : Type} (Q : α → Prop) : Out (α × Ser) → Out α → Prop
  | .ok r, p => p = .ok r.1 ∧ Q r.1 ∧ r.2.isUnpacking = true
  | .throw _, p => ∃ b, p = .ok b ∧ Q b
  | .abort, p => p = .abort
  | .ub u, p => p = .ub u
  | .fuel, p => p = .fuel

/-- A call on a local variable of an unpacker. -/
def Loc {α : Type} (Q : α → Prop) : Out (α × Ser) → Prop
  | .ok r => Q r.1 ∧ r.2.isUnpacking = true
  | _ => True

/-- The same for functions that return only the serializer. -/
def LocS : Out Ser → Prop
  | .ok s => s.isUnpacking = true
  | _ => True

section
variable {α β : Type} {Q : α → Prop} {P : β → Prop}

theorem Settles.loc {o : Out (α × Ser)} {p : Out α} (h : Settles Q o p) : Loc Q o := by
  cases o with
  | ok r => exact h.2
  | _ => trivial

theorem Loc.imp {Q' : α → Prop} {o : Out (α × Ser)} (h : Loc Q o) (hQ : ∀ a, Q a → Q' a) : Loc Q' o := by
  cases o with
  | ok r => exact ⟨hQ _ h.1, h.2⟩
  | _ => trivial

theorem Settles.imp {Q' : α → Prop} {o : Out (α × Ser)} {p : Out α} (h : Settles Q o p) (hQ : ∀ a, Q a → Q' a) :
    Settles Q' o p := by
  cases o with
  | ok r => exact ⟨h.1, hQ _ h.2.1, h.2.2⟩
  | throw e => obtain ⟨b, hb, hq⟩ := h; exact ⟨b, hb, hQ b hq⟩
  | _ => exact h

/-- A call on a local variable first; when it throws the value is `g`. -/
theorem Settles.bind {o : Out (β × Ser)} {f : β × Ser → Out (α × Ser)} {f' : β × Ser → Out α} {g : Out α} (h : Loc P o)
    (hf : ∀ r, P r.1 → r.2.isUnpacking = true → Settles Q (f r) (f' r)) (hg : ∃ b, g = .ok b ∧ Q b) :
    Settles Q (o >>= f) (o.after f' g) := by
  cases o with
  | ok r => exact hf r h.1 h.2
  | throw e => exact hg
  | _ => rfl

theorem Settles.bindS {o : Out Ser} {f : Ser → Out (α × Ser)} {f' : Ser → Out α} {g : Out α} (h : LocS o)
    (hf : ∀ s, s.isUnpacking = true → Settles Q (f s) (f' s)) (hg : ∃ b, g = .ok b ∧ Q b) :
    Settles Q (o >>= f) (o.after f' g) := by
  cases o with
  | ok s => exact hf s h
  | throw e => exact hg
  | _ => rfl

/-- A call on a part first; when it throws the value is made of the part as it is then. -/
theorem Settles.part {o : Out (β × Ser)} {p : Out β} {f : β × Ser → Out (α × Ser)} {f' : β × Ser → Out α} {g : β → Out α}
    (h : Settles P o p) (hf : ∀ r, P r.1 → r.2.isUnpacking = true → Settles Q (f r) (f' r))
    (hg : ∀ b, P b → ∃ a, g b = .ok a ∧ Q a) : Settles Q (o >>= f) (o.after f' (p >>= g)) := by
  cases o with
  | ok r => exact hf r h.2.1 h.2.2
  | throw e =>
    obtain ⟨b, rfl, hb⟩ := h
    exact hg b hb
  | _ => rfl

/-- A call on a part last. -/
theorem Settles.map {o : Out (β × Ser)} {p : Out β} {f : β → α} (h : Settles P o p) (hf : ∀ b, P b → Q (f b)) :
    Settles Q (o >>= fun r => .ok (f r.1, r.2)) (p >>= fun b => .ok (f b)) := by
  cases o with
  | ok r => obtain ⟨rfl, h1, h2⟩ := h; exact ⟨rfl, hf _ h1, h2⟩
  | throw e => obtain ⟨b, rfl, hb⟩ := h; exact ⟨f b, rfl, hf b hb⟩
  | abort => cases h; rfl
  | ub u => cases h; rfl
  | fuel => cases h; rfl

theorem Settles.ok {a : α} {s : Ser} (h : Q a) (hs : s.isUnpacking = true) : Settles Q (.ok (a, s)) (.ok a) := ⟨rfl, h, hs⟩

theorem Settles.catch {o : Out (α × Ser)} {p : Out α} (ti : TI) (h : Settles Q o p) : Settles Q (catchDepth ti o) p := by
  cases o with
  | throw e => cases e <;> exact h
  | _ => exact h

end

/-- Arrays of as many objects, all satisfying `P`. -/
def Arr {T : Type} (P : T → Prop) (n : Nat) (ys : List T) : Prop := ys.length = n ∧ ∀ y ∈ ys, P y

/-- `r` gives the array after a call of `h`, and `h` keeps `P`. -/
def Keeps {T : Type} (P : T → Prop) (h : Handler T) (r : Residue T) : Prop :=
  ∀ s xs, s.isUnpacking = true → xs ≠ [] → (∀ x ∈ xs, P x) → Settles (Arr P xs.length) (h s xs) (r s xs)

section
variable {T : Type} {P : T → Prop} {cfg : Cfg}

theorem unp_modes {s : Ser} (h : s.isUnpacking = true) :
    s.isFootprinting = false ∧ s.isPacking = false ∧ s.isSizing = false := by
  obtain ⟨core, kind, vdis⟩ := s
  cases core <;> first | exact ⟨rfl, rfl, rfl⟩ | cases h

theorem unp_addBytes {s : Ser} (h : s.isUnpacking = true) (n : Nat) : s.addBytes n = s := by
  obtain ⟨core, kind, vdis⟩ := s
  cases core <;> first | rfl | cases h

theorem unp_setVdis {s : Ser} (h : s.isUnpacking = true) (b : Bool) : (s.setVdis b).isUnpacking = true := h

theorem bytesEnd_fin {s : Ser} (hs : s.isUnpacking = true) {size num : Nat} {data : Bytes}
    (hd : data.length = size * num) :
    Settles (fun bs => bs.length = size * num) (s.contiguousBytes size num data) (bytesEnd s size num data) := by
  obtain ⟨core, kind, vdis⟩ := s
  unfold bytesEnd
  cases core with
  | unpacker mem cur used =>
    simp only [Ser.contiguousBytes, hd, ne_eq, not_true_eq_false, if_false]
    split
    · exact ⟨rfl, by simp; omega, rfl⟩
    · rfl
  | streamUnpacker inp n =>
    simp only [Ser.contiguousBytes, hd, ne_eq, not_true_eq_false, if_false]
    split
    · exact ⟨rfl, by simp; omega, rfl⟩
    · exact ⟨_, rfl, by simp [hd]; omega⟩
  | _ => cases hs

theorem dispatchByte_fin {s : Ser} (hs : s.isUnpacking = true) {size : Nat} {xs : List Bytes}
    (hx : ∀ x ∈ xs, x.length = size) :
    Settles (Arr (·.length = size) xs.length) (dispatchByte size s xs) (dispatchByteEnd size s xs) := by
  unfold dispatchByte dispatchByteEnd
  exact (bytesEnd_fin hs (flatten_length_of size xs hx)).map
    (fun bs hb => ⟨by simp, fun y hy => chunks_mem_length _ _ _ hb _ hy⟩)

theorem dispatchByte_residue (size : Nat) : Keeps (fun x : Bytes => x.length = size) (dispatchByte size)
    (dispatchByteEnd size) := fun _ _ hs _ hx => dispatchByte_fin hs hx

theorem dispatchInt_loc {s : Ser} (hs : s.isUnpacking = true) (n : Nat) (xs : List Nat) :
    Loc (fun ys => ys.length = xs.length) (dispatchInt cfg n s xs) := by
  have h := (dispatchByte_fin hs (size := n) (xs := xs.map (intBytes cfg.endian n)) (by
    intro x hx
    obtain ⟨y, _, rfl⟩ := List.mem_map.1 hx
    simp)).loc
  unfold dispatchInt
  cases ho : dispatchByte n s (xs.map (intBytes cfg.endian n)) with
  | ok r =>
    rw [ho] at h
    exact ⟨by simpa using h.1.1, h.2⟩
  | _ => trivial

theorem rawInt_loc {s : Ser} (hs : s.isUnpacking = true) (n v : Nat) : Loc (fun _ => True) (rawInt cfg n s v) := by
  have h := dispatchInt_loc (cfg := cfg) hs n [v]
  unfold rawInt
  cases ho : dispatchInt cfg n s [v] with
  | ok r =>
    rw [ho] at h
    obtain ⟨ys, s'⟩ := r
    match ys, h with
    | [y], h => exact ⟨trivial, h.2⟩
  | _ => trivial

theorem withTypeIdx_loc {s : Ser} (hs : s.isUnpacking = true) (ti : TI) : LocS (withTypeIdx cfg ti s) := by
  unfold withTypeIdx
  simp only [unp_modes hs, hs, Bool.or_self, Bool.false_eq_true, if_false, if_true]
  have h := rawInt_loc (cfg := cfg) hs 4 0
  cases ho : rawInt cfg 4 s 0 with
  | ok r =>
    rw [ho] at h
    obtain ⟨v, s'⟩ := r
    show LocS (if _ then _ else _)
    split
    · trivial
    · exact h.2
  | _ => trivial

theorem withMemUsed_loc {s : Ser} (hs : s.isUnpacking = true) (ti : TI) (len : Nat) :
    LocS (withMemUsed cfg ti s len) := by
  unfold withMemUsed
  simp only [unp_modes hs, hs, Bool.or_self, Bool.false_eq_true, if_false, if_true]
  have h := rawInt_loc (cfg := cfg) hs 8 0
  cases ho : rawInt cfg 8 s 0 with
  | ok r =>
    rw [ho] at h
    obtain ⟨v, s'⟩ := r
    show LocS (if _ then _ else _)
    split
    · trivial
    · exact h.2
  | _ => trivial

theorem after_catch {α β : Type} (ti : TI) (o : Out α) (f : α → Out β) (g : Out β) :
    (catchDepth ti o).after f g = o.after f g := by
  cases o with
  | throw e => cases e <;> rfl
  | _ => rfl

/-- The trailer follows: the value is there already. -/
theorem trailer_fin {α : Type} {Q : α → Prop} {o : Out (α × Ser)} {p : Out α} (ti : TI) (len : Nat) (h : Settles Q o p) :
    Settles Q (o >>= fun r => withMemUsed cfg ti r.2 len >>= fun s => .ok (r.1, s))
      (o.after (fun r => (withMemUsed cfg ti r.2 len).after (fun _ => .ok r.1) (.ok r.1)) p) := by
  cases o with
  | ok r =>
    have := withMemUsed_loc (cfg := cfg) h.2.2 ti len
    exact Settles.bindS (f := fun s => .ok (r.1, s)) (f' := fun _ => .ok r.1) this (fun s hs => ⟨rfl, h.2.1, hs⟩)
      ⟨r.1, rfl, h.2.1⟩
  | throw e => exact h
  | _ => rfl

theorem traverse_fin {Q : List T → Prop} {h : Handler T} {r : Residue T} {s : Ser} (hs : s.isUnpacking = true) (ti : TI)
    {xs : List T} (hq : Q xs) (hh : ∀ s, s.isUnpacking = true → Settles Q (h s xs) (r s xs)) :
    Settles Q (traverse cfg ti h s xs) (traverseEnd cfg ti h r s xs) := by
  unfold traverse traverseEnd
  split
  · refine Settles.bindS (withTypeIdx_loc hs ti) (fun s' hs' => ?_) ⟨xs, rfl, hq⟩
    have := trailer_fin (cfg := cfg) ti xs.length ((hh s' hs').catch ti)
    rw [after_catch] at this
    exact this
  · exact hh s hs

theorem pipe_fin {e : Elem T} {r : Residue T} (hh : Keeps P e.apply r) {s : Ser} (hs : s.isUnpacking = true) {x : T}
    (hx : P x) : Settles P (pipe cfg e s x) (pipeEnd cfg e r s x) := by
  have h := traverse_fin (cfg := cfg) (Q := Arr P 1) (h := e.apply) (r := r) (xs := [x]) hs e.ti
    ⟨rfl, by simpa using hx⟩ (fun s' hs' => hh s' [x] hs' (by simp) (by simpa using hx))
  unfold pipe pipeEnd
  cases ho : traverse cfg e.ti e.apply s [x] with
  | ok q =>
    rw [ho] at h
    obtain ⟨h1, h2, h3⟩ := h
    obtain ⟨ys, s'⟩ := q
    rw [h1]
    match ys, h2 with
    | [y], h2 => exact ⟨rfl, h2.2 y (by simp), h3⟩
  | throw e =>
    rw [ho] at h
    obtain ⟨ys, h1, h2⟩ := h
    rw [h1]
    match ys, h2 with
    | [y], h2 => exact ⟨y, rfl, h2.2 y (by simp)⟩
  | abort => rw [ho] at h; rw [show _ = _ from h]; rfl
  | ub u => rw [ho] at h; rw [show _ = _ from h]; rfl
  | fuel => rw [ho] at h; rw [show _ = _ from h]; rfl

theorem pipeInt_loc {s : Ser} {k : Nat} {e : Elem Nat} (he : e.apply = dispatchInt cfg k) (hs : s.isUnpacking = true)
    (v : Nat) : Loc (fun _ => True) (pipe cfg e s v) := by
  have := (pipe_fin (cfg := cfg) (P := fun _ : Nat => True) (e := e)
    (r := fun s xs => (dispatchInt cfg k s xs).after (fun q => .ok q.1) (.ok xs)) (by
      intro s xs hs _ _
      rw [he]
      have := dispatchInt_loc (cfg := cfg) hs k xs
      dsimp only
      cases ho : dispatchInt cfg k s xs with
      | ok r => rw [ho] at this; exact ⟨rfl, ⟨this.1, fun _ _ => trivial⟩, this.2⟩
      | throw e => exact ⟨xs, rfl, rfl, fun _ _ => trivial⟩
      | _ => rfl) hs (x := v) trivial).loc
  exact this

theorem pipeSize_loc {s : Ser} (hs : s.isUnpacking = true) (n : Nat) : Loc (fun _ => True) (pipeSize cfg s n) :=
  pipeInt_loc (k := 8) (e := sizeElem cfg) rfl hs n

theorem pipeBool_loc {s : Ser} (hs : s.isUnpacking = true) (b : Bool) : Loc (fun _ => True) (pipeBool cfg s b) := by
  have h := pipeInt_loc (cfg := cfg) (k := 1) (e := boolElem cfg) rfl hs b.toNat
  unfold pipeBool
  cases ho : pipe cfg (boolElem cfg) s b.toNat with
  | ok r =>
    rw [ho] at h
    show Loc _ (if _ then _ else if _ then _ else _)
    split
    · exact ⟨trivial, h.2⟩
    · split
      · exact ⟨trivial, h.2⟩
      · trivial
  | _ => trivial

/-- One object, then the rest: the shape of all the loops. -/
theorem cons_fin {α : Type} {Q : α → Prop} {o : Out (α × Ser)} {p : Out α} {f : Ser → Out (List α × Ser)}
    {f' : Ser → Out (List α)} {xs : List α} {R : α → List α → Prop} (h : Settles Q o p)
    (hf : ∀ y s, Q y → s.isUnpacking = true → Settles (R y) (f s) (f' s)) (hg : ∀ y, Q y → R y xs) :
    Settles (fun zs => ∃ y ys, zs = y :: ys ∧ R y ys) (o >>= fun r => f r.2 >>= fun q => .ok (r.1 :: q.1, q.2))
      (o.after (fun r => f' r.2 >>= fun ys => .ok (r.1 :: ys)) (p >>= fun y => .ok (y :: xs))) :=
  h.part (f := fun r => f r.2 >>= fun q => .ok (r.1 :: q.1, q.2)) (f' := fun r => f' r.2 >>= fun ys => .ok (r.1 :: ys))
    (fun r hr hs => (hf r.1 r.2 hr hs).map (fun ys hys => ⟨r.1, ys, rfl, hys⟩))
    (fun y hy => ⟨y :: xs, rfl, y, xs, rfl, hg y hy⟩)

theorem arr_cons {n : Nat} {zs : List T} (h : ∃ y ys, zs = y :: ys ∧ P y ∧ Arr P n ys) : Arr P (n + 1) zs := by
  obtain ⟨y, ys, rfl, hy, h1, h2⟩ := h
  exact ⟨by simp [h1], by simpa using ⟨hy, h2⟩⟩

theorem pipeEach_fin {e : Elem T} {r : Residue T} (hh : Keeps P e.apply r) : ∀ (xs : List T) {s : Ser},
    s.isUnpacking = true → (∀ x ∈ xs, P x) →
    Settles (Arr P xs.length) (pipeEach cfg e s xs) (pipeEachEnd cfg e r s xs)
  | [], _, hs, _ => Settles.ok ⟨rfl, by simp⟩ hs
  | x :: xs, s, hs, hx => by
    have hxs := fun y hy => hx y (List.mem_cons_of_mem x hy)
    have := cons_fin (R := fun y ys => P y ∧ Arr P xs.length ys) (f := fun s => pipeEach cfg e s xs)
      (f' := fun s => pipeEachEnd cfg e r s xs) (xs := xs) (pipe_fin (cfg := cfg) hh hs (hx x (by simp)))
      (fun y s' hy hs' => (pipeEach_fin hh xs hs' hxs).imp (fun _ h => ⟨hy, h⟩))
      (fun y hy => ⟨hy, rfl, hxs⟩)
    exact this.imp (fun _ => arr_cons)

theorem serializeArray_fin {e : Elem T} {r : Residue T} (hh : Keeps P e.apply r) {s : Ser} (hs : s.isUnpacking = true)
    {xs : List T} (hx : ∀ x ∈ xs, P x) :
    Settles (Arr P xs.length) (serializeArray cfg e s xs) (serializeArrayEnd cfg e r s xs) := by
  unfold serializeArray serializeArrayEnd
  split
  · next hl =>
    exact traverse_fin hs e.ti ⟨rfl, hx⟩
      (fun s' hs' => hh s' xs hs' (by rintro rfl; simp at hl) hx)
  · exact Settles.ok ⟨rfl, hx⟩ hs

theorem dispatchEach_keeps {f : Ser → T → Out (T × Ser)} {g : Ser → T → Out T}
    (hf : ∀ s x, s.isUnpacking = true → P x → Settles P (f s x) (g s x)) :
    Keeps P (dispatchEach f) (dispatchEachEnd f g) := by
  intro s xs hs _ hx
  induction xs generalizing s with
  | nil => exact Settles.ok ⟨rfl, by simp⟩ hs
  | cons x xs ih =>
    have hxs := fun y hy => hx y (List.mem_cons_of_mem x hy)
    have := cons_fin (R := fun y ys => P y ∧ Arr P xs.length ys) (f := fun s => dispatchEach f s xs)
      (f' := fun s => dispatchEachEnd f g s xs) (xs := xs) (hf s x hs (hx x (by simp)))
      (fun y s' hy hs' => by
        cases xs with
        | nil => exact Settles.ok ⟨hy, rfl, by simp⟩ hs'
        | cons a as => exact (ih s' hs' (by simp) hxs).imp (fun _ h => ⟨hy, h⟩))
      (fun y hy => ⟨hy, rfl, hxs⟩)
    exact this.imp (fun _ => arr_cons)

/-! ### Containers -/

theorem serVector_fin (hg : ∀ n, n ≤ cfg.grow n) {sz : Nat} {e : Elem T} {r : Residue T} (hh : Keeps P e.apply r)
    (he : Makes P e) {s : Ser} (hs : s.isUnpacking = true) {v : Vec T} (hc : v.elems.length ≤ v.cap)
    (hv : ∀ x ∈ v.elems, P x) :
    Settles (fun w : Vec T => w.elems.length ≤ w.cap ∧ ∀ x ∈ w.elems, P x) (serVector cfg sz e s v)
      (serVectorEnd cfg e r s v) := by
  unfold serVector serVectorEnd serializeVectorMeta
  simp only [unp_modes hs, Bool.false_eq_true, if_false, Out.bind_eq, Out.bind_assoc, Out.bind_ok]
  refine Settles.bind (pipeSize_loc hs _) (fun q _ hq => ?_) ⟨v, rfl, hc, hv⟩
  have hv' : ∀ x ∈ (v.reserve cfg q.1).elems, P x := by rw [reserve_elems]; exact hv
  have hc' : (v.reserve cfg q.1).elems.length ≤ (v.reserve cfg q.1).cap := by
    rw [reserve_elems]; exact Nat.le_trans hc (reserve_cap hg v q.1).2
  refine Settles.bind (pipeSize_loc hq _) (fun q' _ hq' => ?_) ⟨_, rfl, hc', hv'⟩
  simp only [hq', if_true]
  have hm := constructVectorData_mem (cfg := cfg) he q'.1 hv'
  refine Settles.map (f := fun es => { constructVectorData cfg e q'.1 (v.reserve cfg q.1) with elems := es })
    (serializeArray_fin hh hq' hm) ?_
  rintro ys ⟨h1, h2⟩
  exact ⟨by rw [h1]; exact constructVectorData_cap hg e q'.1 _, h2⟩

theorem unpackBools_fin : ∀ (bs : List Bool) {s : Ser}, s.isUnpacking = true →
    Settles (fun cs => cs.length = bs.length) (unpackBools cfg s bs) (unpackBoolsEnd cfg s bs)
  | [], _, hs => Settles.ok rfl hs
  | b :: bs, s, hs => by
    refine Settles.bind (pipeBool_loc hs _) (fun q _ hq => ?_) ⟨b :: bs, rfl, rfl⟩
    exact Settles.map (f := fun cs => q.1 :: cs) (unpackBools_fin bs hq) (fun cs h => by simpa using h)

theorem serVectorBool_fin (hg : ∀ n, n ≤ cfg.grow n) {sz : Nat} {s : Ser} (hs : s.isUnpacking = true) {v : Vec Bool}
    (hc : v.elems.length ≤ v.cap) :
    Settles (fun w : Vec Bool => w.elems.length ≤ w.cap) (serVectorBool cfg sz s v) (serVectorBoolEnd cfg s v) := by
  unfold serVectorBool serVectorBoolEnd serializeVectorMeta
  simp only [unp_modes hs, Bool.false_eq_true, if_false, Out.bind_eq, Out.bind_assoc, Out.bind_ok]
  refine Settles.bind (Q := fun w : Vec Bool => w.elems.length ≤ w.cap) (pipeSize_loc hs _) (fun q _ hq => ?_) ⟨v, rfl, hc⟩
  refine Settles.bind (pipeSize_loc hq _) (fun q' _ hq' => ?_) ⟨_, rfl, ?_⟩
  · simp only [hq', if_true]
    refine Settles.map (f := fun es => { (v.reserve cfg q.1).resize cfg q'.1 false with elems := es })
      (unpackBools_fin _ hq') ?_
    intro ys h1
    show ys.length ≤ _
    rw [h1]
    exact resize_cap hg _ _ _
  · rw [reserve_elems]; exact Nat.le_trans hc (reserve_cap hg v q.1).2

theorem serString_fin (hg : ∀ n, n ≤ cfg.grow n) {sz : Nat} {s : Ser} (hs : s.isUnpacking = true) {x : Str}
    (hc : x.chars.length ≤ x.cap) :
    Settles (fun y : Str => y.chars.length ≤ y.cap) (serString cfg sz s x) (serStringEnd cfg s x) := by
  unfold serString serStringEnd serializeChars
  simp only [unp_modes hs, Bool.false_eq_true, if_false, Out.bind_eq, Out.bind_assoc, Out.bind_ok]
  refine Settles.bind (pipeSize_loc hs _) (fun q _ hq => ?_) ⟨x, rfl, hc⟩
  have h := serializeArray_fin (cfg := cfg) (e := charElem cfg) (dispatchByte_residue 1) hq
    (xs := (x.resize cfg q.1).chars.map fun c => [c]) (by simp)
  refine Settles.map (f := fun ys => { x.resize cfg q.1 with chars := ys.flatten }) h ?_
  rintro ys ⟨h1, h2⟩
  have : ys.flatten.length = ys.length := by
    have := flatten_length_of 1 ys h2
    omega
  show ys.flatten.length ≤ _
  rw [this, h1]
  have := hg q.1
  simp only [Str.resize, List.length_map, List.length_append, List.length_take, List.length_replicate]
  split <;> omega

theorem unpackLoop_fin {e : Elem T} {r : Residue T} (hh : Keeps P e.apply r) (hf : P e.fresh) {I : List T → Prop}
    {add : List T → T → List T} (ha : ∀ acc y, I acc → P y → I (add acc y)) : ∀ (n : Nat) {s : Ser} {acc : List T},
    s.isUnpacking = true → I acc → Settles I (unpackLoop cfg e add n s acc) (unpackLoopEnd cfg e add n s acc)
  | 0, _, _, hs, hi => Settles.ok hi hs
  | n + 1, _, acc, hs, hi =>
    Settles.bind (pipe_fin hh hs hf).loc (fun q hq hs' => unpackLoop_fin hh hf ha n hs' (ha acc q.1 hi hq)) ⟨acc, rfl, hi⟩

theorem seqResize_mem {xs : List T} {n : Nat} {x : T} (hx : P x) (h : ∀ y ∈ xs, P y) : ∀ y ∈ seqResize xs n x, P y := by
  intro y hy
  simp only [seqResize, List.mem_append, List.mem_replicate] at hy
  rcases hy with hy | ⟨_, rfl⟩
  · exact h y (List.mem_of_mem_take hy)
  · exact hx

theorem serList_fin {sz : Nat} {e : Elem T} {r : Residue T} (hh : Keeps P e.apply r) (hf : P e.fresh) {s : Ser}
    (hs : s.isUnpacking = true) {xs : List T} (hx : ∀ x ∈ xs, P x) :
    Settles (fun ys => ∀ y ∈ ys, P y) (serList cfg sz e s xs) (serListEnd cfg e r s xs) := by
  unfold serList serListEnd serializeContainerSize
  simp only [unp_modes hs, Bool.false_eq_true, if_false]
  refine Settles.bind (pipeSize_loc hs _) (fun q _ hq => ?_) ⟨xs, rfl, hx⟩
  simp only [hq, if_true]
  unfold deserializeOrderedElems deserializeOrderedElemsEnd
  split
  · exact (pipeEach_fin hh _ hq (seqResize_mem hf hx)).imp (fun _ h => h.2)
  · exact unpackLoop_fin hh hf (I := fun ys => ∀ y ∈ ys, P y) (fun acc y h hy => by
      intro z hz
      rcases List.mem_append.1 hz with hz | hz
      · exact h z hz
      · rw [List.mem_singleton.1 hz]; exact hy) _ hq hx

theorem serMapLike_fin {sz : Nat} {e : Elem T} {r : Residue T} (hh : Keeps P e.apply r) (hf : P e.fresh)
    {I : List T → Prop} {add : List T → T → List T} (ha : ∀ acc y, I acc → P y → I (add acc y)) {s : Ser}
    (hs : s.isUnpacking = true) {xs : List T} (hx : I xs) :
    Settles I (serMapLike cfg sz add e s xs) (serGrowEnd cfg add e s xs) := by
  unfold serMapLike serGrowEnd serializeContainerSize
  simp only [unp_modes hs, Bool.false_eq_true, if_false]
  refine Settles.bind (pipeSize_loc hs _) (fun q _ hq => ?_) ⟨xs, rfl, hx⟩
  simp only [hq, if_true]
  exact unpackLoop_fin hh hf ha _ hq hx

theorem serQueue_fin {sz : Nat} {e : Elem T} {r : Residue T} (hh : Keeps P e.apply r) (hf : P e.fresh) {s : Ser}
    (hs : s.isUnpacking = true) {xs : List T} {I : List T → Prop} (ha : ∀ acc y, I acc → P y → I (acc ++ [y]))
    (hx : I xs) :
    Settles I (serQueue cfg sz e s xs) (serGrowEnd cfg (fun acc y => acc ++ [y]) e s xs) := by
  unfold serQueue serGrowEnd serializeContainerSize
  simp only [unp_modes hs, Bool.false_eq_true, if_false]
  refine Settles.bind (pipeSize_loc hs _) (fun q _ hq => ?_) ⟨xs, rfl, hx⟩
  simp only [hq, if_true]
  exact unpackLoop_fin hh hf ha _ hq hx

/-- The members and their types. -/
def FitsAll (Ps : List (T → Prop)) (xs : List T) : Prop :=
  xs.length = Ps.length ∧ ∀ (i : Nat) p x, Ps[i]? = some p → xs[i]? = some x → p x

theorem fits_cons {p : T → Prop} {Ps : List (T → Prop)} {y : T} {ys : List T} (h : p y) (hs : FitsAll Ps ys) :
    FitsAll (p :: Ps) (y :: ys) := by
  refine ⟨by simp [hs.1], fun i q x hq hx => ?_⟩
  cases i with
  | zero => simp at hq hx; subst hq hx; exact h
  | succ i => exact hs.2 i q x (by simpa using hq) (by simpa using hx)

theorem FitsAll.tail {p : T → Prop} {Ps : List (T → Prop)} {y : T} {ys : List T} (h : FitsAll (p :: Ps) (y :: ys)) :
    p y ∧ FitsAll Ps ys :=
  ⟨h.2 0 p y rfl rfl, by simpa using h.1, fun i q x hq hx => h.2 (i + 1) q x (by simpa using hq) (by simpa using hx)⟩

theorem FitsAll.set {Ps : List (T → Prop)} {xs : List T} (h : FitsAll Ps xs) {i : Nat} {p : T → Prop} (hp : Ps[i]? = some p)
    {y : T} (hy : p y) : FitsAll Ps (xs.set i y) := by
  refine ⟨by simp [h.1], fun j q x hq hx => ?_⟩
  by_cases hij : i = j
  · subst hij
    rw [hp] at hq; cases hq
    rw [List.getElem?_set] at hx
    simp only [if_true] at hx
    split at hx
    · cases hx; exact hy
    · cases hx
  · rw [List.getElem?_set_ne hij] at hx
    exact h.2 j q x hq hx

theorem serMembers_fin : ∀ {Ps : List (T → Prop)} {es : List (Elem T × Residue T)},
    List.Forall₂ (fun p e => Keeps p e.1.apply e.2) Ps es → ∀ {s : Ser} {xs : List T}, s.isUnpacking = true →
    FitsAll Ps xs → Settles (FitsAll Ps) (serMembers cfg (es.map (·.1)) s xs) (serMembersEnd cfg es s xs)
  | [], _, .nil, _, [], hs, hx => Settles.ok hx hs
  | [], _, .nil, _, _ :: _, _, hx => by have := hx.1; simp at this
  | _ :: _, _, .cons .., _, [], _, hx => by have := hx.1; simp at this
  | p :: Ps, e :: es, .cons he hes, s, x :: xs, hs, hx => by
    have := cons_fin (R := fun y ys => p y ∧ FitsAll Ps ys) (f := fun s => serMembers cfg (es.map (·.1)) s xs)
      (f' := fun s => serMembersEnd cfg es s xs) (xs := xs) (pipe_fin (cfg := cfg) he hs hx.tail.1)
      (fun y s' hy hs' => (serMembers_fin hes hs' hx.tail.2).imp (fun _ h => ⟨hy, h⟩))
      (fun y hy => ⟨hy, hx.tail.2⟩)
    exact this.imp (fun _ ⟨y, ys, e, h1, h2⟩ => e ▸ fits_cons h1 h2)

theorem serPair_fin {A B : Type} {P : A → Prop} {Q : B → Prop} {sz : Nat} {e1 : Elem A} {r1 : Residue A} {e2 : Elem B}
    {r2 : Residue B} (h1 : Keeps P e1.apply r1) (h2 : Keeps Q e2.apply r2) {s : Ser} (hs : s.isUnpacking = true)
    {x : A × B} (hx : P x.1) (hx' : Q x.2) :
    Settles (fun y : A × B => P y.1 ∧ Q y.2) (serPair cfg sz e1 e2 s x) (serPairEnd cfg e1 r1 e2 r2 s x) := by
  unfold serPair serPairEnd
  rw [unp_addBytes hs]
  refine Settles.part (pipe_fin h1 hs hx) (fun q hq hs' => ?_) (fun a ha => ⟨_, rfl, ha, hx'⟩)
  exact Settles.map (f := fun b => (q.1, b)) (pipe_fin h2 hs' hx') (fun b hb => ⟨hq, hb⟩)

theorem visitMembers_fin {Ps : List (T → Prop)} {es : List (Elem T × Residue T)}
    (he : List.Forall₂ (fun p e => Keeps p e.1.apply e.2) Ps es) : ∀ (is : List Nat) {s : Ser} {xs : List T},
    s.isUnpacking = true → FitsAll Ps xs →
    Settles (FitsAll Ps) (visitMembers cfg (es.map (·.1)) is s xs) (visitMembersEnd cfg es is s xs)
  | [], _, _, hs, hx => Settles.ok hx hs
  | i :: is, s, xs, hs, hx => by
    unfold visitMembers visitMembersEnd
    rw [List.getElem?_map]
    rcases forall₂_getElem? he i with ⟨_, h2⟩ | ⟨p, e, hp, h2, hk⟩
    · simp only [h2, Option.map_none]
      exact rfl
    · simp only [h2, Option.map_some]
      cases hxi : xs[i]? with
      | none => exact rfl
      | some x =>
        refine Settles.part (pipe_fin hk hs (hx.2 i _ x hp hxi)) (fun q hq hs' => ?_) (fun y hy => ⟨_, rfl, hx.set hp hy⟩)
        exact visitMembers_fin he is hs' (hx.set hp hq)

theorem serOptional_fin {sz : Nat} {e : Elem T} {r : Residue T} (hh : Keeps P e.apply r) (hf : P e.fresh) {s : Ser}
    (hs : s.isUnpacking = true) {x : Option T} (hx : ∀ y, x = some y → P y) :
    Settles (fun z => ∀ y, z = some y → P y) (serOptional cfg sz e s x) (serOptionalEnd cfg e s x) := by
  unfold serOptional serOptionalEnd
  simp only [unp_modes hs, hs, Bool.false_eq_true, if_false, if_true]
  refine Settles.bind (pipeBool_loc hs _) (fun q _ hq => ?_) ⟨x, rfl, hx⟩
  split
  · refine Settles.bind (pipe_fin hh hq hf).loc (fun q' hq' hs' => ?_) ⟨x, rfl, hx⟩
    exact Settles.ok (by rintro _ ⟨⟩; exact hq') hs'
  · exact Settles.ok nofun hq

theorem serUnderlying_fin {u : Elem T} {r : Residue T} (hh : Keeps P u.apply r) {s : Ser} (hs : s.isUnpacking = true)
    {x : T} (hx : P x) : Settles P (serUnderlying cfg u s x) (serUnderlyingEnd cfg u s x) :=
  Settles.bind (pipe_fin hh hs hx).loc (fun _ hq hs' => Settles.ok hq hs') ⟨x, rfl, hx⟩

theorem serializeEntry_fin {I : Variant T → Prop} : ∀ {Ps : List (T → Prop)} {es : List (Elem T × Residue T)} (_ :
    List.Forall₂ (fun p e => Keeps p e.1.apply e.2 ∧ p e.1.fresh) Ps es) (cur : Nat) {s : Ser} {v : Variant T}
    (entry : Nat), (∀ (i : Nat) p x, Ps[i]? = some p → p x → I (.holds (cur + i) x)) → s.isUnpacking = true → I v →
    Settles I (serializeEntry cfg (es.map (·.1)) s v entry cur) (serializeEntryEnd cfg (es.map (·.1)) s v entry cur)
  | [], _, .nil, _, _, _, _, _, hs, hv => Settles.ok hv hs
  | p :: Ps, e :: es, .cons he hes, cur, s, v, entry, hI, hs, hv => by
    simp only [List.map_cons, serializeEntry, serializeEntryEnd, hs, if_true]
    split
    · exact Settles.bind (pipe_fin he.1 hs he.2).loc (fun q hq hs' => Settles.ok (hI 0 p _ rfl hq) hs') ⟨v, rfl, hv⟩
    · exact serializeEntry_fin hes (cur + 1) entry (fun i q x hq hx => by
        have := hI (i + 1) q x (by simpa using hq) hx
        rwa [show cur + (i + 1) = cur + 1 + i by omega] at this) hs hv

theorem serVariant_fin {I : Variant T → Prop} {Ps : List (T → Prop)} {es : List (Elem T × Residue T)} (he :
    List.Forall₂ (fun p e => Keeps p e.1.apply e.2 ∧ p e.1.fresh) Ps es)
    (hI : ∀ (i : Nat) p x, Ps[i]? = some p → p x → I (.holds i x)) {s : Ser} (hs : s.isUnpacking = true) {v : Variant T}
    (hv : I v) : Settles I (serVariant cfg (es.map (·.1)) s v) (serVariantEnd cfg (es.map (·.1)) s v) :=
  Settles.bind (pipeSize_loc hs _) (fun q _ hq => serializeEntry_fin he 0 q.1 (by simpa using hI) hq hv) ⟨v, rfl, hv⟩

theorem reconstruct_loc {e : Elem T} {virt : Option (Virt T)} (hf : virt = none → P e.fresh)
    (hc : ∀ vi, virt = some vi → ∀ i t, vi.construct i = .ok (some t) → P t) {s : Ser} (hs : s.isUnpacking = true)
    {p : Option T} (hp : ∀ x, p = some x → P x) :
    Loc (fun t => ∀ x, t = some x → P x) (reconstructPointedTo cfg e virt s p) := by
  unfold reconstructPointedTo
  cases virt with
  | none =>
    cases p with
    | some t => exact ⟨hp, hs⟩
    | none =>
      simp only [hs, if_true]
      exact ⟨by rintro _ ⟨⟩; exact hf rfl, hs⟩
  | some vi =>
    simp only [hs, unp_modes hs, if_true, Bool.false_eq_true, if_false, Out.bind_eq, Out.bind_ok]
    have h := pipeInt_loc (cfg := cfg) (k := 4) (e := intElem cfg) rfl hs (2 ^ 32 - 1)
    cases ho : pipe cfg (intElem cfg) s (2 ^ 32 - 1) with
    | ok q =>
      rw [ho] at h
      simp only [Out.bind_ok]
      cases p with
      | some t =>
        dsimp only
        unfold Out.assertThat
        split
        · exact ⟨hp, h.2⟩
        · trivial
      | none =>
        simp only [h.2, if_true]
        cases hq : vi.construct q.1 with
        | ok t => exact ⟨fun x hx => hc vi rfl q.1 x (by rw [hq]; exact congrArg _ hx), h.2⟩
        | _ => trivial
    | _ => trivial

theorem serUniquePtr_fin {sz : Nat} {e : Elem T} {r : Residue T} (hh : Keeps P e.apply r) {virt : Option (Virt T)}
    (hf : virt = none → P e.fresh) (hc : ∀ vi, virt = some vi → ∀ i t, vi.construct i = .ok (some t) → P t) {s : Ser}
    (hs : s.isUnpacking = true) {p : Option T} (hp : ∀ x, p = some x → P x) :
    Settles (fun z => ∀ x, z = some x → P x) (serUniquePtr cfg sz e virt s p) (serUniquePtrEnd cfg e r virt s p) := by
  unfold serUniquePtr serUniquePtrEnd
  simp only [unp_modes hs, Bool.false_eq_true, if_false]
  refine Settles.bind (pipeBool_loc hs _) (fun q _ hq => ?_) ⟨p, rfl, hp⟩
  obtain ⟨b, s'⟩ := q
  cases b with
  | true =>
    have hq : s'.isUnpacking = true := hq
    simp only [hq, if_true]
    exact Settles.ok nofun hq
  | false =>
    refine Settles.bind (reconstruct_loc hf hc hq hp) (fun q' hq' hs' => ?_) ⟨p, rfl, hp⟩
    obtain ⟨t, s'⟩ := q'
    cases t with
    | none => exact rfl
    | some t =>
      exact Settles.map (f := fun t => some t) (pipe_fin hh hs' (hq' t rfl)) (by rintro b hb _ ⟨⟩; exact hb)

theorem serChain_fin {R : Type} {reg : SerReg} {root : Nat} {part : Nat → Elem R} {rpart : Nat → Residue R}
    {I : Nat → R → Prop} (hh : ∀ k, Keeps (I k) (part k).apply (rpart k)) : ∀ (ks : List Nat) {s : Ser} {ps : List R},
    s.isUnpacking = true → List.Forall₂ I ks ps →
    Settles (List.Forall₂ I ks) (serChain cfg reg root part ks s ps) (serChainEnd cfg reg root part rpart ks s ps)
  | [], _, _, hs, .nil => Settles.ok .nil hs
  | k :: ks, s, p :: ps, hs, .cons hp hps => by
    unfold serChain serChainEnd
    cases hl : reg.lookup cfg.ndebug k root s.kind with
    | ok kind =>
      simp only [Out.bind_eq, Out.bind_ok, Out.after]
      split
      · exact rfl
      · have := cons_fin (R := fun y ys => I k y ∧ List.Forall₂ I ks ys)
          (f := fun s => serChain cfg reg root part ks s ps)
          (f' := fun s => serChainEnd cfg reg root part rpart ks s ps) (xs := ps)
          (pipe_fin (cfg := cfg) (hh k) (unp_setVdis hs true) hp)
          (fun y s' hy hs' => (serChain_fin hh ks hs' hps).imp (fun _ h => ⟨hy, h⟩))
          (fun y hy => ⟨hy, hps⟩)
        exact this.imp (fun _ ⟨y, ys, e, h1, h2⟩ => e ▸ .cons h1 h2)
    | throw e => exact ⟨_, rfl, .cons hp hps⟩
    | _ => exact rfl

end
end Ckpt
