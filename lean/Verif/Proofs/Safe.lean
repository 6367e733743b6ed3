import Verif.Proofs.Bytes
import Verif.Proofs.Virtual
import Verif.Spec.Formed
/-!
Reading arbitrary bytes: every container `serialize` function, run by an unpacker on any input, ends,
leaves objects of the right shape, and its undefined behaviour is in a given set.  The induction is over
the number of unread bytes and the size of the object read into.
-/

set_option autoImplicit false

namespace Ckpt

/-- Fewer than `m` bytes are left to read. -/
def Core.Left (m : Nat) : Core → Prop
  | .unpacker mem cur _ => mem.length - cur < m
  | .streamUnpacker inp _ => inp.length < m
  | _ => False

/-- The serializers whose reads past the end are not the stream's exception. -/
def Core.unchecked : Core → Bool
  | .unpacker .. => true
  | _ => false

/-- A built-in unpacker with fewer than `m` bytes left. -/
structure Reads (U : UB → Prop) (m : Nat) (s : Ser) : Prop where
  left : s.core.Left m
  over : s.core.unchecked = true → U .readOverflow
  kind : s.kind ∈ builtinKinds

/-- An outcome other than exhausted fuel; a result satisfies `Q`, undefined behaviour is in `U`. -/
def Good {α : Type} (U : UB → Prop) (m : Nat) (Q : α → Prop) : Out (α × Ser) → Prop
  | .ok r => Q r.1 ∧ Reads U m r.2
  | .ub u => U u
  | .fuel => False
  | _ => True

/-- The same for functions that return only the serializer. -/
def GoodS (U : UB → Prop) (m : Nat) : Out Ser → Prop
  | .ok s => Reads U m s
  | .ub u => U u
  | .fuel => False
  | _ => True

/-- With enough fuel the outcome no longer depends on it and is good. -/
def Evtl {α : Type} (U : UB → Prop) (m : Nat) (Q : α → Prop) (o : Nat → Out (α × Ser)) : Prop :=
  ∃ r, Good U m Q r ∧ ∃ n0, ∀ n, n0 ≤ n → o n = r

section
variable {U : UB → Prop} {m m' : Nat} {α β : Type} {Q Q' : α → Prop} {P : β → Prop}

theorem Reads.unpacking {s : Ser} (h : Reads U m s) : s.isUnpacking = true := by
  obtain ⟨core, kind, vdis⟩ := s
  obtain ⟨h, _, _⟩ := h
  cases core <;> first | rfl | exact h.elim

theorem Reads.modes {s : Ser} (h : Reads U m s) : s.isFootprinting = false ∧ s.isPacking = false ∧
    s.isSizing = false := by
  obtain ⟨core, kind, vdis⟩ := s
  obtain ⟨h, _, _⟩ := h
  cases core <;> first | exact ⟨rfl, rfl, rfl⟩ | exact h.elim

theorem Reads.addBytes {s : Ser} (h : Reads U m s) (n : Nat) : s.addBytes n = s := by
  obtain ⟨core, kind, vdis⟩ := s
  obtain ⟨h, _, _⟩ := h
  cases core <;> first | rfl | exact h.elim

theorem Reads.setVdis {s : Ser} (h : Reads U m s) (b : Bool) : Reads U m (s.setVdis b) := ⟨h.1, h.2, h.3⟩

theorem Reads.mono {s : Ser} (h : Reads U m s) (hm : m ≤ m') : Reads U m' s := by
  refine ⟨?_, h.2, h.3⟩
  have := h.1
  revert this
  cases s.core <;> simp only [Core.Left] <;> first | exact id | omega

theorem Reads.zero {s : Ser} (h : Reads U 0 s) : False := by
  have := h.1
  revert this
  cases s.core <;> simp [Core.Left]

theorem Good.imp {o : Out (α × Ser)} (h : Good U m Q o) (hm : m ≤ m') (hQ : ∀ a, Q a → Q' a) :
    Good U m' Q' o := by
  cases o with
  | ok r => exact ⟨hQ _ h.1, h.2.mono hm⟩
  | _ => exact h

theorem Good.bind {o : Out (β × Ser)} {f : β × Ser → Out (α × Ser)} (h : Good U m P o)
    (hf : ∀ r, P r.1 → Reads U m r.2 → Good U m' Q (f r)) : Good U m' Q (o >>= f) := by
  cases o with
  | ok r => exact hf r h.1 h.2
  | throw e => trivial
  | abort => trivial
  | ub u => exact h
  | fuel => exact h.elim

theorem GoodS.bind {o : Out Ser} {f : Ser → Out (α × Ser)} (h : GoodS U m o)
    (hf : ∀ s, Reads U m s → Good U m' Q (f s)) : Good U m' Q (o >>= f) := by
  cases o with
  | ok r => exact hf r h
  | throw e => trivial
  | abort => trivial
  | ub u => exact h
  | fuel => exact h.elim

theorem GoodS.ofGood {o : Out (β × Ser)} {f : β × Ser → Out Ser} (h : Good U m P o)
    (hf : ∀ r, Reads U m r.2 → GoodS U m' (f r)) : GoodS U m' (o >>= f) := by
  cases o with
  | ok r => exact hf r h.2
  | throw e => trivial
  | abort => trivial
  | ub u => exact h
  | fuel => exact h.elim

theorem Evtl.const {o : Out (α × Ser)} (h : Good U m Q o) : Evtl U m Q (fun _ => o) := ⟨o, h, 0, fun _ _ => rfl⟩

theorem Evtl.pure {s : Ser} {a : α} (h : Q a) (hs : Reads U m s) : Evtl U m Q (fun _ => .ok (a, s)) :=
  .const ⟨h, hs⟩

theorem Evtl.imp {o : Nat → Out (α × Ser)} (h : Evtl U m Q o) (hm : m ≤ m') (hQ : ∀ a, Q a → Q' a) :
    Evtl U m' Q' o := by
  obtain ⟨r, hr, h⟩ := h
  exact ⟨r, hr.imp hm hQ, h⟩

theorem Evtl.bind {o : Nat → Out (β × Ser)} {f : Nat → β × Ser → Out (α × Ser)} (h : Evtl U m P o)
    (hf : ∀ r, P r.1 → Reads U m r.2 → Evtl U m' Q (fun n => f n r)) : Evtl U m' Q (fun n => o n >>= f n) := by
  obtain ⟨r, hr, n0, h⟩ := h
  cases r with
  | ok r =>
    obtain ⟨r', hr', n1, h'⟩ := hf r hr.1 hr.2
    refine ⟨r', hr', max n0 n1, fun n hn => ?_⟩
    simp only [h n (by omega)]
    exact h' n (by omega)
  | throw e => exact ⟨.throw e, trivial, n0, fun n hn => by simp only [h n hn]; rfl⟩
  | abort => exact ⟨.abort, trivial, n0, fun n hn => by simp only [h n hn]; rfl⟩
  | ub u => exact ⟨.ub u, hr, n0, fun n hn => by simp only [h n hn]; rfl⟩
  | fuel => exact hr.elim

theorem Evtl.bindC {o : Out (β × Ser)} {f : Nat → β × Ser → Out (α × Ser)} (h : Good U m P o)
    (hf : ∀ r, P r.1 → Reads U m r.2 → Evtl U m' Q (fun n => f n r)) : Evtl U m' Q (fun n => o >>= f n) :=
  Evtl.bind (.const h) hf

theorem Evtl.bindS {o : Out Ser} {f : Nat → Ser → Out (α × Ser)} (h : GoodS U m o)
    (hf : ∀ s, Reads U m s → Evtl U m' Q (fun n => f n s)) : Evtl U m' Q (fun n => o >>= f n) := by
  cases o with
  | ok s => exact hf s h
  | throw e => exact .const (o := .throw e) trivial
  | abort => exact .const (o := .abort) trivial
  | ub u => exact .const (o := .ub u) h
  | fuel => exact h.elim

theorem Evtl.last {o : Nat → Out (β × Ser)} {f : β → α} (h : Evtl U m P o) (hf : ∀ b, P b → Q (f b)) :
    Evtl U m Q (fun n => o n >>= fun r => .ok (f r.1, r.2)) :=
  h.bind (fun _ hr hs => Evtl.pure (hf _ hr) hs)

theorem Evtl.shift {o : Nat → Out (α × Ser)} (h : Evtl U m Q (fun n => o (n + 1))) : Evtl U m Q o := by
  obtain ⟨r, hr, n0, h⟩ := h
  refine ⟨r, hr, n0 + 1, fun n hn => ?_⟩
  obtain ⟨k, rfl⟩ : ∃ k, n = k + 1 := ⟨n - 1, by omega⟩
  exact h k (by omega)

end

/-- A family of dispatchers is good on non-empty arrays of objects satisfying `P`, which then satisfy
`P'`. -/
def HS {T : Type} (U : UB → Prop) (m : Nat) (P P' : T → Prop) (h : Nat → Handler T) : Prop :=
  ∀ s xs, Reads U m s → xs ≠ [] → (∀ x ∈ xs, P x) →
    Evtl U m (fun ys => ys.length = xs.length ∧ ∀ y ∈ ys, P' y) (fun n => h n s xs)

/-- An element type with another dispatcher. -/
abbrev Elem.via {T : Type} (e : Elem T) (h : Handler T) : Elem T := { e with apply := h }

section
variable {U : UB → Prop} {m : Nat} {T : Type} {P P' : T → Prop} {cfg : Cfg}

theorem bytes_good {s : Ser} (hs : Reads U m s) {size num : Nat} {data : Bytes}
    (hd : data.length = size * num) {m' : Nat} (hm : m ≤ m' + size * num) :
    Good U m' (fun bs => bs.length = size * num) (s.contiguousBytes size num data) := by
  obtain ⟨core, kind, vdis⟩ := s
  obtain ⟨h, hu, hk⟩ := hs
  cases core with
  | unpacker mem cur used =>
    simp only [Ser.contiguousBytes, hd, ne_eq, not_true_eq_false, if_false]
    simp only [Core.Left] at h
    split
    · refine ⟨by simp; omega, ?_, hu, hk⟩
      show mem.length - (cur + size * num) < m'
      omega
    · exact hu rfl
  | streamUnpacker inp n =>
    simp only [Ser.contiguousBytes, hd, ne_eq, not_true_eq_false, if_false]
    simp only [Core.Left] at h
    split
    · refine ⟨by simp; omega, ?_, hu, hk⟩
      show (inp.drop (size * num)).length < m'
      rw [List.length_drop]; omega
    · trivial
  | _ => exact h.elim

theorem dispatchByte_good {s : Ser} (hs : Reads U m s) {size : Nat} {xs : List Bytes}
    (hx : ∀ x ∈ xs, x.length = size) {m' : Nat} (hm : m ≤ m' + size * xs.length) :
    Good U m' (fun ys => ys.length = xs.length ∧ ∀ y ∈ ys, y.length = size) (dispatchByte size s xs) := by
  refine Good.bind (bytes_good hs (flatten_length_of size xs hx) hm) (fun r hr hs' => ?_)
  exact ⟨⟨by simp, fun y hy => chunks_mem_length _ _ _ hr _ hy⟩, hs'⟩

theorem dispatchInt_good {s : Ser} (hs : Reads U m s) {n : Nat} (xs : List Nat) {m' : Nat}
    (hm : m ≤ m' + n * xs.length) :
    Good U m' (fun ys => ys.length = xs.length ∧ ∀ y ∈ ys, True) (dispatchInt cfg n s xs) := by
  refine Good.bind (dispatchByte_good hs (size := n) (xs := xs.map (intBytes cfg.endian n))
    (fun x hx => ?_) (m' := m') (by simpa using hm)) (fun r hr hs' => ?_)
  · obtain ⟨y, _, rfl⟩ := List.mem_map.1 hx
    simp
  · exact ⟨⟨by simpa using hr.1, fun _ _ => trivial⟩, hs'⟩

theorem rawInt_good {s : Ser} (hs : Reads U m s) (n v : Nat) :
    Good U m (fun _ => True) (rawInt cfg n s v) := by
  refine Good.bind (dispatchInt_good (m' := m) hs [v] (by omega)) (fun r hr hs' => ?_)
  obtain ⟨ys, s'⟩ := r
  match ys, hr with
  | [y], _ => exact ⟨trivial, hs'⟩

theorem withTypeIdx_good {s : Ser} (hs : Reads U m s) (ti : TI) : GoodS U m (withTypeIdx cfg ti s) := by
  unfold withTypeIdx
  simp only [hs.modes, hs.unpacking, Bool.or_self, Bool.false_eq_true, if_false, if_true]
  refine GoodS.ofGood (rawInt_good hs _ _) (fun r hr => ?_)
  obtain ⟨v, s'⟩ := r
  dsimp only
  split
  · trivial
  · exact hr

theorem withMemUsed_good {s : Ser} (hs : Reads U m s) (ti : TI) (len : Nat) :
    GoodS U m (withMemUsed cfg ti s len) := by
  unfold withMemUsed
  simp only [hs.modes, hs.unpacking, Bool.or_self, Bool.false_eq_true, if_false, if_true]
  refine GoodS.ofGood (rawInt_good hs _ _) (fun r hr => ?_)
  obtain ⟨v, s'⟩ := r
  dsimp only
  split
  · trivial
  · exact hr

theorem catchDepth_ev {α : Type} {Q : α → Prop} {o : Nat → Out (α × Ser)} (ti : TI) (h : Evtl U m Q o) :
    Evtl U m Q (fun n => catchDepth ti (o n)) := by
  obtain ⟨r, hr, n0, h⟩ := h
  refine ⟨catchDepth ti r, ?_, n0, fun n hn => by simp only [h n hn]⟩
  cases r with
  | throw e => cases e <;> trivial
  | _ => exact hr

/-- `h` starts with fewer than `m` bytes and ends with fewer than `m'`. -/
theorem traverse_ev {m' : Nat} {Q : List T → Prop} {h : Nat → Handler T} {s : Ser} (hs : Reads U m s) (ti : TI)
    (xs : List T) (_ : m' ≤ m) (hh : ∀ s', Reads U m s' → Evtl U m' Q (fun n => h n s' xs)) :
    Evtl U m' Q (fun n => traverse cfg ti (h n) s xs) := by
  unfold traverse
  by_cases hc : cfg.check = true
  · simp only [hc, if_true]
    refine Evtl.bindS (withTypeIdx_good hs ti) (fun s' hs' => ?_)
    refine Evtl.bind (catchDepth_ev ti (hh s' hs')) (fun r hr hr' => ?_)
    exact Evtl.bindS (withMemUsed_good hr' ti _) (fun s'' hs'' => Evtl.pure hr hs'')
  · simp only [hc]
    exact hh s hs

theorem pipe_ev' {m' : Nat} {Q : T → Prop} {h : Nat → Handler T} {e : Elem T} {s : Ser} (hs : Reads U m s)
    (x : T) (hm : m' ≤ m) (hh : ∀ s', Reads U m s' →
      Evtl U m' (fun ys => ys.length = 1 ∧ ∀ y ∈ ys, Q y) (fun n => h n s' [x])) :
    Evtl U m' Q (fun n => pipe cfg (e.via (h n)) s x) := by
  refine Evtl.bind (traverse_ev hs e.ti [x] hm hh) (fun r hr hs' => ?_)
  obtain ⟨ys, s'⟩ := r
  match ys, hr with
  | [y], hr => exact Evtl.pure (hr.2 y (by simp)) hs'

theorem pipe_ev {h : Nat → Handler T} (hh : HS U m P P' h) {e : Elem T} {s : Ser} (hs : Reads U m s)
    {x : T} (hx : P x) : Evtl U m P' (fun n => pipe cfg (e.via (h n)) s x) :=
  pipe_ev' hs x (Nat.le_refl _) (fun s' hs' => hh s' [x] hs' (by simp) (by simpa using hx))

theorem Evtl.of_const {α : Type} {Q : α → Prop} {o : Out (α × Ser)} (h : Evtl U m Q (fun _ => o)) : Good U m Q o := by
  obtain ⟨r, hr, n0, h⟩ := h
  have : o = r := h n0 (Nat.le_refl _)
  rw [this]; exact hr

theorem pipeInt_good {s : Ser} {k : Nat} (hk : 1 ≤ k) {e : Elem Nat} (he : e.apply = dispatchInt cfg k)
    (hs : Reads U (m + 1) s) (v : Nat) : Good U m (fun _ => True) (pipe cfg e s v) := by
  have := pipe_ev' (cfg := cfg) (e := e) (h := fun _ => dispatchInt cfg k) (Q := fun _ => True) hs v
    (Nat.le_succ m) (fun s' hs' => .const (dispatchInt_good hs' [v] (m' := m) (by simp; omega)))
  rw [← he] at this
  exact this.of_const

theorem pipeSize_good {s : Ser} (hs : Reads U (m + 1) s) (n : Nat) :
    Good U m (fun _ => True) (pipeSize cfg s n) :=
  pipeInt_good (k := 8) (by omega) (e := sizeElem cfg) rfl hs n

theorem pipeBool_good (hb : U .badBool) {s : Ser} (hs : Reads U (m + 1) s) (b : Bool) :
    Good U m (fun _ => True) (pipeBool cfg s b) := by
  refine Good.bind (pipeInt_good (k := 1) (by omega) (e := boolElem cfg) rfl hs _) (fun r _ hr => ?_)
  dsimp only
  split
  · exact ⟨trivial, hr⟩
  · split
    · exact ⟨trivial, hr⟩
    · exact hb

theorem pipeEach_ev {h : Nat → Handler T} (hh : HS U m P P' h) {e : Elem T} : ∀ (xs : List T) {s : Ser},
    Reads U m s → (∀ x ∈ xs, P x) →
    Evtl U m (fun ys => ys.length = xs.length ∧ ∀ y ∈ ys, P' y) (fun n => pipeEach cfg (e.via (h n)) s xs)
  | [], _, hs, _ => Evtl.pure ⟨rfl, by simp⟩ hs
  | x :: xs, _, hs, hx => Evtl.bind (pipe_ev hh hs (hx x (by simp))) (fun r hr hs' =>
      Evtl.bind (pipeEach_ev hh xs hs' (fun y hy => hx y (by simp [hy]))) (fun r' hr' hs'' =>
        Evtl.pure ⟨by simp [hr'.1], by simpa using ⟨hr, hr'.2⟩⟩ hs''))

theorem serializeArray_ev {h : Nat → Handler T} (hh : HS U m P P' h) {e : Elem T} {s : Ser} (hs : Reads U m s)
    {xs : List T} (hx : ∀ x ∈ xs, P x) :
    Evtl U m (fun ys => ys.length = xs.length ∧ ∀ y ∈ ys, P' y)
      (fun n => serializeArray cfg (e.via (h n)) s xs) := by
  cases xs with
  | nil => exact Evtl.pure ⟨rfl, by simp⟩ hs
  | cons x xs =>
    have : ∀ n, serializeArray cfg (e.via (h n)) s (x :: xs) =
        traverse cfg e.ti (h n) s (x :: xs) := fun n => by
      unfold serializeArray; simp
    simp only [this]
    exact traverse_ev hs e.ti _ (Nat.le_refl _) (fun s' hs' => hh s' _ hs' (by simp) hx)

theorem dispatchEach_hs {f : Nat → Ser → T → Out (T × Ser)}
    (hf : ∀ s x, Reads U m s → P x → Evtl U m P' (fun n => f n s x)) :
    HS U m P P' (fun n => dispatchEach (f n)) := by
  intro s xs hs _ hx
  induction xs generalizing s with
  | nil => exact Evtl.pure ⟨rfl, by simp⟩ hs
  | cons x xs ih =>
    exact Evtl.bind (hf s x hs (hx x (by simp))) (fun r hr hs' =>
      Evtl.bind (P := fun ys => ys.length = xs.length ∧ ∀ y ∈ ys, P' y) (by
        cases xs with
        | nil => exact Evtl.pure ⟨rfl, by simp⟩ hs'
        | cons y ys => exact ih r.2 hs' (by simp) (fun z hz => hx z (by simp [hz]))) (fun r' hr' hs'' =>
        Evtl.pure ⟨by simp [hr'.1], by simpa using ⟨hr, hr'.2⟩⟩ hs''))

/-- What the generic code may assume of an element type. -/
structure Makes (I : T → Prop) (e : Elem T) : Prop where
  fresh : I e.fresh
  dflt : ∀ d, e.dflt = some d → I d

theorem reserve_elems (v : Vec T) (n : Nat) : (v.reserve cfg n).elems = v.elems := by
  unfold Vec.reserve; split <;> rfl

theorem resize_mem {I : T → Prop} {v : Vec T} {n : Nat} {x : T} (hx : I x) (hv : ∀ y ∈ v.elems, I y) :
    ∀ y ∈ (v.resize cfg n x).elems, I y := by
  intro y hy
  simp only [Vec.resize, List.mem_append, List.mem_replicate] at hy
  rcases hy with hy | ⟨_, rfl⟩
  · exact hv y (List.mem_of_mem_take hy)
  · exact hx

theorem constructVectorData_mem {I : T → Prop} {e : Elem T} (he : Makes I e) {v : Vec T} (n : Nat)
    (hv : ∀ y ∈ v.elems, I y) : ∀ y ∈ (constructVectorData cfg e n v).elems, I y := by
  unfold constructVectorData
  split
  · next d hd => exact resize_mem (he.dflt d hd) hv
  · split
    · exact resize_mem he.fresh hv
    · intro y hy
      simp only [List.mem_append, List.mem_replicate] at hy
      rcases hy with hy | ⟨_, rfl⟩
      · exact hv y hy
      · exact he.fresh

theorem reserve_cap (hg : ∀ n, n ≤ cfg.grow n) (v : Vec T) (n : Nat) : n ≤ (v.reserve cfg n).cap ∧
    v.cap ≤ (v.reserve cfg n).cap := by
  unfold Vec.reserve
  have := hg n
  split
  · exact ⟨by assumption, Nat.le_refl _⟩
  · refine ⟨this, ?_⟩
    show v.cap ≤ cfg.grow n
    omega

theorem resize_length (v : Vec T) (n : Nat) (x : T) : (v.resize cfg n x).elems.length = n := by
  simp [Vec.resize]; omega

theorem resize_cap (hg : ∀ n, n ≤ cfg.grow n) (v : Vec T) (n : Nat) (x : T) :
    (v.resize cfg n x).elems.length ≤ (v.resize cfg n x).cap := by
  rw [resize_length]
  exact (reserve_cap hg v n).1

theorem constructVectorData_cap (hg : ∀ n, n ≤ cfg.grow n) (e : Elem T) (n : Nat) (v : Vec T) :
    (constructVectorData cfg e n v).elems.length ≤ (constructVectorData cfg e n v).cap := by
  unfold constructVectorData
  split
  · exact resize_cap hg _ _ _
  · split
    · exact resize_cap hg _ _ _
    · exact (reserve_cap hg v _).1

theorem constructVectorData_via (e : Elem T) (h : Handler T) (n : Nat) (v : Vec T) :
    constructVectorData cfg (e.via h) n v = constructVectorData cfg e n v := rfl

theorem serializeVectorMeta_good {s : Ser} (hs : Reads U (m + 1) s) (v : Vec T) :
    Good U m (fun r : Nat × Vec T => r.2.elems = v.elems)
      (serializeVectorMeta cfg s v >>= fun r => .ok ((r.1, r.2.1), r.2.2)) := by
  have : (serializeVectorMeta cfg s v >>= fun r => .ok ((r.1, r.2.1), r.2.2)) = (pipeSize cfg s v.cap >>= fun r =>
      pipeSize cfg r.2 (v.reserve cfg r.1).elems.length >>= fun q => .ok ((q.1, v.reserve cfg r.1), q.2)) := by
    unfold serializeVectorMeta
    cases pipeSize cfg s v.cap with
    | ok r =>
      show (Out.bind (Out.bind (pipeSize cfg r.2 _) _) _) = Out.bind (pipeSize cfg r.2 _) _
      cases pipeSize cfg r.2 (v.reserve cfg r.1).elems.length <;> rfl
    | _ => rfl
  rw [this]
  refine Good.bind (pipeSize_good hs _) (fun r _ hr => ?_)
  refine Good.bind (pipeSize_good (hr.mono (Nat.le_succ m)) _) (fun q _ hq => ⟨?_, hq⟩)
  exact reserve_elems _ _

theorem meta_bind {α : Type} {Q : α → Prop} {s : Ser} (hs : Reads U (m + 1) s) (v : Vec T)
    {f : Nat → Nat × Vec T × Ser → Out (α × Ser)}
    (hf : ∀ k w s', w.elems = v.elems → Reads U m s' → Evtl U m Q (fun n => f n (k, w, s'))) :
    Evtl U m Q (fun n => serializeVectorMeta cfg s v >>= f n) := by
  have h := Evtl.bindC (f := fun n r => f n (r.1.1, r.1.2, r.2)) (serializeVectorMeta_good (cfg := cfg) hs v)
    (fun r hr hs' => hf r.1.1 r.1.2 r.2 hr hs')
  have e : ∀ n, ((serializeVectorMeta cfg s v >>= fun r => .ok ((r.1, r.2.1), r.2.2)) >>=
      fun r => f n (r.1.1, r.1.2, r.2)) = (serializeVectorMeta cfg s v >>= f n) := by
    intro n
    cases serializeVectorMeta cfg s v <;> rfl
  simp only [e] at h
  exact h

theorem serVector_ev (hg : ∀ n, n ≤ cfg.grow n) {I : T → Prop} {h : Nat → Handler T} (hh : HS U m I I h) {e : Elem T} (he : Makes I e)
    (sz : Nat) {s : Ser} (hs : Reads U (m + 1) s) {v : Vec T} (hv : ∀ x ∈ v.elems, I x) :
    Evtl U m (fun w : Vec T => w.elems.length ≤ w.cap ∧ ∀ x ∈ w.elems, I x) (fun n => serVector cfg sz (e.via (h n)) s v) := by
  unfold serVector
  simp only [hs.modes, Bool.false_eq_true, if_false]
  refine meta_bind hs v (fun k w s' hw hs' => ?_)
  simp only [hs'.unpacking, if_true, constructVectorData_via]
  refine Evtl.bind (serializeArray_ev (P := I) (P' := I) hh hs'
    (constructVectorData_mem he k (by rw [hw]; exact hv))) (fun r hr hs'' => ?_)
  refine Evtl.pure ⟨?_, hr.2⟩ hs''
  show r.1.length ≤ _
  rw [hr.1]
  exact constructVectorData_cap hg e k w

theorem unpackBools_good (hb : U .badBool) : ∀ (bs : List Bool) {s : Ser}, Reads U m s →
    Good U m (fun cs => cs.length = bs.length) (unpackBools cfg s bs)
  | [], _, hs => ⟨rfl, hs⟩
  | _ :: bs, _, hs => Good.bind (pipeBool_good hb (hs.mono (Nat.le_succ m)) _) (fun _ _ hr =>
      Good.bind (unpackBools_good hb bs hr) (fun _ h hr' => ⟨by simp [h], hr'⟩))

theorem serVectorBool_good (hg : ∀ n, n ≤ cfg.grow n) (hb : U .badBool) (sz : Nat) {s : Ser}
    (hs : Reads U (m + 1) s) (v : Vec Bool) :
    Good U m (fun w => w.elems.length ≤ w.cap) (serVectorBool cfg sz s v) := by
  refine Evtl.of_const ?_
  unfold serVectorBool
  simp only [hs.modes, Bool.false_eq_true, if_false]
  refine meta_bind hs v (fun k w s' hw hs' => ?_)
  simp only [hs'.unpacking, if_true]
  refine Evtl.const (Good.bind (unpackBools_good hb _ hs') (fun r h hr => ⟨?_, hr⟩))
  show r.1.length ≤ _
  rw [h]
  exact resize_cap hg _ _ _

theorem serializeChars_good {s : Ser} (hs : Reads U m s) (cs : Bytes) :
    Good U m (fun ds => ds.length = cs.length) (serializeChars cfg s cs) := by
  refine Good.bind (Evtl.of_const (serializeArray_ev (e := charElem cfg) (P := fun b : Bytes => b.length = 1)
    (P' := fun b => b.length = 1) (h := fun _ => dispatchByte 1)
    (fun s' xs hs' _ hx => .const (dispatchByte_good hs' hx (by omega))) hs
    (xs := cs.map fun c => [c]) (fun x hx => ?_))) (fun r h hr => ⟨?_, hr⟩)
  · obtain ⟨c, _, rfl⟩ := List.mem_map.1 hx
    rfl
  · show r.1.flatten.length = _
    rw [flatten_length_of 1 r.1 h.2, h.1]
    simp

theorem serString_good (hg : ∀ n, n ≤ cfg.grow n) (sz : Nat) {s : Ser} (hs : Reads U (m + 1) s) {x : Str}
    (hx : x.chars.length ≤ x.cap) :
    Good U m (fun y => y.chars.length ≤ y.cap) (serString cfg sz s x) := by
  unfold serString
  simp only [hs.modes, Bool.false_eq_true, if_false]
  exact Good.bind (pipeSize_good hs _) (fun r _ hr =>
    Good.bind (serializeChars_good hr _) (fun q h hr' => ⟨by
      show q.1.length ≤ (x.resize cfg r.1).cap
      rw [h]
      have := hg r.1
      simp only [Str.resize, List.length_append, List.length_take, List.length_replicate]
      split <;> omega, hr'⟩))

theorem serializeContainerSize_good (sz : Nat) {s : Ser} (hs : Reads U (m + 1) s) (n : Nat) :
    Good U m (fun _ => True) (serializeContainerSize cfg sz s n) := by
  unfold serializeContainerSize
  simp only [hs.modes, Bool.false_eq_true, if_false]
  exact pipeSize_good hs n

theorem unpackLoop_ev {I : T → Prop} {h : Nat → Handler T} (hh : HS U m I I h) {e : Elem T} (he : I e.fresh)
    {add : List T → T → List T} {J : List T → Prop} (hadd : ∀ acc y, J acc → I y → J (add acc y)) :
    ∀ (k : Nat) {s : Ser} (acc : List T), Reads U m s → J acc →
    Evtl U m J (fun n => unpackLoop cfg (e.via (h n)) add k s acc)
  | 0, _, _, hs, ha => Evtl.pure ha hs
  | k + 1, _, _, hs, ha => Evtl.bind (pipe_ev hh hs he) (fun _ hr hs' =>
      unpackLoop_ev hh he hadd k _ hs' (hadd _ _ ha hr))

theorem snoc_mem {I : T → Prop} (acc : List T) (y : T) (ha : ∀ x ∈ acc, I x) (hy : I y) :
    ∀ x ∈ acc ++ [y], I x := by
  intro x hx
  rcases List.mem_append.1 hx with hx | hx
  · exact ha x hx
  · rw [List.mem_singleton.1 hx]; exact hy

theorem serList_ev {I : T → Prop} {h : Nat → Handler T} (hh : HS U m I I h) {e : Elem T} (he : I e.fresh)
    (sz : Nat) {s : Ser} (hs : Reads U (m + 1) s) {xs : List T} (hx : ∀ x ∈ xs, I x) :
    Evtl U m (fun ys => ∀ y ∈ ys, I y) (fun n => serList cfg sz (e.via (h n)) s xs) := by
  refine Evtl.bindC (serializeContainerSize_good sz hs _) (fun r _ hr => ?_)
  simp only [hr.unpacking, if_true, deserializeOrderedElems]
  by_cases hc : e.copyable = true
  · simp only [hc, if_true]
    refine Evtl.imp (pipeEach_ev hh _ hr (fun x h => ?_)) (Nat.le_refl _) (fun _ h => h.2)
    simp only [seqResize, List.mem_append, List.mem_replicate] at h
    rcases h with h | ⟨_, rfl⟩
    · exact hx x (List.mem_of_mem_take h)
    · exact he
  · simp only [hc]
    exact unpackLoop_ev (J := fun ys => ∀ y ∈ ys, I y) hh he snoc_mem _ _ hr hx

theorem serMapLike_ev {I : T → Prop} {h : Nat → Handler T} (hh : HS U m I I h) {e : Elem T} (he : I e.fresh)
    {em : List T → T → List T} {J : List T → Prop} (hem : ∀ acc y, J acc → I y → J (em acc y))
    (sz : Nat) {s : Ser} (hs : Reads U (m + 1) s) {xs : List T} (hx : J xs) :
    Evtl U m J (fun n => serMapLike cfg sz em (e.via (h n)) s xs) := by
  refine Evtl.bindC (serializeContainerSize_good sz hs _) (fun r _ hr => ?_)
  simp only [hr.unpacking, if_true]
  exact unpackLoop_ev hh he hem _ _ hr hx

theorem serQueue_ev {I : T → Prop} {h : Nat → Handler T} (hh : HS U m I I h) {e : Elem T} (he : I e.fresh)
    (sz : Nat) {s : Ser} (hs : Reads U (m + 1) s) {xs : List T} (hx : ∀ x ∈ xs, I x) :
    Evtl U m (fun ys => ∀ y ∈ ys, I y) (fun n => serQueue cfg sz (e.via (h n)) s xs) := by
  unfold serQueue
  simp only [hs.modes, Bool.false_eq_true, if_false]
  refine Evtl.bindC (serializeContainerSize_good sz hs _) (fun r _ hr => ?_)
  simp only [hr.unpacking, if_true]
  exact unpackLoop_ev (J := fun ys => ∀ y ∈ ys, I y) hh he snoc_mem _ _ hr hx

/-- Members, each with its own type: `p t x` says that `x` may be the `t` before, `q t y` that `y` may be
afterwards. -/
theorem serMembers_ev {A : Type} {el : A → Elem T} {h : Nat → A → Handler T} {p q : A → T → Prop}
    (hh : ∀ t, HS U m (p t) (q t) (fun n => h n t)) : ∀ (ts : List A) {s : Ser} (xs : List T),
    Reads U m s → xs.length = ts.length → (∀ (i : Nat) t x, ts[i]? = some t → xs[i]? = some x → p t x) →
    Evtl U m (fun ys => ys.length = ts.length ∧ ∀ (i : Nat) t y, ts[i]? = some t → ys[i]? = some y → q t y)
      (fun n => serMembers cfg (ts.map fun t => (el t).via (h n t)) s xs)
  | [], _, [], hs, _, _ => Evtl.pure ⟨rfl, by simp⟩ hs
  | [], _, _ :: _, _, hl, _ => by simp at hl
  | _ :: _, _, [], _, hl, _ => by simp at hl
  | t :: ts, s, x :: xs, hs, hl, hp => by
    refine Evtl.bind (pipe_ev (hh t) hs (hp 0 t x rfl rfl)) (fun r hr hs' => ?_)
    refine Evtl.bind (serMembers_ev hh ts xs hs' (by simpa using hl)
      (fun i t x h1 h2 => hp (i + 1) t x h1 h2)) (fun r' hr' hs'' => Evtl.pure ⟨by simp [hr'.1], ?_⟩ hs'')
    intro i t' y h1 h2
    cases i with
    | zero => cases h1; cases h2; exact hr
    | succ i => exact hr'.2 i t' y h1 h2

theorem visitMembers_ev {A : Type} {el : A → Elem T} {h : Nat → A → Handler T} {p q : A → T → Prop}
    (hh : ∀ t, HS U m (p t) (q t) (fun n => h n t)) {ts : List A} : ∀ (is : List Nat) {s : Ser} (xs : List T),
    Reads U m s → xs.length = ts.length → is.Nodup → (∀ i ∈ is, i < ts.length) →
    (∀ (i : Nat) t x, ts[i]? = some t → xs[i]? = some x → (i ∈ is → p t x) ∧ (i ∉ is → q t x)) →
    Evtl U m (fun ys => ys.length = ts.length ∧ ∀ (i : Nat) t y, ts[i]? = some t → ys[i]? = some y → q t y)
      (fun n => visitMembers cfg (ts.map fun t => (el t).via (h n t)) is s xs)
  | [], _, xs, hs, hl, _, _, hp => Evtl.pure ⟨hl, fun i t y h1 h2 => (hp i t y h1 h2).2 (by simp)⟩ hs
  | i :: is, s, xs, hs, hl, hnd, hlt, hp => by
    have hi : i < ts.length := hlt i (by simp)
    have h1 : ts[i]? = some ts[i] := List.getElem?_eq_getElem hi
    have h2 : xs[i]? = some (xs[i]'(by omega)) := List.getElem?_eq_getElem (by omega)
    unfold visitMembers
    simp only [List.getElem?_map, h1, h2, Option.map_some]
    refine Evtl.bind (pipe_ev (hh ts[i]) hs ((hp i _ _ h1 h2).1 (by simp))) (fun r hr hs' => ?_)
    refine visitMembers_ev hh is _ hs' (by simpa using hl) hnd.tail (fun j hj => hlt j (by simp [hj])) ?_
    intro j t x hj1 hj2
    have hni : i ∉ is := (List.nodup_cons.1 hnd).1
    by_cases hij : i = j
    · subst hij
      rw [List.getElem?_set_self (by omega)] at hj2
      rw [h1] at hj1
      cases hj1; cases hj2
      exact ⟨fun h => absurd h hni, fun _ => hr⟩
    · rw [List.getElem?_set_ne hij] at hj2
      have := hp j t x hj1 hj2
      exact ⟨fun h => this.1 (by simp [h]), fun h => this.2 (by simp [h, Ne.symm hij])⟩

theorem serOptional_ev {I : T → Prop} {h : Nat → Handler T} (hh : HS U m I I h) {e : Elem T} (he : I e.fresh)
    (hb : U .badBool) (sz : Nat) {s : Ser} (hs : Reads U (m + 1) s) (x : Option T) :
    Evtl U m (fun y => ∀ z, y = some z → I z) (fun n => serOptional cfg sz (e.via (h n)) s x) := by
  unfold serOptional
  simp only [hs.modes, hs.unpacking, Bool.false_eq_true, if_false, if_true]
  refine Evtl.bindC (pipeBool_good hb hs _) (fun r _ hr => ?_)
  obtain ⟨b, s'⟩ := r
  cases b with
  | false => exact Evtl.pure (by simp) hr
  | true =>
    simp only [if_true]
    exact Evtl.bind (pipe_ev hh hr he) (fun r' hr' hs' => Evtl.pure (by rintro _ ⟨⟩; exact hr') hs')

theorem serializeEntry_ev {A : Type} {el : A → Elem T} {h : Nat → A → Handler T} {I : A → T → Prop} {all : List A}
    (hh : ∀ t ∈ all, HS U m (I t) (I t) (fun n => h n t)) (he : ∀ t, I t (el t).fresh) {v : Variant T}
    (hv : ∀ i x, v = .holds i x → ∃ t, all[i]? = some t ∧ I t x) :
    ∀ (ts : List A) {s : Ser} (entry cur : Nat), Reads U m s → (∀ (i : Nat) t, ts[i]? = some t → all[cur + i]? = some t) →
    Evtl U m (fun w => ∀ i x, w = .holds i x → ∃ t, all[i]? = some t ∧ I t x)
      (fun n => serializeEntry cfg (ts.map fun t => (el t).via (h n t)) s v entry cur)
  | [], _, _, _, hs, _ => Evtl.pure hv hs
  | t :: ts, s, entry, cur, hs, hall => by
    unfold serializeEntry
    by_cases hc : entry = cur
    · simp only [List.map_cons, hc, if_true, hs.unpacking]
      refine Evtl.bind (pipe_ev (hh t (List.mem_of_getElem? (hall 0 t rfl))) hs (he t)) (fun r hr hs' => Evtl.pure ?_ hs')
      rintro _ _ ⟨⟩
      exact ⟨t, hall 0 t rfl, hr⟩
    · simp only [List.map_cons, hc, if_false]
      exact serializeEntry_ev hh he hv ts entry (cur + 1) hs (fun i t' h => by
        have := hall (i + 1) t' h
        rwa [show cur + 1 + i = cur + (i + 1) by omega])

/-- What constructing from a dynamic type index may do. -/
def MadeOk (U : UB → Prop) (I : T → Prop) : Out (Option T) → Prop
  | .ok none => U .nullDeref
  | .ok (some x) => I x
  | .ub u => U u
  | .fuel => False
  | _ => True

theorem serUniquePtr_ev {I : T → Prop} {h : Nat → Handler T} (hh : HS U m I I h) {e : Elem T}
    {virt : Option (Virt T)} (he : virt = none → I e.fresh)
    (hv : ∀ v, virt = some v → ∀ i, MadeOk U I (v.construct i))
    (hb : U .badBool) (sz : Nat) {s : Ser} (hs : Reads U (m + 1) s) {p : Option T} (hp : ∀ x, p = some x → I x) :
    Evtl U m (fun y => ∀ z, y = some z → I z) (fun n => serUniquePtr cfg sz (e.via (h n)) virt s p) := by
  have hrec : ∀ s : Ser, Reads U m s → Evtl U m (fun y => match y with | none => U .nullDeref | some z => I z)
      (fun n => reconstructPointedTo cfg (e.via (h n)) virt s p) := by
    intro s hs
    cases virt with
    | none =>
      cases p with
      | some x => exact Evtl.pure (hp x rfl) hs
      | none =>
        simp only [reconstructPointedTo, hs.unpacking, if_true]
        exact Evtl.pure (he rfl) hs
    | some vi =>
      simp only [reconstructPointedTo, hs.unpacking, hs.modes, if_true, Bool.false_eq_true, if_false]
      refine Evtl.const (Good.bind (pipeInt_good (k := 4) (by omega) (e := intElem cfg) rfl
        (hs.mono (Nat.le_succ m)) _) (fun r _ hr => ?_))
      cases p with
      | some x =>
        by_cases hc : (r.1 == vi.dynIdx x || cfg.ndebug) = true
        · simp only [Out.assertThat, hc, if_true]
          exact ⟨hp x rfl, hr⟩
        · simp only [Out.assertThat, hc]
          trivial
      | none =>
        simp only [hr.unpacking, if_true]
        have := hv vi rfl r.1
        revert this
        cases vi.construct r.1 with
        | ok y => cases y <;> exact fun h => ⟨h, hr⟩
        | _ => exact id
  unfold serUniquePtr
  simp only [hs.modes, Bool.false_eq_true, if_false]
  refine Evtl.bindC (pipeBool_good hb hs _) (fun r _ hr => ?_)
  obtain ⟨b, s'⟩ := r
  cases b with
  | true =>
    simp only [if_true, hr.unpacking]
    exact Evtl.pure (by simp) hr
  | false =>
    simp only [Bool.false_eq_true, if_false]
    refine Evtl.bind (hrec s' hr) (fun q hq hs' => ?_)
    obtain ⟨t, s''⟩ := q
    cases t with
    | none => exact Evtl.const (o := .ub .nullDeref) hq
    | some t => exact Evtl.bind (pipe_ev hh hs' hq) (fun r' hr' hs' => Evtl.pure (by rintro _ ⟨⟩; exact hr') hs')

theorem serChain_ev {A : Type} {reg : SerReg} {rt : Nat → Nat} (hreg : reg.Inv rt) {root : Nat}
    {part : Nat → Nat → Elem A} {ti : Nat → TI} {dummy : A} {h : Nat → Nat → Handler A} {p q : Nat → A → Prop}
    (hpart : ∀ n k, part n k = partElem (ti k) (h n k) dummy) :
    ∀ (ks : List Nat) {s : Ser} (ps : List A), (∀ k ∈ ks, HS U m (p k) (q k) (fun n => h n k)) →
    Reads U m s → (∀ k ∈ ks, rt k = root) → ps.length = ks.length →
    (∀ (i : Nat) k x, ks[i]? = some k → ps[i]? = some x → p k x) →
    Evtl U m (fun ys => ys.length = ks.length ∧ ∀ (i : Nat) k y, ks[i]? = some k → ys[i]? = some y → q k y)
      (fun n => serChain cfg reg root (part n) ks s ps)
  | [], _, [], _, hs, _, _, _ => Evtl.pure ⟨rfl, by simp⟩ hs
  | [], _, _ :: _, _, _, _, hl, _ => by simp at hl
  | _ :: _, _, [], _, _, _, hl, _ => by simp at hl
  | k :: ks, s, x :: ps, hh, hs, hroot, hl, hp => by
    unfold serChain
    have hlk : reg.lookup cfg.ndebug k root s.kind = .ok s.kind := by
      rw [← hroot k (by simp)]
      exact SerReg.lookup_eq hreg cfg.ndebug k hs.kind
    simp only [hlk, Out.bind_eq, Out.bind_ok, ne_eq, not_true_eq_false, if_false, hpart]
    refine Evtl.bind (o := fun n => pipe cfg (partElem (ti k) (h n k) dummy) (s.setVdis true) x)
      (pipe_ev (hh k (by simp)) (e := partElem (ti k) (h 0 k) dummy) (hs.setVdis true) (hp 0 k x rfl rfl))
      (fun r hr hs' => ?_)
    refine Evtl.bind (serChain_ev hreg hpart ks ps (fun k hk => hh k (by simp [hk])) hs'
      (fun k hk => hroot k (by simp [hk])) (by simpa using hl)
      (fun i k x h1 h2 => hp (i + 1) k x h1 h2)) (fun r' hr' hs'' => Evtl.pure ⟨by simp [hr'.1], ?_⟩ hs'')
    intro i t' y h1 h2
    cases i with
    | zero => cases h1; cases h2; exact hr
    | succ i => exact hr'.2 i t' y h1 h2

end
end Ckpt
