import Verif.Proofs.Step
import Verif.Spec.Trace
/-!
What every traversal does whatever the object and the data: virtual dispatch is enabled again
afterwards, the serializer only moves along a given preorder, and exceptions come from a given set.
-/

set_option autoImplicit false

namespace Ckpt

/-- A set of exceptions the traversal code may raise, closed under what `Traverse::with` adds. -/
structure Throws (E : Err → Prop) : Prop where
  wrongType : ∀ (ti : TI) i, E (.ser (.wrongType ti.idx i) 0 [ti.name])
  memUsed : ∀ (ti : TI) a b, E (.ser (.memUsed ti.name a b) 0 [])
  deeper : ∀ (ti : TI) k d tr, E (.ser k d tr) → E (.ser k (d + 1) (tr ++ [ti.name]))
  other : ∀ e, (∀ k d tr, e ≠ .ser k d tr) → E e

/-- A preorder on serializers along which every primitive moves. -/
structure Moves (R : Ser → Ser → Prop) : Prop where
  refl : ∀ s, R s s
  trans : ∀ {a b c}, R a b → R b c → R a c
  setVdis : ∀ s b, R s (s.setVdis b)
  addBytes : ∀ s n, R s (s.addBytes n)
  bytes : ∀ s size num data r, s.contiguousBytes size num data = .ok r → R s r.2

theorem contiguousBytes_vdis {s : Ser} {size num : Nat} {data : Bytes} {r : Bytes × Ser}
    (h : s.contiguousBytes size num data = .ok r) : r.2.vdis = s.vdis := by
  obtain ⟨core, kind, vdis⟩ := s
  cases core <;> simp only [Ser.contiguousBytes] at h <;> (repeat' split at h) <;>
    first
    | (injection h with h; subst h; rfl)
    | cases h

theorem addBytes_vdis (s : Ser) (n : Nat) : (s.addBytes n).vdis = s.vdis := by
  obtain ⟨core, kind, vdis⟩ := s
  cases core <;> rfl

theorem contiguousBytes_throw {s : Ser} {size num : Nat} {data : Bytes} {e : Err}
    (h : s.contiguousBytes size num data = .throw e) : e = .streamShort := by
  obtain ⟨core, kind, vdis⟩ := s
  cases core <;> simp only [Ser.contiguousBytes] at h <;> (repeat' split at h) <;>
    first
    | (injection h with h; exact h.symm)
    | cases h

/-- Starting from `s`: if finished, the serializer has moved along `R` and has virtual dispatch
in state `b`; exceptions are in `E`. -/
def Fr {α : Type} (E : Err → Prop) (R : Ser → Ser → Prop) (b : Bool) (s : Ser) : Out (α × Ser) → Prop
  | .ok r => R s r.2 ∧ r.2.vdis = b
  | .throw e => E e
  | _ => True

/-- The same for functions that return only the serializer. -/
def FrS (E : Err → Prop) (R : Ser → Ser → Prop) (b : Bool) (s : Ser) : Out Ser → Prop
  | .ok s' => R s s' ∧ s'.vdis = b
  | .throw e => E e
  | _ => True

section
variable {E : Err → Prop} {R : Ser → Ser → Prop} {α β : Type} {b : Bool}

theorem Fr.pure (hR : Moves R) {s : Ser} (a : α) (h : s.vdis = b) : Fr E R b s (.ok (a, s)) :=
  ⟨hR.refl s, h⟩

theorem Fr.bind (hR : Moves R) {b' : Bool} {s : Ser} {o : Out (α × Ser)} {f : α × Ser → Out (β × Ser)}
    (h : Fr E R b s o) (hf : ∀ r, r.2.vdis = b → Fr E R b' r.2 (f r)) : Fr E R b' s (o >>= f) := by
  cases o with
  | ok r =>
    have := hf r h.2
    show Fr E R b' s (f r)
    cases hfr : f r with
    | ok r' => rw [hfr] at this; exact ⟨hR.trans h.1 this.1, this.2⟩
    | throw e => rw [hfr] at this; exact this
    | abort => trivial
    | ub u => trivial
    | fuel => trivial
  | throw e => exact h
  | abort => trivial
  | ub u => trivial
  | fuel => trivial

theorem FrS.bind (hR : Moves R) {b' : Bool} {s : Ser} {o : Out Ser} {f : Ser → Out (β × Ser)}
    (h : FrS E R b s o) (hf : ∀ s', s'.vdis = b → Fr E R b' s' (f s')) : Fr E R b' s (o >>= f) := by
  cases o with
  | ok r =>
    have := hf r h.2
    show Fr E R b' s (f r)
    cases hfr : f r with
    | ok r' => rw [hfr] at this; exact ⟨hR.trans h.1 this.1, this.2⟩
    | throw e => rw [hfr] at this; exact this
    | abort => trivial
    | ub u => trivial
    | fuel => trivial
  | throw e => exact h
  | abort => trivial
  | ub u => trivial
  | fuel => trivial

/-- A first step that does not touch the serializer. -/
theorem Fr.bind0 {s : Ser} {o : Out α} {f : α → Out (β × Ser)} (ho : ∀ e, o = .throw e → E e)
    (hf : ∀ a, Fr E R b s (f a)) : Fr E R b s (o >>= f) := by
  cases o with
  | ok a => exact hf a
  | throw e => exact ho e rfl
  | abort => trivial
  | ub u => trivial
  | fuel => trivial

theorem Fr.step (hR : Moves R) {s s' : Ser} {o : Out (α × Ser)} (h : R s s') (ho : Fr E R b s' o) :
    Fr E R b s o := by
  cases o with
  | ok r => exact ⟨hR.trans h ho.1, ho.2⟩
  | throw e => exact ho
  | abort => trivial
  | ub u => trivial
  | fuel => trivial

theorem FrS.ofFr {s : Ser} {o : Out (α × Ser)} (h : Fr E R b s o) :
    FrS E R b s (o >>= fun r => .ok r.2) := by
  cases o with
  | ok r => exact h
  | throw e => exact h
  | abort => trivial
  | ub u => trivial
  | fuel => trivial

theorem FrS.bindS (hR : Moves R) {s : Ser} {o : Out (α × Ser)} {f : α × Ser → Out Ser}
    (h : Fr E R b s o) (hf : ∀ r, r.2.vdis = b → FrS E R b r.2 (f r)) : FrS E R b s (o >>= f) := by
  cases o with
  | ok r =>
    have := hf r h.2
    show FrS E R b s (f r)
    cases hfr : f r with
    | ok r' => rw [hfr] at this; exact ⟨hR.trans h.1 this.1, this.2⟩
    | throw e => rw [hfr] at this; exact this
    | abort => trivial
    | ub u => trivial
    | fuel => trivial
  | throw e => exact h
  | abort => trivial
  | ub u => trivial
  | fuel => trivial

end

/-- A dispatch started with virtual dispatch in state `b` ends with virtual dispatch enabled. -/
def Handler.Fr {T : Type} (E : Err → Prop) (R : Ser → Ser → Prop) (b : Bool) (h : Handler T) : Prop :=
  ∀ s xs, s.vdis = b → Ckpt.Fr E R false s (h s xs)

/-- Exceptions other than `serialization_error` are in the set. -/
def Other (E : Err → Prop) : Prop := ∀ e, (∀ k d tr, e ≠ .ser k d tr) → E e

/-- `Traverse::with` on objects of a type, started with virtual dispatch in state `b`. -/
def Elem.Tr {T : Type} (cfg : Cfg) (E : Err → Prop) (R : Ser → Ser → Prop) (b : Bool) (e : Elem T) : Prop :=
  ∀ s xs, s.vdis = b → Ckpt.Fr E R false s (traverse cfg e.ti e.apply s xs)

/-- What `Traverse::with` for a type makes of the exceptions `E` of its serialization code. -/
structure Lifts (cfg : Cfg) (ti : TI) (E E' : Err → Prop) : Prop where
  other : Other E'
  wrongType : cfg.check = true → ∀ i, (validateIndex i = false ∨ ti.idx ≠ i) →
    E' (.ser (.wrongType ti.idx i) 0 [ti.name])
  memUsed : cfg.check = true → ∀ a n, ti.sizeof * n % sizeMod ≠ a →
    E' (.ser (.memUsed ti.name a (ti.sizeof * n % sizeMod)) 0 [])
  deeper : cfg.check = true → ∀ k d tr, E (.ser k d tr) → E' (.ser k (d + 1) (tr ++ [ti.name]))
  plain : cfg.check = false → ∀ e, E e → E' e

theorem Throws.lifts {E : Err → Prop} (hE : Throws E) (cfg : Cfg) (ti : TI) : Lifts cfg ti E E :=
  ⟨hE.other, fun _ i _ => hE.wrongType ti i, fun _ _ _ _ => hE.memUsed ti _ _, fun _ => hE.deeper ti,
    fun _ _ h => h⟩

section
variable {E E' : Err → Prop} {R : Ser → Ser → Prop} {T : Type} {cfg : Cfg} {b : Bool}

theorem bytes_fr (ho : Other E) (hR : Moves R) {s : Ser} (hs : s.vdis = b) (size num : Nat) (data : Bytes) :
    Fr E R b s (s.contiguousBytes size num data) := by
  cases h : s.contiguousBytes size num data with
  | ok r => exact ⟨hR.bytes _ _ _ _ _ h, (contiguousBytes_vdis h).trans hs⟩
  | throw e => rw [contiguousBytes_throw h]; exact ho _ nofun
  | abort => trivial
  | ub u => trivial
  | fuel => trivial

theorem dispatchByte_fr (ho : Other E) (hR : Moves R) {s : Ser} (hs : s.vdis = b) (size : Nat)
    (xs : List Bytes) : Fr E R b s (dispatchByte size s xs) :=
  Fr.bind hR (bytes_fr ho hR hs _ _ _) (fun _ hr => Fr.pure hR _ hr)

theorem dispatchInt_fr (ho : Other E) (hR : Moves R) {s : Ser} (hs : s.vdis = b) (n : Nat)
    (xs : List Nat) : Fr E R b s (dispatchInt cfg n s xs) :=
  Fr.bind hR (dispatchByte_fr ho hR hs _ _) (fun _ hr => Fr.pure hR _ hr)

theorem rawInt_fr (ho : Other E) (hR : Moves R) {s : Ser} (hs : s.vdis = b) (n v : Nat) :
    Fr E R b s (rawInt cfg n s v) := by
  refine Fr.bind hR (dispatchInt_fr ho hR hs _ _) (fun r hr => ?_)
  obtain ⟨ys, s'⟩ := r
  match ys with
  | [] => trivial
  | [y] => exact Fr.pure hR _ hr
  | _ :: _ :: _ => trivial

theorem withTypeIdx_fr (ho : Other E) (hR : Moves R) {s : Ser} (hs : s.vdis = b) {ti : TI}
    (hw : ∀ i, (validateIndex i = false ∨ ti.idx ≠ i) → E (.ser (.wrongType ti.idx i) 0 [ti.name])) :
    FrS E R b s (withTypeIdx cfg ti s) := by
  unfold withTypeIdx
  split
  · exact FrS.ofFr (rawInt_fr ho hR hs _ _)
  · split
    · refine FrS.bindS hR (rawInt_fr ho hR hs _ _) (fun r hr => ?_)
      obtain ⟨v, s'⟩ := r
      dsimp only
      split
      · next h => exact hw _ (by simpa using h)
      · exact ⟨hR.refl _, hr⟩
    · exact ⟨hR.refl _, hs⟩

theorem withMemUsed_fr (ho : Other E) (hR : Moves R) {s : Ser} (hs : s.vdis = b) {ti : TI}
    (hm : ∀ a n, ti.sizeof * n % sizeMod ≠ a → E (.ser (.memUsed ti.name a (ti.sizeof * n % sizeMod)) 0 []))
    (len : Nat) : FrS E R b s (withMemUsed cfg ti s len) := by
  unfold withMemUsed
  dsimp only
  split
  · exact FrS.ofFr (rawInt_fr ho hR hs _ _)
  · split
    · refine FrS.bindS hR (rawInt_fr ho hR hs _ _) (fun r hr => ?_)
      obtain ⟨v, s'⟩ := r
      dsimp only
      split
      · next h => exact hm _ _ (by simpa using h)
      · exact ⟨hR.refl _, hr⟩
    · exact ⟨hR.refl _, hs⟩

theorem catchDepth_fr {α : Type} {ti : TI} (hE : Lifts cfg ti E E') (hc : cfg.check = true) {s : Ser}
    {o : Out (α × Ser)} (h : Fr E R b s o) : Fr E' R b s (catchDepth ti o) := by
  cases o with
  | throw e =>
    cases e with
    | ser k d tr => exact hE.deeper hc k d tr h
    | _ => exact hE.other _ nofun
  | _ => exact h

theorem Fr.mono {α : Type} (hE : ∀ e, E e → E' e) {s : Ser} {o : Out (α × Ser)} (h : Fr E R b s o) :
    Fr E' R b s o := by
  cases o with
  | throw e => exact hE _ h
  | _ => exact h

theorem traverse_lift {ti : TI} (hE : Lifts cfg ti E E') (hR : Moves R) {h : Handler T} (hh : h.Fr E R b)
    {s : Ser} (hs : s.vdis = b) (xs : List T) : Fr E' R false s (traverse cfg ti h s xs) := by
  unfold traverse
  split
  · next hc =>
    refine FrS.bind hR (withTypeIdx_fr hE.other hR hs (hE.wrongType hc)) (fun s' hs' => ?_)
    refine Fr.bind hR (catchDepth_fr hE hc (hh s' xs hs')) (fun r hr => ?_)
    exact FrS.bind hR (withMemUsed_fr hE.other hR hr (hE.memUsed hc) _) (fun s'' hs'' => Fr.pure hR _ hs'')
  · next hc => exact (hh s xs hs).mono (hE.plain (by simpa using hc))

theorem Elem.Tr.lift {e : Elem T} (hE : Lifts cfg e.ti E E') (hR : Moves R) (he : e.apply.Fr E R b) :
    e.Tr cfg E' R b := fun _ xs hs => traverse_lift hE hR he hs xs

theorem Elem.Tr.mono {e : Elem T} (hE : ∀ e, E e → E' e) (he : e.Tr cfg E R b) : e.Tr cfg E' R b :=
  fun s xs hs => (he s xs hs).mono hE

theorem pipe_fr (hR : Moves R) {e : Elem T} (he : e.Tr cfg E R b) {s : Ser}
    (hs : s.vdis = b) (x : T) : Fr E R false s (pipe cfg e s x) := by
  refine Fr.bind hR (he s [x] hs) (fun r hr => ?_)
  obtain ⟨ys, s'⟩ := r
  match ys with
  | [] => trivial
  | [y] => exact Fr.pure hR _ hr
  | _ :: _ :: _ => trivial

theorem dispatchInt_handler (ho : Other E) (hR : Moves R) (n : Nat) :
    Handler.Fr E R false (dispatchInt cfg n) := fun _ _ hs => dispatchInt_fr ho hR hs _ _

theorem dispatchByte_handler (ho : Other E) (hR : Moves R) (n : Nat) :
    Handler.Fr E R false (dispatchByte n) := fun _ _ hs => dispatchByte_fr ho hR hs _ _

theorem pipeSize_fr (hz : (sizeElem cfg).Tr cfg E R false) (hR : Moves R) {s : Ser} (hs : s.vdis = false) (n : Nat) :
    Fr E R false s (pipeSize cfg s n) :=
  pipe_fr hR hz hs n

theorem pipeBool_fr (hb : (boolElem cfg).Tr cfg E R false) (hR : Moves R) {s : Ser} (hs : s.vdis = false) (x : Bool) :
    Fr E R false s (pipeBool cfg s x) := by
  refine Fr.bind hR (pipe_fr hR hb hs _) (fun r hr => ?_)
  dsimp only
  split
  · exact Fr.pure hR _ hr
  · split
    · exact Fr.pure hR _ hr
    · trivial

theorem pipeEach_fr (hR : Moves R) {e : Elem T} (he : e.Tr cfg E R false) :
    ∀ (xs : List T) {s : Ser}, s.vdis = false → Fr E R false s (pipeEach cfg e s xs)
  | [], _, hs => Fr.pure hR _ hs
  | x :: xs, _, hs => Fr.bind hR (pipe_fr hR he hs x) (fun _ hr =>
      Fr.bind hR (pipeEach_fr hR he xs hr) (fun _ hr' => Fr.pure hR _ hr'))

theorem serializeArray_fr (hR : Moves R) {e : Elem T} (he : e.Tr cfg E R false)
    {s : Ser} (hs : s.vdis = false) (xs : List T) : Fr E R false s (serializeArray cfg e s xs) := by
  unfold serializeArray
  split
  · exact he _ _ hs
  · exact Fr.pure hR _ hs

theorem dispatchEach_fr (hR : Moves R) {f : Ser → T → Out (T × Ser)}
    (hf : ∀ s x, s.vdis = false → Fr E R false s (f s x)) : Handler.Fr E R false (dispatchEach f) := by
  intro s xs hs
  induction xs generalizing s with
  | nil => exact Fr.pure hR _ hs
  | cons x xs ih =>
    exact Fr.bind hR (hf s x hs) (fun r hr => Fr.bind hR (ih _ hr) (fun r' hr' => Fr.pure hR _ hr'))

theorem Fr.addBytes (hR : Moves R) {α : Type} {s : Ser} (n : Nat) {o : Out (α × Ser)}
    (h : Fr E R b (s.addBytes n) o) : Fr E R b s o := Fr.step hR (hR.addBytes s n) h

theorem serializeVectorMeta_fr (hz : (sizeElem cfg).Tr cfg E R false) (hR : Moves R) {s : Ser} (hs : s.vdis = false) (v : Vec T)
    {α : Type} {f : Nat × Vec T × Ser → Out (α × Ser)}
    (hf : ∀ n v s', s'.vdis = false → Fr E R false s' (f (n, v, s'))) :
    Fr E R false s (serializeVectorMeta cfg s v >>= f) := by
  have : (serializeVectorMeta cfg s v >>= f) = (pipeSize cfg s v.cap >>= fun r =>
      pipeSize cfg r.2 (v.reserve cfg r.1).elems.length >>= fun q => f (q.1, v.reserve cfg r.1, q.2)) := by
    unfold serializeVectorMeta
    cases pipeSize cfg s v.cap with
    | ok r =>
      show (Out.bind (Out.bind (pipeSize cfg r.2 _) _) f) = Out.bind (pipeSize cfg r.2 _) _
      cases pipeSize cfg r.2 (v.reserve cfg r.1).elems.length <;> rfl
    | _ => rfl
  rw [this]
  exact Fr.bind hR (pipeSize_fr hz hR hs _) (fun r hr =>
    Fr.bind hR (pipeSize_fr hz hR hr _) (fun q hq => hf _ _ _ hq))

theorem serVector_fr (hz : (sizeElem cfg).Tr cfg E R false) (hR : Moves R) {e : Elem T} (he : e.Tr cfg E R false) (sz : Nat)
    {s : Ser} (hs : s.vdis = false) (v : Vec T) : Fr E R false s (serVector cfg sz e s v) := by
  unfold serVector
  split
  · refine Fr.addBytes hR sz (Fr.bind hR (serializeArray_fr hR he ?_ _) (fun r hr => ?_))
    · rw [addBytes_vdis]; exact hs
    · refine Fr.addBytes hR _ (Fr.pure hR _ ?_)
      rw [addBytes_vdis]; exact hr
  · refine serializeVectorMeta_fr hz hR hs v (fun n v s' hs' => ?_)
    exact Fr.bind hR (serializeArray_fr hR he hs' _) (fun r hr => Fr.pure hR _ hr)

theorem packBools_fr (hb : (boolElem cfg).Tr cfg E R false) (hR : Moves R) : ∀ (bs : List Bool) {s : Ser}, s.vdis = false →
    FrS E R false s (packBools cfg s bs)
  | [], _, hs => ⟨hR.refl _, hs⟩
  | _ :: bs, _, hs => FrS.bindS hR
      (pipe_fr hR hb hs _)
      (fun _ hr => packBools_fr hb hR bs hr)

theorem unpackBools_fr (hb : (boolElem cfg).Tr cfg E R false) (hR : Moves R) : ∀ (bs : List Bool) {s : Ser}, s.vdis = false →
    Fr E R false s (unpackBools cfg s bs)
  | [], _, hs => Fr.pure hR _ hs
  | _ :: bs, _, hs => Fr.bind hR (pipeBool_fr hb hR hs _) (fun _ hr =>
      Fr.bind hR (unpackBools_fr hb hR bs hr) (fun _ hr' => Fr.pure hR _ hr'))

theorem serVectorBool_fr (hz : (sizeElem cfg).Tr cfg E R false) (hb : (boolElem cfg).Tr cfg E R false) (hR : Moves R) (sz : Nat)
    {s : Ser} (hs : s.vdis = false) (v : Vec Bool) : Fr E R false s (serVectorBool cfg sz s v) := by
  unfold serVectorBool
  split
  · refine Fr.addBytes hR sz (Fr.pure hR _ ?_)
    rw [addBytes_vdis]; exact hs
  · refine serializeVectorMeta_fr hz hR hs v (fun n v s' hs' => ?_)
    dsimp only
    split
    · exact Fr.bind hR (unpackBools_fr hb hR _ hs') (fun r hr => Fr.pure hR _ hr)
    · exact FrS.bind hR (packBools_fr hb hR _ hs') (fun s'' hr => Fr.pure hR _ hr)

theorem serializeChars_fr (hc : (charElem cfg).Tr cfg E R false) (hR : Moves R) {s : Ser} (hs : s.vdis = false) (cs : Bytes) :
    Fr E R false s (serializeChars cfg s cs) :=
  Fr.bind hR (serializeArray_fr hR hc hs _)
    (fun _ hr => Fr.pure hR _ hr)

theorem serString_fr (hz : (sizeElem cfg).Tr cfg E R false) (hc : (charElem cfg).Tr cfg E R false) (hR : Moves R) (sz : Nat) {s : Ser} (hs : s.vdis = false) (x : Str) :
    Fr E R false s (serString cfg sz s x) := by
  unfold serString
  split
  · refine Fr.addBytes hR sz (Fr.bind hR (serializeChars_fr hc hR ?_ _) (fun r hr => Fr.pure hR _ hr))
    rw [addBytes_vdis]; exact hs
  · exact Fr.bind hR (pipeSize_fr hz hR hs _) (fun r hr =>
      Fr.bind hR (serializeChars_fr hc hR hr _) (fun r' hr' => Fr.pure hR _ hr'))

theorem serializeContainerSize_fr (hz : (sizeElem cfg).Tr cfg E R false) (hR : Moves R) (sz : Nat) {s : Ser}
    (hs : s.vdis = false) (n : Nat) : Fr E R false s (serializeContainerSize cfg sz s n) := by
  unfold serializeContainerSize
  split
  · refine Fr.addBytes hR sz (Fr.pure hR _ ?_)
    rw [addBytes_vdis]; exact hs
  · exact pipeSize_fr hz hR hs n

theorem unpackLoop_fr (hR : Moves R) {e : Elem T} (he : e.Tr cfg E R false)
    (add : List T → T → List T) : ∀ (n : Nat) {s : Ser} (acc : List T), s.vdis = false →
    Fr E R false s (unpackLoop cfg e add n s acc)
  | 0, _, _, hs => Fr.pure hR _ hs
  | n + 1, _, _, hs => Fr.bind hR (pipe_fr hR he hs _) (fun _ hr => unpackLoop_fr hR he add n _ hr)

theorem serList_fr (hz : (sizeElem cfg).Tr cfg E R false) (hR : Moves R) {e : Elem T} (he : e.Tr cfg E R false) (sz : Nat)
    {s : Ser} (hs : s.vdis = false) (xs : List T) : Fr E R false s (serList cfg sz e s xs) := by
  refine Fr.bind hR (serializeContainerSize_fr hz hR sz hs _) (fun r hr => ?_)
  dsimp only
  split
  · unfold deserializeOrderedElems
    split
    · exact pipeEach_fr hR he _ hr
    · exact unpackLoop_fr hR he _ _ _ hr
  · exact pipeEach_fr hR he _ hr

theorem serMapLike_fr (hz : (sizeElem cfg).Tr cfg E R false) (hR : Moves R) {e : Elem T} (he : e.Tr cfg E R false) (sz : Nat)
    (em : List T → T → List T) {s : Ser} (hs : s.vdis = false) (xs : List T) :
    Fr E R false s (serMapLike cfg sz em e s xs) := by
  refine Fr.bind hR (serializeContainerSize_fr hz hR sz hs _) (fun r hr => ?_)
  dsimp only
  split
  · exact unpackLoop_fr hR he _ _ _ hr
  · exact pipeEach_fr hR he _ hr

theorem serializeQueueElems_fr (hR : Moves R) {e : Elem T} (he : e.Tr cfg E R false) :
    ∀ (xs : List T) {s : Ser}, s.vdis = false → FrS E R false s (serializeQueueElems cfg e s xs)
  | [], _, hs => ⟨hR.refl _, hs⟩
  | x :: xs, _, hs => FrS.bindS hR (pipe_fr hR he hs x) (fun _ hr => serializeQueueElems_fr hR he xs hr)

theorem serQueue_fr (ho : Other E) (hz : (sizeElem cfg).Tr cfg E R false) (hR : Moves R) {e : Elem T} (he : e.Tr cfg E R false) (sz : Nat)
    {s : Ser} (hs : s.vdis = false) (xs : List T) : Fr E R false s (serQueue cfg sz e s xs) := by
  unfold serQueue
  split
  · refine Fr.addBytes hR sz (Fr.bind hR (bytes_fr ho hR ?_ _ _ _) (fun r hr => Fr.pure hR _ hr))
    rw [addBytes_vdis]; exact hs
  · refine Fr.bind hR (serializeContainerSize_fr hz hR sz hs _) (fun r hr => ?_)
    dsimp only
    split
    · exact unpackLoop_fr hR he _ _ _ hr
    · exact FrS.bind hR (serializeQueueElems_fr hR he _ hr) (fun s'' hr => Fr.pure hR _ hr)

theorem serMembers_fr (hR : Moves R) : ∀ (es : List (Elem T)),
    (∀ e ∈ es, e.Tr cfg E R false) → ∀ {s : Ser} (xs : List T), s.vdis = false →
    Fr E R false s (serMembers cfg es s xs)
  | [], _, _, [], hs => Fr.pure hR _ hs
  | [], _, _, _ :: _, _ => trivial
  | _ :: _, _, _, [], _ => trivial
  | _ :: es, he, _, _ :: xs, hs =>
    Fr.bind hR (pipe_fr hR (he _ (by simp)) hs _) (fun _ hr =>
      Fr.bind hR (serMembers_fr hR es (fun e h => he e (by simp [h])) xs hr)
        (fun _ hr' => Fr.pure hR _ hr'))

theorem serPair_fr (hR : Moves R) {e1 e2 : Elem T} (h1 : e1.Tr cfg E R false)
    (h2 : e2.Tr cfg E R false) (sz : Nat) {s : Ser} (hs : s.vdis = false) (x : T × T) :
    Fr E R false s (serPair cfg sz e1 e2 s x) := by
  refine Fr.addBytes hR sz (Fr.bind hR (pipe_fr hR h1 ?_ _) (fun r hr =>
    Fr.bind hR (pipe_fr hR h2 hr _) (fun _ hr' => Fr.pure hR _ hr')))
  rw [addBytes_vdis]; exact hs

theorem visitMembers_fr (hR : Moves R) {es : List (Elem T)}
    (he : ∀ e ∈ es, e.Tr cfg E R false) : ∀ (is : List Nat) {s : Ser} (xs : List T), s.vdis = false →
    Fr E R false s (visitMembers cfg es is s xs)
  | [], _, _, hs => Fr.pure hR _ hs
  | i :: is, s, xs, hs => by
    unfold visitMembers
    split
    · next e x h1 h2 =>
      exact Fr.bind hR (pipe_fr hR (he e (List.mem_of_getElem? h1)) hs _)
        (fun _ hr => visitMembers_fr hR he is _ hr)
    · trivial

theorem serOptional_fr (hb : (boolElem cfg).Tr cfg E R false) (hR : Moves R) {e : Elem T} (he : e.Tr cfg E R false) (sz : Nat)
    {s : Ser} (hs : s.vdis = false) (x : Option T) : Fr E R false s (serOptional cfg sz e s x) := by
  unfold serOptional
  split
  · cases x with
    | none =>
      refine Fr.addBytes hR sz (Fr.pure hR _ ?_)
      rw [addBytes_vdis]; exact hs
    | some v =>
      refine Fr.addBytes hR sz (Fr.addBytes hR _ (Fr.pure hR _ ?_))
      rw [addBytes_vdis, addBytes_vdis]; exact hs
  · split
    · refine Fr.bind hR (pipeBool_fr hb hR hs _) (fun r hr => ?_)
      dsimp only
      split
      · exact Fr.bind hR (pipe_fr hR he hr _) (fun _ hr' => Fr.pure hR _ hr')
      · exact Fr.pure hR _ hr
    · refine Fr.bind hR (pipe_fr hR hb hs _) (fun r hr => ?_)
      cases x with
      | none => exact Fr.pure hR _ hr
      | some v => exact Fr.bind hR (pipe_fr hR he hr _) (fun _ hr' => Fr.pure hR _ hr')

theorem serializeEntry_fr (ho : Other E) (hR : Moves R) : ∀ (es : List (Elem T)),
    (∀ e ∈ es, e.Tr cfg E R false) → ∀ {s : Ser} (v : Variant T) (entry cur : Nat), s.vdis = false →
    Fr E R false s (serializeEntry cfg es s v entry cur)
  | [], _, _, _, _, _, hs => Fr.pure hR _ hs
  | e :: es, he, s, v, entry, cur, hs => by
    unfold serializeEntry
    split
    · split
      · exact Fr.bind hR (pipe_fr hR (he e (by simp)) hs _) (fun _ hr' => Fr.pure hR _ hr')
      · cases v with
        | valueless => exact ho _ nofun
        | holds i x =>
          simp only
          split
          · exact Fr.bind hR (pipe_fr hR (he e (by simp)) hs _) (fun _ hr' => Fr.pure hR _ hr')
          · exact ho _ nofun
    · exact serializeEntry_fr ho hR es (fun e h => he e (by simp [h])) v entry (cur + 1) hs

theorem assertThat_throw {nd c : Bool} {e : Err} : Out.assertThat nd c ≠ .throw e := by
  unfold Out.assertThat
  split <;> nofun

theorem serUniquePtr_fr (hb : (boolElem cfg).Tr cfg E R false) (hR : Moves R) {e : Elem T} (he : e.Tr cfg E R false) (sz : Nat)
    (virt : Option (Virt T)) (hv : ∀ v ∈ virt, (intElem cfg).Tr cfg E R false ∧ ∀ i err, v.construct i = .throw err → E err)
    {s : Ser} (hs : s.vdis = false) (p : Option T) : Fr E R false s (serUniquePtr cfg sz e virt s p) := by
  have hrec : ∀ s : Ser, s.vdis = false → Fr E R false s (reconstructPointedTo cfg e virt s p) := by
    intro s hs
    cases virt with
    | none =>
      unfold reconstructPointedTo
      cases p with
      | some t => exact Fr.pure hR _ hs
      | none =>
        dsimp only
        split
        · exact Fr.pure hR _ hs
        · exact Fr.pure hR _ hs
    | some vi =>
      have hk : ∀ r : Nat × Ser, r.2.vdis = false → Fr E R false r.2 (match p with
          | some t => (do
            Out.assertThat cfg.ndebug (r.1 == vi.dynIdx t)
            .ok (some t, r.2) : Out (Option T × Ser))
          | none =>
            if r.2.isUnpacking then (do
              let t ← vi.construct r.1
              .ok (t, r.2) : Out (Option T × Ser))
            else .ok (none, r.2)) := by
        intro r hr
        cases p with
        | some t => exact Fr.bind0 (fun e he' => absurd he' assertThat_throw) (fun _ => Fr.pure hR _ hr)
        | none =>
          dsimp only
          split
          · exact Fr.bind0 (fun e he' => (hv vi rfl).2 _ _ he') (fun t => Fr.pure hR _ hr)
          · exact Fr.pure hR _ hr
      have hi : ∀ entry, Fr E R false s (pipe cfg (intElem cfg) s entry) := fun entry =>
        pipe_fr hR (hv vi rfl).1 hs _
      unfold reconstructPointedTo
      by_cases hu : s.isUnpacking = true <;> by_cases hf : s.isFootprinting = true
      · simp only [hu, hf, if_true]
        exact hk (2 ^ 32 - 1, s) hs
      · simp only [hu, hf, if_true]
        exact Fr.bind hR (hi _) hk
      · simp only [hu, hf, if_true]
        cases p with
        | none => trivial
        | some t => exact hk (_, s) hs
      · simp only [hu, hf]
        cases p with
        | none => trivial
        | some t => exact Fr.bind hR (hi _) hk
  have hk : ∀ r : Bool × Ser, r.2.vdis = false → Fr E R false r.2
      (if r.1 then .ok (if r.2.isUnpacking then none else p, r.2)
        else reconstructPointedTo cfg e virt r.2 p >>= fun q => match q.1 with
          | none => .ub .nullDeref
          | some t => pipe cfg e q.2 t >>= fun z => .ok (some z.1, z.2)) := by
    intro r hr
    split
    · exact Fr.pure hR _ hr
    · refine Fr.bind hR (hrec _ hr) (fun q hq => ?_)
      obtain ⟨t, s'⟩ := q
      cases t with
      | none => trivial
      | some t => exact Fr.bind hR (pipe_fr hR he hq _) (fun _ hr' => Fr.pure hR _ hr')
  unfold serUniquePtr
  by_cases hf : s.isFootprinting = true
  · simp only [hf, if_true]
    refine Fr.addBytes hR sz (hk (p.isNone, s.addBytes sz) ?_)
    rw [addBytes_vdis]; exact hs
  · simp only [hf]
    exact Fr.bind hR (pipeBool_fr hb hR hs _) hk

theorem lookup_throw (ho : Other E) {nd : Bool} {r : SerReg} {d root : Nat} {k : Kind} {e : Err}
    (h : r.lookup nd d root k = .throw e) : E e := by
  have h1 : ∀ (r : SerReg) c han, r.getObjIdx nd c han = .throw e → E e := by
    intro r c han h
    unfold SerReg.getObjIdx at h
    cases hc : Out.assertThat nd (decide (han < (r c).length)) with
    | throw e' => exact absurd hc assertThat_throw
    | ok _ =>
      rw [hc] at h
      change (match (r c)[han]? with | some en => Out.ok en.kind | none => .throw .outOfRange) = _ at h
      split at h
      · cases h
      · injection h with h; rw [← h]; exact ho _ nofun
    | abort => rw [hc] at h; cases h
    | ub _ => rw [hc] at h; cases h
    | fuel => rw [hc] at h; cases h
  have h2 : ∀ (r : SerReg) c b, r.getBaseIdx nd c b = .throw e → E e := by
    intro r c b h
    unfold SerReg.getBaseIdx at h
    split at h
    · cases h
    · cases hc : Out.assertThat nd false with
      | throw e' => exact absurd hc assertThat_throw
      | ok _ => rw [hc] at h; injection h with h; rw [← h]; exact ho _ nofun
      | abort => rw [hc] at h; cases h
      | ub _ => rw [hc] at h; cases h
      | fuel => rw [hc] at h; cases h
  unfold SerReg.lookup at h
  simp only at h
  split at h
  · exact h1 _ _ _ h
  · exact h2 _ _ _ h

/-- Classes whose part handlers re-enable virtual dispatch. -/
theorem serChain_fr {P : Type} (ho : Other E) (hR : Moves R) {reg : SerReg} {root : Nat} {part : Nat → Elem P} :
    ∀ (ks : List Nat), (∀ k ∈ ks, (part k).Tr cfg E R true) → ∀ {s : Ser} (ps : List P), s.vdis = false →
    Fr E R false s (serChain cfg reg root part ks s ps)
  | [], _, _, [], hs => Fr.pure hR _ hs
  | [], _, _, _ :: _, _ => trivial
  | _ :: _, _, _, [], _ => trivial
  | k :: ks, hp, s, p :: ps, hs => by
    unfold serChain
    refine Fr.bind0 (fun e he => lookup_throw ho he) (fun kind => ?_)
    dsimp only
    split
    · trivial
    · refine Fr.step hR (hR.setVdis s true) ?_
      refine Fr.bind hR (pipe_fr hR (hp k (by simp)) rfl p) (fun r hr => ?_)
      exact Fr.bind hR (serChain_fr ho hR ks (fun k h => hp k (by simp [h])) ps hr)
        (fun _ hr' => Fr.pure hR _ hr')

end

section
variable {E : Err → Prop} {R : Ser → Ser → Prop} {cfg : Cfg} {env : Env} {h : Ty → Handler Val}

theorem onRaw_fr (hR : Moves R) {h : Handler Bytes} (hh : h.Fr E R false) : Handler.Fr E R false (onRaw h) := by
  intro s xs hs
  unfold onRaw
  split
  · exact Fr.bind hR (hh s _ hs) (fun _ hr => Fr.pure hR _ hr)
  · trivial

theorem onPart_fr (hR : Moves R) {c : Nat} {f : Ser → List Val → Out (List Val × Ser)}
    (hf : ∀ s p, s.vdis = false → Fr E R false s (f s p)) {s : Ser} (hs : s.vdis = false) (v : Val) :
    Fr E R false s (onPart env c f s v) := by
  cases v <;> try trivial
  unfold onPart
  simp only
  split
  · exact Fr.bind hR (hf _ _ hs) (fun _ hr => Fr.pure hR _ hr)
  · trivial

theorem construct_throw (ho : Other E) {c i : Nat} {e : Err} (h : env.construct cfg c i = .throw e) : E e := by
  unfold Env.construct at h
  split at h
  · injection h with h; rw [← h]; exact ho _ nofun
  · split at h
    · split at h <;> cases h
    · split at h <;> cases h

theorem dispatchStep_fr {E : Traversed → Err → Prop} (ho : ∀ a, Other (E a))
    (hL : ∀ a b, Inside env a b → Lifts cfg (b.info cfg env) (E b) (E a)) (hR : Moves R)
    (hh : ∀ t, (h t).Fr (E (.obj t)) R false) (t : Ty) :
    Handler.Fr (E (.obj t)) R false (dispatchStep cfg env h t) := by
  have he : ∀ {a t}, Inside env a (.obj t) → (env.elemOf (h t) t).Tr cfg (E a) R false :=
    fun hi => Elem.Tr.lift (e := env.elemOf (h _) _) (hL _ _ hi) hR (hh _)
  have hz : ∀ {a}, Inside env a .count → (sizeElem cfg).Tr cfg (E a) R false :=
    fun hi => Elem.Tr.lift (e := sizeElem cfg) (hL _ _ hi) hR (dispatchInt_handler (ho _) hR _)
  have hb : ∀ {a}, Inside env a .flag → (boolElem cfg).Tr cfg (E a) R false :=
    fun hi => Elem.Tr.lift (e := boolElem cfg) (hL _ _ hi) hR (dispatchInt_handler (ho _) hR _)
  have hc : ∀ {a}, Inside env a .chars → (charElem cfg).Tr cfg (E a) R false :=
    fun hi => Elem.Tr.lift (e := charElem cfg) (hL _ _ hi) hR (dispatchByte_handler (ho _) hR _)
  have hi : ∀ {a}, Inside env a .entry → (intElem cfg).Tr cfg (E a) R false :=
    fun hi => Elem.Tr.lift (e := intElem cfg) (hL _ _ hi) hR (dispatchInt_handler (ho _) hR _)
  have hp : ∀ {a p z}, Inside env a (.obj (.prim p z)) → (primElem env p z).Tr cfg (E a) R false :=
    fun hi => Elem.Tr.lift (e := primElem env _ _) (hL _ _ hi) hR (dispatchByte_handler (ho _) hR _)
  have hes : ∀ {a} {ts : List Ty}, (∀ t ∈ ts, Inside env a (.obj t)) →
      ∀ e ∈ ts.map (fun t => env.elemOf (h t) t), e.Tr cfg (E a) R false := by
    intro a ts hts e hm
    obtain ⟨t, ht, rfl⟩ := List.mem_map.1 hm
    exact he (hts t ht)
  have hlast : ∀ {E : Err → Prop} {α : Type} {f : α → Val} {s : Ser} {o : Out (α × Ser)}, Fr E R false s o →
      Fr E R false s (o >>= fun r => .ok (f r.1, r.2)) :=
    fun ho => Fr.bind hR ho (fun _ hr => Fr.pure hR _ hr)
  cases t with
  | prim id size => exact onRaw_fr hR (dispatchByte_handler (ho _) hR size)
  | enm id pid size =>
    refine dispatchEach_fr hR (fun s x hs => ?_)
    cases x <;> try trivial
    exact hlast (Fr.bind hR (pipe_fr hR (hp .enm) hs _) (fun _ hr => Fr.pure hR _ hr))
  | chrono id pid size =>
    refine dispatchEach_fr hR (fun s x hs => ?_)
    cases x <;> try trivial
    exact hlast (Fr.bind hR (pipe_fr hR (hp .chrono) hs _) (fun _ hr => Fr.pure hR _ hr))
  | str =>
    refine dispatchEach_fr hR (fun s x hs => ?_)
    cases x <;> try trivial
    exact hlast (serString_fr (hz .strCount) (hc .strChars) hR _ hs _)
  | vecBool =>
    refine dispatchEach_fr hR (fun s x hs => ?_)
    cases x <;> try trivial
    exact Fr.bind hR (serVectorBool_fr (hz .vboolCount) (hb .vbool) hR _ hs _) (fun _ hr => Fr.pure hR _ hr)
  | vec t =>
    refine dispatchEach_fr hR (fun s x hs => ?_)
    cases x <;> try trivial
    exact Fr.bind hR (serVector_fr (hz .vecCount) hR (he .vec) _ hs _) (fun _ hr => Fr.pure hR _ hr)
  | seq k t =>
    refine dispatchEach_fr hR (fun s x hs => ?_)
    cases x <;> try trivial
    exact hlast (serList_fr (hz .seqCount) hR (he .seq) _ hs _)
  | queue t =>
    refine dispatchEach_fr hR (fun s x hs => ?_)
    cases x <;> try trivial
    exact hlast (serQueue_fr (ho _) (hz .queueCount) hR (he .queue) _ hs _)
  | oset a cmp t =>
    refine dispatchEach_fr hR (fun s x hs => ?_)
    cases x <;> try trivial
    exact hlast (serMapLike_fr (hz .osetCount) hR (he .oset) _ _ hs _)
  | uset a eq t =>
    refine dispatchEach_fr hR (fun s x hs => ?_)
    cases x <;> try trivial
    exact hlast (serMapLike_fr (hz .usetCount) hR (he .uset) _ _ hs _)
  | pair a b =>
    refine dispatchEach_fr hR (fun s x hs => ?_)
    split
    · exact Fr.bind hR (serPair_fr hR (he .fst) (he .snd) _ hs _) (fun _ hr => Fr.pure hR _ hr)
    · trivial
  | tuple ts =>
    refine dispatchEach_fr hR (fun s x hs => ?_)
    cases x <;> try trivial
    exact hlast (visitMembers_fr hR (hes fun _ => .tuple) _ _ hs)
  | opt t =>
    refine dispatchEach_fr hR (fun s x hs => ?_)
    cases x <;> try trivial
    exact hlast (serOptional_fr (hb .optFlag) hR (he .opt) _ hs _)
  | variant ts =>
    rcases Bool.eq_false_or_eq_true (Ty.allOnlyBytes ts) with hv | hv
    · rw [dispatchStep_variantBytes hv]
      exact onRaw_fr hR (dispatchByte_handler (ho _) hR _)
    rw [dispatchStep_variant hv]
    refine dispatchEach_fr hR (fun s x hs => ?_)
    have key : ∀ x : Variant Val, Fr (E (.obj (.variant ts))) R false s
        (serVariant cfg (ts.map fun t => env.elemOf (h t) t) s x >>=
        fun r => match r.1 with
          | .holds i x => .ok (Val.variant i x, r.2)
          | .valueless => .ok (.valueless, r.2)) := by
      intro x
      refine Fr.bind hR (Fr.bind hR (pipeSize_fr (hz (.variantCount hv)) hR hs _)
        (fun r hr => serializeEntry_fr (ho _) hR _ (hes fun _ => .variant hv) _ _ _ hr)) (fun r hr => ?_)
      obtain ⟨v, s'⟩ := r
      cases v with
      | holds i x => exact Fr.pure hR _ hr
      | valueless => exact Fr.pure hR _ hr
    cases x with
    | variant i x => exact key (.holds i x)
    | valueless => exact key .valueless
    | _ => trivial
  | uptr t =>
    refine dispatchEach_fr hR (fun s x hs => ?_)
    cases x <;> try trivial
    refine hlast (serUniquePtr_fr (hb .ptrFlag) hR (he .ptr) _ _ (fun v hv => ?_) hs _)
    unfold Env.virt at hv
    split at hv
    · split at hv
      · next hvt => cases hv; exact ⟨hi (.ptrEntry hvt), fun i err herr => construct_throw (ho _) herr⟩
      · cases hv
    · cases hv
  | arr k t =>
    refine dispatchEach_fr hR (fun s x hs => ?_)
    cases x <;> try trivial
    simp only
    split
    · exact hlast (serializeArray_fr hR (he .arr) hs _)
    · trivial
  | cls c =>
    have hm : ∀ {a} k, (∀ t, t ∈ (env.cls k).fields ∨ t ∈ (env.cls k).rfields → Inside env a (.obj t)) →
        ∀ s p, s.vdis = false → Fr (E a) R false s
        (serMembers cfg (((env.cls k).visited s).map fun t => env.elemOf (h t) t) s p) := by
      intro a k hk s p hs
      refine serMembers_fr hR _ (hes fun t ht => hk t ?_) p hs
      unfold ClassDef.visited at ht
      split at ht
      · exact .inr ht
      · exact .inl ht
    unfold dispatchStep
    simp only
    by_cases hv : (env.cls c).virt = true
    · rw [if_pos hv]
      intro s xs hs
      dsimp only
      rw [hs]
      simp only [Bool.false_eq_true, if_false]
      split
      · refine Fr.bind hR (serChain_fr (ho _) hR _ (fun k hk => ?_) _ hs) (fun _ hr => Fr.pure hR _ hr)
        refine Elem.Tr.lift (hL _ (.part k) (.virtPart hv hk)) hR (fun s ps hs' => ?_)
        exact Fr.step hR (hR.setVdis s false) (dispatchEach_fr hR (hm k fun _ => .partMember) _ _ rfl)
      · trivial
    · rw [if_neg hv]
      exact dispatchEach_fr (T := Val) hR
        (f := onPart env c fun s p => serMembers cfg (((env.cls c).visited s).map fun t => env.elemOf (h t) t) s p)
        (fun s x hs => onPart_fr hR (hm c fun _ => .member (by simpa using hv)) hs x)

theorem dispatch_lift {E : Traversed → Err → Prop} (ho : ∀ a, Other (E a))
    (hL : ∀ a b, Inside env a b → Lifts cfg (b.info cfg env) (E b) (E a)) (hR : Moves R) : ∀ (n : Nat) (t : Ty),
    Handler.Fr (E (.obj t)) R false (dispatch cfg env n t)
  | 0, _ => fun _ _ _ => trivial
  | n + 1, t => dispatchStep_fr ho hL hR (fun t => dispatch_lift ho hL hR n t) t

theorem elem_fr (hE : Throws E) (hR : Moves R) (n : Nat) (t : Ty) :
    (elem cfg env n t).Tr cfg E R false :=
  Elem.Tr.lift (e := elem cfg env n t) (hE.lifts cfg _) hR
    (dispatch_lift (E := fun _ => E) (fun _ => hE.other) (fun _ _ _ => hE.lifts cfg _) hR n t)

theorem traverseTop_fr {T : Type} {E : Err → Prop} (ho : Other E) (hR : Moves R) {e : Elem T}
    (hw : cfg.check = false → ∀ i, (validateIndex i = false ∨ e.ti.idx ≠ i) →
      E (.ser (.wrongType e.ti.idx i) 0 [e.ti.name]))
    (hm : cfg.check = false → ∀ a n, e.ti.sizeof * n % sizeMod ≠ a →
      E (.ser (.memUsed e.ti.name a (e.ti.sizeof * n % sizeMod)) 0 []))
    (he : e.Tr cfg E R false) {s : Ser} (hs : s.vdis = false) (x : T) : Fr E R false s (traverseTop cfg e s x) := by
  unfold traverseTop
  split
  · exact pipe_fr hR he hs x
  · next hc =>
    have hc : cfg.check = false := by simpa using hc
    refine FrS.bind hR (withTypeIdx_fr ho hR hs (hw hc)) (fun s' hs' => ?_)
    refine Fr.bind hR (pipe_fr hR he hs' x) (fun r hr => ?_)
    exact FrS.bind hR (withMemUsed_fr ho hR hr (hm hc) _) (fun s'' hs'' => Fr.pure hR _ hs'')

end
end Ckpt
