import Verif.Proofs.Dispatch
/-!
The laws an element type has to satisfy, and their consequences for `pipe`, `pipeEach`,
`serializeArray`.
-/

set_option autoImplicit false

namespace Ckpt

/-- Specification of how objects of a type behave under serialization. -/
structure Codec (T : Type) where
  /-- objects considered. -/
  P : T → Prop
  /-- bytes written (with / without headers at inner nodes). -/
  enc : Bool → T → Bytes
  /-- `prior x y`: an encoding of `x` may be unpacked over `y`. -/
  prior : T → T → Prop
  /-- original and restored object. -/
  rel : T → T → Prop
  /-- footprint. -/
  fp : T → Nat
  /-- arrays of so many objects are handled correctly. -/
  multi : Nat → Prop

/-- The handler `h` behaves as the codec says.  Reading is described including the header and the
trailer of the traversal. -/
structure Law (K : Scope) (cfg : Cfg) {T : Type} (ti : TI) (h : Handler T) (c : Codec T) :
    Prop where
  ti_valid : ti.Valid
  one : c.multi 1
  wr : ∀ xs, (∀ x ∈ xs, c.P x) → 0 < xs.length → c.multi xs.length →
    Wr K cfg (fun s => h s xs) (fun w => xs.flatMap (c.enc w)) xs
  rd : ∀ xs ys, (∀ x ∈ xs, c.P x) → List.Forall₂ c.prior xs ys → 0 < xs.length → c.multi xs.length →
    Rd K (fun s => traverse cfg ti h s ys)
      (node cfg cfg.check ti xs.length (xs.flatMap (c.enc cfg.check))) (List.Forall₂ c.rel xs)
  fp : ∀ xs, (∀ x ∈ xs, c.P x) → 0 < xs.length → c.multi xs.length →
    Fp K (fun s => h s xs) (xs.map c.fp).sum xs

/-- Newly created objects can be unpacked over. -/
structure Fresh {T : Type} (e : Elem T) (c : Codec T) : Prop where
  fresh : ∀ x, c.P x → c.prior x e.fresh
  dflt : ∀ d, e.dflt = some d → ∀ x, c.P x → c.prior x d

section
variable {K : Scope} {cfg : Cfg} {T : Type} {e : Elem T} {c : Codec T}

/-- One object as written by `s | x`. -/
def nodeEnc (cfg : Cfg) (w : Bool) (ti : TI) (c : Codec T) (x : T) : Bytes :=
  node cfg w ti 1 (c.enc w x)

/-- An array as written by `serializeArray`. -/
def arrEnc (cfg : Cfg) (w : Bool) (ti : TI) (c : Codec T) (xs : List T) : Bytes :=
  if xs.length > 0 then node cfg w ti xs.length (xs.flatMap (c.enc w)) else []

theorem pipe_wr (L : Law K cfg e.ti e.apply c) {x : T} (hx : c.P x) :
    Wr K cfg (fun s => pipe cfg e s x) (fun w => nodeEnc cfg w e.ti c x) x := by
  have h := only_wr (traverse_wr L.ti_valid (L.wr [x] (by simpa using hx) Nat.one_pos L.one))
  refine h.congr (fun _ _ => pipe_eq _ _ _) ?_
  intro w; simp [nodeEnc]

theorem pipe_rd (L : Law K cfg e.ti e.apply c) {x y : T} (hx : c.P x) (hp : c.prior x y) :
    Rd K (fun s => pipe cfg e s y) (nodeEnc cfg cfg.check e.ti c x) (c.rel x) := by
  have h := only_rd (L.rd [x] [y] (by simpa using hx) (by simpa using hp) Nat.one_pos L.one) (Q' := c.rel x) (by
      intro l hl
      cases hl with
      | cons h t =>
        cases t
        exact ⟨_, rfl, h⟩)
  refine h.congr (fun _ _ => pipe_eq _ _ _) ?_ (fun _ h => h)
  simp [nodeEnc]

theorem pipe_fp (L : Law K cfg e.ti e.apply c) {x : T} (hx : c.P x) :
    Fp K (fun s => pipe cfg e s x) (c.fp x) x := by
  have h := only_fp (traverse_fp (cfg := cfg) (ti := e.ti) (L.fp [x] (by simpa using hx) Nat.one_pos L.one))
  refine h.congr (fun _ _ => pipe_eq _ _ _) ?_
  simp

theorem pipeEach_wr (L : Law K cfg e.ti e.apply c) : ∀ {xs : List T}, (∀ x ∈ xs, c.P x) →
    Wr K cfg (fun s => pipeEach cfg e s xs) (fun w => xs.flatMap (nodeEnc cfg w e.ti c)) xs
  | [], _ => Wr.pure []
  | x :: xs, h => by
    have hx := h x (by simp)
    have ih := pipeEach_wr L (xs := xs) (fun y hy => h y (by simp [hy]))
    simp only [pipeEach, List.flatMap_cons]
    exact (pipe_wr L hx).bind (ih.map (fun ys => x :: ys))

theorem pipeEach_rd (L : Law K cfg e.ti e.apply c) : ∀ {xs ys : List T}, (∀ x ∈ xs, c.P x) →
    List.Forall₂ c.prior xs ys →
    Rd K (fun s => pipeEach cfg e s ys) (xs.flatMap (nodeEnc cfg cfg.check e.ti c))
      (List.Forall₂ c.rel xs)
  | [], [], _, _ => Rd.pure List.Forall₂.nil
  | x :: xs, y :: ys, h, hp => by
    have hx := h x (by simp)
    cases hp with
    | cons hp1 hp2 =>
      have ih := pipeEach_rd L (xs := xs) (ys := ys) (fun y hy => h y (by simp [hy])) hp2
      simp only [pipeEach, List.flatMap_cons]
      exact (pipe_rd L hx hp1).bind fun b hb => ih.map (fun zs => b :: zs)
        (fun zs hz => List.Forall₂.cons hb hz)
  | [], _ :: _, _, hp => by cases hp
  | _ :: _, [], _, hp => by cases hp

theorem pipeEach_fp (L : Law K cfg e.ti e.apply c) : ∀ {xs : List T}, (∀ x ∈ xs, c.P x) →
    Fp K (fun s => pipeEach cfg e s xs) (xs.map c.fp).sum xs
  | [], _ => Fp.pure []
  | x :: xs, h => by
    have hx := h x (by simp)
    have ih := pipeEach_fp L (xs := xs) (fun y hy => h y (by simp [hy]))
    simp only [pipeEach, List.map_cons, List.sum_cons]
    exact (pipe_fp L hx).bind (ih.map (fun ys => x :: ys))

theorem serializeArray_wr (L : Law K cfg e.ti e.apply c) {xs : List T} (h : ∀ x ∈ xs, c.P x)
    (hm : c.multi xs.length) :
    Wr K cfg (fun s => serializeArray cfg e s xs) (fun w => arrEnc cfg w e.ti c xs) xs := by
  unfold serializeArray arrEnc
  split
  · exact traverse_wr L.ti_valid (L.wr xs h (by omega) hm)
  · exact Wr.pure xs

theorem serializeArray_rd (L : Law K cfg e.ti e.apply c) {xs ys : List T} (h : ∀ x ∈ xs, c.P x)
    (hp : List.Forall₂ c.prior xs ys) (hm : c.multi xs.length) :
    Rd K (fun s => serializeArray cfg e s ys) (arrEnc cfg cfg.check e.ti c xs)
      (List.Forall₂ c.rel xs) := by
  unfold serializeArray arrEnc
  rw [← hp.length_eq]
  split
  · rename_i hl
    exact L.rd xs ys h hp hl hm
  · rename_i hl
    have h0 : ys = [] := List.length_eq_zero_iff.1 (by rw [← hp.length_eq]; omega)
    subst h0
    have h1 : xs = [] := List.length_eq_zero_iff.1 (by rw [hp.length_eq]; rfl)
    subst h1
    exact Rd.pure List.Forall₂.nil

theorem serializeArray_fp (L : Law K cfg e.ti e.apply c) {xs : List T} (h : ∀ x ∈ xs, c.P x)
    (hm : c.multi xs.length) :
    Fp K (fun s => serializeArray cfg e s xs) (xs.map c.fp).sum xs := by
  unfold serializeArray
  split
  · exact traverse_fp (L.fp xs h (by omega) hm)
  · have h0 : xs = [] := List.length_eq_zero_iff.1 (by omega)
    subst h0
    exact Fp.pure []

/-- Laws for reading without header and trailer. -/
theorem Law.ofRd {ti : TI} {h : Handler T} (hti : ti.Valid) (hone : c.multi 1)
    (hw : ∀ xs, (∀ x ∈ xs, c.P x) → 0 < xs.length → c.multi xs.length →
      Wr K cfg (fun s => h s xs) (fun w => xs.flatMap (c.enc w)) xs)
    (hr : ∀ xs ys, (∀ x ∈ xs, c.P x) → List.Forall₂ c.prior xs ys → 0 < xs.length →
      c.multi xs.length →
      Rd K (fun s => h s ys) (xs.flatMap (c.enc cfg.check)) (List.Forall₂ c.rel xs))
    (hf : ∀ xs, (∀ x ∈ xs, c.P x) → 0 < xs.length → c.multi xs.length →
      Fp K (fun s => h s xs) (xs.map c.fp).sum xs) :
    Law K cfg ti h c where
  ti_valid := hti
  one := hone
  wr := hw
  rd := fun xs ys hx hp hl hm => by
    rw [hp.length_eq]
    exact traverse_rd hti (hr xs ys hx hp hl hm)
  fp := hf

/-- Types with a `serialize` function: laws for one object give laws for arrays. -/
theorem Law.ofEach {ti : TI} (hti : ti.Valid) (hone : c.multi 1) {f : Ser → T → Out (T × Ser)}
    (hw : ∀ x, c.P x → Wr K cfg (fun s => f s x) (fun w => c.enc w x) x)
    (hr : ∀ x y, c.P x → c.prior x y → Rd K (fun s => f s y) (c.enc cfg.check x) (c.rel x))
    (hf : ∀ x, c.P x → Fp K (fun s => f s x) (c.fp x) x) :
    Law K cfg ti (dispatchEach f) c := by
  refine Law.ofRd hti hone ?_ ?_ ?_
  · intro xs h hl hm
    clear hl hm
    induction xs with
    | nil => exact Wr.pure []
    | cons x xs ih =>
      simp only [dispatchEach, List.flatMap_cons]
      exact (hw x (h x (by simp))).bind ((ih (fun y hy => h y (by simp [hy]))).map
        (fun ys => x :: ys))
  · intro xs ys h hp hl hm
    clear hl hm
    induction hp with
    | nil => exact Rd.pure List.Forall₂.nil
    | @cons x y xs ys hxy _ ih =>
      simp only [dispatchEach, List.flatMap_cons]
      exact (hr x y (h x (by simp)) hxy).bind fun b hb =>
        (ih (fun y hy => h y (by simp [hy]))).map (fun zs => b :: zs)
          (fun zs hz => List.Forall₂.cons hb hz)
  · intro xs h hl hm
    clear hl hm
    induction xs with
    | nil => exact Fp.pure []
    | cons x xs ih =>
      simp only [dispatchEach, List.map_cons, List.sum_cons]
      exact (hf x (h x (by simp))).bind ((ih (fun y hy => h y (by simp [hy]))).map
        (fun ys => x :: ys))

/-- Unsigned integers of `n` bytes. -/
def intCodec (cfg : Cfg) (n : Nat) : Codec Nat where
  P v := v < 256 ^ n
  enc _ v := intBytes cfg.endian n v
  prior _ _ := True
  rel a b := b = a
  fp _ := n
  multi _ := True

theorem forall₂_eq {α : Type} {xs ys : List α} (h : ys = xs) :
    List.Forall₂ (fun a b => b = a) xs ys := by
  subst h
  induction ys with
  | nil => exact .nil
  | cons x xs ih => exact .cons rfl ih

theorem eq_of_forall₂ {α : Type} {xs ys : List α} (h : List.Forall₂ (fun a b => b = a) xs ys) :
    ys = xs := by
  induction h with
  | nil => rfl
  | cons h _ ih => rw [h, ih]

theorem intLaw {n : Nat} {ti : TI} (hti : ti.Valid) :
    Law K cfg ti (dispatchInt cfg n) (intCodec cfg n) :=
  Law.ofRd hti trivial (fun _ h _ _ => dispatchInt_wr h)
    (fun xs ys h hp _ _ => (dispatchInt_rd h hp.length_eq.symm).mono (fun _ h => forall₂_eq h))
    (fun xs h _ _ => (dispatchInt_fp h).congr (fun _ _ => rfl) (by
      simp [intCodec, Nat.mul_comm]))

/-- Byte-copyable objects of `size` bytes. -/
def byteCodec (size : Nat) : Codec Bytes where
  P x := x.length = size
  enc _ x := x
  prior _ y := y.length = size
  rel a b := b = a
  fp _ := size
  multi _ := True

theorem byteLaw {size : Nat} {ti : TI} (hti : ti.Valid) :
    Law K cfg ti (dispatchByte size) (byteCodec size) :=
  Law.ofRd hti trivial (fun xs h _ _ => (dispatchByte_wr h).congr (fun _ _ => rfl) (by
    intro w; simp [byteCodec, List.flatMap]))
  (fun xs ys h hp hl hm => (dispatchByte_rd h (by
      intro y hy
      clear h hm hl
      induction hp with
      | nil => simp at hy
      | cons h1 _ ih =>
        rcases List.mem_cons.1 hy with rfl | hy
        · exact h1
        · exact ih hy) hp.length_eq.symm).congr (fun _ _ => rfl)
      (by simp [byteCodec, List.flatMap]) (fun _ h => forall₂_eq h))
  (fun xs h _ _ => (dispatchByte_fp h).congr (fun _ _ => rfl) (by
    simp [byteCodec, Nat.mul_comm]))

theorem pipeSize_wr (hc : cfg.Valid) {n : Nat} (h : n < 2 ^ 64) :
    Wr K cfg (fun s => pipeSize cfg s n) (fun w => sizeNode cfg w n) n :=
  pipe_wr (e := sizeElem cfg) (intLaw hc.size) (x := n) h

theorem pipeSize_rd (hc : cfg.Valid) {n m : Nat} (h : n < 2 ^ 64) :
    Rd K (fun s => pipeSize cfg s m) (sizeNode cfg cfg.check n) (fun k => k = n) :=
  pipe_rd (e := sizeElem cfg) (intLaw hc.size) (x := n) (y := m) h trivial

theorem bool_enc (b : Bool) : intBytes cfg.endian 1 b.toNat = [if b then 1 else 0] := by
  cases b <;> cases cfg.endian <;> rfl

theorem rawBool_wr (hc : cfg.Valid) {b : Bool} :
    Wr K cfg (fun s => pipe cfg (boolElem cfg) s b.toNat) (fun w => boolNode cfg w b) b.toNat :=
  (pipe_wr (e := boolElem cfg) (intLaw (n := 1) hc.bool) (x := b.toNat)
    (show b.toNat < 256 ^ 1 by cases b <;> decide)).congr (fun _ _ => rfl) (by
      intro w
      simp [boolNode, nodeEnc, boolElem, intCodec, bool_enc])

theorem rawBool_rd (hc : cfg.Valid) {b b' : Bool} :
    Rd K (fun s => pipe cfg (boolElem cfg) s b'.toNat) (boolNode cfg cfg.check b)
      (fun v => v = b.toNat) :=
  (pipe_rd (e := boolElem cfg) (intLaw (n := 1) hc.bool) (x := b.toNat) (y := b'.toNat)
    (show b.toNat < 256 ^ 1 by cases b <;> decide) trivial).congr (fun _ _ => rfl) (by
      simp [boolNode, nodeEnc, boolElem, intCodec, bool_enc]) (fun _ h => h)

theorem pipeBool_wr (hc : cfg.Valid) {b : Bool} :
    Wr K cfg (fun s => pipeBool cfg s b) (fun w => boolNode cfg w b) b := by
  refine ((rawBool_wr hc).bind (b := b.toNat) (bs' := fun _ => []) (c := b)
    (k := fun p => if p.1 = 0 then .ok (false, p.2) else if p.1 = 1 then .ok (true, p.2)
      else .ub .badBool) ?_).congr (fun _ _ => rfl) (by simp)
  cases b
  · exact Wr.pure _
  · exact Wr.pure _

theorem pipeBool_rd (hc : cfg.Valid) {b b' : Bool} :
    Rd K (fun s => pipeBool cfg s b') (boolNode cfg cfg.check b) (fun r => r = b) := by
  refine ((rawBool_rd hc (b := b)).bind (bs' := []) (Q' := fun r => r = b)
    (k := fun p => if p.1 = 0 then .ok (false, p.2) else if p.1 = 1 then .ok (true, p.2)
      else .ub .badBool) ?_).congr (fun _ _ => rfl) (by simp) (fun _ h => h)
  rintro _ rfl
  cases b
  · exact Rd.pure rfl
  · exact Rd.pure rfl

end
end Ckpt
