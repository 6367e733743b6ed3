import Verif.Spec.UserFn
import Verif.Proofs.Api
/-!
# What scripted serialize functions write
-/

set_option autoImplicit false

namespace Ckpt

/-- Serializers of one class. -/
def Scope.one (k : Kind) : Scope := .quiet (· = k)

variable {cfg : Cfg} {k : Kind}

theorem handOver_wr {K : Scope} (bs : List Bytes) :
    Wr K cfg (fun s => (handOver bs s).bind fun s => .ok ((), s)) (fun _ => bs.flatten) () := by
  induction bs with
  | nil => exact Wr.pure ()
  | cons b bs ih =>
    refine (Wr.bind (contiguousBytes_wr (size := 1) (num := b.length) (data := b) (by simp)) (k := fun p => (handOver bs p.2).bind fun s => .ok ((), s)) ih).congr
      ?_ (fun _ => rfl)
    intro s _
    simp only [handOver, Out.bind_eq]
    cases s.contiguousBytes 1 b.length b <;> rfl

theorem handOver_fp {K : Scope} (bs : List Bytes) :
    Fp K (fun s => (handOver bs s).bind fun s => .ok ((), s)) bs.flatten.length () := by
  induction bs with
  | nil =>
    intro s hs
    obtain ⟨core, kind, vdis⟩ := s
    cases core <;> simp [Ser.Footer] at hs
    simp [handOver, Ser.addBytes, Nat.mod_eq_of_lt hs.2.2]
  | cons b bs ih =>
    refine (Fp.bind (contiguousBytes_fp (size := 1) (num := b.length) (data := b))
      (k := fun p => (handOver bs p.2).bind fun s => .ok ((), s)) ih).congr ?_ (by simp)
    intro s _
    simp only [handOver, Out.bind_eq]
    cases s.contiguousBytes 1 b.length b <;> rfl

/-- The scripted function as seen by one class of serializers; it is only used for writing. -/
def Script.codec (f : Script) (k : Kind) : Codec Unit where
  P := fun _ => True
  enc := fun _ _ => (f k).flatten
  prior := fun _ _ => False
  rel := fun _ _ => True
  fp := fun _ => (f k).flatten.length
  multi := (· = 1)

theorem Script.law (f : Script) {ti : TI} (hti : ti.Valid) (k : Kind) :
    Law (.one k) cfg ti (f.elem ti).apply (f.codec k) where
  ti_valid := hti
  one := rfl
  wr := by
    intro xs _ _ h1
    have h1 : xs.length = 1 := h1
    obtain ⟨x, rfl⟩ := List.length_eq_one_iff.mp h1
    intro s hs
    have hk : s.kind = k := hs.2.1
    have := handOver_wr (cfg := cfg) (K := .one k) (f k) s hs
    simp only at this
    simp only [Script.elem, hk, Out.bind_eq, Script.codec, List.flatMap_cons, List.flatMap_nil, List.append_nil]
    cases h : handOver (f k) s <;> rw [h] at this <;> revert this <;>
      cases s.emit (f k).flatten <;> simp
  rd := by
    intro xs ys _ hp h0 _
    cases hp with
    | nil => simp at h0
    | cons h _ => exact h.elim
  fp := by
    intro xs _ _ h1
    have h1 : xs.length = 1 := h1
    obtain ⟨x, rfl⟩ := List.length_eq_one_iff.mp h1
    intro s hs
    have hk : s.kind = k := hs.2.1
    have := handOver_fp (K := .one k) (f k) s hs
    simp only at this
    simp only [Script.elem, hk, Out.bind_eq, Script.codec, List.map_cons, List.map_nil, List.sum_cons, List.sum_nil,
      Nat.add_zero]
    cases h : handOver (f k) s <;> rw [h] at this <;> revert this <;> simp

/-- The bytes written for the object by one class of serializers. -/
def Script.written (f : Script) (cfg : Cfg) (ti : TI) (k : Kind) : Bytes := node cfg true ti 1 (f k).flatten

theorem Script.written_length (f : Script) (cfg : Cfg) (ti : TI) (k : Kind) :
    (f.written cfg ti k).length = f.total k + 12 := by
  simp [Script.written, node, Script.total, intBytes_length]
  omega

theorem Script.top (f : Script) {ti : TI} (hti : ti.Valid) {s : Ser} (hs : s.Writer (.one s.kind))
    (hh : s.headers = true) :
    traverseTop cfg (f.elem ti) s () = (s.emit (f.written cfg ti s.kind)).bind fun s' => .ok ((), s') :=
  top_wr (e := f.elem ti) (f.law hti s.kind) (x := ()) trivial hs hh

theorem Script.getSize (f : Script) {ti : TI} (hti : ti.Valid) (hfit : f.total .sizer + 12 < 2 ^ 64) :
    getSize cfg (f.elem ti) () = .ok (f.total .sizer + 12, ()) := by
  unfold Ckpt.getSize
  rw [f.top hti ⟨rfl, rfl, by decide⟩ rfl]
  simp [Ser.emit, Ser.count, sizeMod, f.written_length]
  simpa using hfit

theorem Script.packMem (f : Script) {ti : TI} (hti : ti.Valid) (kind : Kind) (mem : Bytes) :
    packMem cfg (f.elem ti) kind mem () =
      if f.total kind + 12 ≤ mem.length then
        .ok (f.written cfg ti kind ++ mem.drop (f.total kind + 12), f.total kind + 12, ())
      else .ub .packOverflow := by
  unfold Ckpt.packMem
  rw [f.top hti ⟨rfl, rfl, by simp⟩ rfl]
  simp only [Ser.emit, Nat.zero_add, f.written_length]
  split <;> simp [Ser.written, Ser.count]

end Ckpt
