import Verif.Proofs.ComposeAll
import Verif.Proofs.FileEnc
/-!
The calls of the library for composed types, from their codecs.
-/

set_option autoImplicit false

namespace Ckpt

section
variable {T : Type} {cfg : Cfg} {t : CppType T} {u : Usage T} {C : Nat → Codec T} {x : T} {bs : Bytes}

/-- Internal: `bs` is the encoding of `x`. -/
def EncOf (cfg : Cfg) (t : CppType T) (C : Nat → Codec T) (x : T) (bs : Bytes) : Prop :=
  ∃ n0, ∀ n, n0 ≤ n → (C n).P x ∧ topEnc cfg t.ti (C n) x = bs

theorem Composes.encOf (hC : Composes (Scope.quiet (· ∈ builtinKinds)) cfg t u C) (hx : u.ok x)
    (hs : Yields (fun n => serializeToStream cfg (t.elem n) x { data := [] }) (.ok (x, { data := bs }))) :
    EncOf cfg t C x bs := by
  obtain ⟨n0, h0⟩ := hC.ok x hx
  obtain ⟨n1, h1⟩ := hs
  refine ⟨max n0 n1, fun n hn => ⟨h0 n (by omega), ?_⟩⟩
  have h2 := toStream_law (e := t.elem n) (K := Scope.quiet (· ∈ builtinKinds)) (fun _ h => h) (hC.law n)
    (h0 n (by omega)) ⟨[], none⟩ (by simp)
  have h3 := h2.symm.trans (h1 n (by omega))
  have h4 : topEnc cfg (t.elem n).ti (C n) x = bs := by simpa using h3
  exact h4

theorem EncOf.yields {α : Type} (h : EncOf cfg t C x bs) {f : Nat → Out α} {r : Out α}
    (hf : ∀ n, (C n).P x → topEnc cfg (t.elem n).ti (C n) x = bs → f n = r) : Yields f r := by
  obtain ⟨n0, h0⟩ := h
  exact ⟨n0, fun n hn => hf n (h0 n hn).1 (h0 n hn).2⟩

theorem EncOf.head (h : EncOf cfg t C x bs) : ∃ tl, bs = intBytes cfg.endian 4 t.ti.idx ++ tl := by
  obtain ⟨n0, h0⟩ := h
  have h := (h0 n0 (Nat.le_refl _)).2
  simp only [topEnc, node, if_true, List.append_assoc] at h
  exact ⟨_, h.symm⟩

theorem EncOf.ne_nil (h : EncOf cfg t C x bs) : 4 ≤ bs.length := by
  obtain ⟨tl, rfl⟩ := h.head
  simp

variable (hC : Composes (Scope.quiet (· ∈ builtinKinds)) cfg t u C) (h : EncOf cfg t C x bs)
include hC h

theorem EncOf.getSize : Yields (fun n => getSize cfg (t.elem n) x) (.ok (bs.length % 2 ^ 64, x)) :=
  h.yields fun n hp he => by
    rw [getSize_law (K := Scope.quiet (· ∈ builtinKinds)) (fun _ h => h) (hC.elaw n) hp, he]

theorem EncOf.serialize (hfit : bs.length < 2 ^ 64) (fn : Option (Nat → Option Bytes)) :
    Yields (fun n => Ckpt.serialize cfg (t.elem n) fn x) (serResult bs fn x) :=
  h.yields fun n hp he => by
    rw [serialize_law (K := Scope.quiet (· ∈ builtinKinds)) (fun _ h => h) (hC.elaw n) hp (by rw [he]; exact hfit), he]

theorem EncOf.toStream (o : OStream) (ho : ∀ l, o.limit = some l → o.data.length ≤ l) :
    Yields (fun n => serializeToStream cfg (t.elem n) x o) (.ok (x, { o with data :=
      match o.limit with
      | none => o.data ++ bs
      | some l => (o.data ++ bs).take l })) :=
  h.yields fun n hp he => by
    rw [toStream_law (K := Scope.quiet (· ∈ builtinKinds)) (fun _ h => h) (hC.elaw n) hp o ho, he]
    rfl

theorem EncOf.footprint (hs : t.ti.sizeof < 2 ^ 64) : ∃ f, t.ti.sizeof ≤ f ∧ f < 2 ^ 64 ∧
    ∀ off, Yields (fun n => getMemoryFootprint cfg (t.elem n) x off) (.ok ((off + f) % 2 ^ 64, x)) := by
  obtain ⟨n0, h0⟩ := h
  refine ⟨max ((C n0).fp x % 2 ^ 64) t.ti.sizeof, by omega, ?_, fun off => ⟨n0, fun n hn => ?_⟩⟩
  · have := Nat.mod_lt ((C n0).fp x) (show 0 < 2 ^ 64 by decide)
    omega
  · have h1 := footprint_law (K := Scope.quiet (· ∈ builtinKinds)) (fun _ h => h) (hC.elaw n0)
      (h0 n0 (Nat.le_refl _)).1 off
    have h3 := (footprint_le (cfg := cfg) (hC.elem_le hn) x off).eq_of_ne (by rw [h1]; simp)
    exact h3.trans h1

theorem EncOf.packIO : Yields (fun n => packMem cfg (t.elem n) .packerIO (zeros bs.length) x) (.ok (bs, bs.length, x)) :=
  h.yields fun n hp he => by
    rw [packMem_law (K := Scope.quiet (· ∈ builtinKinds)) (fun _ h => h) (hC.elaw n) hp (by decide), he]
    simp [zeros]

variable {y : T} (hy : ∀ n, (C n).P x → (C n).prior x y)
include hy

theorem EncOf.inPlaceOver (rest : Bytes) : ∃ z, u.same x z ∧
    Yields (fun n => deserializeInPlace cfg (t.elem n) (bs ++ rest) y) (.ok (z, bs.length)) := by
  obtain ⟨n0, h0⟩ := h
  obtain ⟨hP, he⟩ := h0 n0 (Nat.le_refl _)
  obtain ⟨z, hz, hr⟩ := inPlace_law (K := Scope.quiet (· ∈ builtinKinds)) (fun _ h => h) (fun _ h => h) (hC.elaw n0) hP
    (hy n0 hP) rest
  have he' : topEnc cfg (t.elem n0).ti (C n0) x = bs := he
  rw [he'] at hr
  refine ⟨z, hC.rel n0 x z hz, n0, fun n hn => ?_⟩
  exact ((inPlace_le (cfg := cfg) (hC.elem_le hn) _ y).eq_of_ne (by rw [hr]; simp)).trans hr

theorem EncOf.unpackIOOver (rest : Bytes) : ∃ z, u.same x z ∧
    Yields (fun n => Ckpt.unpackIO cfg (t.elem n) (bs ++ rest) y) (.ok z) := by
  obtain ⟨n0, h0⟩ := h
  obtain ⟨hP, he⟩ := h0 n0 (Nat.le_refl _)
  have hr : Ser.Reader (Scope.quiet (· ∈ builtinKinds)) { core := .unpacker (bs ++ rest) 0 0, kind := .unpackerIO } :=
    ⟨rfl, by simp [Scope.quiet, builtinKinds], by simp⟩
  have he' : topEnc cfg (t.elem n0).ti (C n0) x = bs := he
  obtain ⟨z, hz, hd⟩ := ((top_rd (hC.elaw n0) hP (hy n0 hP)).ok (fun _ h => h) hr).1 rest
    (by simp [Ser.remaining, he'])
  have hd' : Ckpt.unpackIO cfg (t.elem n0) (bs ++ rest) y = .ok z := by
    unfold Ckpt.unpackIO
    rw [hd]
    rfl
  refine ⟨z, hC.rel n0 x z hz, n0, fun n hn => ?_⟩
  exact ((unpackIO_le (cfg := cfg) (hC.elem_le hn) _ y).eq_of_ne (by rw [hd']; simp)).trans hd'

theorem EncOf.inStreamOver_short {inp tl : Bytes} (ht : tl ≠ []) (hb : bs = inp ++ tl) :
    Yields (fun n => deserializeInPlaceFromStream cfg (t.elem n) inp y) (.throw .streamShort) :=
  h.yields fun n hP he => Ckpt.inStream_short (K := Scope.quiet (· ∈ builtinKinds)) (fun _ h => h) (fun _ h => h)
    (hC.elaw n) hP (hy n hP) ht (by rw [he, hb])

omit hy
variable (hcl : u.clean y)
include hcl

theorem EncOf.inPlace (rest : Bytes) : ∃ z, u.same x z ∧
    Yields (fun n => deserializeInPlace cfg (t.elem n) (bs ++ rest) y) (.ok (z, bs.length)) :=
  h.inPlaceOver hC (fun n hP => hC.prior n x y hP hcl) rest

theorem EncOf.unpackIO (rest : Bytes) : ∃ z, u.same x z ∧
    Yields (fun n => Ckpt.unpackIO cfg (t.elem n) (bs ++ rest) y) (.ok z) :=
  h.unpackIOOver hC (fun n hP => hC.prior n x y hP hcl) rest

theorem EncOf.inStream_short {inp tl : Bytes} (ht : tl ≠ []) (hb : bs = inp ++ tl) :
    Yields (fun n => deserializeInPlaceFromStream cfg (t.elem n) inp y) (.throw .streamShort) :=
  h.inStreamOver_short hC (fun n hP => hC.prior n x y hP hcl) ht hb

end

end Ckpt
