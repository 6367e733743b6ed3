import Verif.Proofs.Dispatch
/-!
What reading a header or a trailer does when it is not the expected one.
-/

set_option autoImplicit false

namespace Ckpt

variable {T : Type} {cfg : Cfg} {K : Scope}

theorem rawInt_read {s : Ser} (hs : s.Reader K) {b rest : Bytes} {n : Nat} (hb : b.length = n)
    (hr : s.remaining = b ++ rest) :
    rawInt cfg n s 0 = .ok (intVal cfg.endian b, s.advance n) := by
  subst hb
  have h := ((rawInt_rd (K := Scope.quiet K.kinds) (cfg := cfg) (n := b.length)
    (v := intVal cfg.endian b) (v0 := 0) (intVal_lt _ b)).ok (fun _ h => h) (s := s) hs).1 rest
    (by rw [intBytes_intVal]; exact hr)
  obtain ⟨v, rfl, hv⟩ := h
  simpa using hv

theorem withTypeIdx_reject {ti : TI} {s : Ser} (hs : s.Reader K) {b rest : Bytes}
    (hb : b.length = 4) (hr : s.remaining = b ++ rest)
    (hbad : validateIndex (intVal cfg.endian b) = false ∨ ti.idx ≠ intVal cfg.endian b) :
    withTypeIdx cfg ti s = .throw (.ser (.wrongType ti.idx (intVal cfg.endian b)) 0 [ti.name]) := by
  unfold withTypeIdx
  simp only [hs.not_packing.1, hs.not_packing.2, hs.unpacking, rawInt_read hs hb hr]
  rcases hbad with h | h <;> simp [h]

theorem traverse_reject {ti : TI} {h : Handler T} (hc : cfg.check = true) {s : Ser}
    (hs : s.Reader K) {b rest : Bytes}
    (hb : b.length = 4) (hr : s.remaining = b ++ rest)
    (hbad : validateIndex (intVal cfg.endian b) = false ∨ ti.idx ≠ intVal cfg.endian b)
    (ys : List T) :
    traverse cfg ti h s ys =
      .throw (.ser (.wrongType ti.idx (intVal cfg.endian b)) 0 [ti.name]) := by
  unfold traverse
  simp [hc, withTypeIdx_reject hs hb hr hbad]

theorem rawInt_short {s : Ser} (hs : s.Reader K) {n : Nat} (h : s.remaining.length < n) :
    rawInt cfg n s 0 = s.short := by
  have hl : (s.remaining ++ List.replicate (n - s.remaining.length) (0 : Byte)).length = n := by
    simp; omega
  generalize hb : s.remaining ++ List.replicate (n - s.remaining.length) (0 : Byte) = b at hl
  subst hl
  exact ((rawInt_rd (K := Scope.quiet K.kinds) (cfg := cfg) (n := b.length)
    (v := intVal cfg.endian b) (v0 := 0) (intVal_lt _ b)).ok (fun _ h => h) (s := s) hs).2
    (List.replicate (b.length - s.remaining.length) (0 : Byte)) (by
      simp; omega) (by rw [intBytes_intVal, hb])

theorem withTypeIdx_short {ti : TI} {s : Ser} (hs : s.Reader K) (h : s.remaining.length < 4) :
    withTypeIdx cfg ti s = s.short := by
  unfold withTypeIdx
  simp [hs.not_packing.1, hs.not_packing.2, hs.unpacking, rawInt_short hs h, Ser.short_bind]

theorem withMemUsed_short {ti : TI} {s : Ser} (hs : s.Reader K) (h : s.remaining.length < 8)
    (len : Nat) : withMemUsed cfg ti s len = s.short := by
  unfold withMemUsed
  simp [hs.not_packing.1, hs.not_packing.2, hs.unpacking, rawInt_short hs h, Ser.short_bind]

theorem withMemUsed_reject {ti : TI} {s : Ser} (hs : s.Reader K) {b rest : Bytes} {len : Nat}
    (hb : b.length = 8) (hr : s.remaining = b ++ rest)
    (hbad : ti.sizeof * len % sizeMod ≠ intVal cfg.endian b) :
    withMemUsed cfg ti s len =
      .throw (.ser (.memUsed ti.name (intVal cfg.endian b) (ti.sizeof * len % sizeMod)) 0 []) := by
  unfold withMemUsed
  simp [hs.not_packing.1, hs.not_packing.2, hs.unpacking, rawInt_read hs hb hr, hbad]

end Ckpt
