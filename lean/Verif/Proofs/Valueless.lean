import Verif.Proofs.Merge
/-!
Serialization of a variant that is valueless by exception.
-/

set_option autoImplicit false

namespace Ckpt

/-- What the bytes of a valueless variant do over the target `y0`: nothing. -/
def lostCodec (cfg : Cfg) (y0 : Val) : Codec Val where
  P v := v = .valueless
  enc w _ := sizeNode cfg w (2 ^ 64 - 1)
  prior _ y := y = y0
  rel _ z := z = y0
  fp _ := 8
  multi _ := True

section
variable {T : Type}

theorem entry_past {cfg : Cfg} {s : Ser} {v : Variant T} {entry : Nat} : ∀ {es : List (Elem T)} {cur : Nat},
    cur + es.length ≤ entry → serializeEntry cfg es s v entry cur = .ok (v, s)
  | [], _, _ => rfl
  | e :: es, cur, h => by
    simp only [List.length_cons] at h
    have : ¬ entry = cur := by omega
    simp only [serializeEntry, this, if_false]
    exact entry_past (by omega)

end

section
variable {R : RelMode} {K : Kind → Prop} {cfg : Cfg} {env : Env}

theorem valueless_law (hv : env.Valid R K cfg) (n : Nat) {ts : List Ty} (hb : Ty.allOnlyBytes ts = false)
    (hts : ts.length < 2 ^ 64) {y0 : Val}
    (hy : y0 = .valueless ∨ ∃ i v, y0 = .variant i v) :
    Law (Scope.quiet K) cfg (env.ti (.variant ts)) (dispatch cfg env (n + 1) (.variant ts)) (lostCodec cfg y0) := by
  have hpast : ∀ {s : Ser} {v : Variant Val},
      serializeEntry cfg (ts.map (elem cfg env n)) s v (2 ^ 64 - 1) 0 = .ok (v, s) := fun {s v} =>
    entry_past (by rw [List.length_map]; omega)
  have hmax : (Variant.valueless : Variant Val).index = 2 ^ 64 - 1 := rfl
  rw [dispatch_variant hb]
  refine Law.ofEach (hv.ti _) trivial ?_ ?_ ?_
  · rintro x rfl
    refine ((pipeSize_wr hv.cfgOk (n := 2 ^ 64 - 1) (by decide)).bind (bs' := fun _ => [])
      (k := fun p => serializeEntry cfg (ts.map (elem cfg env n)) p.2 .valueless p.1 0 >>= fun q => match q.1 with
          | .holds i x => .ok (Val.variant i x, q.2)
          | .valueless => .ok (Val.valueless, q.2)) (c := Val.valueless) ?_).congr ?_ (fun w => by simp [lostCodec])
    · refine (Wr.pure Val.valueless).congr ?_ (fun _ => rfl)
      intro s _
      simp only [hpast, Out.bind_eq, Out.bind_ok]
    · intro s _
      show (serVariant cfg (ts.map (elem cfg env n)) s .valueless >>= _) = _
      simp only [serVariant, hmax, Out.bind_eq, Out.bind_assoc]
      rfl
  · rintro x y rfl rfl
    rcases hy with rfl | ⟨i, v, rfl⟩
    · refine ((pipeSize_rd hv.cfgOk (n := 2 ^ 64 - 1) (m := 2 ^ 64 - 1) (by decide)).bind (bs' := [])
        (k := fun p => serializeEntry cfg (ts.map (elem cfg env n)) p.2 .valueless p.1 0 >>= fun q => match q.1 with
          | .holds i x => .ok (Val.variant i x, q.2)
          | .valueless => .ok (Val.valueless, q.2)) (Q' := fun z => z = Val.valueless) ?_).congr ?_
          (by simp [lostCodec]) (fun _ h => h)
      · rintro _ rfl
        refine (Rd.pure (b := Val.valueless) rfl).congr ?_ rfl (fun _ h => h.symm)
        intro s _
        simp only [hpast, Out.bind_eq, Out.bind_ok]
      · intro s _
        show (serVariant cfg (ts.map (elem cfg env n)) s .valueless >>= _) = _
        simp only [serVariant, hmax, Out.bind_eq, Out.bind_assoc]
        rfl
    · refine ((pipeSize_rd hv.cfgOk (n := 2 ^ 64 - 1) (m := i) (by decide)).bind (bs' := [])
        (k := fun p => serializeEntry cfg (ts.map (elem cfg env n)) p.2 (.holds i v) p.1 0 >>= fun q => match q.1 with
          | .holds i x => .ok (Val.variant i x, q.2)
          | .valueless => .ok (Val.valueless, q.2)) (Q' := fun z => z = Val.variant i v) ?_).congr ?_
          (by simp [lostCodec]) (fun _ h => h)
      · rintro _ rfl
        refine (Rd.pure (b := Val.variant i v) rfl).congr ?_ rfl (fun _ h => h.symm)
        intro s _
        simp only [hpast, Out.bind_eq, Out.bind_ok]
      · intro s _
        show (serVariant cfg (ts.map (elem cfg env n)) s (.holds i v) >>= _) = _
        simp only [serVariant, Out.bind_eq, Out.bind_assoc]
        rfl
  · rintro x rfl
    refine ((pipeSize_fp hv.cfgOk (n := 2 ^ 64 - 1) (by decide)).bind (n' := 0)
      (k := fun p => serializeEntry cfg (ts.map (elem cfg env n)) p.2 .valueless p.1 0 >>= fun q => match q.1 with
          | .holds i x => .ok (Val.variant i x, q.2)
          | .valueless => .ok (Val.valueless, q.2)) ?_).congr ?_ rfl
    · refine (Fp.pure (b := Val.valueless)).congr ?_ rfl
      intro s _
      simp only [hpast, Out.bind_eq, Out.bind_ok]
    · intro s _
      show (serVariant cfg (ts.map (elem cfg env n)) s .valueless >>= _) = _
      simp only [serVariant, hmax, Out.bind_eq, Out.bind_assoc]
      rfl

end
end Ckpt
