import Verif.Props.RoundTrip
/-!
# Output media that become full (C63)
-/

set_option autoImplicit false

namespace Ckpt

section
variable {cfg : Cfg} {env : Env} {t t' : Ty} {x x' : Val} {bs bs' : Bytes}

/-- **C63**.  `serializeToStream` returns normally however little the medium behind the stream can still hold: the
medium receives as many of the bytes as fit, the object is unchanged, and nothing is reported. -/
theorem C63_unnoticed {R : RelMode} (hv : env.Valid R (· ∈ builtinKinds) cfg) (hx : WT R env t x)
    (hs : StreamForm cfg env t x bs) {old : Bytes} {l : Nat} (hl : old.length ≤ l) :
    Yields (fun n => serializeToStream cfg (elem cfg env n t) x ⟨old, some l⟩)
      (.ok (x, ⟨(old ++ bs).take l, some l⟩)) :=
  (isEnc_of_stream hv hx hs).toStream hv (fun _ h => h) ⟨old, some l⟩ (by simpa using hl)

/-- If the object did not fit, reading it from its place throws. -/
theorem C63_read_back_throws (hv : env.Valid .contents (· ∈ builtinKinds) cfg) (hx : WT .contents env t x)
    (hb : ByVal t x) (hs : StreamForm cfg env t x bs) {old new : Bytes} {l : Nat} {x1 : Val} (hl : old.length ≤ l)
    (hfull : l < old.length + bs.length)
    (hw : Yields (fun n => serializeToStream cfg (elem cfg env n t) x ⟨old, some l⟩) (.ok (x1, ⟨new, some l⟩)))
    {y : Val} (hy : Clean .contents cfg env t y) (hyb : ByVal t y) :
    new.take old.length = old ∧
    Yields (fun n => deserializeInPlaceFromStream cfg (elem cfg env n t) (new.drop old.length) y)
      (.throw .streamShort) ∧
    Yields (fun n => deserializeFromStream cfg (elem cfg env n t) (new.drop old.length)) (.throw .streamShort) := by
  have h := hw.unique (C63_unnoticed hv hx hs hl)
  simp only [Out.ok.injEq, Prod.mk.injEq, OStream.mk.injEq, and_true] at h
  obtain ⟨-, rfl⟩ := h
  have hd : ((old ++ bs).take l).drop old.length = bs.take (l - old.length) := by
    rw [List.drop_take, List.drop_left]
  refine ⟨by rw [List.take_take, Nat.min_eq_left hl, List.take_left], ?_⟩
  rw [hd]
  refine C08_truncated_stream_throws hv hx hb hs (List.take_prefix _ _) ?_ hy hyb
  intro he
  have := congrArg List.length he
  rw [List.length_take] at this
  omega

/-- Whatever is written after that is lost, again without notice. -/
theorem C63_later_objects_lost {R : RelMode} (hv : env.Valid R (· ∈ builtinKinds) cfg) (hx : WT R env t' x')
    (hs : StreamForm cfg env t' x' bs') {full : Bytes} :
    Yields (fun n => serializeToStream cfg (elem cfg env n t') x' ⟨full, some full.length⟩)
      (.ok (x', ⟨full, some full.length⟩)) := by
  simpa using C63_unnoticed hv hx hs (old := full) (l := full.length) (Nat.le_refl _)

end

/-- An object of the example program, on a medium that has room for three bytes. -/
example : ∃ bs, StreamForm (Demo.cfg true false) Demo.env Demo.sampleTy Demo.sample bs ∧
    Yields (fun n => serializeToStream (Demo.cfg true false) (elem (Demo.cfg true false) Demo.env n Demo.sampleTy)
      Demo.sample ⟨[1, 2], some 5⟩) (.ok (Demo.sample, ⟨[1, 2] ++ bs.take 3, some 5⟩)) := by
  have hv := Demo.valid_contents (check := true) (ndebug := false)
  obtain ⟨bs, hs⟩ := StreamForm.exists hv Demo.sample_wt
  refine ⟨bs, hs, ?_⟩
  simpa using C63_unnoticed hv Demo.sample_wt hs (old := [1, 2]) (l := 5) (by simp)

end Ckpt
