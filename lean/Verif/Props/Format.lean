import Mathlib.Logic.Relation
import Verif.Props.RoundTrip
import Verif.Proofs.Stable
import Verif.Spec.DemoPlain
/-!
# Properties of the serialized form (C43, C44, C46)
-/

set_option autoImplicit false

namespace Ckpt

section
variable {R : RelMode} {cfg : Cfg} {env : Env} {t : Ty} {x y : Val} {bs bs' : Bytes}

/-! ## C43 -/

/-- C43: serializing does not change the object, so serializing again gives the same bytes. -/
theorem C43_deterministic (hv : env.Valid R (· ∈ builtinKinds) cfg) (hx : WT R env t x) {x' x'' : Val}
    {o o' : OStream} (hl : o.limit = none ∧ o'.limit = none)
    (h1 : Yields (fun n => serializeToStream cfg (elem cfg env n t) x o) (.ok (x', ⟨o.data ++ bs, none⟩)))
    (h2 : Yields (fun n => serializeToStream cfg (elem cfg env n t) x' o') (.ok (x'', ⟨o'.data ++ bs', none⟩))) :
    x' = x ∧ x'' = x ∧ bs' = bs := by
  obtain ⟨b, hb⟩ := StreamForm.exists hv hx
  have he := isEnc_of_stream hv hx hb
  obtain ⟨d, l⟩ := o
  obtain ⟨d', l'⟩ := o'
  obtain ⟨rfl, rfl⟩ := hl
  have g1 := h1.unique (he.toStream hv (fun _ h => h) ⟨d, none⟩ (by simp))
  simp only [Out.ok.injEq, Prod.mk.injEq, OStream.mk.injEq, and_true, List.append_cancel_left_eq] at g1
  obtain ⟨rfl, rfl⟩ := g1
  have g2 := h2.unique (he.toStream hv (fun _ h => h) ⟨d', none⟩ (by simp))
  simp only [Out.ok.injEq, Prod.mk.injEq, OStream.mk.injEq, and_true, List.append_cancel_left_eq] at g2
  exact ⟨rfl, g2⟩

/-- C43: objects with the same serialized form are observably equal. -/
theorem C43_injective (hv : env.Valid .contents (· ∈ builtinKinds) cfg) (hx : WT .contents env t x)
    (hy : WT .contents env t y) (hbx : ByVal t x) (hby : ByVal t y) (h1 : StreamForm cfg env t x bs)
    (h2 : StreamForm cfg env t y bs) : Rel .contents env t x y := by
  obtain ⟨z, hz, hr⟩ := (isEnc_of_stream hv hx h1).inPlace hv (fun _ h => h)
    (prior_of_clean hv hbx (hv.fresh t).2 (hv.fresh t).1) []
  obtain ⟨z', hz', hr'⟩ := (isEnc_of_stream hv hy h2).inPlace hv (fun _ h => h)
    (prior_of_clean hv hby (hv.fresh t).2 (hv.fresh t).1) []
  have := hr.unique hr'
  simp only [Out.ok.injEq, Prod.mk.injEq, and_true] at this
  subst this
  exact hz.trans (fun _ _ _ _ _ => trivial) (hz'.symm fun _ _ _ => trivial)

/-- C43: no serialized form of a type is a proper prefix of another one of the same type. -/
theorem C43_prefix_free (hv : env.Valid .contents (· ∈ builtinKinds) cfg) (hx : WT .contents env t x)
    (hy : WT .contents env t y) (hbx : ByVal t x) (hby : ByVal t y) (h1 : StreamForm cfg env t x bs)
    (h2 : StreamForm cfg env t y bs') (hp : bs <+: bs') : bs = bs' := by
  obtain ⟨tl, rfl⟩ := hp
  obtain ⟨z, hz, hr⟩ := (isEnc_of_stream hv hx h1).inPlace hv (fun _ h => h)
    (prior_of_clean hv hbx (hv.fresh t).2 (hv.fresh t).1) tl
  obtain ⟨z', hz', hr'⟩ := (isEnc_of_stream hv hy h2).inPlace hv (fun _ h => h)
    (prior_of_clean hv hby (hv.fresh t).2 (hv.fresh t).1) []
  rw [List.append_nil] at hr'
  have := hr.unique hr'
  simp only [Out.ok.injEq, Prod.mk.injEq, List.length_append] at this
  obtain rfl : tl = [] := List.length_eq_zero_iff.1 (by omega)
  simp

/-! ## C44 -/

theorem exact_cap (a b : Nat) (h : RelMode.exact.cap a b) (ha : a < 2 ^ 64) : a ≤ b ∧ b < 2 ^ 64 := by
  obtain rfl : b = a := h
  exact ⟨Nat.le_refl _, ha⟩

theorem IsEnc.of_rel (hv : env.Valid .exact (· ∈ builtinKinds) cfg) (hx : WT .exact env t x)
    (h : IsEnc .exact cfg env t x bs) (hr : Rel .exact env t x y) : IsEnc .exact cfg env t y bs := by
  obtain ⟨n0, h0⟩ := h
  obtain ⟨n1, h1⟩ := codec_P (cfg := cfg) (hx.of_rel exact_cap (fun h => h.elim) hr)
  refine ⟨max n0 n1, fun n hn => ⟨h1 n (by omega), ?_⟩⟩
  rw [← (h0 n (by omega)).2]
  simp only [topEnc, codec_enc_eq hv.plain n t x y _ hx hr]

/-- C44: when `reserve` gives exactly the capacity asked for, and no unordered container with more than
one element is involved (`RelMode.exact`), the restored object has the serialized form it was restored
from. -/
theorem C44_stable (hv : env.Valid .exact (· ∈ builtinKinds) cfg) (hx : WT .exact env t x) (hb : ByVal t x)
    (hs : StreamForm cfg env t x bs) :
    ∃ y, Yields (fun n => deserialize cfg (elem cfg env n t) bs) (.ok (y, bs.length)) ∧ StreamForm cfg env t y bs := by
  have he := isEnc_of_stream hv hx hs
  obtain ⟨y, hr, hy⟩ := he.inPlace hv (fun _ h => h) (prior_of_clean hv hb (hv.fresh t).2 (hv.fresh t).1) []
  refine ⟨y, ?_, ?_⟩
  · simp only [deserialize_elem]
    simpa using hy
  · simpa [StreamForm] using (he.of_rel hv hx hr).toStream hv (fun _ h => h) { data := [] } (by simp)

/-- `y` is restored from a checkpoint of `x`. -/
def Restart (cfg : Cfg) (env : Env) (t : Ty) (x y : Val) : Prop :=
  ∃ bs, StreamForm cfg env t x bs ∧ Yields (fun n => deserialize cfg (elem cfg env n t) bs) (.ok (y, bs.length))

/-- C44: the checkpoint stays the same over any number of restarts. -/
theorem C44_restarts (hv : env.Valid .exact (· ∈ builtinKinds) cfg) (hx : WT .exact env t x) (hb : ByVal t x)
    (hs : StreamForm cfg env t x bs) (hr : Relation.ReflTransGen (Restart cfg env t) x y) :
    StreamForm cfg env t y bs := by
  suffices h : WT .exact env t y ∧ ByVal t y ∧ StreamForm cfg env t y bs from h.2.2
  induction hr with
  | refl => exact ⟨hx, hb, hs⟩
  | tail _ h ih =>
    obtain ⟨hw, hb, hs⟩ := ih
    obtain ⟨bs', hs', h⟩ := h
    obtain rfl := hs.unique hs'
    have he := isEnc_of_stream hv hw hs
    obtain ⟨y, hr, hy⟩ := he.inPlace hv (fun _ h => h) (prior_of_clean hv hb (hv.fresh t).2 (hv.fresh t).1) []
    simp only [deserialize_elem] at h
    rw [List.append_nil] at hy
    have := hy.unique h
    simp only [Out.ok.injEq, Prod.mk.injEq, and_true] at this
    subst this
    refine ⟨hw.of_rel exact_cap (fun h => h.elim) hr, hr.byVal hb, ?_⟩
    simpa [StreamForm] using (he.of_rel hv hw hr).toStream hv (fun _ h => h) { data := [] } (by simp)

/-! ## C46 -/

/-- The same configuration, with and without run-time checks. -/
def Cfg.withCheck (cfg : Cfg) (b : Bool) : Cfg := { cfg with check := b }

theorem node_check (b w : Bool) (ti : TI) (k : Nat) (p : Bytes) :
    node (cfg.withCheck b) w ti k p = node cfg w ti k p := rfl

theorem members_check {E E' : Ty → Elem Val} {C C' : Ty → Codec Val} {w b : Bool}
    (hE : ∀ t, (E' t).ti = (E t).ti) (hC : ∀ t, (C' t).enc = (C t).enc) : ∀ (ts : List Ty) (xs : List Val),
    membersEnc (cfg.withCheck b) w E' C' ts xs = membersEnc cfg w E C ts xs
  | [], _ => by simp [membersEnc]
  | _ :: _, [] => by simp [membersEnc]
  | t :: ts, x :: xs => by
    simp only [membersEnc, nodeEnc, node_check, hE, hC, members_check hE hC ts xs]

theorem chain_check {ti : Nat → TI} {enc enc' : Nat → List Val → Bytes} {w b : Bool}
    (h : ∀ k p, enc' k p = enc k p) : ∀ (ks : List Nat) (ps : List (List Val)),
    chainEnc (cfg.withCheck b) w ti enc' ks ps = chainEnc cfg w ti enc ks ps
  | [], _ => by simp [chainEnc]
  | _ :: _, [] => by simp [chainEnc]
  | k :: ks, p :: ps => by simp only [chainEnc, node_check, h, chain_check h ks ps]

theorem seqEnc_check {w b : Bool} {ti : TI} {c c' : Codec Val} {t : Ty} (h : c'.enc = c.enc) (xs : List Val) :
    seqEnc (cfg.withCheck b) w ti (c'.byVal t) xs = seqEnc cfg w ti (c.byVal t) xs := by
  have : nodeEnc (cfg.withCheck b) w ti (c'.byVal t) = nodeEnc cfg w ti (c.byVal t) := by
    funext x
    simp only [nodeEnc, node_check, Codec.byVal, h]
  simp only [seqEnc, this]
  rfl

theorem codec_enc_check (b : Bool) : ∀ (n : Nat) (t : Ty),
    (codec R (cfg.withCheck b) env n t).enc = (codec R cfg env n t).enc := by
  intro n
  induction n with
  | zero => intros; rfl
  | succ n ih =>
    intro t
    have hm : ∀ (w : Bool) (ts : List Ty) (xs : List Val),
        membersEnc (cfg.withCheck b) w (fun t => elem (cfg.withCheck b) env n t)
          (fun t => (codec R (cfg.withCheck b) env n t).byVal t) ts xs =
        membersEnc cfg w (fun t => elem cfg env n t) (fun t => (codec R cfg env n t).byVal t) ts xs :=
      fun w => members_check (fun _ => rfl) (fun t => ih t)
    funext w x
    cases t with
    | prim => rfl
    | enm => rfl
    | chrono => rfl
    | str => rfl
    | vecBool => rfl
    | vec t => cases x <;> simp only [codec, vecEnc, arrEnc, node_check, Codec.byVal, ih] <;> rfl
    | seq k t => cases x <;> simp only [codec, seqEnc_check (ih t)]
    | queue t => cases x <;> simp only [codec, seqEnc_check (ih t)]
    | oset _ _ t => cases x <;> simp only [codec, seqEnc_check (ih t)]
    | uset _ _ t => cases x <;> simp only [codec, seqEnc_check (ih t)]
    | pair a c =>
      simp only [codec, nodeEnc, node_check, Codec.byVal, ih]
    | tuple ts =>
      cases x <;> simp only [codec, tupleEnc]
      congr 1
      funext i
      simp only [memberEnc, nodeEnc, node_check, Codec.byVal, ih]
      rfl
    | opt t =>
      cases x with
      | opt y => cases y <;> simp only [codec, optEnc, nodeEnc, node_check, Codec.byVal, ih] <;> rfl
      | _ => rfl
    | variant ts =>
      rcases Bool.eq_false_or_eq_true (Ty.allOnlyBytes ts) with hb | hb
      · rw [codec_variantBytes hb, codec_variantBytes hb]
      rw [codec_variant hb, codec_variant hb]
      cases x <;> simp only [variantCodec, variantEnc, nodeEnc, node_check, Codec.byVal, ih] <;> rfl
    | uptr t =>
      cases x with
      | ptr y =>
        cases y with
        | none => rfl
        | some a =>
          have : ((env.virt (cfg.withCheck b) t).map (·.dynIdx)) = ((env.virt cfg t).map (·.dynIdx)) := by
            cases t <;> simp only [Env.virt]
            split <;> rfl
          simp only [codec, uptrEnc, nodeEnc, node_check, ih, this]
          rfl
      | _ => rfl
    | arr k t => cases x <;> simp only [codec, arrEnc, node_check, Codec.byVal, ih]
    | cls c =>
      cases x <;> simp only [codec]
      simp only [hm]
      split
      · exact chain_check (fun _ _ => rfl) _ _
      · rfl

theorem Env.Valid.mono {K K' : Kind → Prop} (hv : env.Valid R K cfg) (h : ∀ k, K' k → K k) :
    env.Valid R K' cfg :=
  { hv with kinds := fun hc k hk => hv.kinds hc k (h k hk) }

/-- C46: a user-defined traverser sees exactly the payload: what `serialize` writes without run-time
checks, less the 4 bytes of the type header and the 8 bytes of the trailer.  This holds whether or not
the traverser itself runs with checks.  The object stays the same.  `fun _ => True`: serializers of any
kind, which rules out polymorphic classes (see `C28_user_defined_not_found` for these). -/
theorem C46_traverser (hv : env.Valid R (fun _ => True) cfg)
    (hv' : env.Valid R (fun _ => True) (cfg.withCheck false)) (hx : WT R env t x)
    (hs : StreamForm (cfg.withCheck false) env t x bs) :
    ∃ payload : Bytes,
      bs = intBytes cfg.endian 4 (env.ti t).idx ++ payload ++ intBytes cfg.endian 8 ((env.ti t).sizeof % 2 ^ 64) ∧
      Yields (fun n => traverseCustom cfg (elem cfg env n t) x) (.ok (payload, x)) := by
  obtain ⟨n0, h0⟩ := isEnc_of_stream (hv'.mono fun _ _ => trivial) hx hs
  obtain ⟨n1, h1⟩ := codec_P (cfg := cfg) hx
  refine ⟨(codec R cfg env n0 t).enc false x, ?_, max n0 n1, fun n hn => ?_⟩
  · rw [← (h0 n0 (Nat.le_refl _)).2]
    simp only [topEnc, codec_enc_check, node, if_true, Nat.mul_one]
    rfl
  · have hc := custom_law (K := Scope.quiet fun _ => True) trivial (law hv n t) (h1 n (by omega))
    have e1 := (h0 n (by omega)).2.trans (h0 n0 (Nat.le_refl _)).2.symm
    simp only [topEnc, codec_enc_check, node, if_true, List.append_cancel_right_eq, List.append_cancel_left_eq] at e1
    have hf : (cfg.withCheck false).check = false := rfl
    rw [hf] at e1
    rw [← e1]
    exact hc

/-- A string and a vector of structures, seen by a traverser of a program with checks. -/
example : ∃ bs, StreamForm (Demo.cfg false false) Demo.plainEnv Demo.plainTy Demo.plainVal bs ∧
    ∃ payload, bs = intBytes .little 4 (Demo.plainEnv.ti Demo.plainTy).idx ++ payload ++
        intBytes .little 8 ((Demo.plainEnv.ti Demo.plainTy).sizeof % 2 ^ 64) ∧
      Yields (fun n => traverseCustom (Demo.cfg true false) (elem (Demo.cfg true false) Demo.plainEnv n Demo.plainTy)
        Demo.plainVal) (.ok (payload, Demo.plainVal)) := by
  have hR : ∀ c < 2 ^ 64, RelMode.contents.cap c c := fun _ _ => trivial
  obtain ⟨bs, hs⟩ := StreamForm.exists (R := .contents) (Demo.plain_valid (check := false) (ndebug := false) hR)
    Demo.plainVal_wt
  exact ⟨bs, hs, C46_traverser (cfg := Demo.cfg true false) (R := .contents) (Demo.plain_valid hR)
    (Demo.plain_valid (check := false) hR) Demo.plainVal_wt hs⟩

/-- The sample, restored and serialized again. -/
example : ∃ bs y, StreamForm (Demo.cfg true false) Demo.plainEnv Demo.plainTy Demo.plainVal bs ∧
    Yields (fun n => deserialize (Demo.cfg true false) (elem (Demo.cfg true false) Demo.plainEnv n Demo.plainTy) bs)
      (.ok (y, bs.length)) ∧ StreamForm (Demo.cfg true false) Demo.plainEnv Demo.plainTy y bs := by
  have hv : Demo.plainEnv.Valid .exact (· ∈ builtinKinds) (Demo.cfg true false) := Demo.plain_valid fun _ _ => rfl
  obtain ⟨bs, hs⟩ := StreamForm.exists hv Demo.plainVal_wt
  obtain ⟨y, h1, h2⟩ := C44_stable hv Demo.plainVal_wt trivial hs
  exact ⟨bs, y, hs, h1, h2⟩

end
end Ckpt
