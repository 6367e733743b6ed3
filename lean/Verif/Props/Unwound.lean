import Verif.Proofs.UnwoundUniverse
import Verif.Props.InPlace
import Verif.Props.Headers
import Verif.Spec.DemoFormed
import Verif.Proofs.Merge
import Mathlib.Data.List.Perm.Subperm
/-!
# Properties: objects after an exception (C76)

Reading in place threw; what is the object like?
-/

set_option autoImplicit false

namespace Ckpt

section
variable {cfg : Cfg} {env : Env} {t : Ty}

/-- `z` is what is left of an object: a call that was given it threw, and `ending` is the object afterwards. -/
def Leaves (ending : Nat → Out Val) (z : Val) : Prop := Yields ending (.ok z)

theorem ends_le (s : Ser) (y : Val) {n m : Nat} (h : n ≤ m) :
    Out.Le (traverseTopEnd cfg (elem cfg env n t) (dispatchEnd cfg env n t) s y)
      (traverseTopEnd cfg (elem cfg env m t) (dispatchEnd cfg env m t) s y) :=
  traverseTopEnd_le (elem_le cfg env h t) (dispatchEnd_le cfg env h t) s y

theorem yields_of {p : Nat → Out Val} (hp : ∀ n m, n ≤ m → Out.Le (p n) (p m)) {n : Nat} {z : Val}
    (h : p n = .ok z) : Yields p (.ok z) :=
  ⟨n, fun m hm => by
    rcases hp n m hm with h' | h'
    · rw [h] at h'; cases h'
    · rw [← h', h]⟩

theorem top_fin (hE : env.Sound cfg) (n : Nat) {s : Ser} (hs : s.isUnpacking = true) {y : Val}
    (hy : Formed env t y ∧ ByVal t y) :
    Settles (fun z => Formed env t z ∧ ByVal t z) (traverseTop cfg (elem cfg env n t) s y)
      (traverseTopEnd cfg (elem cfg env n t) (dispatchEnd cfg env n t) s y) :=
  traverseTop_fin (e := elem cfg env n t) (P := fun z => Formed env t z ∧ ByVal t z)
    ((dispatchEnd_keeps hE n t (exact t)).imp (fun x => (inv_exact t x).2) (fun x => (inv_exact t x).1)) hs hy

theorem leaves_of_throw (hE : env.Sound cfg) {s : Ser} (hs : s.isUnpacking = true) {y : Val}
    (hy : Formed env t y ∧ ByVal t y) {e : Err} {n : Nat}
    (h : traverseTop cfg (elem cfg env n t) s y = .throw e) :
    ∃ z, (Formed env t z ∧ ByVal t z) ∧
      Leaves (fun n => traverseTopEnd cfg (elem cfg env n t) (dispatchEnd cfg env n t) s y) z := by
  have hf := top_fin hE n hs hy
  rw [h] at hf
  obtain ⟨z, h1, h2⟩ := hf
  exact ⟨z, h2, yields_of (fun n m => ends_le s y) h1⟩

theorem leaves_of_ok (hE : env.Sound cfg) {s s' : Ser} (hs : s.isUnpacking = true) {y z : Val}
    (hy : Formed env t y ∧ ByVal t y) {n : Nat}
    (h : traverseTop cfg (elem cfg env n t) s y = .ok (z, s')) :
    Leaves (fun n => traverseTopEnd cfg (elem cfg env n t) (dispatchEnd cfg env n t) s y) z := by
  have hf := top_fin hE n hs hy
  rw [h] at hf
  exact yields_of (fun n m => ends_le s y) hf.1

section
variable {α β : Type} {f : α → Out β} {g : Out β}

theorem Out.after_ok {a : α} : (Out.ok a).after f g = f a := rfl
theorem Out.after_throw {e : Err} : (Out.throw e : Out α).after f g = g := rfl
theorem Out.after_abort : (Out.abort : Out α).after f g = .abort := rfl
theorem Out.after_ub {u : UB} : (Out.ub u : Out α).after f g = .ub u := rfl
theorem Out.after_fuel : (Out.fuel : Out α).after f g = .fuel := rfl

theorem Out.after_same {o : Out α} {a : β} {z : β} (h : o.after (fun _ => .ok a) (.ok a) = .ok z) : a = z := by
  cases o with
  | ok _ => cases h; rfl
  | throw _ => cases h; rfl
  | _ => cases h

end

theorem throw_of_bind {β γ : Type} {o : Out β} {f : β → γ} {e : Err} (h : (o >>= fun q => .ok (f q)) = .throw e) :
    o = .throw e := by
  cases o <;> simp_all

theorem ok_of_bind {β γ : Type} {o : Out β} {f : β → γ} {c : γ} (h : (o >>= fun q => .ok (f q)) = .ok c) :
    ∃ b, o = .ok b ∧ f b = c := by
  cases o with
  | ok b => exact ⟨b, rfl, by simpa using h⟩
  | _ => simp at h

/-- **C76**.  Whatever a stream delivers, if `deserializeInPlaceFromStream` into a well-formed object throws, the object
is still a well-formed object of its type. -/
theorem C76_stream (hE : env.Sound cfg) (inp : Bytes) {y : Val} (hy : Formed env t y ∧ ByVal t y) {e : Err}
    (h : Yields (fun n => deserializeInPlaceFromStream cfg (elem cfg env n t) inp y) (.throw e)) :
    ∃ z, (Formed env t z ∧ ByVal t z) ∧
      Leaves (fun n => inPlaceFromStreamEnd cfg (elem cfg env n t) (dispatchEnd cfg env n t) inp y) z := by
  obtain ⟨n, h⟩ := h
  exact leaves_of_throw hE rfl hy (throw_of_bind (h n (Nat.le_refl n)))

/-- **C76**, for memory. -/
theorem C76_memory (hE : env.Sound cfg) (mem : Bytes) {y : Val} (hy : Formed env t y ∧ ByVal t y) {e : Err}
    (h : Yields (fun n => deserializeInPlace cfg (elem cfg env n t) mem y) (.throw e)) :
    ∃ z, (Formed env t z ∧ ByVal t z) ∧
      Leaves (fun n => inPlaceEnd cfg (elem cfg env n t) (dispatchEnd cfg env n t) mem y) z := by
  obtain ⟨n, h⟩ := h
  exact leaves_of_throw hE rfl hy (throw_of_bind (h n (Nat.le_refl n)))

/-- **C76**, for files: whether or not the file exists, and whichever system calls fail. -/
theorem C76_file (hE : env.Sound cfg) (F : Faults) (w : World) (file : Nat) {y : Val}
    (hy : Formed env t y ∧ ByVal t y) {e : Err} {n : Nat}
    (h : (deserializeInPlaceFromFile cfg (elem cfg env n t) F w file y).1 = .out (.throw e)) :
    ∃ z, (Formed env t z ∧ ByVal t z) ∧
      Leaves (fun n => inPlaceFromFileEnd cfg (elem cfg env n t) (dispatchEnd cfg env n t) F w file y) z := by
  unfold deserializeInPlaceFromFile at h
  unfold inPlaceFromFileEnd
  cases hr : setupForRead F w file with
  | mk b w' =>
  rw [hr] at h
  cases b with
  | none => exact ⟨y, hy, 0, fun _ _ => rfl⟩
  | some b =>
    dsimp only at h ⊢
    refine leaves_of_throw (n := n) (e := e) hE rfl hy ?_
    have : unpackIO cfg (elem cfg env n t) ((w'.files file).getD []) y = .throw e := by
      revert h
      cases unpackIO cfg (elem cfg env n t) ((w'.files file).getD []) y <;> simp only [leave] <;>
        (try split) <;> simp
    exact throw_of_bind this

/-- A file that cannot be opened, inspected or mapped: the object is not touched. -/
theorem C76_file_unreadable (F : Faults) (w : World) (file : Nat) (y : Val)
    (h : (setupForRead F w file).1 = none) :
    (∀ n, (deserializeInPlaceFromFile cfg (elem cfg env n t) F w file y).1 = .out (.throw .io)) ∧
      Leaves (fun n => inPlaceFromFileEnd cfg (elem cfg env n t) (dispatchEnd cfg env n t) F w file y) y := by
  unfold deserializeInPlaceFromFile inPlaceFromFileEnd
  cases hr : setupForRead F w file with
  | mk b w' =>
  rw [hr] at h
  cases (h : b = none)
  exact ⟨fun _ => rfl, 0, fun _ _ => rfl⟩

/-- When the call returns, what is left is what it returns. -/
theorem C76_returns (hE : env.Sound cfg) (inp : Bytes) {y z : Val} (hy : Formed env t y ∧ ByVal t y) :
    (∀ rest, Yields (fun n => deserializeInPlaceFromStream cfg (elem cfg env n t) inp y) (.ok (z, rest)) →
      Leaves (fun n => inPlaceFromStreamEnd cfg (elem cfg env n t) (dispatchEnd cfg env n t) inp y) z) ∧
    (∀ k, Yields (fun n => deserializeInPlace cfg (elem cfg env n t) inp y) (.ok (z, k)) →
      Leaves (fun n => inPlaceEnd cfg (elem cfg env n t) (dispatchEnd cfg env n t) inp y) z) := by
  constructor
  · rintro rest ⟨n, h⟩
    obtain ⟨⟨b, s'⟩, h1, h2⟩ := ok_of_bind (h n (Nat.le_refl n))
    cases h2
    exact leaves_of_ok hE rfl hy h1
  · rintro k ⟨n, h⟩
    obtain ⟨⟨b, s'⟩, h1, h2⟩ := ok_of_bind (h n (Nat.le_refl n))
    cases h2
    exact leaves_of_ok hE rfl hy h1

/-! ## Data of another type -/

theorem topEnd_reject {T : Type} {e : Elem T} {r : Residue T} {s : Ser} {x : Err} (h : withTypeIdx cfg e.ti s = .throw x)
    (y : T) : traverseTopEnd cfg e r s y = .ok y := by
  unfold traverseTopEnd pipeEnd traverseEnd
  cases cfg.check <;> simp [h, Out.after]

/-- Data that does not begin with the index of the type, or a stream that ends before it does: the call throws and the
object is not touched. -/
theorem C76_wrong_type {T : Type} (e : Elem T) (r : Residue T) {b rest : Bytes} (hb : b.length = 4)
    (hbad : validateIndex (intVal cfg.endian b) = false ∨ e.ti.idx ≠ intVal cfg.endian b) (y : T) :
    (∃ x, deserializeInPlace cfg e (b ++ rest) y = .throw x) ∧ inPlaceEnd cfg e r (b ++ rest) y = .ok y ∧
    (∃ x, deserializeInPlaceFromStream cfg e (b ++ rest) y = .throw x) ∧
      inPlaceFromStreamEnd cfg e r (b ++ rest) y = .ok y :=
  ⟨⟨_, inPlace_reject hb hbad y⟩,
    topEnd_reject (withTypeIdx_reject (K := anyKind) (s := { core := .unpacker (b ++ rest) 0 0, kind := .unpacker })
      ⟨rfl, trivial, by simp⟩ hb (rest := rest) (by simp [Ser.remaining]) hbad) y,
    ⟨_, inStream_reject hb hbad y⟩,
    topEnd_reject (withTypeIdx_reject (K := anyKind) (s := { core := .streamUnpacker (b ++ rest) 0, kind := .streamUnpacker })
      ⟨rfl, trivial, trivial⟩ hb (rest := rest) (by simp [Ser.remaining]) hbad) y⟩

theorem C76_short_header {T : Type} (e : Elem T) (r : Residue T) {inp : Bytes} (hb : inp.length < 4) (y : T) :
    inPlaceFromStreamEnd cfg e r inp y = .ok y :=
  topEnd_reject (x := .streamShort) (by
    rw [withTypeIdx_short (K := anyKind) ⟨rfl, trivial, trivial⟩ (by simpa [Ser.remaining] using hb)]
    rfl) y

/-! ## Trying again -/

theorem Formed.shape {v : Val} (h : Formed env t v) : Shape env t v := by
  induction h with
  | prim h => exact .prim h
  | enm h => exact .enm h
  | chrono h => exact .chrono h
  | str h => exact .str
  | vec _ h1 _ ih => exact .vec h1 ih
  | vecBool _ => exact .vecBool
  | seq h1 _ ih => exact .seq h1 ih
  | queue h1 _ ih => exact .queue h1 ih
  | oset _ h1 _ ih => exact .oset h1 ih
  | uset _ h1 _ ih => exact .uset h1 ih
  | pair h1 h2 _ _ ih1 ih2 => exact .pair h1 h2 ih1 ih2
  | tuple h1 h2 _ ih => exact .tuple h1 h2 ih
  | optNone => exact .optNone
  | optSome h1 _ ih => exact .optSome h1 ih
  | variant h0 h1 h2 _ ih => exact .variant h0 h1 h2 ih
  | valueless h => exact .valueless h
  | variantBytes h0 h1 => exact .variantBytes h0 h1
  | ptrNull => exact .ptrNull
  | ptr h1 _ ih => exact .ptr h1 ih
  | arr h1 h2 _ ih => exact .arr h1 h2 ih
  | obj h1 h2 h3 h4 _ ih => exact .obj h1 h2 h3 h4 ih

/-- Trying again: after reading in place from a stream has thrown, whatever the stream held, reading a checkpoint of `x`
into the object that was left makes it equal to `x`, if the type is one that forgets its earlier contents (C24). -/
theorem C76_retry (hv : env.Valid .contents (· ∈ builtinKinds) cfg) (hE : env.Sound cfg) {S : Ty → Prop}
    (hS : env.Replaces S) (ht : S t) {x : Val} (hx : WT .contents env t x) (hxb : ByVal t x) {bs : Bytes}
    (hs : StreamForm cfg env t x bs) (inp : Bytes) {y : Val} (hy : Formed env t y ∧ ByVal t y) {e : Err}
    (h : Yields (fun n => deserializeInPlaceFromStream cfg (elem cfg env n t) inp y) (.throw e)) :
    ∃ z, Leaves (fun n => inPlaceFromStreamEnd cfg (elem cfg env n t) (dispatchEnd cfg env n t) inp y) z ∧
      ReadsOver cfg env t bs z (Rel .contents env t x) := by
  obtain ⟨z, hz, hl⟩ := C76_stream hE inp hy h
  exact ⟨z, hl, C24_forgets hv hS ht hx hxb hs hz.1.shape hz.2⟩

/-! ## All or nothing -/

/-- Objects that are read aside and assigned afterwards. -/
def ReadAside : Ty → Prop
  | .opt _ => True
  | .variant ts => Ty.allOnlyBytes ts = false
  | .enm .. => True
  | .chrono .. => True
  | _ => False

/-- `z` is what `serialize` for an object of type `t` makes of `y` when it returns, reading from some source. -/
def ReadWhole (cfg : Cfg) (env : Env) (t : Ty) (y z : Val) : Prop :=
  ∃ n s s', s.isUnpacking = true ∧ dispatch cfg env n t s [y] = .ok ([z], s')

/-- If the call for one object throws, it has not changed it. -/
def Atomic {T : Type} (h : Handler T) (r : Residue T) : Prop :=
  ∀ s x e, s.isUnpacking = true → h s [x] = .throw e → r s [x] = .ok [x]

theorem Atomic.each {T : Type} {f : Ser → T → Out (T × Ser)} {g : Ser → T → Out T}
    (h : ∀ s x e, s.isUnpacking = true → f s x = .throw e → g s x = .ok x) :
    Atomic (dispatchEach f) (dispatchEachEnd (oneOf (dispatchEach f)) g) := by
  intro s x e hs he
  rw [oneOf_each]
  have hf : f s x = .throw e := by
    simp only [dispatchEach] at he
    revert he
    cases f s x <;> simp
  simp [dispatchEachEnd, hf, Out.after, h s x e hs hf]

theorem serUnderlying_atomic {T : Type} {u : Elem T} {s : Ser} {x : T} {e : Err}
    (h : serUnderlying cfg u s x = .throw e) : serUnderlyingEnd cfg u s x = .ok x := by
  unfold serUnderlying at h
  unfold serUnderlyingEnd
  revert h
  cases pipe cfg u s x <;> simp [Out.after]

theorem serOptional_atomic {T : Type} {sz : Nat} {el : Elem T} {s : Ser} (hs : s.isUnpacking = true) {x : Option T}
    {e : Err} (h : serOptional cfg sz el s x = .throw e) : serOptionalEnd cfg el s x = .ok x := by
  unfold serOptional at h
  unfold serOptionalEnd
  simp only [unp_modes hs, hs, Bool.false_eq_true, if_false, if_true] at h
  revert h
  cases pipeBool cfg s false with
  | ok q =>
    obtain ⟨b, s'⟩ := q
    cases b
    · simp [Out.after]
    · simp only [Out.bind_eq, Out.bind_ok, if_true, Out.after]
      cases pipe cfg el s' el.fresh <;> simp
  | _ => simp [Out.after]

theorem serializeEntry_atomic {T : Type} : ∀ (es : List (Elem T)) {s : Ser}, s.isUnpacking = true → ∀ {v : Variant T}
    {entry cur : Nat} {e : Err}, serializeEntry cfg es s v entry cur = .throw e →
    serializeEntryEnd cfg es s v entry cur = .ok v
  | [], _, _, _, _, _, _, h => by simp [serializeEntry] at h
  | el :: es, s, hs, v, entry, cur, e, h => by
    unfold serializeEntry at h
    unfold serializeEntryEnd
    by_cases hc : entry = cur
    · simp only [hc, if_true, hs] at h ⊢
      revert h
      cases pipe cfg el s el.fresh <;> simp [Out.after]
    · simp only [hc, if_false] at h ⊢
      exact serializeEntry_atomic es hs h

theorem serVariant_atomic {T : Type} {es : List (Elem T)} {s : Ser} (hs : s.isUnpacking = true) {v : Variant T} {e : Err}
    (h : serVariant cfg es s v = .throw e) : serVariantEnd cfg es s v = .ok v := by
  unfold serVariant at h
  unfold serVariantEnd
  have hl := pipeSize_loc (cfg := cfg) hs v.index
  revert h hl
  cases pipeSize cfg s v.index with
  | ok q => exact fun h hl => serializeEntry_atomic es hl.2 h
  | _ => simp [Out.after]

theorem step_atomic (h : Ty → Handler Val) (r : Ty → Residue Val) (ht : ReadAside t) :
    Atomic (dispatchStep cfg env h t) (dispatchStepEnd cfg env h r t) := by
  cases t with
  | enm id pid size =>
    refine Atomic.each (fun s x e _ he => ?_)
    cases x with
    | raw bs =>
      have := serUnderlying_atomic (throw_of_bind (f := fun q => (Val.raw q.1, q.2)) he)
      simp [this]
    | _ => simp at he
  | chrono id pid size =>
    refine Atomic.each (fun s x e _ he => ?_)
    cases x with
    | raw bs =>
      have := serUnderlying_atomic (throw_of_bind (f := fun q => (Val.raw q.1, q.2)) he)
      simp [this]
    | _ => simp at he
  | opt t =>
    refine Atomic.each (fun s x e hs he => ?_)
    cases x with
    | opt x =>
      have := serOptional_atomic hs (throw_of_bind (f := fun q => (Val.opt q.1, q.2)) he)
      simp [this]
    | _ => simp at he
  | variant ts =>
    have hb' : Ty.allByteCopied ts = false := by rw [allByteCopied_eq]; exact ht
    have e1 : dispatchStep cfg env h (.variant ts) = dispatchVariant cfg (ts.map fun t => env.elemOf (h t) t) := by
      unfold dispatchStep
      simp only [hb', Bool.false_eq_true, if_false]
    have e2 : dispatchStepEnd cfg env h r (.variant ts) = dispatchEachEnd (oneOf (dispatchStep cfg env h (.variant ts)))
        (variantEnd cfg (ts.map fun t => env.elemOf (h t) t)) := by
      unfold dispatchStepEnd
      simp only [hb', Bool.false_eq_true, if_false]
    rw [e2, e1]
    refine Atomic.each (fun s x e hs he => ?_)
    have key : ∀ v : Variant Val, (serVariant cfg (ts.map fun t => env.elemOf (h t) t) s v >>= fun q => match q.1 with
        | .holds i x => .ok (Val.variant i x, q.2)
        | .valueless => .ok (.valueless, q.2)) = .throw e →
        serVariantEnd cfg (ts.map fun t => env.elemOf (h t) t) s v = .ok v := by
      intro v hv
      cases ho : serVariant cfg (ts.map fun t => env.elemOf (h t) t) s v with
      | throw e' => exact serVariant_atomic hs ho
      | ok q =>
        rw [ho] at hv
        obtain ⟨w, s'⟩ := q
        cases w <;> simp at hv
      | _ => rw [ho] at hv; simp at hv
    unfold variantEnd
    cases x with
    | variant i x => have := key (.holds i x) he; simp [this]
    | valueless => have := key .valueless he; simp [this]
    | _ => simp at he
  | _ => exact ht.elim

theorem dispatch_atomic (n : Nat) (ht : ReadAside t) : Atomic (dispatch cfg env n t) (dispatchEnd cfg env n t) := by
  cases n with
  | zero => exact fun s x e _ h => by cases h
  | succ n => exact step_atomic _ _ ht

theorem pipeEnd_atomic {T : Type} {e : Elem T} {r : Residue T} (hh : Atomic e.apply r) {s : Ser}
    (hs : s.isUnpacking = true) {x z : T} {err : Err} (h : pipe cfg e s x = .throw err)
    (hz : pipeEnd cfg e r s x = .ok z) :
    z = x ∨ ∃ s1 s2, s1.isUnpacking = true ∧ e.apply s1 [x] = .ok ([z], s2) := by
  unfold pipe traverse at h
  unfold pipeEnd traverseEnd at hz
  cases hc : cfg.check with
  | false =>
    simp only [hc, Bool.false_eq_true, if_false] at h hz
    cases ho : e.apply s [x] with
    | ok q =>
      rw [ho] at h
      obtain ⟨ys, s'⟩ := q
      match ys with
      | [] => simp at h
      | [_] => simp at h
      | _ :: _ :: _ => simp at h
    | throw e' => rw [hh s x e' hs ho] at hz; simp at hz; exact .inl hz.symm
    | _ => rw [ho] at h; simp at h
  | true =>
    simp only [hc, if_true] at h hz
    have hl := withTypeIdx_loc (cfg := cfg) hs e.ti
    cases hw : withTypeIdx cfg e.ti s with
    | throw e' => rw [hw] at hz; simp [Out.after] at hz; exact .inl hz.symm
    | ok s1 =>
      rw [hw] at h hz hl
      simp only [Out.bind_eq, Out.bind_ok, Out.after_ok] at h hz
      cases ho : e.apply s1 [x] with
      | throw e' =>
        rw [ho] at hz
        rw [hh s1 x e' hl ho, Out.after_throw] at hz; simp at hz; exact .inl hz.symm
      | ok q =>
        rw [ho] at hz
        obtain ⟨ys, s'⟩ := q
        refine .inr ⟨s1, s', hl, ?_⟩
        rw [ho]
        simp only [Out.after_ok] at hz
        cases hm : (withMemUsed cfg e.ti s' [x].length).after (fun _ => Out.ok ys) (Out.ok ys) with
        | ok zs =>
          cases Out.after_same hm
          rw [hm] at hz
          match ys with
          | [] => cases hz
          | [a] => cases hz; rfl
          | _ :: _ :: _ => cases hz
        | _ => rw [hm] at hz; simp at hz
      | _ => rw [ho] at hz; simp [Out.after] at hz
    | _ => rw [hw] at h; simp at h

theorem topEnd_atomic {n : Nat} (ht : ReadAside t) {s : Ser} (hs : s.isUnpacking = true) {y z : Val} {e : Err}
    (h : traverseTop cfg (elem cfg env n t) s y = .throw e)
    (hz : traverseTopEnd cfg (elem cfg env n t) (dispatchEnd cfg env n t) s y = .ok z) :
    z = y ∨ ReadWhole cfg env t y z := by
  have hA : Atomic (elem cfg env n t).apply (dispatchEnd cfg env n t) := dispatch_atomic n ht
  have key : ∀ {s : Ser} {e : Err}, s.isUnpacking = true → pipe cfg (elem cfg env n t) s y = .throw e →
      pipeEnd cfg (elem cfg env n t) (dispatchEnd cfg env n t) s y = .ok z → z = y ∨ ReadWhole cfg env t y z := by
    intro s e hs h hz
    rcases pipeEnd_atomic hA hs h hz with h | ⟨s1, s2, h1, h2⟩
    · exact .inl h
    · exact .inr ⟨n, s1, s2, h1, h2⟩
  unfold traverseTop at h
  unfold traverseTopEnd at hz
  cases hc : cfg.check with
  | true =>
    simp only [hc, if_true] at h hz
    exact key hs h hz
  | false =>
    simp only [hc, Bool.false_eq_true, if_false] at h hz
    have hl := withTypeIdx_loc (cfg := cfg) hs (elem cfg env n t).ti
    cases hw : withTypeIdx cfg (elem cfg env n t).ti s with
    | throw e' => rw [hw] at hz; simp [Out.after] at hz; exact .inl hz.symm
    | ok s1 =>
      rw [hw] at h hz hl
      simp only [Out.bind_eq, Out.bind_ok, Out.after_ok] at h hz
      cases ho : pipe cfg (elem cfg env n t) s1 y with
      | throw e' =>
        rw [ho] at hz
        exact key hl ho hz
      | ok q =>
        have hzz : z = q.1 := by
          rw [ho] at hz
          exact (Out.after_same hz).symm
        obtain ⟨v, s2⟩ := q
        refine .inr ⟨n, s1, s2, hl, ?_⟩
        subst hzz
        unfold pipe traverse at ho
        simp only [hc, Bool.false_eq_true, if_false] at ho
        show (elem cfg env n t).apply s1 [y] = _
        cases hd : (elem cfg env n t).apply s1 [y] with
        | ok q =>
          rw [hd] at ho
          obtain ⟨ys, s'⟩ := q
          match ys with
          | [] => simp at ho
          | [_] => simp at ho; simp [ho]
          | _ :: _ :: _ => simp at ho
        | _ => rw [hd] at ho; simp at ho
      | _ => rw [ho] at hz; cases hz
    | _ => rw [hw] at h; simp at h

/-- All or nothing: an optional, a variant (not byte-copied), an enumeration or a duration into which reading threw has
the value it had before, or one that has been read completely. -/
theorem C76_all_or_nothing (ht : ReadAside t) (inp : Bytes) {y z : Val} {e : Err} :
    (Yields (fun n => deserializeInPlaceFromStream cfg (elem cfg env n t) inp y) (.throw e) →
      Leaves (fun n => inPlaceFromStreamEnd cfg (elem cfg env n t) (dispatchEnd cfg env n t) inp y) z →
      z = y ∨ ReadWhole cfg env t y z) ∧
    (Yields (fun n => deserializeInPlace cfg (elem cfg env n t) inp y) (.throw e) →
      Leaves (fun n => inPlaceEnd cfg (elem cfg env n t) (dispatchEnd cfg env n t) inp y) z →
      z = y ∨ ReadWhole cfg env t y z) := by
  constructor
  · rintro ⟨n, h⟩ ⟨m, hm⟩
    exact topEnd_atomic ht rfl (throw_of_bind (h (max n m) (Nat.le_max_left ..))) (hm (max n m) (Nat.le_max_right ..))
  · rintro ⟨n, h⟩ ⟨m, hm⟩
    exact topEnd_atomic ht rfl (throw_of_bind (h (max n m) (Nat.le_max_left ..))) (hm (max n m) (Nat.le_max_right ..))

/-! ## Containers that are added to -/

/-- `zs` begins with `ys`; for associative containers, contains `ys`. -/
def StillHas : Ty → List Val → List Val → Prop
  | .queue _, ys, zs => ys <+: zs
  | .oset .., ys, zs => ys.Sublist zs
  | .uset .., ys, zs => ys.Subperm zs
  | _, _, _ => False

theorem StillHas.refl {ys zs : List Val} (h : StillHas t ys zs) : StillHas t ys ys := by
  cases t with
  | queue t => exact List.prefix_refl _
  | oset a c t => exact List.Sublist.refl _
  | uset a c t => exact List.Subperm.refl _
  | _ => exact h

theorem grows_keeps (hE : env.Sound cfg) (n : Nat) {ys : List Val} (ht : StillHas t ys ys) :
    Keeps (fun v => ∃ zs, v = .coll zs ∧ StillHas t ys zs) (dispatch cfg env n t) (dispatchEnd cfg env n t) := by
  cases n with
  | zero => exact fun _ _ _ _ _ => rfl
  | succ n =>
    have hA' : ∀ t, Keeps (Obj env t) (dispatch cfg env n t) (dispatchEnd cfg env n t) := fun t =>
      (dispatchEnd_keeps hE n t (exact t)).imp (fun x => (inv_exact t x).2) (fun x => (inv_exact t x).1)
    have hmk := fun t => fresh_makes hE (dispatch cfg env n t) t
    cases t with
    | queue t =>
      show Keeps _ (dispatchEach _) (dispatchEachEnd (oneOf (dispatchEach _)) _)
      rw [oneOf_each]
      refine dispatchEach_keeps (fun s x hs hx => ?_)
      obtain ⟨zs, rfl, hz⟩ := hx
      exact Settles.map (f := Val.coll) (serQueue_fin (hA' t) (hmk t).fresh hs (I := fun zs => ys <+: zs)
        (fun acc y ha _ => ha.trans (List.prefix_append _ _)) hz) (fun zs hz => ⟨zs, rfl, hz⟩)
    | oset a cmp t =>
      show Keeps _ (dispatchEach _) (dispatchEachEnd (oneOf (dispatchEach _)) _)
      rw [oneOf_each]
      refine dispatchEach_keeps (fun s x hs hx => ?_)
      obtain ⟨zs, rfl, hz⟩ := hx
      refine Settles.map (f := Val.coll) (serMapLike_fin (I := fun zs => ys.Sublist zs)
        (hA' t) (hmk t).fresh (fun acc y ha _ => ?_) hs hz) (fun zs hz => ⟨zs, rfl, hz⟩)
      refine ha.trans ?_
      unfold Env.emplaceO
      split
      · exact emplaceMulti_sublist acc y
      · exact emplaceUnique_sublist acc y
    | uset a eq t =>
      show Keeps _ (dispatchEach _) (dispatchEachEnd (oneOf (dispatchEach _)) _)
      rw [oneOf_each]
      refine dispatchEach_keeps (fun s x hs hx => ?_)
      obtain ⟨zs, rfl, hz⟩ := hx
      refine Settles.map (f := Val.coll) (serMapLike_fin (I := fun zs => ys.Subperm zs)
        (hA' t) (hmk t).fresh (fun acc y ha _ => ?_) hs hz) (fun zs hz => ⟨zs, rfl, hz⟩)
      refine ha.trans ?_
      unfold Env.emplaceU emplaceUnordered
      split
      · exact List.Subperm.refl _
      · exact (List.Sublist.subperm (List.sublist_cons_self y acc)).trans (hE.arrange eq (y :: acc)).symm.subperm
    | _ => exact ht.elim

/-- What was in a queue or an associative container before the call is there after the exception. -/
theorem C76_elements (hE : env.Sound cfg) (inp : Bytes) {ys : List Val} (ht : StillHas t ys ys) {e : Err} :
    (Yields (fun n => deserializeInPlaceFromStream cfg (elem cfg env n t) inp (.coll ys)) (.throw e) →
      ∃ zs, StillHas t ys zs ∧
        Leaves (fun n => inPlaceFromStreamEnd cfg (elem cfg env n t) (dispatchEnd cfg env n t) inp (.coll ys)) (.coll zs)) ∧
    (Yields (fun n => deserializeInPlace cfg (elem cfg env n t) inp (.coll ys)) (.throw e) →
      ∃ zs, StillHas t ys zs ∧
        Leaves (fun n => inPlaceEnd cfg (elem cfg env n t) (dispatchEnd cfg env n t) inp (.coll ys)) (.coll zs)) := by
  have key : ∀ {s : Ser} {n : Nat}, s.isUnpacking = true → traverseTop cfg (elem cfg env n t) s (.coll ys) = .throw e →
      ∃ zs, StillHas t ys zs ∧ Leaves (fun n => traverseTopEnd cfg (elem cfg env n t) (dispatchEnd cfg env n t) s
        (.coll ys)) (.coll zs) := by
    intro s n hs h
    have hf := traverseTop_fin (cfg := cfg) (e := elem cfg env n t) (grows_keeps hE n ht) hs ⟨ys, rfl, ht⟩
    rw [h] at hf
    obtain ⟨_, h1, zs, rfl, h2⟩ := hf
    exact ⟨zs, h2, yields_of (fun n m => ends_le s _) h1⟩
  constructor
  · rintro ⟨n, h⟩
    exact key rfl (throw_of_bind (h n (Nat.le_refl n)))
  · rintro ⟨n, h⟩
    exact key rfl (throw_of_bind (h n (Nat.le_refl n)))

end

/-! ## Examples -/

namespace Demo

theorem throws_of (check ndebug : Bool) {t : Ty} {inp : Bytes} {y : Val} {e : Err} {n : Nat}
    (h : deserializeInPlaceFromStream (cfg check ndebug) (elem (cfg check ndebug) env n t) inp y = .throw e) :
    Yields (fun n => deserializeInPlaceFromStream (cfg check ndebug) (elem (cfg check ndebug) env n t) inp y)
      (.throw e) :=
  Yields.at (fun {_ _} hnm => inStream_le (elem_le (cfg check ndebug) env hnm t) _ y) n h nofun

/-- The beginning of a checkpoint of `std::vector<int>{1, 2}`: the second element is incomplete. -/
def cut : Bytes :=
  intBytes .little 4 (env.ti (.vec int)).idx ++ intBytes .little 8 2 ++ intBytes .little 8 2 ++ [1, 0, 0, 0, 2, 0]

end Demo

/-- There is no more than that: reading the beginning of a checkpoint of `{1, 2}` into a vector of three elements throws,
and leaves `{1, n}`, neither what it was nor what was saved; of `n` two bytes have been read. -/
theorem C76_no_rollback :
    Yields (fun n => deserializeInPlaceFromStream (Demo.cfg false false) (elem (Demo.cfg false false) Demo.env n (.vec Demo.int))
      Demo.cut (.vec 3 [.raw [9, 0, 0, 0], .raw [9, 1, 1, 1], .raw [9, 0, 0, 0]])) (.throw .streamShort) ∧
    Leaves (fun n => inPlaceFromStreamEnd (Demo.cfg false false) (elem (Demo.cfg false false) Demo.env n (.vec Demo.int))
      (dispatchEnd (Demo.cfg false false) Demo.env n (.vec Demo.int))
      Demo.cut (.vec 3 [.raw [9, 0, 0, 0], .raw [9, 1, 1, 1], .raw [9, 0, 0, 0]]))
      (.vec 3 [.raw [1, 0, 0, 0], .raw [2, 0, 1, 1]]) :=
  ⟨Demo.throws_of false false (n := 2) rfl, yields_of (fun _ _ => ends_le _ _) (n := 2) rfl⟩

/-- A stream with arbitrary contents read into a set that holds something: the assumptions hold. -/
example : Demo.env.Sound (Demo.cfg true false) ∧
    (Formed Demo.env (.oset .set 0 Demo.int) (.coll [.raw [5, 0, 0, 0]]) ∧
      ByVal (.oset .set 0 Demo.int) (.coll [.raw [5, 0, 0, 0]])) ∧
    StillHas (.oset .set 0 Demo.int) [.raw [5, 0, 0, 0]] [.raw [5, 0, 0, 0]] ∧
    Yields (fun n => deserializeInPlaceFromStream (Demo.cfg true false)
      (elem (Demo.cfg true false) Demo.env n (.oset .set 0 Demo.int)) [1, 2, 3] (.coll [.raw [5, 0, 0, 0]]))
      (.throw .streamShort) :=
  ⟨Demo.sound, ⟨.oset (by simp [Env.Sorted]) (by simp [ByVal, Demo.int])
    (by intro x hx; rw [List.mem_singleton.1 hx]; exact .prim rfl), trivial⟩, List.Sublist.refl _,
    Demo.throws_of true false (n := 2) rfl⟩

/-- An optional that holds a value, and the beginning of a checkpoint of another. -/
example : ReadAside (.opt Demo.int) ∧
    Yields (fun n => deserializeInPlaceFromStream (Demo.cfg false false)
      (elem (Demo.cfg false false) Demo.env n (.opt Demo.int))
      (intBytes .little 4 (Demo.env.ti (.opt Demo.int)).idx ++ [1, 7, 0, 0]) (.opt (some (.raw [5, 0, 0, 0]))))
      (.throw .streamShort) ∧
    Leaves (fun n => inPlaceFromStreamEnd (Demo.cfg false false) (elem (Demo.cfg false false) Demo.env n (.opt Demo.int))
      (dispatchEnd (Demo.cfg false false) Demo.env n (.opt Demo.int))
      (intBytes .little 4 (Demo.env.ti (.opt Demo.int)).idx ++ [1, 7, 0, 0]) (.opt (some (.raw [5, 0, 0, 0]))))
      (.opt (some (.raw [5, 0, 0, 0]))) :=
  ⟨trivial, Demo.throws_of false false (n := 2) rfl, yields_of (fun _ _ => ends_le _ _) (n := 2) rfl⟩

end Ckpt
