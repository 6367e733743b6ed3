import Verif.Proofs.Top
/-!
Reading a prefix of the input and then ending without a result.
-/

set_option autoImplicit false

namespace Ckpt

/-- A way to end that headers and enclosing traversals do not change. -/
inductive Fin
  | throw (e : Err)
  | abort
  | ub (u : UB)

/-- As an outcome. -/
def Fin.out {α : Type} : Fin → Out α
  | .throw e => .throw e
  | .abort => .abort
  | .ub u => .ub u

/-- Not a `serialization_error`, whose message the traversals extend. -/
def Fin.Plain : Fin → Prop
  | .throw (.ser ..) => False
  | _ => True

/-- On every reading serializer whose input starts with `p`, the computation ends with `f`. -/
def Ends (K : Scope) {B : Type} (m : Ser → Out B) (p : Bytes) (f : Fin) : Prop :=
  ∀ s, s.Reader K → ∀ rest, s.remaining = p ++ rest → m s = f.out

section
variable {K : Scope} {cfg : Cfg} {B C T : Type} {f : Fin}

theorem Fin.out_bind (f : Fin) (k : B → Out C) : (f.out : Out B).bind k = f.out := by
  cases f <;> rfl

theorem Fin.out_catch {ti : TI} (hf : f.Plain) : catchDepth ti (f.out : Out B) = f.out := by
  cases f with
  | throw e => cases e <;> first | exact hf.elim | rfl
  | _ => rfl

theorem Ends.of {m : Ser → Out B} (h : ∀ s, s.Reader K → m s = f.out) : Ends K m [] f :=
  fun s hs _ _ => h s hs

theorem Ends.congr {m m' : Ser → Out B} {p : Bytes} (h : Ends K m p f)
    (hm : ∀ s, s.Reader K → m' s = m s) : Ends K m' p f := by
  intro s hs rest hr
  rw [hm s hs]
  exact h s hs rest hr

theorem Ends.bind {m : Ser → Out (B × Ser)} {p : Bytes} (h : Ends K m p f) (k : B × Ser → Out C) :
    Ends K (fun s => m s >>= k) p f := by
  intro s hs rest hr
  simp only [Out.bind_eq, h s hs rest hr, f.out_bind]

theorem Rd.ends (hE : ∀ e, ¬ K.errs e) {m : Ser → Out (B × Ser)} {k : B × Ser → Out C} {bs p : Bytes}
    {Q : B → Prop} (h1 : Rd K m bs Q) (h2 : ∀ b, Q b → Ends K (fun s => k (b, s)) p f) :
    Ends K (fun s => m s >>= k) (bs ++ p) f := by
  intro s hs rest hr
  rw [List.append_assoc] at hr
  obtain ⟨b, hb, he⟩ := (h1.ok hE hs).1 _ hr
  simp only [Out.bind_eq, he, Out.bind_ok]
  refine h2 b hb _ (hs.advance (by rw [hr]; simp)) rest ?_
  rw [Ser.remaining_advance, hr, List.drop_left]

theorem traverse_ends (hE : ∀ e, ¬ K.errs e) (hf : f.Plain) {ti : TI} (hti : ti.Valid) {h : Handler T} {ys : List T}
    {p : Bytes} (hh : Ends K (fun s => h s ys) p f) :
    Ends K (fun s => traverse cfg ti h s ys) ((if cfg.check then intBytes cfg.endian 4 ti.idx else []) ++ p) f := by
  by_cases hc : cfg.check = true
  · simp only [hc, if_true]
    refine ((withTypeIdx_rd (K := K) (cfg := cfg) hti).ends hE (k := fun r => catchDepth ti (h r.2 ys) >>= fun q =>
      withMemUsed cfg ti q.2 ys.length >>= fun s => .ok (q.1, s)) (p := p) (f := f) ?_).congr ?_
    · intro _ _ s hs rest hr
      simp only [hh s hs rest hr, Fin.out_catch hf, Out.bind_eq, f.out_bind]
    · intro s _
      simp only [traverse, hc, if_true, withTypeIdx', Out.bind_eq, Out.bind_assoc, Out.bind_ok]
  · simp only [hc]
    exact hh.congr (fun s _ => by simp [traverse, hc])

theorem pipe_ends (hE : ∀ e, ¬ K.errs e) (hf : f.Plain) {e : Elem T} (hti : e.ti.Valid) {y : T}
    {p : Bytes} (hh : Ends K (fun s => e.apply s [y]) p f) :
    Ends K (fun s => pipe cfg e s y) ((if cfg.check then intBytes cfg.endian 4 e.ti.idx else []) ++ p) f :=
  ((traverse_ends (cfg := cfg) hE hf hti hh).bind only).congr (fun s _ => pipe_eq e s y)

theorem top_ends (hE : ∀ e, ¬ K.errs e) (hf : f.Plain) {e : Elem T} (hti : e.ti.Valid) {y : T}
    {p : Bytes} (hh : Ends K (fun s => e.apply s [y]) p f) :
    Ends K (fun s => traverseTop cfg e s y) (intBytes cfg.endian 4 e.ti.idx ++ p) f := by
  have hp := pipe_ends (cfg := cfg) hE hf hti hh
  by_cases hc : cfg.check = true
  · simp only [hc, if_true] at hp
    exact hp.congr (fun s _ => by simp [traverseTop, hc])
  · simp only [hc, Bool.false_eq_true, if_false, List.nil_append] at hp
    refine ((withTypeIdx_rd (K := K) (cfg := cfg) hti).ends hE (k := fun r => pipe cfg e r.2 y >>= fun q =>
      withMemUsed cfg e.ti q.2 1 >>= fun s => .ok (q.1, s)) (p := p) (f := f) (fun _ _ => hp.bind _)).congr ?_
    intro s _
    simp only [traverseTop, hc, Bool.false_eq_true, if_false, withTypeIdx', Out.bind_eq, Out.bind_assoc, Out.bind_ok]

theorem each_ends {g : Ser → T → Out (T × Ser)} {y : T} {p : Bytes} (h : Ends K (fun s => g s y) p f) :
    Ends K (fun s => dispatchEach g s [y]) p f :=
  (h.bind _).congr (fun _ _ => rfl)

end

section
variable {K : Kind → Prop} {cfg : Cfg} {env : Env} {t : Ty}

/-- All four ways to read the input end with `f`. -/
def AllEnd (cfg : Cfg) (env : Env) (t : Ty) (inp : Bytes) (y : Val) (f : Fin) : Prop :=
  Yields (fun n => deserializeInPlace cfg (elem cfg env n t) inp y) f.out ∧
  Yields (fun n => deserializeInPlaceFromStream cfg (elem cfg env n t) inp y) f.out

theorem Fin.out_ne_fuel {α : Type} (f : Fin) : (f.out : Out α) ≠ .fuel := by
  cases f <;> simp [Fin.out]

theorem allEnd_of_ends (hK : ∀ k, k ∈ builtinKinds → K k) {n : Nat} {y : Val} {p : Bytes} {f : Fin}
    (h : Ends (Scope.quiet K) (fun s => traverseTop cfg (elem cfg env n t) s y) p f) (rest : Bytes) :
    AllEnd cfg env t (p ++ rest) y f := by
  constructor
  · have hr : Ser.Reader (Scope.quiet K) { core := .unpacker (p ++ rest) 0 0, kind := .unpacker } :=
      ⟨rfl, hK .unpacker (by decide), by simp⟩
    have he := h _ hr rest (by simp [Ser.remaining])
    simp only at he
    refine Yields.at (fun {n m} hnm => inPlace_le (elem_le cfg env hnm t) _ y) n ?_ f.out_ne_fuel
    unfold deserializeInPlace
    rw [he]
    exact f.out_bind _
  · have hr : Ser.Reader (Scope.quiet K)
        { core := .streamUnpacker (p ++ rest) 0, kind := .streamUnpacker } :=
      ⟨rfl, hK .streamUnpacker (by decide), trivial⟩
    have he := h _ hr rest (by simp [Ser.remaining])
    simp only at he
    refine Yields.at (fun {n m} hnm => inStream_le (elem_le cfg env hnm t) _ y) n ?_ f.out_ne_fuel
    unfold deserializeInPlaceFromStream
    rw [he]
    exact f.out_bind _

end
end Ckpt
