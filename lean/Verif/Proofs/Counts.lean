import Verif.Spec.Counts
import Verif.Proofs.ComposeAll
/-!
What the footprinter counts, for types nested in any way.
-/

set_option autoImplicit false

namespace Ckpt

variable {cfg : Cfg} {T A B O V : Type}

/-- Footprinters only. -/
def footScope : Scope := Scope.quiet (· = .footprinter)

theorem footScope_iff {s : Ser} : s.Footer footScope ↔ ∃ m < 2 ^ 64, s = .counted m := by
  obtain ⟨core, kind, vdis⟩ := s
  constructor
  · rintro ⟨h1, h2, h3⟩
    cases core with
    | footprinter m =>
      have h1 : vdis = false := h1
      have h2 : kind = .footprinter := h2
      subst h1 h2
      exact ⟨m, h3, rfl⟩
    | _ => exact h3.elim
  · rintro ⟨m, hm, h⟩
    cases h
    exact ⟨rfl, rfl, hm⟩

theorem fp_iff {m : Ser → Out (B × Ser)} {f : Nat} {b : B} : Fp footScope m f b ↔
    ∀ k < 2 ^ 64, m (.counted k) = .ok (b, .counted ((k + f) % 2 ^ 64)) := by
  constructor
  · intro h k hk
    exact h _ (footScope_iff.2 ⟨k, hk, rfl⟩)
  · intro h s hs
    obtain ⟨k, hk, rfl⟩ := footScope_iff.1 hs
    exact h k hk

theorem counts_iff {t : CppType T} {x : T} {f : Nat} : Counts cfg t x f ↔
    ∃ n0, ∀ n ≥ n0, Fp footScope (fun s => pipe cfg (t.elem n) s x) f x := by
  simp only [Counts, fp_iff]

theorem countsAll_iff {t : CppType T} {xs : List T} {f : Nat} : CountsArray cfg t xs f ↔
    ∃ n0, ∀ n ≥ n0, Fp footScope (fun s => serializeArray cfg (t.elem n) s xs) f xs := by
  simp only [CountsArray, fp_iff]

/-- The bytes counted matter as `size_t` only. -/
theorem Fp.mod {K : Scope} {m : Ser → Out (B × Ser)} {f g : Nat} {b : B} (h : Fp K m f b)
    (e : f % 2 ^ 64 = g % 2 ^ 64) : Fp K m g b := by
  intro s hs
  rw [h s hs]
  obtain ⟨core, kind, vdis⟩ := s
  cases core with
  | footprinter k =>
    simp only [Ser.addBytes, sizeMod, Out.ok.injEq, Prod.mk.injEq, true_and, Ser.mk.injEq, Core.footprinter.injEq, and_true]
    omega
  | _ => exact hs.2.2.elim

theorem Fp.unique {m : Ser → Out (B × Ser)} {f g : Nat} {b c : B} (h : Fp footScope m f b) (h' : Fp footScope m g c) :
    f % 2 ^ 64 = g % 2 ^ 64 := by
  have e := (fp_iff.1 h 0 (by decide)).symm.trans (fp_iff.1 h' 0 (by decide))
  simp only [Ser.counted, Out.ok.injEq, Prod.mk.injEq, Ser.mk.injEq, Core.footprinter.injEq, and_true, Nat.zero_add] at e
  exact e.2

theorem Fp.foot {K : Scope} (hK : K.kinds .footprinter) {m : Ser → Out (B × Ser)} {f : Nat} {b : B} (h : Fp K m f b) :
    Fp footScope m f b := by
  intro s hs
  obtain ⟨k, hk, rfl⟩ := footScope_iff.1 hs
  exact h _ ⟨rfl, hK, hk⟩

/-- A type whose objects are serialized one after the other. -/
theorem each_fp {K : Scope} {t : CppType T} {n : Nat} {g : Ser → T → Out (T × Ser)} (ht : t.apply n = dispatchEach g) {x : T} {f : Nat}
    (h : Fp K (fun s => g s x) f x) : Fp K (fun s => pipe cfg (t.elem n) s x) f x := by
  have h1 : Fp K (fun s => dispatchEach g s [x]) f [x] := (h.map fun y => [y]).congr (fun s _ => by
    simp only [dispatchEach, Out.bind_eq]
    cases g s x <;> rfl) rfl
  refine (only_fp (traverse_fp (cfg := cfg) (ti := t.ti) (h := t.apply n) ?_)).congr (fun _ _ => pipe_eq _ _ _) rfl
  rw [ht]
  exact h1

theorem first_fp {K : Scope} {t : CppType T} {n : Nat} {g : Ser → T → Out (T × Ser)} (ht : t.apply n = dispatchFirst g) {x : T} {f : Nat}
    (h : Fp K (fun s => g s x) f x) : Fp K (fun s => pipe cfg (t.elem n) s x) f x := by
  have h1 : Fp K (fun s => dispatchFirst g s [x]) f [x] := (h.map fun y => [y]).congr (fun s _ => rfl) rfl
  refine (only_fp (traverse_fp (cfg := cfg) (ti := t.ti) (h := t.apply n) ?_)).congr (fun _ _ => pipe_eq _ _ _) rfl
  rw [ht]
  exact h1

theorem counts_each {t : CppType T} {g : Nat → Ser → T → Out (T × Ser)} (ht : ∀ n, t.apply n = dispatchEach (g n)) {x : T} {f : Nat}
    (h : ∃ n0, ∀ n ≥ n0, Fp footScope (fun s => g n s x) f x) : Counts cfg t x f := by
  obtain ⟨n0, h0⟩ := h
  exact counts_iff.2 ⟨n0, fun n hn => each_fp (ht n) (h0 n hn)⟩

/-! ### Elements of containers -/

theorem Counts.fps {t : CppType T} {xs : List T} {f : T → Nat} (h : ∀ x ∈ xs, Counts cfg t x (f x)) :
    ∃ n0, ∀ n ≥ n0, ∀ x ∈ xs, Fp footScope (fun s => pipe cfg (t.elem n) s x) (f x) x :=
  eventually_list (Q := fun x n => Fp footScope (fun s => pipe cfg (t.elem n) s x) (f x) x) fun x hx => counts_iff.1 (h x hx)

theorem pipeEach_counts {K : Scope} {e : Elem T} {f : T → Nat} : ∀ {xs : List T},
    (∀ x ∈ xs, Fp K (fun s => pipe cfg e s x) (f x) x) → Fp K (fun s => pipeEach cfg e s xs) (xs.map f).sum xs
  | [], _ => Fp.pure []
  | x :: xs, h => ((h x (.head _)).bind (k := fun p => pipeEach cfg e p.2 xs >>= fun q => .ok (p.1 :: q.1, q.2)) (c := x :: xs)
      ((pipeEach_counts fun y hy => h y (.tail _ hy)).map fun ys => x :: ys)).congr (fun _ _ => rfl) (by simp)

theorem list_counts {t : CppType T} {ti : TI} {c : Bool} {xs : List T} {f : T → Nat} (h : ∀ x ∈ xs, Counts cfg t x (f x)) :
    Counts cfg (.list cfg ti c t) xs (ti.sizeof + (xs.map f).sum) := by
  obtain ⟨n0, h0⟩ := Counts.fps h
  refine counts_each (fun _ => rfl) ⟨n0, fun n hn => ?_⟩
  unfold serList
  refine (contSize_fp).bind ?_
  exact (pipeEach_counts (h0 n hn)).congr (fun s hs => by simp [hs.not_unpacking]) rfl

theorem mapLike_counts {t : CppType T} {sz n : Nat} {em : List T → T → List T} {xs : List T} {f : T → Nat}
    (h : ∀ x ∈ xs, Fp footScope (fun s => pipe cfg (t.elem n) s x) (f x) x) :
    Fp footScope (fun s => serMapLike cfg sz em (t.elem n) s xs) (sz + (xs.map f).sum) xs := by
  unfold serMapLike
  refine (contSize_fp).bind ?_
  exact (pipeEach_counts h).congr (fun s hs => by simp [hs.not_unpacking]) rfl

theorem vector_counts {t : CppType T} {ti : TI} {c : Bool} {v : Vec T} {f : Nat} (h : CountsArray cfg t v.elems f) :
    Counts cfg (.vector cfg ti c t) v (ti.sizeof + (f + t.ti.sizeof * (v.cap - v.elems.length))) := by
  obtain ⟨n0, h0⟩ := countsAll_iff.1 h
  refine counts_each (fun _ => rfl) ⟨n0, fun n hn => ?_⟩
  have h1 := ((h0 n hn).bind (b := v.elems) (k := fun p =>
      .ok ({ v with elems := p.1 }, p.2.addBytes ((t.elem n).ti.sizeof * (v.cap - v.elems.length))))
      (c := v) (Fp.addBytes_post v _)).addBytes_pre (k := ti.sizeof)
  refine h1.congr ?_ rfl
  intro s hs
  simp [serVector, hs.footprinting]

/-! ### Members -/

theorem members_counts {ms : MemberTypes O} {o : O} {fs : List Nat} (h : ms.Counts cfg o fs) :
    ∃ n0, ∀ n ≥ n0, Fp footScope (fun s => ms.visit cfg n s o) fs.sum o := by
  induction h with
  | nil => exact ⟨0, fun _ _ => Fp.pure ()⟩
  | @cons A O t ms a o f fs ha _ ih =>
    obtain ⟨n1, h1⟩ := counts_iff.1 ha
    obtain ⟨n2, h2⟩ := ih
    refine ⟨max n1 n2, fun n hn => ?_⟩
    exact ((h1 n (by omega)).bind (k := fun p => ms.visit cfg n p.2 o >>= fun q => .ok ((p.1, q.1), q.2)) (c := (a, o))
      ((h2 n (by omega)).map fun r => (a, r))).congr (fun _ _ => rfl) (by simp)

theorem MemberTypes.Counts.length {ms : MemberTypes O} {o : O} {fs : List Nat} (h : ms.Counts cfg o fs) : fs.length = ms.length := by
  induction h with
  | nil => rfl
  | cons _ _ ih => simp [MemberTypes.length, ih]

theorem part_counts {ms : MemberTypes O} {o : O} {fs : List Nat} (h : ms.Counts cfg o fs) :
    ∃ n0, ∀ n ≥ n0, ∀ i < fs.length, Fp footScope (fun s => ms.visitAt cfg n i s o) (fs.getD i 0) o := by
  induction h with
  | nil => exact ⟨0, fun _ _ i hi => by simp at hi⟩
  | @cons A O t ms a o f fs ha _ ih =>
    obtain ⟨n1, h1⟩ := counts_iff.1 ha
    obtain ⟨n2, h2⟩ := ih
    refine ⟨max n1 n2, fun n hn i hi => ?_⟩
    cases i with
    | zero => exact ((h1 n (by omega)).map fun a => (a, o)).congr (fun _ _ => rfl) rfl
    | succ i => exact ((h2 n (by omega) i (by simpa using hi)).map fun r => (a, r)).congr (fun _ _ => rfl) (by simp)

theorem order_counts {ms : MemberTypes O} {o : O} {n : Nat} {g : Nat → Nat} : ∀ {is : List Nat},
    (∀ i ∈ is, Fp footScope (fun s => ms.visitAt cfg n i s o) (g i) o) →
    Fp footScope (fun s => ms.visitOrder cfg n is s o) (is.map g).sum o
  | [], _ => Fp.pure o
  | i :: is, h => ((h i (.head _)).bind (k := fun p => ms.visitOrder cfg n is p.2 p.1)
      (order_counts fun j hj => h j (.tail _ hj))).congr (fun _ _ => rfl) (by simp)

theorem chain_counts {reg : SerReg} {root : Nat} {ms : MemberTypes O} {o : O} {fs : List Nat} (h : ms.Counts cfg o fs) :
    ∀ (ks : List Nat), ks.length = ms.length →
    (∀ k ∈ ks, reg.lookup cfg.ndebug k root .footprinter = .ok .footprinter) →
    ∃ n0, ∀ n ≥ n0, Fp footScope (fun s => ms.chain cfg reg root n ks s o) fs.sum o := by
  induction h with
  | nil =>
    intro ks hk _
    cases ks with
    | nil => exact ⟨0, fun _ _ => Fp.pure ()⟩
    | cons _ _ => simp [MemberTypes.length] at hk
  | @cons A O t ms a o f fs ha _ ih =>
    intro ks hk hl
    cases ks with
    | nil => simp [MemberTypes.length] at hk
    | cons k ks =>
      obtain ⟨n1, h1⟩ := counts_iff.1 ha
      obtain ⟨n2, h2⟩ := ih ks (by simpa [MemberTypes.length] using hk) fun k hk => hl k (.tail _ hk)
      refine ⟨max n1 n2, fun n hn => ?_⟩
      refine ((h1 n (by omega)).bind (k := fun p => ms.chain cfg reg root n ks p.2 o >>= fun q => .ok ((p.1, q.1), q.2))
        (c := (a, o)) ((h2 n (by omega)).map fun r => (a, r))).congr (fun s hs => ?_) (by simp)
      have hk' : s.kind = .footprinter := hs.2.1
      exact chain_cons n hs.1 (by rw [hk']; exact hl k (.head _)) (a, o)

/-! ### Alternatives -/

theorem AltTypes.Counts.at_lt {as : AltTypes V} {v : V} {f : Nat} (h : as.Counts cfg v f) : as.at v < as.length := by
  induction h with
  | here _ => simp [AltTypes.at, AltTypes.length]
  | there _ ih => simp only [AltTypes.at, AltTypes.length]; omega

theorem alt_counts {as : AltTypes V} {v : V} {f : Nat} (h : as.Counts cfg v f) :
    ∃ n0, ∀ n ≥ n0, Fp footScope (fun s => as.entry cfg n s (some v) (as.at v)) f (some v) := by
  induction h with
  | @here A V t as a f ha =>
    obtain ⟨n1, h1⟩ := counts_iff.1 ha
    exact ⟨n1, fun n hn => ((h1 n hn).map fun b => some (Sum.inl b : A ⊕ V)).congr
      (fun s hs => by simp [AltTypes.entry, AltTypes.at, hs.not_unpacking]) rfl⟩
  | @there A V t as v f _ ih =>
    obtain ⟨n1, h1⟩ := ih
    refine ⟨n1, fun n hn s hs => ?_⟩
    have := h1 n hn s hs
    simp only [AltTypes.entry, AltTypes.at, beyondFirst, Out.bind_eq] at this ⊢
    rw [this]
    rfl

theorem dyn_counts {env : Env} {ds : DynTypes V} {v : V} {fs : List Nat} (h : ds.Counts cfg v fs) :
    (∀ d ∈ ds.classes, ∀ k ∈ env.chain d, env.serReg.lookup cfg.ndebug k (env.root d) .footprinter = .ok .footprinter) →
    ds.Fits env →
    ∃ n0, ∀ n ≥ n0, Fp footScope (fun s => ds.serialize cfg env n s v) fs.sum v := by
  induction h with
  | @here O V d fresh ms ds o fs hm =>
    intro hl hf
    obtain ⟨n0, h0⟩ := chain_counts (reg := env.serReg) (root := env.root d) hm (env.chain d) hf.1.symm (hl d (.head _))
    exact ⟨n0, fun n hn => (h0 n hn).map Sum.inl⟩
  | @there O V d fresh ms ds v fs _ ih =>
    intro hl hf
    obtain ⟨n0, h0⟩ := ih (fun d hd => hl d (.tail _ hd)) hf.2
    exact ⟨n0, fun n hn => (h0 n hn).map Sum.inr⟩

/-! ### Functions with control flow -/

theorem prog_counts (hc : cfg.Valid) {x : O} {p : Prog O} {f : Nat} (h : p.Counts cfg x f) :
    ∃ n0, ∀ n ≥ n0, Fp footScope (fun s => p.run cfg n s x) f x := by
  induction h with
  | done => exact ⟨0, fun _ _ => Fp.pure x⟩
  | @visit A t get set k a f g hg hs ha _ ih =>
    obtain ⟨n1, h1⟩ := counts_iff.1 ha
    obtain ⟨n2, h2⟩ := ih
    refine ⟨max n1 n2, fun n hn => ?_⟩
    refine ((h1 n (by omega)).bind (k := fun p => k.run cfg n p.2 (set p.1 x)) (n' := g) ?_).congr
      (fun _ _ => by rw [Prog.run, hg]) rfl
    simp only [hs]
    exact h2 n (by omega)
  | @block A t get set k as f g hg hs ha _ ih =>
    obtain ⟨n1, h1⟩ := countsAll_iff.1 ha
    obtain ⟨n2, h2⟩ := ih
    refine ⟨max n1 n2, fun n hn => ?_⟩
    refine ((h1 n (by omega)).bind (k := fun p => k.run cfg n p.2 (set p.1 x)) (n' := g) ?_).congr
      (fun _ _ => by rw [Prog.run, hg]) rfl
    simp only [hs]
    exact h2 n (by omega)
  | @value A t v k f g ha _ ih =>
    obtain ⟨n1, h1⟩ := counts_iff.1 ha
    obtain ⟨n2, h2⟩ := ih
    exact ⟨max n1 n2, fun n hn => ((h1 n (by omega)).bind (k := fun p => (k p.1).run cfg n p.2 x)
      (h2 n (by omega))).congr (fun _ _ => rfl) rfl⟩
  | @count v k g hv _ ih =>
    obtain ⟨n2, h2⟩ := ih
    exact ⟨n2, fun n hn => ((pipeSize_fp hc hv).bind (k := fun p => (k p.1).run cfg n p.2 x)
      (h2 n hn)).congr (fun _ _ => rfl) rfl⟩
  | @flag v k g _ ih =>
    obtain ⟨n2, h2⟩ := ih
    exact ⟨n2, fun n hn => ((pipeBool_fp hc).bind (k := fun p => (k p.1).run cfg n p.2 x)
      (h2 n hn)).congr (fun _ _ => rfl) rfl⟩
  | @update h k g hg _ ih =>
    obtain ⟨n2, h2⟩ := ih
    exact ⟨n2, fun n hn => (h2 n hn).congr (fun _ _ => by rw [Prog.run, hg]) rfl⟩
  | @mode r w g _ ih =>
    obtain ⟨n2, h2⟩ := ih
    exact ⟨n2, fun n hn => (h2 n hn).congr (fun s hs => by simp [Prog.run, hs.not_unpacking]) rfl⟩
  | @addBytes v k g _ ih =>
    obtain ⟨n2, h2⟩ := ih
    refine ⟨n2, fun n hn => ?_⟩
    exact ((h2 n hn).addBytes_pre (k := v x)).congr (fun _ _ => rfl) rfl
  | @look k g _ ih =>
    obtain ⟨n2, h2⟩ := ih
    exact ⟨n2, fun n hn => (h2 n hn).congr (fun _ _ => rfl) rfl⟩

/-! ### Types with laws -/

section
variable {K : Scope} {t : CppType T} {u : Usage T} {C : Nat → Codec T}

theorem Composes.fp_eq (hC : Composes K cfg t u C) (hK : K.kinds .footprinter) {n : Nat} {x : T} (hx : (C n).P x) {f : Nat}
    (h : Fp footScope (fun s => pipe cfg (t.elem n) s x) f x) : (C n).fp x % 2 ^ 64 = f % 2 ^ 64 :=
  Fp.unique ((pipe_fp (hC.elaw n) hx).foot hK) h

theorem sum_mod_congr {f g : T → Nat} : ∀ {xs : List T}, (∀ x ∈ xs, f x % 2 ^ 64 = g x % 2 ^ 64) →
    (xs.map f).sum % 2 ^ 64 = (xs.map g).sum % 2 ^ 64
  | [], _ => rfl
  | x :: xs, h => by
    have h1 := h x (.head _)
    have h2 := sum_mod_congr (xs := xs) fun y hy => h y (.tail _ hy)
    simp only [List.map_cons, List.sum_cons]
    omega

/-- Arrays count what their elements count. -/
theorem Composes.countsAll (hC : Composes K cfg t u C) (hK : K.kinds .footprinter) {xs : List T} (hx : ∀ x ∈ xs, u.ok x)
    (hm : u.many xs.length) {f : T → Nat} (h : ∀ x ∈ xs, Counts cfg t x (f x)) : CountsArray cfg t xs (xs.map f).sum := by
  obtain ⟨n0, h0⟩ := hC.all hx
  obtain ⟨n1, h1⟩ := Counts.fps h
  refine countsAll_iff.2 ⟨max n0 n1, fun n hn => ?_⟩
  refine ((serializeArray_fp (hC.elaw n) (h0 n (by omega)) (hC.multi n _ hm)).foot hK).mod (sum_mod_congr fun x hx' => ?_)
  exact hC.fp_eq hK (h0 n (by omega) x hx') (h1 n (by omega) x hx')

/-- What is counted can be read off the codec. -/
theorem Composes.counts (hC : Composes K cfg t u C) (hK : K.kinds .footprinter) {x : T} {f : Nat}
    (h : ∃ n0, ∀ n ≥ n0, (C n).P x ∧ (C n).fp x % 2 ^ 64 = f % 2 ^ 64) : Counts cfg t x f := by
  obtain ⟨n0, h0⟩ := h
  exact counts_iff.2 ⟨n0, fun n hn => ((pipe_fp (hC.elaw n) (h0 n hn).1).foot hK).mod (h0 n hn).2⟩

end

end Ckpt
