import Verif.Props.TornLists
import Verif.Proofs.DeliveredVector
/-!
# C77, vectors: what had been delivered completely is there
-/

set_option autoImplicit false

namespace Ckpt

/-- Types whose objects are read one after the other: all but classes and those copied as bytes. -/
def OneByOne : Ty → Bool
  | .prim _ _ | .cls _ => false
  | .variant ts => !Ty.allByteCopied ts
  | _ => true

/-- Bytes of the header of an array. -/
def headLength (cfg : Cfg) : Nat := if cfg.check then 4 else 0

section
variable {cfg : Cfg} {env : Env} {t : Ty}

theorem oneByOne_each (h : OneByOne t = true) (n : Nat) : ∃ f g, dispatch cfg env (n + 1) t = dispatchEach f ∧
    dispatchEnd cfg env (n + 1) t = dispatchEachEnd f g := by
  have key : ∀ {f : Ser → Val → Out (Val × Ser)} {g : Ser → Val → Out Val}, dispatch cfg env (n + 1) t = dispatchEach f →
      dispatchEnd cfg env (n + 1) t = dispatchEachEnd (oneOf (dispatchEach f)) g →
      ∃ f g, dispatch cfg env (n + 1) t = dispatchEach f ∧ dispatchEnd cfg env (n + 1) t = dispatchEachEnd f g :=
    fun {f g} h1 h2 => ⟨f, g, h1, by rw [h2, oneOf_each]⟩
  cases t with
  | prim _ _ => cases h
  | cls _ => cases h
  | variant ts =>
    have hb : Ty.allByteCopied ts = false := by simpa [OneByOne] using h
    have e1 : dispatch cfg env (n + 1) (.variant ts) = dispatchVariant cfg (ts.map fun t => env.elemOf (dispatch cfg env n t) t) := by
      show dispatchStep cfg env (dispatch cfg env n) (.variant ts) = _
      unfold dispatchStep
      simp only [hb, Bool.false_eq_true, if_false]
    have e2 : dispatchEnd cfg env (n + 1) (.variant ts) = dispatchEachEnd (oneOf (dispatch cfg env (n + 1) (.variant ts)))
        (variantEnd cfg (ts.map fun t => env.elemOf (dispatch cfg env n t) t)) := by
      show dispatchStepEnd cfg env (dispatch cfg env n) (dispatchEnd cfg env n) (.variant ts) = _
      unfold dispatchStepEnd
      simp only [hb, Bool.false_eq_true, if_false]
      rfl
    unfold dispatchVariant at e1
    rw [e1] at e2
    exact key e1 e2
  | _ => exact key rfl rfl

/-- Arrays of such objects. -/
theorem handler_delivers (hv : env.Valid .contents (· ∈ builtinKinds) cfg)
    (ht : (∃ id size, t = .prim id size) ∨ (cfg.check = false ∧ OneByOne t = true)) (n : Nat) :
    Delivers (· ∈ builtinKinds) cfg (elem cfg env n t).apply (dispatchEnd cfg env n t) ((codec .contents cfg env n t).byVal t) := by
  cases n with
  | zero =>
    intro k xs ys zs s _ _ _ _ _ hz
    rcases hz with ⟨_, hz⟩ | hz <;> cases hz
  | succ n =>
    rcases ht with ⟨id, size, rfl⟩ | ⟨hc, ht⟩
    · exact raw_delivers (size := size)
    · obtain ⟨f, g, h1, h2⟩ := oneByOne_each (cfg := cfg) (env := env) ht n
      have L := law_byVal hv (n + 1) t
      have e : (elem cfg env (n + 1) t).apply = dispatchEach f := h1
      rw [e] at L ⊢
      rw [h2]
      exact each_delivers hc L

theorem vectorEnc_length (hv : env.Valid .contents (· ∈ builtinKinds) cfg) {n : Nat} : ∀ {fs : List Bytes} {xs : List Val},
    (∀ x ∈ xs, ((codec .contents cfg env n t).byVal t).P x) →
    (∀ (i : Nat) f, fs[i]? = some f → ∃ x, xs[i]? = some x ∧ StreamForm cfg env t x f) →
    ((xs.take fs.length).flatMap (((codec .contents cfg env n t).byVal t).enc cfg.check)).length =
      (fs.map fun f => f.length - 12).sum
  | [], _, _, _ => rfl
  | f :: _, [], _, hf => by obtain ⟨_, h, _⟩ := hf 0 f rfl; cases h
  | f :: fs, x :: xs, h, hf => by
    have ih := vectorEnc_length hv (fs := fs) (fun y hy => h y (by simp [hy])) (fun i f' hi => hf (i + 1) f' hi)
    obtain ⟨_, hx, hs⟩ := hf 0 f rfl
    cases hx
    have h1 : (((codec .contents cfg env n t).byVal t).enc cfg.check x).length = f.length - 12 := by
      rw [← form_eq hv (h x (by simp)).1 hs]
      show ((codec .contents cfg env n t).enc cfg.check x).length = _
      unfold topEnc node
      simp [intBytes_length]
      omega
    simp only [List.length_cons, List.take_succ_cons, List.flatMap_cons, List.length_append, List.map_cons, List.sum_cons, ih, h1]

/-- A call for a vector. -/
theorem vector_cases {n : Nat} {s : Ser} {c : Nat} {ys : List Val} {z : Val}
    (h : (∃ s2, dispatch cfg env (n + 1) (.vec t) s [.vec c ys] = .ok ([z], s2)) ∨
      dispatchEnd cfg env (n + 1) (.vec t) s [.vec c ys] = .ok [z]) :
    ∃ v : Vec Val, z = .vec v.cap v.elems ∧
      ((∃ s', serVector cfg (env.ti (.vec t)).sizeof (elem cfg env n t) s ⟨c, ys⟩ = .ok (v, s')) ∨
        serVectorEnd cfg (elem cfg env n t) (dispatchEnd cfg env n t) s ⟨c, ys⟩ = .ok v) := by
  let f : Ser → Val → Out (Val × Ser) := fun s v =>
    match v with
    | .vec cap xs => do
      let (v, s) ← serVector cfg (env.ti (.vec t)).sizeof (elem cfg env n t) s ⟨cap, xs⟩
      .ok (.vec v.cap v.elems, s)
    | _ => .ub .typeConfusion
  let g : Ser → Val → Out Val := fun s v =>
    match v with
    | .vec cap xs => do
      let v ← serVectorEnd cfg (elem cfg env n t) (dispatchEnd cfg env n t) s ⟨cap, xs⟩
      .ok (.vec v.cap v.elems)
    | _ => .ub .typeConfusion
  have e1 : dispatch cfg env (n + 1) (.vec t) = dispatchEach f := rfl
  have e2 : dispatchEnd cfg env (n + 1) (.vec t) = dispatchEachEnd (oneOf (dispatchEach f)) g := rfl
  have e3 : oneOf (dispatchEach f) = f := oneOf_each f
  have hf : ∀ s2, f s (.vec c ys) = .ok (z, s2) → ∃ v : Vec Val, z = .vec v.cap v.elems ∧
      ∃ s', serVector cfg (env.ti (.vec t)).sizeof (elem cfg env n t) s ⟨c, ys⟩ = .ok (v, s') := by
    intro s2 h
    obtain ⟨⟨r1, r2⟩, h1, h⟩ := bind_eq_ok h
    cases h
    exact ⟨_, rfl, _, h1⟩
  have hg : g s (.vec c ys) = .ok z → ∃ v : Vec Val, z = .vec v.cap v.elems ∧
      serVectorEnd cfg (elem cfg env n t) (dispatchEnd cfg env n t) s ⟨c, ys⟩ = .ok v := by
    intro h
    obtain ⟨r, h1, h⟩ := bind_eq_ok h
    cases h
    exact ⟨_, rfl, h1⟩
  rcases h with ⟨s2, h⟩ | h
  · rw [e1] at h
    obtain ⟨⟨r1, r2⟩, h1, h⟩ := bind_eq_ok h
    cases h
    obtain ⟨v, h2, h3⟩ := hf _ h1
    exact ⟨v, h2, .inl h3⟩
  · rw [e2, e3] at h
    cases h1 : f s (.vec c ys) with
    | ok r =>
      obtain ⟨r1, r2⟩ := r
      simp only [dispatchEachEnd, h1, Out.after, Out.bind_eq, Out.bind_ok] at h
      cases h
      obtain ⟨v, h2, h3⟩ := hf _ h1
      exact ⟨v, h2, .inl h3⟩
    | throw e =>
      simp only [dispatchEachEnd, h1, Out.after] at h
      obtain ⟨q, h4, h⟩ := bind_eq_ok h
      cases h
      obtain ⟨v, h2, h3⟩ := hg h4
      exact ⟨v, h2, .inr h3⟩
    | _ => simp [dispatchEachEnd, h1, Out.after] at h

/-- **C77**, vectors.  A checkpoint of a vector of numbers, or in a build without error checking of strings or
containers, ends within an element or later; the elements before it have the checkpoints `fs`, the header and trailer of
which are not there within the vector: those elements are as saved. -/
theorem C77_delivered_vector (hE : env.Sound cfg) (hv : env.Valid .contents (· ∈ builtinKinds) cfg)
    (ht : (∃ id size, t = .prim id size) ∨ (cfg.check = false ∧ OneByOne t = true)) {c c' : Nat}
    {xs ys : List Val} (hx : WT .contents env (.vec t) (.vec c xs)) {bs inp : Bytes}
    (hs : StreamForm cfg env (.vec t) (.vec c xs) bs) (hpre : inp <+: bs) (hne : inp ≠ bs)
    (hf : Formed env (.vec t) (.vec c' ys)) (hy : Clean .contents cfg env (.vec t) (.vec c' ys)) {fs : List Bytes}
    (hfs : ∀ (i : Nat) f, fs[i]? = some f → ∃ x, xs[i]? = some x ∧ StreamForm cfg env t x f)
    (hlen : 4 + countLength cfg + countLength cfg + headLength cfg + (fs.map fun f => f.length - 12).sum ≤ inp.length) :
    ∃ c'' zs, Leaves (fun n => inPlaceFromStreamEnd cfg (elem cfg env n (.vec t)) (dispatchEnd cfg env n (.vec t)) inp
        (.vec c' ys)) (.vec c'' zs) ∧
      ∀ (i : Nat) x, i < fs.length → xs[i]? = some x → ∃ z, zs[i]? = some z ∧ Rel .contents env t x z := by
  have hbx : ByVal (.vec t) (.vec c xs) := trivial
  have hby : ByVal (.vec t) (.vec c' ys) := trivial
  obtain ⟨-, w, z, -, -, N, hN⟩ := C77_checkpoint hE hv hx hbx hs hpre hne hf hy hby
  obtain ⟨n0, h0⟩ := isEnc_of_stream hv hx hs
  have hn1 : N ≤ max N n0 + 1 := by omega
  have hn2 : n0 ≤ max N n0 + 1 := by omega
  obtain ⟨hP, henc⟩ := h0 _ hn2
  have hprior := prior_of_clean hv hbx hby hy _ hP
  have hz := hN _ hn1
  generalize max N n0 = n at hP henc hprior hz
  have hP' : VecOk ((codec .contents cfg env n t).byVal t) ⟨c, xs⟩ := hP
  have hprior' : VecPrior (elem cfg env n t) ((codec .contents cfg env n t).byVal t) ⟨c, xs⟩ ⟨c', ys⟩ := hprior.1
  let s : Ser := { core := .streamUnpacker inp 0, kind := .streamUnpacker }
  have hsR : s.Reader (Scope.quiet (· ∈ builtinKinds)) := ⟨rfl, (by decide : Kind.streamUnpacker ∈ builtinKinds), trivial⟩
  have hpfx0 : intBytes cfg.endian 4 (env.ti (.vec t)).idx <+: bs := by
    rw [← henc]
    show _ <+: intBytes cfg.endian 4 (env.ti (.vec t)).idx ++ _ ++ _
    rw [List.append_assoc]
    exact List.prefix_append _ _
  obtain ⟨rest0, hrest0⟩ := List.prefix_of_prefix_length_le hpfx0 hpre (by rw [intBytes_length]; omega)
  rcases (withTypeIdx_rd (cfg := cfg) (law hv n (.vec t)).ti_valid s hsR).1 rest0 hrest0.symm with ⟨_, -, h1⟩ | ⟨_, hfail, _⟩
  case inr => exact hfail.elim
  have h1' : withTypeIdx cfg (elem cfg env (n + 1) (.vec t)).ti s = .ok (s.advance 4) := by
    unfold withTypeIdx' at h1
    obtain ⟨b, hb, hb'⟩ := ok_of_bind h1
    rw [intBytes_length] at hb'
    cases hb'
    exact hb
  have hs4 : (s.advance 4).Reader (Scope.quiet (· ∈ builtinKinds)) :=
    hsR.advance (by
      show 4 ≤ inp.length
      omega)
  obtain ⟨v, rfl, hm⟩ := vector_cases (n := n) (s := s.advance 4) (topEnd_cases h1' hz)
  refine ⟨v.cap, v.elems, ⟨N, hN⟩, fun i x hi hx => ?_⟩
  have hxs : 0 < xs.length := by
    have := (List.getElem?_eq_some_iff.1 hx).1
    omega
  have hfirst := vectorEnc_length hv hP'.all hfs
  have hcount : ∀ m, (sizeNode cfg cfg.check m).length = countLength cfg := by
    intro m
    unfold sizeNode node countLength
    cases cfg.check <;> simp [intBytes_length]
  have hhead : (arrayHead cfg (env.ti t)).length = headLength cfg := by
    unfold arrayHead headLength
    cases cfg.check <;> simp [intBytes_length]
  have hpfx : intBytes cfg.endian 4 (env.ti (.vec t)).idx ++ (sizeNode cfg cfg.check c ++ (sizeNode cfg cfg.check xs.length ++
      (arrayHead cfg (env.ti t) ++ (xs.take fs.length).flatMap (((codec .contents cfg env n t).byVal t).enc cfg.check)))) <+: bs := by
    rw [← henc]
    show _ <+: intBytes cfg.endian 4 (env.ti (.vec t)).idx ++ (sizeNode cfg cfg.check c ++ (sizeNode cfg cfg.check xs.length ++
      arrEnc cfg cfg.check (env.ti t) ((codec .contents cfg env n t).byVal t) xs)) ++ _
    rw [List.append_assoc, List.append_assoc, List.append_assoc]
    refine (List.prefix_append_right_inj _).2 ((List.prefix_append_right_inj _).2 ((List.prefix_append_right_inj _).2 ?_))
    refine List.IsPrefix.trans ?_ (List.prefix_append _ _)
    have htake : ∀ w, (xs.take fs.length).flatMap (((codec .contents cfg env n t).byVal t).enc w) <+:
        xs.flatMap (((codec .contents cfg env n t).byVal t).enc w) := fun w =>
      ⟨(xs.drop fs.length).flatMap _, by rw [← List.flatMap_append, List.take_append_drop]⟩
    unfold arrEnc arrayHead node
    cases cfg.check
    · simpa [hxs] using htake false
    · simp only [gt_iff_lt, hxs, if_true, List.append_assoc]
      exact (List.prefix_append_right_inj _).2 ((htake true).trans (List.prefix_append _ _))
  obtain ⟨rest, hrest⟩ := List.prefix_of_prefix_length_le hpfx hpre (by
    simp only [List.length_append, intBytes_length, hcount, hhead, hfirst]
    omega)
  have hrem : s.remaining = intBytes cfg.endian 4 (env.ti (.vec t)).idx ++ (sizeNode cfg cfg.check c ++
      (sizeNode cfg cfg.check xs.length ++ (arrayHead cfg (env.ti t) ++
        ((xs.take fs.length).flatMap (((codec .contents cfg env n t).byVal t).enc cfg.check) ++ rest)))) := by
    show inp = _
    rw [← hrest]
    simp only [List.append_assoc]
  obtain ⟨z, hz1, hz2⟩ := vector_delivered (k := fs.length) (x := ⟨c, xs⟩) hv.cfgOk (law_byVal hv n t).ti_valid
    (handler_delivers hv ht n) (codec_fresh hv.toUsable n t) hP' hprior' hs4 rest (by
    rw [Ser.remaining_advance, hrem]
    exact List.drop_left' (intBytes_length _ _ _)) hm i x hi hx
  exact ⟨z, hz1, codec_rel n t x z hz2⟩

end

namespace Demo

/-- A vector of two numbers. -/
def twoInts : Val := .vec 2 [.raw [1, 0, 0, 0], .raw [2, 0, 0, 0]]

/-- Its checkpoint without the last byte of the second number. -/
def intsStart : Bytes := intBytes .little 4 (env.ti (.vec int)).idx ++ intBytes .little 8 2 ++ intBytes .little 8 2 ++
  [1, 0, 0, 0, 2, 0, 0]

theorem ints_wt : WT .contents env (.vec int) twoInts := by
  refine .vec (by decide) (by decide) ⟨nofun, fun h => h.elim⟩ (fun _ _ => trivial) fun x hx => ?_
  simp only [List.mem_cons, List.not_mem_nil, or_false] at hx
  rcases hx with rfl | rfl <;> exact .prim rfl

theorem ints_form : StreamForm (cfg false false) env (.vec int) twoInts
    (intsStart ++ ([0] ++ intBytes .little 8 (env.ti (.vec int)).sizeof)) :=
  Yields.at (fun {_ _} hnm => toStream_le (elem_le (cfg false false) env hnm (.vec int)) twoInts _) 3 rfl nofun

theorem one_form : StreamForm (cfg false false) env int (.raw [1, 0, 0, 0])
    (intBytes .little 4 (env.ti int).idx ++ [1, 0, 0, 0] ++ intBytes .little 8 (env.ti int).sizeof) :=
  Yields.at (fun {_ _} hnm => toStream_le (elem_le (cfg false false) env hnm int) (.raw [1, 0, 0, 0]) _) 3 rfl nofun

end Demo

/-- A checkpoint of a vector of two numbers that ends within the second, read into one of two other numbers: `C77_delivered_vector` applies with
one element delivered, and the other one has the bytes that were there. -/
example :
    WT .contents Demo.env (.vec Demo.int) Demo.twoInts ∧
    StreamForm (Demo.cfg false false) Demo.env (.vec Demo.int) Demo.twoInts
      (Demo.intsStart ++ ([0] ++ intBytes .little 8 (Demo.env.ti (.vec Demo.int)).sizeof)) ∧
    Formed Demo.env (.vec Demo.int) (Demo.fresh (.vec Demo.int)) ∧
    Clean .contents (Demo.cfg false false) Demo.env (.vec Demo.int) (Demo.fresh (.vec Demo.int)) ∧
    (∃ f, StreamForm (Demo.cfg false false) Demo.env Demo.int (.raw [1, 0, 0, 0]) f ∧
      4 + countLength (Demo.cfg false false) + countLength (Demo.cfg false false) + headLength (Demo.cfg false false) +
        ([f].map fun f => f.length - 12).sum ≤ Demo.intsStart.length) ∧
    Leaves (fun n => inPlaceFromStreamEnd (Demo.cfg false false) (elem (Demo.cfg false false) Demo.env n (.vec Demo.int))
      (dispatchEnd (Demo.cfg false false) Demo.env n (.vec Demo.int)) Demo.intsStart (.vec 2 [.raw [9, 9, 9, 9], .raw [9, 9, 9, 9]]))
      (.vec 2 [.raw [1, 0, 0, 0], .raw [2, 0, 0, 9]]) :=
  ⟨Demo.ints_wt, Demo.ints_form, Demo.fresh_formed _, Demo.fresh_clean (fun _ _ => trivial) _, ⟨_, Demo.one_form, by decide⟩,
    yields_of (fun _ _ => ends_le _ _) (n := 3) rfl⟩

/-- The element types of the second kind. -/
example : OneByOne .str = true ∧ OneByOne (.vec .str) = true ∧ OneByOne (.opt Demo.int) = true ∧ OneByOne (.pair .str .str) = true :=
  ⟨rfl, rfl, rfl, rfl⟩

end Ckpt
