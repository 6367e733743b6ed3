import Verif.Props.TornLists
import Verif.Proofs.DeliveredTuple
/-!
# C77, tuples: what had been delivered completely is there
-/

set_option autoImplicit false

namespace Ckpt

section
variable {cfg : Cfg} {env : Env}

/-- A call for a tuple. -/
theorem tuple_cases {n : Nat} {ts : List Ty} {s : Ser} {ys : List Val} {z : Val}
    (h : (∃ s2, dispatch cfg env (n + 1) (.tuple ts) s [.coll ys] = .ok ([z], s2)) ∨
      dispatchEnd cfg env (n + 1) (.tuple ts) s [.coll ys] = .ok [z]) :
    ∃ zs, z = .coll zs ∧ ((∃ s', visitMembers cfg (ts.map (elem cfg env n)) (cfg.argOrder ts.length) s ys = .ok (zs, s')) ∨
      visitMembersEnd cfg (ts.map fun t => (elem cfg env n t, dispatchEnd cfg env n t)) (cfg.argOrder ts.length) s ys = .ok zs) := by
  let f : Ser → Val → Out (Val × Ser) := fun s v =>
    match v with
    | .coll xs => do
      let (xs, s) ← serTuple cfg (ts.map (elem cfg env n)) s xs
      .ok (.coll xs, s)
    | _ => .ub .typeConfusion
  let g : Ser → Val → Out Val := fun s v =>
    match v with
    | .coll xs => do
      let xs ← visitMembersEnd cfg (ts.map fun t => (elem cfg env n t, dispatchEnd cfg env n t)) (cfg.argOrder ts.length) s xs
      .ok (.coll xs)
    | _ => .ub .typeConfusion
  have e1 : dispatch cfg env (n + 1) (.tuple ts) = dispatchEach f := rfl
  have e2 : dispatchEnd cfg env (n + 1) (.tuple ts) = dispatchEachEnd (oneOf (dispatchEach f)) g := rfl
  have e3 : oneOf (dispatchEach f) = f := oneOf_each f
  have hf : ∀ s2, f s (.coll ys) = .ok (z, s2) → ∃ zs, z = .coll zs ∧
      ∃ s', visitMembers cfg (ts.map (elem cfg env n)) (cfg.argOrder ts.length) s ys = .ok (zs, s') := by
    intro s2 h
    obtain ⟨⟨r1, r2⟩, h1, h⟩ := bind_eq_ok h
    cases h
    unfold serTuple at h1
    rw [List.length_map] at h1
    exact ⟨r1, rfl, _, h1⟩
  have hg : g s (.coll ys) = .ok z → ∃ zs, z = .coll zs ∧
      visitMembersEnd cfg (ts.map fun t => (elem cfg env n t, dispatchEnd cfg env n t)) (cfg.argOrder ts.length) s ys = .ok zs := by
    intro h
    obtain ⟨r, h1, h⟩ := bind_eq_ok h
    cases h
    exact ⟨r, rfl, h1⟩
  rcases h with ⟨s2, h⟩ | h
  · rw [e1] at h
    obtain ⟨⟨r1, r2⟩, h1, h⟩ := bind_eq_ok h
    cases h
    obtain ⟨zs, h2, h3⟩ := hf _ h1
    exact ⟨zs, h2, .inl h3⟩
  · rw [e2, e3] at h
    cases h1 : f s (.coll ys) with
    | ok r =>
      obtain ⟨r1, r2⟩ := r
      simp only [dispatchEachEnd, h1, Out.after, Out.bind_eq, Out.bind_ok] at h
      cases h
      obtain ⟨zs, h2, h3⟩ := hf _ h1
      exact ⟨zs, h2, .inl h3⟩
    | throw e =>
      simp only [dispatchEachEnd, h1, Out.after] at h
      obtain ⟨q, h4, h⟩ := bind_eq_ok h
      cases h
      obtain ⟨zs, h2, h3⟩ := hg h4
      exact ⟨zs, h2, .inr h3⟩
    | _ => simp [dispatchEachEnd, h1, Out.after] at h

theorem tupleEnc_length (hv : env.Valid .contents (· ∈ builtinKinds) cfg) {n : Nat} {ts : List Ty} {xs : List Val}
    (h : All2 (fun t x => ((codec .contents cfg env n t).byVal t).P x) ts xs) : ∀ {fs : List Bytes} {is : List Nat},
    (∀ (j : Nat) f, fs[j]? = some f → ∃ i t x, is[j]? = some i ∧ ts[i]? = some t ∧ xs[i]? = some x ∧ StreamForm cfg env t x f) →
    ((is.take fs.length).flatMap (memberEnc cfg cfg.check (elem cfg env n) (fun t => (codec .contents cfg env n t).byVal t) ts
      xs)).length = (fs.map (inner cfg)).sum
  | [], _, _ => by simp
  | f :: _, [], hf => by obtain ⟨_, _, _, h, _⟩ := hf 0 f rfl; cases h
  | f :: fs, i :: is, hf => by
    have ih := tupleEnc_length hv h (fs := fs) (is := is) (fun j f' hj => hf (j + 1) f' hj)
    obtain ⟨_, t, x, hi, ht, hx, hs⟩ := hf 0 f rfl
    cases hi
    have := inner_eq hv ((All2.get h).2 i t x ht hx).1 hs
    simp only [List.length_cons, List.take_succ_cons, List.flatMap_cons, List.length_append, List.map_cons, List.sum_cons, ih]
    refine congrArg (· + _) (Eq.trans ?_ this)
    simp only [memberEnc, ht, hx]
    rfl

/-- **C77**, tuples, the members of which are read in the order in which the compiler evaluates arguments.  A checkpoint of
a tuple ends within a member or later, the members read before it have the checkpoints `fs`: those members are as saved. -/
theorem C77_delivered_tuple (hE : env.Sound cfg) (hv : env.Valid .contents (· ∈ builtinKinds) cfg) {ts : List Ty}
    {xs ys : List Val} (hx : WT .contents env (.tuple ts) (.coll xs)) {bs inp : Bytes}
    (hs : StreamForm cfg env (.tuple ts) (.coll xs) bs) (hpre : inp <+: bs) (hne : inp ≠ bs)
    (hf : Formed env (.tuple ts) (.coll ys)) (hy : Clean .contents cfg env (.tuple ts) (.coll ys)) {fs : List Bytes}
    (hfs : ∀ (j : Nat) f, fs[j]? = some f → ∃ i t x, (cfg.argOrder ts.length)[j]? = some i ∧ ts[i]? = some t ∧
      xs[i]? = some x ∧ StreamForm cfg env t x f)
    (hlen : 4 + (fs.map (inner cfg)).sum ≤ inp.length) :
    ∃ zs, Leaves (fun n => inPlaceFromStreamEnd cfg (elem cfg env n (.tuple ts)) (dispatchEnd cfg env n (.tuple ts)) inp
        (.coll ys)) (.coll zs) ∧
      ∀ (j i : Nat) t x, j < fs.length → (cfg.argOrder ts.length)[j]? = some i → ts[i]? = some t → xs[i]? = some x →
        ∃ z, zs[i]? = some z ∧ Rel .contents env t x z := by
  have hbx : ByVal (.tuple ts) (.coll xs) := trivial
  have hby : ByVal (.tuple ts) (.coll ys) := trivial
  obtain ⟨-, w, z, -, -, N, hN⟩ := C77_checkpoint hE hv hx hbx hs hpre hne hf hy hby
  obtain ⟨n0, h0⟩ := isEnc_of_stream hv hx hs
  have hn1 : N ≤ max N n0 + 1 := by omega
  have hn2 : n0 ≤ max N n0 + 1 := by omega
  obtain ⟨hP, henc⟩ := h0 _ hn2
  have hprior := prior_of_clean hv hbx hby hy _ hP
  have hz := hN _ hn1
  generalize max N n0 = n at hP henc hprior hz
  have hP' : All2 (fun t x => ((codec .contents cfg env n t).byVal t).P x) ts xs := hP
  have hprior' : All3 (fun t x y => ((codec .contents cfg env n t).byVal t).prior x y) ts xs ys := hprior
  have hfirst := tupleEnc_length hv hP' hfs
  have horder := hv.order ts.length
  generalize hio : cfg.argOrder ts.length = is at hfirst horder hfs ⊢
  have hpfx : intBytes cfg.endian 4 (env.ti (.tuple ts)).idx ++ (is.take fs.length).flatMap
      (memberEnc cfg cfg.check (elem cfg env n) (fun t => (codec .contents cfg env n t).byVal t) ts xs) <+: bs := by
    rw [← henc]
    show _ <+: intBytes cfg.endian 4 (env.ti (.tuple ts)).idx ++ (cfg.argOrder ts.length).flatMap
      (memberEnc cfg cfg.check (elem cfg env n) (fun t => (codec .contents cfg env n t).byVal t) ts xs) ++ _
    rw [List.append_assoc, hio]
    refine (List.prefix_append_right_inj _).2 (List.IsPrefix.trans ?_ (List.prefix_append _ _))
    exact ⟨(is.drop fs.length).flatMap _, by rw [← List.flatMap_append, List.take_append_drop]⟩
  obtain ⟨rest, hrest⟩ := List.prefix_of_prefix_length_le hpfx hpre (by
    simp only [List.length_append, intBytes_length, hfirst]
    omega)
  let s : Ser := { core := .streamUnpacker inp 0, kind := .streamUnpacker }
  have hsR : s.Reader (Scope.quiet (· ∈ builtinKinds)) := ⟨rfl, (by decide : Kind.streamUnpacker ∈ builtinKinds), trivial⟩
  have hrem : s.remaining = intBytes cfg.endian 4 (env.ti (.tuple ts)).idx ++ ((is.take fs.length).flatMap
      (memberEnc cfg cfg.check (elem cfg env n) (fun t => (codec .contents cfg env n t).byVal t) ts xs) ++ rest) := by
    show inp = _
    rw [← hrest]
    simp only [List.append_assoc]
  rcases (withTypeIdx_rd (cfg := cfg) (law hv n (.tuple ts)).ti_valid s hsR).1 _ hrem with ⟨_, -, h1⟩ | ⟨_, hfail, _⟩
  case inr => exact hfail.elim
  have h1' : withTypeIdx cfg (elem cfg env (n + 1) (.tuple ts)).ti s = .ok (s.advance 4) := by
    unfold withTypeIdx' at h1
    obtain ⟨b, hb, hb'⟩ := ok_of_bind h1
    rw [intBytes_length] at hb'
    cases hb'
    exact hb
  have hs4 : (s.advance 4).Reader (Scope.quiet (· ∈ builtinKinds)) :=
    hsR.advance (by rw [hrem]; simp [intBytes_length])
  obtain ⟨zs, rfl, hm⟩ := tuple_cases (n := n) (s := s.advance 4) (topEnd_cases h1' hz)
  rw [hio] at hm
  obtain ⟨⟨hl1, hl2⟩, hpget⟩ := All3.get hprior'
  refine ⟨zs, ⟨N, hN⟩, fun j i t x hj hji ht hx => ?_⟩
  obtain ⟨z, hz1, hz2⟩ := visit_delivered (k := fs.length) (fun t _ => law_byVal hv n t) hP'
    (fun i hi => by simpa using horder.mem_iff.1 hi) (horder.nodup_iff.2 List.nodup_range) (by omega)
    (fun i _ t x y => hpget i t x y) hs4 rest (by
    rw [Ser.remaining_advance, hrem]
    exact List.drop_left' (intBytes_length _ _ _)) hm i t x
    (List.mem_of_getElem? (by rw [List.getElem?_take_of_lt hj]; exact hji)) ht hx
  exact ⟨z, hz1, codec_rel n t x z hz2⟩

end

namespace Demo

/-- A tuple of a number and two strings, the last of which is read first. -/
def triple : Val := .coll [.raw [1, 0, 0, 0], .str ⟨15, [66]⟩, .str ⟨15, [65, 66]⟩]

/-- Its type. -/
def tripleTy : Ty := .tuple [int, .str, .str]

/-- Its checkpoint up to the contents of the second string. -/
def tripleStart : Bytes := intBytes .little 4 (env.ti tripleTy).idx ++ intBytes .little 8 2 ++ [65, 66] ++ intBytes .little 8 1

theorem triple_wt : WT .contents env tripleTy triple := by
  have key : ∀ (i : Nat) t x, [int, .str, .str][i]? = some t →
      [Val.raw [1, 0, 0, 0], .str ⟨15, [66]⟩, .str ⟨15, [65, 66]⟩][i]? = some x → ByVal t x ∧ WT .contents env t x
    | 0, _, _, rfl, rfl => ⟨trivial, .prim rfl⟩
    | 1, _, _, rfl, rfl => ⟨trivial, .str (by decide)⟩
    | 2, _, _, rfl, rfl => ⟨trivial, .str (by decide)⟩
    | _ + 3, _, _, h, _ => by simp at h
  exact .tuple rfl (fun i t x h h' => (key i t x h h').1) (fun i t x h h' => (key i t x h h').2)

theorem triple_form : StreamForm (cfg false false) env tripleTy triple
    (tripleStart ++ ([66] ++ [1, 0, 0, 0] ++ intBytes .little 8 (env.ti tripleTy).sizeof)) :=
  Yields.at (fun {_ _} hnm => toStream_le (elem_le (cfg false false) env hnm tripleTy) triple _) 3 rfl nofun

end Demo

/-- A checkpoint of a tuple that ends within the member that is read second: `C77_delivered_tuple` applies to the one that is
read first, the last one. -/
example :
    WT .contents Demo.env Demo.tripleTy Demo.triple ∧
    StreamForm (Demo.cfg false false) Demo.env Demo.tripleTy Demo.triple
      (Demo.tripleStart ++ ([66] ++ [1, 0, 0, 0] ++ intBytes .little 8 (Demo.env.ti Demo.tripleTy).sizeof)) ∧
    Formed Demo.env Demo.tripleTy (Demo.fresh Demo.tripleTy) ∧
    Clean .contents (Demo.cfg false false) Demo.env Demo.tripleTy (Demo.fresh Demo.tripleTy) ∧
    ((Demo.cfg false false).argOrder 3)[0]? = some 2 ∧
    (∃ f, StreamForm (Demo.cfg false false) Demo.env .str (.str ⟨15, [65, 66]⟩) f ∧
      4 + ([f].map (inner (Demo.cfg false false))).sum ≤ Demo.tripleStart.length) ∧
    Leaves (fun n => inPlaceFromStreamEnd (Demo.cfg false false) (elem (Demo.cfg false false) Demo.env n Demo.tripleTy)
      (dispatchEnd (Demo.cfg false false) Demo.env n Demo.tripleTy) Demo.tripleStart (Demo.fresh Demo.tripleTy))
      (.coll [.raw [0, 0, 0, 0], .str ⟨15, [0]⟩, .str ⟨15, [65, 66]⟩]) :=
  ⟨Demo.triple_wt, Demo.triple_form, Demo.fresh_formed _, Demo.fresh_clean (fun _ _ => trivial) _, rfl,
    ⟨_, Demo.name_form, by decide⟩, yields_of (fun _ _ => ends_le _ _) (n := 3) rfl⟩

end Ckpt
