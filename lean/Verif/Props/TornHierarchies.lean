import Verif.Props.Torn
import Verif.Proofs.DeliveredChain
/-!
# C77: what a stream delivered of objects of polymorphic classes

The parts of the classes of an object are written one after another, that of the root first.  A stream that ended too early
had delivered some of them completely: those are as saved.
-/

set_option autoImplicit false

namespace Ckpt

section
variable {cfg : Cfg} {env : Env}

/-- The bytes that the part of a class takes, as the checkpoints of its members tell: there are a header and a trailer of its
own around it only when every object is checked. -/
def innerPart (cfg : Cfg) (fs : List Bytes) : Nat := (if cfg.check then 12 else 0) + (fs.map (inner cfg)).sum

theorem firstEnc_all {T ι : Type} {E : ι → Elem T} {C : ι → Codec T} : ∀ (ts : List ι) (xs : List T),
    firstEnc cfg E C ts.length ts xs = membersEnc cfg cfg.check E C ts xs
  | [], _ => rfl
  | _ :: _, [] => rfl
  | _ :: ts, _ :: xs => congrArg (_ ++ ·) (firstEnc_all ts xs)

theorem partsEnc_length (hv : env.Valid .contents (· ∈ builtinKinds) cfg) {n : Nat} : ∀ {fss : List (List Bytes)}
    {ks : List Nat} {ps : List (List Val)},
    All2 (fun k p => All2 (fun t x => ((codec .contents cfg env n t).byVal t).P x) (env.cls k).fields p) ks ps →
    (∀ (j : Nat) fs, fss[j]? = some fs → ∃ k p, ks[j]? = some k ∧ ps[j]? = some p ∧
      fs.length = (env.cls k).fields.length ∧ ∀ (i : Nat) f, fs[i]? = some f →
        ∃ t x, (env.cls k).fields[i]? = some t ∧ p[i]? = some x ∧ StreamForm cfg env t x f) →
    (partsEnc cfg env (elem cfg env n) (fun t => (codec .contents cfg env n t).byVal t) (ks.take fss.length)
      (ps.take fss.length)).length = (fss.map (innerPart cfg)).sum
  | [], _, _, _, _ => rfl
  | fs :: fss, [], _, _, hf => by obtain ⟨_, _, h, _⟩ := hf 0 fs rfl; cases h
  | fs :: fss, _ :: _, [], h, _ => by simp [All2] at h
  | fs :: fss, k :: ks, p :: ps, h, hf => by
    have ih := partsEnc_length hv (fss := fss) h.2 (fun j fs' hj => hf (j + 1) fs' hj)
    obtain ⟨_, _, hk, hp, hl, hm⟩ := hf 0 fs rfl
    cases hk; cases hp
    have h1 := firstEnc_length hv h.1 hm
    rw [hl, firstEnc_all] at h1
    simp only [List.length_cons, List.take_succ_cons, partsEnc, chainEnc, List.length_append, List.map_cons, List.sum_cons]
    refine congr (congrArg _ ?_) ih
    unfold node innerPart
    rw [← h1]
    cases cfg.check <;> simp [intBytes_length]
    omega

/-- What had been delivered completely is there, for objects of polymorphic classes.  The checkpoint of the object ends after
the parts of the first classes, root first; the members of those parts have the checkpoints `fss`: those parts are as
saved. -/
theorem C77_delivered_hierarchy (hE : env.Sound cfg) (hv : env.Valid .contents (· ∈ builtinKinds) cfg) {c : Nat}
    (hvirt : (env.cls c).virt = true) {xs ys : List (List Val)}
    (hx : WT .contents env (.cls c) (.obj c xs)) {bs inp : Bytes} (hs : StreamForm cfg env (.cls c) (.obj c xs) bs)
    (hpre : inp <+: bs) (hne : inp ≠ bs) (hf : Formed env (.cls c) (.obj c ys))
    (hy : Clean .contents cfg env (.cls c) (.obj c ys)) {fss : List (List Bytes)}
    (hfs : ∀ (j : Nat) fs, fss[j]? = some fs → ∃ k p, (env.chain c)[j]? = some k ∧ xs[j]? = some p ∧
      fs.length = (env.cls k).fields.length ∧ ∀ (i : Nat) f, fs[i]? = some f →
        ∃ t x, (env.cls k).fields[i]? = some t ∧ p[i]? = some x ∧ StreamForm cfg env t x f)
    (hlen : 4 + (fss.map (innerPart cfg)).sum ≤ inp.length) :
    ∃ zs, Leaves (fun n => inPlaceFromStreamEnd cfg (elem cfg env n (.cls c)) (dispatchEnd cfg env n (.cls c)) inp
        (.obj c ys)) (.obj c zs) ∧
      ∀ (j : Nat) k p, j < fss.length → (env.chain c)[j]? = some k → xs[j]? = some p →
        ∃ q, zs[j]? = some q ∧ q.length = p.length ∧ ∀ (i : Nat) t x z, (env.cls k).fields[i]? = some t → p[i]? = some x →
          q[i]? = some z → Rel .contents env t x z := by
  have hbx : ByVal (.cls c) (.obj c xs) := rfl
  have hby : ByVal (.cls c) (.obj c ys) := rfl
  obtain ⟨-, w, z, -, -, N, hN⟩ := C77_checkpoint hE hv hx hbx hs hpre hne hf hy hby
  obtain ⟨n0, h0⟩ := isEnc_of_stream hv hx hs
  have hn1 : N ≤ max N n0 + 1 := by omega
  have hn2 : n0 ≤ max N n0 + 1 := by omega
  obtain ⟨hP, henc⟩ := h0 _ hn2
  have hprior := prior_of_clean hv hbx hby hy _ hP
  have hz := hN _ hn1
  generalize max N n0 = n at hP henc hprior hz
  have hA : env.AsymOk (Scope.quiet (· ∈ builtinKinds)) cfg := fun k h => (h (hv.sym k)).elim
  simp only [codec] at hP hprior
  have hparts := partsEnc_length hv (n := n) hP.2.2 hfs
  have hpfx : intBytes cfg.endian 4 (env.ti (.cls c)).idx ++
      partsEnc cfg env (elem cfg env n) (fun t => (codec .contents cfg env n t).byVal t) ((env.chain c).take fss.length)
        (xs.take fss.length) <+: bs := by
    rw [← henc]
    simp only [topEnc, node, if_true, codec, hvirt, List.append_assoc]
    exact (List.prefix_append_right_inj _).2 ((partsEnc_prefix _ _ _).trans (List.prefix_append _ _))
  obtain ⟨rest, hrest⟩ := List.prefix_of_prefix_length_le hpfx hpre (by
    simp only [List.length_append, intBytes_length]
    omega)
  let s : Ser := { core := .streamUnpacker inp 0, kind := .streamUnpacker }
  have hsR : s.Reader (Scope.quiet (· ∈ builtinKinds)) := ⟨rfl, (by decide : Kind.streamUnpacker ∈ builtinKinds), trivial⟩
  have hrem : s.remaining = intBytes cfg.endian 4 (env.ti (.cls c)).idx ++
      (partsEnc cfg env (elem cfg env n) (fun t => (codec .contents cfg env n t).byVal t) ((env.chain c).take fss.length)
        (xs.take fss.length) ++ rest) := by
    rw [← List.append_assoc, hrest]; rfl
  rcases (withTypeIdx_rd (cfg := cfg) (law hv n (.cls c)).ti_valid s hsR).1 _ hrem with ⟨_, -, h1⟩ | ⟨_, hfail, _⟩
  case inr => exact hfail.elim
  have h1' : withTypeIdx cfg (elem cfg env (n + 1) (.cls c)).ti s = .ok (s.advance 4) := by
    unfold withTypeIdx' at h1
    obtain ⟨b, hb, hb'⟩ := ok_of_bind h1
    rw [intBytes_length] at hb'
    cases hb'
    exact hb
  have hs4 : (s.advance 4).Reader (Scope.quiet (· ∈ builtinKinds)) :=
    hsR.advance (by rw [hrem]; simp [intBytes_length])
  obtain ⟨zs, rfl, hm⟩ := chain_cases (n := n) hvirt (s := s.advance 4) rfl (topEnd_cases h1' hz)
  refine ⟨zs, ⟨N, hN⟩, fun j k p hj hk hp => ?_⟩
  obtain ⟨q, hq, hr⟩ := chain_delivered (j := fss.length) (C := fun t => (codec .contents cfg env n t).byVal t) hv.ti
    (fun _ => rfl) (law_byVal hv n) hA
    (fun k hk kd hkd => lookup_ok (K := Scope.quiet (· ∈ builtinKinds)) hv.toUsable hk ⟨c, hvirt⟩ hkd) hP.2.2 hprior.2 hs4 rest
    (by
      rw [Ser.remaining_advance, hrem]
      exact List.drop_left' (intBytes_length _ _ _)) hm j k p hj hk hp
  obtain ⟨⟨-, h2⟩, h3⟩ := All3.get hr.2
  exact ⟨q, hq, h2.symm, fun i t x z ht hx hz => codec_rel n t x z (h3 i t x z ht hx hz)⟩

end

namespace Demo

/-- The checkpoint of a circle up to the part of its base class. -/
def circleStart : Bytes := intBytes .little 4 (env.ti (.cls 2)).idx ++ intBytes .little 8 1 ++ [99]

set_option maxRecDepth 8000 in
theorem circle_form : StreamForm (cfg false false) env (.cls 2) circle
    (circleStart ++ ([0, 0, 0, 0, 0, 0, 240, 63] ++ intBytes .little 8 (env.ti (.cls 2)).sizeof)) :=
  Yields.at (fun {_ _} hnm => toStream_le (elem_le (cfg false false) env hnm (.cls 2)) circle _) 3 rfl nofun

theorem label_form : StreamForm (cfg false false) env .str (.str ⟨15, [99]⟩)
    (intBytes .little 4 (env.ti .str).idx ++ (intBytes .little 8 1 ++ [99] ++ intBytes .little 8 (env.ti .str).sizeof)) :=
  Yields.at (fun {_ _} hnm => toStream_le (elem_le (cfg false false) env hnm .str) (.str ⟨15, [99]⟩) _) 2 rfl nofun

end Demo

set_option maxRecDepth 8000 in
/-- A checkpoint of a circle that ends after the part of its base class: `C77_delivered_hierarchy` applies to that part, and
the part of the derived class is as it was. -/
example :
    WT .contents Demo.env (.cls 2) Demo.circle ∧ (Demo.env.cls 2).virt = true ∧ Demo.env.chain 2 = [1, 2] ∧
    StreamForm (Demo.cfg false false) Demo.env (.cls 2) Demo.circle
      (Demo.circleStart ++ ([0, 0, 0, 0, 0, 0, 240, 63] ++ intBytes .little 8 (Demo.env.ti (.cls 2)).sizeof)) ∧
    Formed Demo.env (.cls 2) (Demo.fresh (.cls 2)) ∧
    Clean .contents (Demo.cfg false false) Demo.env (.cls 2) (Demo.fresh (.cls 2)) ∧
    (∃ f, StreamForm (Demo.cfg false false) Demo.env .str (.str ⟨15, [99]⟩) f ∧
      [f].length = (Demo.env.cls 1).fields.length ∧
      4 + ([[f]].map (innerPart (Demo.cfg false false))).sum ≤ Demo.circleStart.length) ∧
    Leaves (fun n => inPlaceFromStreamEnd (Demo.cfg false false) (elem (Demo.cfg false false) Demo.env n (.cls 2))
      (dispatchEnd (Demo.cfg false false) Demo.env n (.cls 2)) Demo.circleStart (Demo.fresh (.cls 2)))
      (.obj 2 [[.str ⟨15, [99]⟩], [.raw [0, 0, 0, 0, 0, 0, 0, 0]]]) :=
  ⟨Demo.circle_wt 2 (by decide), rfl, rfl, Demo.circle_form, Demo.fresh_formed _, Demo.fresh_clean (fun _ _ => trivial) _,
    ⟨_, Demo.label_form, rfl, by decide⟩, yields_of (fun _ _ => ends_le _ _) (n := 3) rfl⟩

end Ckpt
