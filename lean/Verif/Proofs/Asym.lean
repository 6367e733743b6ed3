import Verif.Proofs.CodecLaw
import Verif.Proofs.Reject
import Verif.Proofs.Registry
/-!
The members of one class: `serialize` functions that read what they write obey their codec, others
fail when they read (error checking build).
-/

set_option autoImplicit false

namespace Ckpt

variable {K : Scope} {cfg : Cfg} {E : Ty → Elem Val} {C : Ty → Codec Val}

/-! ### Arithmetic of headers and trailers -/

theorem leVal_append (a b : Bytes) : leVal (a ++ b) = leVal a + 256 ^ a.length * leVal b := by
  induction a with
  | nil => simp [leVal]
  | cons x a ih =>
    simp only [List.cons_append, leVal, ih, List.length_cons, Nat.pow_succ]
    rw [Nat.mul_add, Nat.mul_comm (256 ^ a.length) 256, Nat.mul_assoc]
    omega

theorem idx_large {x : Nat} (h : x < 2 ^ 32) (hv : validateIndex x = true) : 2 ^ 31 ≤ x := by
  have := (validateIndex_iff h).1 hv
  omega

/-- Eight bytes beginning with a valid type index are not a small number. -/
theorem intVal_header_large {idx : Nat} (h : idx < 2 ^ 32) (hv : validateIndex idx = true) (b : Bytes)
    (e : Endian) (hb : b.length = 4) : 2 ^ 31 ≤ intVal e (intBytes e 4 idx ++ b) := by
  have hl := idx_large h hv
  have hi : leVal (leBytes 4 idx) = idx := by
    rw [leVal_leBytes]; exact Nat.mod_eq_of_lt (by simpa using h)
  cases e
  · simp only [intVal, intBytes, leVal_append, hi]; omega
  · simp only [intVal, intBytes, List.reverse_append, List.reverse_reverse, leVal_append, hi,
      List.length_reverse, hb]
    omega

theorem leBytes_append (m n v : Nat) : leBytes (m + n) v = leBytes m v ++ leBytes n (v / 256 ^ m) := by
  induction m generalizing v with
  | zero => simp [leBytes]
  | succ m ih =>
    rw [show m + 1 + n = (m + n) + 1 by omega]
    simp only [leBytes, ih, List.cons_append, Nat.div_div_eq_div_mul, Nat.pow_succ]
    rw [Nat.mul_comm 256]

/-- The first four bytes of a small `size_t` are not a valid type index. -/
theorem trailer_head {v : Nat} (h : v < 2 ^ 31) (e : Endian) : ∃ a b : Bytes,
    intBytes e 8 v = a ++ b ∧ a.length = 4 ∧ intVal e a < 2 ^ 31 := by
  have hs : leBytes 8 v = leBytes 4 v ++ leBytes 4 (v / 256 ^ 4) := leBytes_append 4 4 v
  cases e
  · refine ⟨leBytes 4 v, leBytes 4 (v / 256 ^ 4), hs, by simp, ?_⟩
    simp only [intVal, leVal_leBytes]
    omega
  · refine ⟨(leBytes 4 (v / 256 ^ 4)).reverse, (leBytes 4 v).reverse, ?_, by simp, ?_⟩
    · simp [intBytes, hs]
    · simp only [intVal, List.reverse_reverse, leVal_leBytes]
      omega

/-! ### Reading other members than were written -/

theorem catchDepth_bind {α β : Type} (ti : TI) (m : Out α) (k : α → Out β) :
    catchDepth ti (m >>= k) = catchDepth ti m >>= fun a => catchDepth ti (k a) := by
  cases m with
  | throw e => cases e <;> rfl
  | _ => rfl

/-- The type read differs from the type written. -/
theorem traverse_stop {A : Type} {ti' : TI} {h : Handler A} {ys : List A} {idx : Nat} (hc : cfg.check = true)
    (hE : ∀ k d tr, K.errs (.ser k d tr)) (hi : idx < 2 ^ 32) (hne : ti'.idx ≠ idx) {more : Bytes}
    {B : Type} {k : List A × Ser → Out (B × Ser)} {Q : B → Prop} :
    Rd K (fun s => traverse cfg ti' h s ys >>= k) (intBytes cfg.endian 4 idx ++ more) Q := by
  refine Rd.stop ?_ ?_
  · intro s rest hs hr
    have := traverse_reject (h := h) (ti := ti') hc hs (b := intBytes cfg.endian 4 idx) (by simp) hr
      (.inr (by rw [intVal_intBytes_of_lt _ (by simpa using hi)]; exact hne)) ys
    exact Scope.Fails.bind ⟨_, hE _ _ _, this⟩ k
  · intro s t hs ht he
    left
    have hlen : s.remaining.length < 4 := by
      have := congrArg List.length he
      have h0 : 0 < t.length := List.length_pos_of_ne_nil ht
      simp at this
      omega
    simp only [traverse, hc, if_true, withTypeIdx_short hs hlen]
    obtain ⟨core, kind, vdis⟩ := s
    cases core <;> simp [Ser.Reader] at hs <;> simp [Ser.short]

/-- Header of something that cannot be a header. -/
theorem traverse_stop' {A : Type} {ti' : TI} {h : Handler A} {ys : List A} {a : Bytes} (hc : cfg.check = true)
    (ha : a.length = 4) (hE : ∀ k d tr, K.errs (.ser k d tr)) (hv : ti'.Valid) (hne : intVal cfg.endian a < 2 ^ 31)
    {more : Bytes} {B : Type} {k : List A × Ser → Out (B × Ser)} {Q : B → Prop} :
    Rd K (fun s => traverse cfg ti' h s ys >>= k) (a ++ more) Q := by
  have h := traverse_stop (K := K) (cfg := cfg) (ti' := ti') (h := h) (ys := ys) (idx := intVal cfg.endian a)
    (more := more) hc hE (by have := intVal_lt cfg.endian a; rw [ha] at this; simpa using this)
    (by have := idx_large hv.1 hv.2; omega) (k := k) (Q := Q)
  have h4 := intBytes_intVal cfg.endian a
  rw [ha] at h4
  rwa [h4] at h

theorem pipe_stop {e : Elem Val} {idx : Nat} (hc : cfg.check = true)
    (hE : ∀ k d tr, K.errs (.ser k d tr)) (hi : idx < 2 ^ 32) (hne : e.ti.idx ≠ idx) {more : Bytes}
    (y : Val) {B : Type} {k : Val × Ser → Out (B × Ser)} {Q : B → Prop} {ti : TI} :
    Rd K (fun s => catchDepth ti (pipe cfg e s y) >>= k) (intBytes cfg.endian 4 idx ++ more) Q := by
  have h := (catchDepth_rd (ti := ti) (traverse_stop (K := K) (ti' := e.ti) (h := e.apply) (ys := [y]) hc hE hi hne
    (more := more) (k := only) (Q := fun _ => False))).bind (bs' := []) (k := k) (Q' := Q) (fun _ h => h.elim)
  exact h.congr (fun s _ => by rw [pipe_eq]) (by simp) (fun _ h => h)

/-- Header of something that cannot be a header. -/
theorem pipe_stop' {e : Elem Val} {a : Bytes} (hc : cfg.check = true) (ha : a.length = 4)
    (hE : ∀ k d tr, K.errs (.ser k d tr)) (hv : e.ti.Valid) (hne : intVal cfg.endian a < 2 ^ 31)
    {more : Bytes} (y : Val) {B : Type} {k : Val × Ser → Out (B × Ser)} {Q : B → Prop} {ti : TI} :
    Rd K (fun s => catchDepth ti (pipe cfg e s y) >>= k) (a ++ more) Q := by
  have h := pipe_stop (K := K) (cfg := cfg) (e := e) (idx := intVal cfg.endian a) (more := more) hc hE
    (by have := intVal_lt cfg.endian a; rw [ha] at this; simpa using this)
    (by have := idx_large hv.1 hv.2; omega) y (k := k) (Q := Q) (ti := ti)
  have h4 := intBytes_intVal cfg.endian a
  rw [ha] at h4
  rwa [h4] at h

/-- Reading `len` objects of a class whose `serialize` function visits `us` when unpacking, in the
middle of an object: members `cur` of it and the objects `yss` are still to be read. -/
def readRest (cfg : Cfg) (E : Ty → Elem Val) (ti : TI) (len : Nat) (f : Ser → List Val → Out (List Val × Ser))
    (cur : List Ty) (ys : List Val) (yss : List (List Val)) (s : Ser) : Out (List (List Val) × Ser) :=
  catchDepth ti (serMembers cfg (cur.map E) s ys >>= fun r => dispatchEach f r.2 yss >>= fun q =>
    .ok (r.1 :: q.1, q.2)) >>= fun q => withMemUsed' cfg ti len q.2 >>= fun r => .ok (q.1, r.2)

theorem membersEnc_cons (w : Bool) (p : Ty) (ps : List Ty) (x : Val) (xs : List Val) :
    membersEnc cfg w E C (p :: ps) (x :: xs) =
      nodeEnc cfg w (E p).ti (C p) x ++ membersEnc cfg w E C ps xs := rfl

theorem members_mismatch (hc : cfg.check = true) (hE : ∀ k d tr, K.errs (.ser k d tr))
    (hL : ∀ t, Law K cfg (E t).ti (E t).apply (C t)) {ti : TI} {len : Nat} (hsz : ti.sizeof * len < 2 ^ 31)
    {us : List Ty} {f : Ser → List Val → Out (List Val × Ser)}
    (hf : ∀ s p, s.Reader K → f s p = serMembers cfg (us.map E) s p) :
    ∀ (yss : List (List Val)) (cur ps : List Ty) (xs ys : List Val),
    All2 (fun t x => (C t).P x) ps xs →
    All2 (fun u y => ∀ x, (C u).P x → (C u).prior x y) cur ys →
    (∀ q ∈ yss, All2 (fun u y => ∀ x, (C u).P x → (C u).prior x y) us q) →
    (∀ p ∈ ps, ∀ u, u ∈ cur ∨ u ∈ us → (E p).ti.idx = (E u).ti.idx → p = u) →
    ps ≠ cur ++ (List.replicate yss.length us).flatten →
    Rd K (readRest cfg E ti len f cur ys yss)
      (membersEnc cfg cfg.check E C ps xs ++ intBytes cfg.endian 8 (ti.sizeof * len % 2 ^ 64))
      (fun _ => False)
  | [], [], [], [], [], _, _, _, _, hne => by simp at hne
  | [], [], p :: ps, x :: xs, [], hP, _, _, _, _ => by
    -- the writer wrote more
    have hmod : ti.sizeof * len % sizeMod = ti.sizeof * len := Nat.mod_eq_of_lt (by
      simp only [sizeMod]; omega)
    have hp := (hL p).ti_valid
    obtain ⟨a, rest', hsplit, ha⟩ : ∃ a rest', membersEnc cfg cfg.check E C (p :: ps) (x :: xs) ++
        intBytes cfg.endian 8 (ti.sizeof * len % 2 ^ 64) =
        (intBytes cfg.endian 4 (E p).ti.idx ++ a) ++ rest' ∧ a.length = 4 := by
      rw [membersEnc_cons]
      simp only [nodeEnc, node, hc, if_true]
      generalize hz : (C p).enc true x ++ (intBytes cfg.endian 8 ((E p).ti.sizeof * 1 % 2 ^ 64) ++
        (membersEnc cfg true E C ps xs ++ intBytes cfg.endian 8 (ti.sizeof * len % 2 ^ 64))) = z
      refine ⟨z.take 4, z.drop 4, ?_, ?_⟩
      · simp only [List.append_assoc, List.take_append_drop, ← hz]
      · have := congrArg List.length hz
        simp at this
        simp; omega
    rw [hsplit]
    have hlarge := intVal_header_large hp.1 hp.2 a cfg.endian ha
    refine Rd.stop ?_ ?_
    · intro s rest hs hr
      have hz := withMemUsed_reject (cfg := cfg) (ti := ti) (len := len) hs
        (by simp [ha]) hr (by rw [hmod]; omega)
      refine ⟨_, hE (.memUsed ti.name (intVal cfg.endian (intBytes cfg.endian 4 (E p).ti.idx ++ a))
        (ti.sizeof * len % sizeMod)) 0 [], ?_⟩
      simp only [readRest, List.map_nil, serMembers, dispatchEach, Out.bind_eq, Out.bind_ok, catchDepth,
        withMemUsed', hz]
      rfl
    · intro s t hs ht he
      left
      have hlen : s.remaining.length < 8 := by
        have := congrArg List.length he
        have h0 : 0 < t.length := List.length_pos_of_ne_nil ht
        simp [ha] at this
        omega
      simp only [readRest, List.map_nil, serMembers, dispatchEach, Out.bind_eq, Out.bind_ok, catchDepth,
        withMemUsed']
      rw [withMemUsed_short hs hlen]
      obtain ⟨core, kind, vdis⟩ := s
      cases core <;> simp [Ser.Reader] at hs <;> simp [Ser.short]
  | q :: yss, [], ps, xs, [], hP, _, hq, hinj, hne => by
    have ih := members_mismatch hc hE hL hsz hf yss us ps xs q hP (hq q (by simp))
      (fun q' hq' => hq q' (by simp [hq'])) (fun p hp u hu => hinj p hp u (.inr (by simpa using hu)))
      (by simpa [List.replicate_succ] using hne)
    refine (ih.map (Q' := fun _ => False) (fun r => [] :: r) (fun _ h => h)).congr ?_ rfl (fun _ h => h)
    intro s hs
    simp only [readRest, List.map_nil, serMembers, dispatchEach, Out.bind_eq, Out.bind_ok, hf s q hs]
    generalize serMembers cfg (us.map E) s q = m
    cases m with
    | ok r =>
      simp only [Out.bind_ok]
      generalize dispatchEach f r.2 yss = m'
      cases m' with
      | throw e => cases e <;> rfl
      | ok r' =>
        simp only [Out.bind_ok, catchDepth]
        generalize withMemUsed' cfg ti len r'.2 = m''
        cases m'' <;> rfl
      | _ => rfl
    | throw e => cases e <;> rfl
    | _ => rfl
  | yss, u :: cur, [], [], y :: ys, _, _, _, _, _ => by
    -- the reader reads more: it finds the trailer instead of a header
    have hmod : ti.sizeof * len % 2 ^ 64 = ti.sizeof * len := Nat.mod_eq_of_lt (by omega)
    obtain ⟨a, b, hab, ha, hlt⟩ := trailer_head hsz cfg.endian
    rw [hmod, hab]
    simp only [membersEnc, List.nil_append]
    refine (pipe_stop' hc ha hE (hL u).ti_valid hlt (more := b) y (ti := ti)
      (k := fun r => catchDepth ti (serMembers cfg (cur.map E) r.2 ys >>= fun r' =>
        dispatchEach f r'.2 yss >>= fun q => .ok ((r.1 :: r'.1) :: q.1, q.2)) >>= fun q =>
          withMemUsed' cfg ti len q.2 >>= fun r => .ok (q.1, r.2))).congr ?_ rfl (fun _ h => h)
    intro s _
    simp only [readRest, List.map_cons, serMembers]
    simp only [catchDepth_bind]
    simp [Out.bind_assoc, catchDepth]
  | yss, u :: cur, p :: ps, x :: xs, y :: ys, hP, hU, hq, hinj, hne => by
    by_cases hup : p = u
    · subst hup
      have ih := members_mismatch hc hE hL hsz hf yss cur ps xs ys hP.2 hU.2 hq
        (fun p' hp' u' hu' => hinj p' (by simp [hp']) u' (hu'.imp (by simp; exact .inr) id))
        (by simpa using hne)
      have h1 := catchDepth_rd (ti := ti) (pipe_rd (hL p) hP.1 (hU.1 x hP.1))
      refine (h1.bind (bs' := membersEnc cfg cfg.check E C ps xs ++
          intBytes cfg.endian 8 (ti.sizeof * len % 2 ^ 64)) (Q' := fun _ => False)
        (k := fun r => readRest cfg E ti len f cur ys yss r.2 >>= fun q =>
          .ok ((match q.1 with | z :: zs => (r.1 :: z) :: zs | [] => []), q.2))
        (fun b _ => ih.map (Q' := fun _ => False)
          (fun q => match q with | z :: zs => (b :: z) :: zs | [] => []) (fun _ h => h))).congr
        ?_ (by rw [membersEnc_cons, List.append_assoc]) (fun _ h => h)
      intro s _
      simp only [readRest, List.map_cons, serMembers]
      simp only [catchDepth_bind]
      simp [Out.bind_assoc, catchDepth]
    · have hidx : (E u).ti.idx ≠ (E p).ti.idx := fun h =>
        hup (hinj p (by simp) u (.inl (by simp)) h.symm)
      rw [membersEnc_cons]
      simp only [nodeEnc, node, hc, if_true, List.append_assoc]
      refine (pipe_stop hc hE (hL p).ti_valid.1 hidx y (ti := ti)
        (k := fun r => catchDepth ti (serMembers cfg (cur.map E) r.2 ys >>= fun r' =>
          dispatchEach f r'.2 yss >>= fun q => .ok ((r.1 :: r'.1) :: q.1, q.2)) >>= fun q =>
            withMemUsed' cfg ti len q.2 >>= fun r => .ok (q.1, r.2))).congr ?_ rfl (fun _ h => h)
      intro s _
      simp only [readRest, List.map_cons, serMembers]
      simp only [catchDepth_bind]
      simp [Out.bind_assoc, catchDepth]
  | _, [], [], _ :: _, _, h, _, _, _, _ => by simp [All2] at h
  | _, _ :: _, [], _ :: _, _, h, _, _, _, _ => by simp [All2] at h
  | _, [], _ :: _, [], _, h, _, _, _, _ => by simp [All2] at h
  | _, _ :: _, _ :: _, [], _, h, _, _, _, _ => by simp [All2] at h
  | _, [], _, _, _ :: _, _, h, _, _, _ => by simp [All2] at h
  | _, _ :: _, _, _, [], _, h, _, _, _ => by simp [All2] at h
termination_by yss cur => (yss.length, cur.length)

theorem membersEnc_append (w : Bool) : ∀ (ps qs : List Ty) (xs ys : List Val), ps.length = xs.length →
    membersEnc cfg w E C (ps ++ qs) (xs ++ ys) =
      membersEnc cfg w E C ps xs ++ membersEnc cfg w E C qs ys
  | [], _, [], _, _ => rfl
  | p :: ps, qs, x :: xs, ys, h => by
    simp only [List.cons_append, membersEnc_cons, List.append_assoc]
    rw [membersEnc_append w ps qs xs ys (by simpa using h)]
  | [], _, _ :: _, _, h => by simp at h
  | _ :: _, _, [], _, h => by simp at h

theorem All2.append {P : Ty → Val → Prop} : ∀ {ps qs : List Ty} {xs ys : List Val},
    All2 P ps xs → All2 P qs ys → All2 P (ps ++ qs) (xs ++ ys)
  | [], _, [], _, _, h => h
  | _ :: _, _, _ :: _, _, h, h' => ⟨h.1, All2.append h.2 h'⟩
  | [], _, _ :: _, _, h, _ => by simp [All2] at h
  | _ :: _, _, [], _, h, _ => by simp [All2] at h

theorem flatMap_members (w : Bool) {ps : List Ty} : ∀ {xs : List (List Val)},
    (∀ x ∈ xs, All2 (fun t x => (C t).P x) ps x) →
    xs.flatMap (membersEnc cfg w E C ps) =
      membersEnc cfg w E C (List.replicate xs.length ps).flatten xs.flatten ∧
    All2 (fun t x => (C t).P x) (List.replicate xs.length ps).flatten xs.flatten
  | [], _ => ⟨rfl, trivial⟩
  | x :: xs, h => by
    obtain ⟨ih1, ih2⟩ := flatMap_members w (ps := ps) (xs := xs) (fun y hy => h y (by simp [hy]))
    have hx := h x (by simp)
    simp only [List.flatMap_cons, List.length_cons, List.replicate_succ, List.flatten_cons]
    rw [membersEnc_append _ _ _ _ _ (All2.get hx).1, ih1]
    exact ⟨rfl, hx.append ih2⟩

theorem withTypeIdx_unpacking {ti : TI} {s : Ser} (hs : s.Reader K) :
    ∀ s1, withTypeIdx cfg ti s = .ok s1 → s1.isUnpacking = true := by
  intro s1 h
  rcases Nat.lt_or_ge s.remaining.length 4 with hl | hl
  · rw [withTypeIdx_short hs hl] at h
    obtain ⟨core, kind, vdis⟩ := s
    cases core <;> simp [Ser.Reader] at hs <;> simp [Ser.short] at h
  · have hb : (s.remaining.take 4).length = 4 := by simp; omega
    have := rawInt_read (cfg := cfg) hs hb (rest := s.remaining.drop 4) (by simp)
    unfold withTypeIdx at h
    simp only [hs.not_packing.1, hs.not_packing.2, hs.unpacking, this] at h
    simp only [Bool.or_self, Bool.false_eq_true, if_false, if_true, Out.bind_eq, Out.bind_ok] at h
    split at h
    · cases h
    · cases h
      exact (hs.advance hl).unpacking

/-- The `serialize` function of a class reads the members it writes, or its reading is checked. -/
def AsymOk (K : Scope) (cfg : Cfg) (E : Ty → Elem Val) (ti : TI) (ps us : List Ty) : Prop :=
  us ≠ ps → cfg.check = true ∧ (∀ k d tr, K.errs (.ser k d tr)) ∧ ti.sizeof < 2 ^ 31 ∧
    ∀ p ∈ ps, ∀ u ∈ us, (E p).ti.idx = (E u).ti.idx → p = u

/-- What a class's `serialize` function does with its own members. -/
theorem part_law {ti : TI} {ps us : List Ty} (hti : ti.Valid)
    (hL : ∀ t, Law K cfg (E t).ti (E t).apply (C t)) (ha : AsymOk K cfg E ti ps us) :
    Law K cfg ti (dispatchEach (fun s p => serMembers cfg ((if s.isUnpacking then us else ps).map E) s p))
      (partCodec E C cfg ti ps us) := by
  have hw : ∀ x, (partCodec E C cfg ti ps us).P x → Wr K cfg
      (fun s => serMembers cfg ((if s.isUnpacking then us else ps).map E) s x)
      (fun w => (partCodec E C cfg ti ps us).enc w x) x := by
    intro x hx
    refine (members_wr (fun t _ => hL t) hx).congr ?_ (fun _ => rfl)
    intro s hs
    simp [hs.not_unpacking]
  have hf : ∀ x, (partCodec E C cfg ti ps us).P x → Fp K
      (fun s => serMembers cfg ((if s.isUnpacking then us else ps).map E) s x)
      ((partCodec E C cfg ti ps us).fp x) x := by
    intro x hx
    refine (members_fp (fun t _ => hL t) hx).congr ?_ rfl
    intro s hs
    simp [hs.not_unpacking]
  by_cases hup : us = ps
  · subst hup
    refine Law.ofEach hti (fun h => (h rfl).elim) hw ?_ hf
    intro x y hx hp
    refine (members_rd (fun t _ => hL t) hx (hp.1 rfl)).congr ?_ rfl (fun b hb => ⟨rfl, hb⟩)
    intro s hs
    simp
  · obtain ⟨hc, hE, hsz, hinj⟩ := ha hup
    have L0 := Law.ofEach (c := { partCodec E C cfg ti ps us with prior := fun _ _ => False }) (K := K)
      hti (fun _ => by simpa using hsz) hw (fun _ _ _ h => h.elim) hf
    refine ⟨hti, L0.one, L0.wr, ?_, L0.fp⟩
    intro xs yss hx hp hl hm
    have hy : ∀ q ∈ yss, All2 (fun u y => ∀ x, (C u).P x → (C u).prior x y) us q := by
      intro q hq
      obtain ⟨i, hi⟩ := List.getElem?_of_mem hq
      obtain ⟨hlen, hg⟩ := forall₂_get hp
      have hlt : i < xs.length := by
        rw [hlen]
        rcases Nat.lt_or_ge i yss.length with h | h
        · exact h
        · rw [List.getElem?_eq_none h] at hi; cases hi
      exact (hg i _ q (List.getElem?_eq_getElem hlt) hi).2 hup
    have hlen := hp.length_eq
    match yss, hy, hlen with
    | [], _, hlen => rw [hlen] at hl; simp at hl
    | y :: yss, hy, hlen =>
    obtain ⟨he, hP⟩ := flatMap_members (E := E) (cfg := cfg) cfg.check hx
    have hne : (List.replicate xs.length ps).flatten ≠ us ++ (List.replicate yss.length us).flatten := by
      intro h
      have h' : (List.replicate xs.length ps).flatten = (List.replicate xs.length us).flatten := by
        rw [h, hlen, List.length_cons, List.replicate_succ, List.flatten_cons]
      have hlens := congrArg List.length h'
      simp only [List.length_flatten, List.map_replicate, List.sum_replicate_nat] at hlens
      have hll : ps.length = us.length := Nat.eq_of_mul_eq_mul_left hl hlens
      have htake := congrArg (List.take us.length) h
      rw [List.take_left' rfl] at htake
      obtain ⟨m, hm'⟩ := Nat.exists_eq_add_of_le' hl
      rw [hm', List.replicate_succ, List.flatten_cons, ← hll, List.take_left' rfl] at htake
      exact hup htake.symm
    have hmain := members_mismatch (K := K) (E := E) (C := C) hc hE hL (ti := ti) (len := xs.length)
      (hm hup) (us := us)
      (f := fun s p => serMembers cfg ((if s.isUnpacking then us else ps).map E) s p)
      (fun s p hs => by simp [hs.unpacking]) yss us _ xs.flatten y hP (hy y (by simp))
      (fun q hq => hy q (by simp [hq]))
      (fun p hp u hu => by
        have hp' : p ∈ ps := by
          obtain ⟨l, hl1, hl2⟩ := List.mem_flatten.1 hp
          rw [List.eq_of_mem_replicate hl1] at hl2
          exact hl2
        exact hinj p hp' u (hu.elim id id)) hne
    have h1 := (withTypeIdx_rd (K := K) (cfg := cfg) hti).bind
      (k := fun p => readRest cfg E ti xs.length
        (fun s p => serMembers cfg ((if s.isUnpacking then us else ps).map E) s p) us y yss p.2)
      (fun _ _ => hmain)
    refine h1.congr ?_ ?_ (fun _ h => h.elim)
    · intro s hs
      have hty := withTypeIdx_unpacking (cfg := cfg) (ti := ti) hs
      simp only [traverse, hc, if_true, withTypeIdx', Out.bind_eq, Out.bind_assoc, Out.bind_ok]
      cases hw : withTypeIdx cfg ti s with
      | ok s1 =>
        have hr := hty s1 hw
        simp only [Out.bind_ok, readRest, dispatchEach, hr, if_true, hlen, withMemUsed', Out.bind_eq,
          Out.bind_assoc, List.length_cons]
      | _ => rfl
    · simp only [node, hc, if_true]
      rw [hc] at he
      simp only [partCodec]
      rw [he, List.append_assoc]

end Ckpt
