import Verif.Proofs.Safe
import Verif.Proofs.Merge
/-!
Reading arbitrary bytes into an object of any type.
-/

set_option autoImplicit false

namespace Ckpt

/-- A well-formed object whose dynamic class satisfies `Q`. -/
def Inv (env : Env) (Q : Nat → Prop) (t : Ty) (v : Val) : Prop :=
  Formed env t v ∧ ∀ d ps, v = .obj d ps → Q d

/-- A well-formed object that is not a part of a larger one. -/
def Obj (env : Env) (t : Ty) (v : Val) : Prop := Formed env t v ∧ ByVal t v

/-- The members of one class of an object. -/
def PartOk (env : Env) (k : Nat) (p : List Val) : Prop :=
  p.length = (env.cls k).fields.length ∧
    ∀ (i : Nat) t x, (env.cls k).fields[i]? = some t → p[i]? = some x → Obj env t x

/-- From what is known of an object to what is known of what is read inside it: `A` of the types of what may be read
after at least one byte, `K` of the objects that are there anyway. -/
structure Descends (env : Env) (A : Ty → Prop) (K K' : Ty → Val → Prop) : Prop where
  vec : ∀ {t v}, K' (.vec t) v → A t
  seq : ∀ {k t v}, K' (.seq k t) v → A t
  queue : ∀ {t v}, K' (.queue t) v → A t
  oset : ∀ {a cmp t v}, K' (.oset a cmp t) v → A t
  uset : ∀ {a eq t v}, K' (.uset a eq t) v → A t
  opt : ∀ {t v}, K' (.opt t) v → A t
  variant : ∀ {ts v}, K' (.variant ts) v → ∀ t ∈ ts, A t
  uptr : ∀ {t v}, K' (.uptr t) v → A t
  pair : ∀ {a b x y}, K' (.pair a b) (.coll [x, y]) → K a x ∧ K b y
  tuple : ∀ {ts xs}, K' (.tuple ts) (.coll xs) →
    ∀ (i : Nat) t x, ts[i]? = some t → xs[i]? = some x → K t x
  arr : ∀ {n t xs}, K' (.arr n t) (.coll xs) → ∀ x ∈ xs, K t x
  cls : ∀ {c d ps}, K' (.cls c) (.obj d ps) → ∀ p ∈ ps,
    ∀ (i : Nat) t x, (env.cls c).fields[i]? = some t → p[i]? = some x → K t x
  poly : ∀ {c d ps}, K' (.cls c) (.obj d ps) → (env.cls c).virt = true → c ∈ env.chain d → ∀ k ∈ env.chain d, ∀ p ∈ ps,
    ∀ (i : Nat) t x, (env.cls k).fields[i]? = some t → p[i]? = some x → K t x

section
variable {cfg : Cfg} {env : Env} {U : UB → Prop} {m : Nat} {h : Nat → Ty → Handler Val} {A : Ty → Prop}
  {K K' : Ty → Val → Prop}

theorem HS.imp {T : Type} {P P' R R' : T → Prop} {h : Nat → Handler T} (hh : HS U m P P' h)
    (h1 : ∀ x, R x → P x) (h2 : ∀ x, P' x → R' x) : HS U m R R' h :=
  fun s xs hs hne hx => (hh s xs hs hne (fun x hxx => h1 x (hx x hxx))).imp (Nat.le_refl _)
    (fun _ hy => ⟨hy.1, fun y hyy => h2 y (hy.2 y hyy)⟩)

/-- The condition on the dynamic class that makes an object a complete one. -/
def exact : Ty → Nat → Prop
  | .cls c => fun d => d = c
  | _ => fun _ => True

theorem inv_exact (t : Ty) (v : Val) : Inv env (exact t) t v ↔ Obj env t v := by
  unfold Inv Obj
  refine and_congr_right (fun hf => ?_)
  cases t with
  | cls c =>
    cases v with
    | obj d ps => exact ⟨fun h => h d ps rfl, fun h d' ps' he => by cases he; exact h⟩
    | _ => exact ⟨fun _ => trivial, fun _ => nofun⟩
  | _ => exact ⟨fun _ => trivial, fun _ _ _ _ => trivial⟩

theorem PartOk.obj {c d : Nat} {ps : List (List Val)} (hc : c ∈ env.chain d)
    (hl : ps.length = (env.chain d).length)
    (hp : ∀ (j k : Nat) p, (env.chain d)[j]? = some k → ps[j]? = some p → PartOk env k p) :
    Formed env (.cls c) (.obj d ps) :=
  .obj hc hl (fun j k p h1 h2 => (hp j k p h1 h2).1) (fun j k p h1 h2 i t x h3 h4 => ((hp j k p h1 h2).2 i t x h3 h4).2)
    (fun j k p h1 h2 i t x h3 h4 => ((hp j k p h1 h2).2 i t x h3 h4).1)

theorem Formed.parts {c d : Nat} {ps : List (List Val)} (h : Formed env (.cls c) (.obj d ps)) :
    c ∈ env.chain d ∧ ps.length = (env.chain d).length ∧
    ∀ (j k : Nat) p, (env.chain d)[j]? = some k → ps[j]? = some p → PartOk env k p := by
  cases h with
  | obj hc hl h1 h2 h3 =>
    exact ⟨hc, hl, fun j k p hj hp => ⟨h1 j k p hj hp, fun i t x ht hx =>
      ⟨h3 j k p hj hp i t x ht hx, h2 j k p hj hp i t x ht hx⟩⟩⟩

theorem mapM_raw_safe {size : Nat} : ∀ (xs : List Val), (∀ x ∈ xs, ∃ bs : Bytes, x = .raw bs ∧ bs.length = size) →
    ∃ ys, xs.mapM Val.raw? = some ys ∧ ys.length = xs.length ∧ ∀ y ∈ ys, y.length = size
  | [], _ => ⟨[], rfl, rfl, by simp⟩
  | x :: xs, hx => by
    obtain ⟨bs, rfl, hb⟩ := hx x (by simp)
    obtain ⟨ys, h1, h2, h3⟩ := mapM_raw_safe xs (fun y hy => hx y (by simp [hy]))
    refine ⟨bs :: ys, ?_, by simp [h2], by simpa using ⟨hb, h3⟩⟩
    rw [List.mapM_cons, h1]; rfl

theorem emplaceUnique_sub {T : Type} {lt : T → T → Bool} {I : T → Prop} {y : T} (hy : I y) : ∀ (acc : List T),
    (∀ x ∈ acc, I x) → ∀ x ∈ emplaceUnique lt acc y, I x
  | [], _ => by simp [emplaceUnique]; exact hy
  | z :: zs, ha => by
    unfold emplaceUnique
    have ih := emplaceUnique_sub (lt := lt) hy zs (fun x hx => ha x (by simp [hx]))
    split
    · intro x hx
      rcases List.mem_cons.1 hx with rfl | hx
      · exact ha _ (by simp)
      · exact ih x hx
    · split
      · intro x hx
        rcases List.mem_cons.1 hx with rfl | hx
        · exact hy
        · exact ha x hx
      · exact ha

theorem emplaceO_keeps (hE : env.Sound cfg) (a : Assoc) (cmp : Nat) {I : Val → Prop} (acc : List Val) (y : Val)
    (ha : env.Sorted a cmp acc ∧ ∀ x ∈ acc, I x) (hy : I y) :
    env.Sorted a cmp (env.emplaceO a cmp acc y) ∧ ∀ x ∈ env.emplaceO a cmp acc y, I x := by
  obtain ⟨hs, ha⟩ := ha
  unfold Env.Sorted at hs ⊢
  unfold Env.emplaceO
  rw [multi_eq]
  by_cases hm : a.repeats = true
  · simp only [hm, if_true] at hs ⊢
    refine ⟨emplaceMulti_sorted (hE.asymm cmp) (hE.weak cmp) hs y, fun x hx => ?_⟩
    rcases List.mem_append.1 ((emplaceMulti_perm acc y).subset hx) with h | h
    · exact ha x h
    · rw [List.mem_singleton.1 h]; exact hy
  · simp only [hm] at hs ⊢
    exact ⟨emplaceUnique_sorted (hE.trans cmp) hs y, emplaceUnique_sub hy acc ha⟩

theorem emplaceU_keeps (hE : env.Sound cfg) (a : Assoc) (eq : Nat) {I : Val → Prop} (acc : List Val) (y : Val)
    (ha : (a.repeats = false → acc.Pairwise (fun x y => env.eq eq x y = false)) ∧ ∀ x ∈ acc, I x) (hy : I y) :
    (a.repeats = false → (env.emplaceU a eq acc y).Pairwise (fun x y => env.eq eq x y = false)) ∧
      ∀ x ∈ env.emplaceU a eq acc y, I x := by
  unfold Env.emplaceU emplaceUnordered
  rw [multi_eq]
  split
  · exact ha
  · next hc =>
    refine ⟨fun hm => ?_, fun x hx => ?_⟩
    · refine ((hE.arrange eq (y :: acc)).pairwise_iff
        (fun {a b} (h : env.eq eq a b = false) => by rw [hE.symm]; exact h)).2 ?_
      refine List.pairwise_cons.2 ⟨fun z hz => ?_, ha.1 hm⟩
      rw [hm] at hc
      rw [hE.symm]
      cases hzy : env.eq eq z y with
      | false => rfl
      | true => exact absurd (by simpa using ⟨z, hz, hzy⟩) hc
    · rcases List.mem_cons.1 ((hE.arrange eq (y :: acc)).subset hx) with rfl | h
      · exact hy
      · exact ha.2 x h

theorem visited_eq (hE : env.Sound cfg) {s : Ser} (hs : Reads U m s) (c : Nat) :
    (env.cls c).visited s = (env.cls c).fields := by
  unfold ClassDef.visited
  rw [hs.unpacking, if_pos rfl, hE.sym c]

theorem fresh_makes (hE : env.Sound cfg) (h : Handler Val) (t : Ty) : Makes (Obj env t) (env.elemOf h t) :=
  ⟨hE.fresh t, hE.dflt t⟩

/-- Types other than classes. -/
theorem HS.plain {t : Ty} {Q : Nat → Prop} {f : Nat → Handler Val} {K : Val → Prop}
    (hno : ∀ d ps, ¬ Formed env t (.obj d ps))
    (hf : HS U m (fun x => Formed env t x ∧ K x) (Formed env t) f) :
    HS U m (fun x => Inv env Q t x ∧ K x) (Inv env Q t) f :=
  hf.imp (fun _ hx => ⟨hx.1.1, hx.2⟩) (fun _ hx => ⟨hx, fun d ps he => absurd (he ▸ hx) (hno d ps)⟩)

theorem construct_good (hE : env.Sound cfg) (hU : ∀ u, Hazard cfg env u → U u) {c : Nat}
    (hv : (env.cls c).virt = true) (i : Nat) : MadeOk U (Formed env (.cls c)) (env.construct cfg c i) := by
  unfold Env.construct
  cases hd : (env.objReg (env.root c))[i]? with
  | none => trivial
  | some d =>
    simp only
    by_cases ha : (env.cls d).abstract = true
    · by_cases hn : cfg.ndebug = true
      · simp only [ha, hn, if_true]
        exact hU _ (.abstract hn hv hd ha)
      · simp only [ha, hn, if_true]
        trivial
    · by_cases hc : c ∈ env.chain d
      · simp only [ha, hc, if_true]
        have := hE.fresh (.cls d)
        revert this
        generalize env.fresh (.cls d) = v
        rintro ⟨hf, hb⟩
        cases hf with
        | obj _ hl h1 h2 h3 =>
          cases hb
          exact .obj hc hl h1 h2 h3
      · simp only [ha, hc]
        exact hU _ (.sibling hv hd (by simpa using ha) hc)

theorem members_ev (hE : env.Sound cfg)
    (hB : ∀ t, HS U m (fun x => Obj env t x ∧ K t x) (Obj env t) (fun n => h n t))
    {c : Nat} {s : Ser} (hs : Reads U m s) {p : List Val} (hp : PartOk env c p)
    (hk : ∀ (i : Nat) t x, (env.cls c).fields[i]? = some t → p[i]? = some x → K t x) :
    Evtl U m (PartOk env c)
      (fun n => serMembers cfg (((env.cls c).visited s).map fun t => env.elemOf (h n t) t) s p) := by
  rw [visited_eq hE hs]
  exact serMembers_ev (el := fun t => env.elemOf (h 0 t) t) hB (env.cls c).fields p hs hp.1
    (fun i t x h1 h2 => ⟨hp.2 i t x h1 h2, hk i t x h1 h2⟩)

theorem sizeOf_part {d : Nat} {ps : List (List Val)} {p : List Val} {x : Val} (hp : p ∈ ps) (hx : x ∈ p) :
    sizeOf x < sizeOf (Val.obj d ps) := by
  have h1 := List.sizeOf_lt_of_mem hp
  have h2 := List.sizeOf_lt_of_mem hx
  simp only [Val.obj.sizeOf_spec]
  omega

theorem step_cls (hE : env.Sound cfg) (hD : Descends env A K K')
    (hB : ∀ t, HS U m (fun x => Obj env t x ∧ K t x) (Obj env t) (fun n => h n t))
    (c : Nat) (Q : Nat → Prop) :
    HS U m (fun x => Inv env Q (.cls c) x ∧ K' (.cls c) x) (Inv env Q (.cls c))
      (fun n => dispatchStep cfg env (h n) (.cls c)) := by
  have hon : HS U m (fun x => Inv env Q (.cls c) x ∧ K' (.cls c) x) (Inv env Q (.cls c)) (fun n =>
      dispatchEach (onPart env c fun s p =>
        serMembers cfg (((env.cls c).visited s).map fun t => env.elemOf (h n t) t) s p)) := by
    refine dispatchEach_hs (fun s x hs hx => ?_)
    obtain ⟨⟨hf, hq⟩, hk⟩ := hx
    have hf' := hf
    cases hf with
    | @obj _ d ps _ _ _ _ _ =>
      obtain ⟨hc, hl, hp⟩ := hf'.parts
      have hi : List.idxOf c (env.chain d) < (env.chain d).length := List.idxOf_lt_length_of_mem hc
      have h1 : (env.chain d)[List.idxOf c (env.chain d)]? = some c := by
        rw [List.getElem?_eq_getElem hi, List.getElem_idxOf]
      have h2 : ps[List.idxOf c (env.chain d)]? = some (ps[List.idxOf c (env.chain d)]'(by omega)) :=
        List.getElem?_eq_getElem (by omega)
      unfold onPart
      simp only [h2]
      refine Evtl.bind (members_ev hE hB hs (hp _ _ _ h1 h2)
        (hD.cls hk _ (List.mem_of_getElem? h2))) (fun r hr hs' => ?_)
      · refine Evtl.pure ⟨PartOk.obj hc (by simpa using hl) (fun j k p hj hps => ?_), fun d' ps' he => ?_⟩ hs'
        · by_cases hij : List.idxOf c (env.chain d) = j
          · subst hij
            rw [List.getElem?_set_self (by omega)] at hps
            rw [h1] at hj
            cases hj; cases hps
            exact hr
          · rw [List.getElem?_set_ne hij] at hps
            exact hp j k p hj hps
        · cases he
          exact hq d ps rfl
  unfold dispatchStep
  simp only
  by_cases hv : (env.cls c).virt = true
  · simp only [hv, if_true]
    intro s xs hs hne hx
    by_cases hd : s.vdis = true
    · simp only [hd, if_true]
      exact hon _ xs (hs.setVdis false) hne hx
    · simp only [hd]
      cases xs with
      | nil => exact absurd rfl hne
      | cons x rest =>
        obtain ⟨⟨hf, hq⟩, hk⟩ := hx x (by simp)
        have hf' := hf
        cases hf with
        | @obj _ d ps _ _ _ _ _ =>
          obtain ⟨hc, hl, hp⟩ := hf'.parts
          simp only [Bool.false_eq_true, if_false]
          refine Evtl.bind (serChain_ev hE.serRegOk (fun _ _ => rfl)
            (p := fun c p => PartOk env c p ∧
              ∀ (i : Nat) t x, (env.cls c).fields[i]? = some t → p[i]? = some x → K t x) (q := PartOk env) (env.chain d) ps
            (fun c' _ s' qs hs' hne' hq' => ?_) hs
            (fun c' hc' => hE.hier d c' hc') hl (fun i c' p h1 h2 => ⟨hp i c' p h1 h2, hD.poly hk hv hc c'
              (List.mem_of_getElem? h1) p (List.mem_of_getElem? h2)⟩))
            (fun r hr hs' => ?_)
          · exact dispatchEach_hs (P := fun p => PartOk env c' p ∧
              ∀ (i : Nat) t x, (env.cls c').fields[i]? = some t → p[i]? = some x → K t x)
              (fun s'' p hs'' hp'' => members_ev hE hB hs'' hp''.1 hp''.2) _ qs (hs'.setVdis false) hne' hq'
          · refine Evtl.pure ⟨rfl, fun y hy => ?_⟩ hs'
            rcases List.mem_cons.1 hy with rfl | hy
            · exact ⟨PartOk.obj hc hr.1 hr.2, fun d' ps' he => by cases he; exact hq d ps rfl⟩
            · exact (hx y (by simp [hy])).1
  · simp only [hv]
    exact hon

theorem step (hE : env.Sound cfg) (hU : ∀ u, Hazard cfg env u → U u) (hD : Descends env A K K')
    (hA : ∀ t, A t → ∀ Q, HS U m (Inv env Q t) (Inv env Q t) (fun n => h n t))
    (hB : ∀ t Q, HS U (m + 1) (fun x => Inv env Q t x ∧ K t x) (Inv env Q t) (fun n => h n t))
    (t : Ty) (Q : Nat → Prop) :
    HS U (m + 1) (fun x => Inv env Q t x ∧ K' t x) (Inv env Q t)
      (fun n => dispatchStep cfg env (h n) t) := by
  have hb : U .badBool := hU _ .bool
  have hA' : ∀ t, A t → HS U m (Obj env t) (Obj env t) (fun n => h n t) := fun t ha =>
    (hA t ha (exact t)).imp (fun x => (inv_exact t x).2) (fun x => (inv_exact t x).1)
  have hB' : ∀ t, HS U (m + 1) (fun x => Obj env t x ∧ K t x) (Obj env t) (fun n => h n t) := fun t =>
    (hB t (exact t)).imp (fun x hx => ⟨(inv_exact t x).2 hx.1, hx.2⟩) (fun x => (inv_exact t x).1)
  have hmk := fun n t => fresh_makes hE (h n t) t
  have up : ∀ {α : Type} {P : α → Prop} {o : Nat → Out (α × Ser)}, Evtl U m P o → Evtl U (m + 1) P o :=
    fun h => h.imp (Nat.le_succ m) (fun _ => id)
  cases t with
  | cls c => exact step_cls hE hD hB' c Q
  | prim id size =>
    refine HS.plain (fun d ps h => by cases h) (fun s xs hs _ hx => ?_)
    obtain ⟨ys, h1, h2, h3⟩ := mapM_raw_safe (size := size) xs (fun x hxx => by
      obtain ⟨hf, _⟩ := hx x hxx
      cases hf with
      | prim hl => exact ⟨_, rfl, hl⟩)
    simp only [dispatchStep, onRaw, h1]
    refine Evtl.bindC (dispatchByte_good hs h3 (m' := m + 1) (by omega)) (fun r hr hs' => ?_)
    refine Evtl.pure ⟨by simp [hr.1, h2], fun y hy => ?_⟩ hs'
    obtain ⟨bs, hbs, rfl⟩ := List.mem_map.1 hy
    exact .prim (hr.2 bs hbs)
  | enm id pid size =>
    refine HS.plain (fun d ps h => by cases h) (dispatchEach_hs (fun s x hs hx => ?_))
    cases hx.1 with
    | @enm _ _ _ bs hl =>
      refine Evtl.bindC (P := fun b : Bytes => b.length = size) (m := m + 1) ?_ (fun r hr hs' => Evtl.pure (.enm hr) hs')
      refine Good.bind (Evtl.of_const (pipe_ev (e := primElem env pid size) (P := fun b : Bytes => b.length = size)
        (P' := fun b => b.length = size) (h := fun _ => dispatchByte size)
        (fun s' xs hs' _ hx => .const (dispatchByte_good hs' hx (by omega))) hs hl)) (fun r hr hs' => ⟨hr, hs'⟩)
  | chrono id pid size =>
    refine HS.plain (fun d ps h => by cases h) (dispatchEach_hs (fun s x hs hx => ?_))
    cases hx.1 with
    | @chrono _ _ _ bs hl =>
      refine Evtl.bindC (P := fun b : Bytes => b.length = size) (m := m + 1) ?_ (fun r hr hs' => Evtl.pure (.chrono hr) hs')
      refine Good.bind (Evtl.of_const (pipe_ev (e := primElem env pid size) (P := fun b : Bytes => b.length = size)
        (P' := fun b => b.length = size) (h := fun _ => dispatchByte size)
        (fun s' xs hs' _ hx => .const (dispatchByte_good hs' hx (by omega))) hs hl)) (fun r hr hs' => ⟨hr, hs'⟩)
  | str =>
    refine HS.plain (fun d ps h => by cases h) (dispatchEach_hs (fun s x hs hx => up ?_))
    cases hx.1 with
    | str hl => exact Evtl.bindC (serString_good hE.grow _ hs hl) (fun r hr hs' => Evtl.pure (.str hr) hs')
  | vecBool =>
    refine HS.plain (fun d ps h => by cases h) (dispatchEach_hs (fun s x hs hx => up ?_))
    cases hx.1 with
    | vecBool hl =>
      exact Evtl.bindC (serVectorBool_good hE.grow hb _ hs _) (fun r hr hs' => Evtl.pure (.vecBool hr) hs')
  | vec t =>
    refine HS.plain (fun d ps h => by cases h) (dispatchEach_hs (fun s x hs hx => up ?_))
    cases hx.1 with
    | @vec _ cap xs hl h1 h2 =>
      refine Evtl.bind (serVector_ev hE.grow (hA' t (hD.vec hx.2)) (hmk 0 t) _ hs (v := ⟨cap, xs⟩)
        (fun x hx => ⟨h2 x hx, h1 x hx⟩)) (fun r hr hs' => Evtl.pure ?_ hs')
      exact .vec hr.1 (fun x hx => (hr.2 x hx).2) (fun x hx => (hr.2 x hx).1)
  | seq sk t =>
    refine HS.plain (fun d ps h => by cases h) (dispatchEach_hs (fun s x hs hx => up ?_))
    cases hx.1 with
    | @seq _ _ xs h1 h2 =>
      refine Evtl.bind (serList_ev (hA' t (hD.seq hx.2)) (hmk 0 t).fresh _ hs (xs := xs)
        (fun x hx => ⟨h2 x hx, h1 x hx⟩)) (fun r hr hs' => Evtl.pure ?_ hs')
      exact .seq (fun x hx => (hr x hx).2) (fun x hx => (hr x hx).1)
  | queue t =>
    refine HS.plain (fun d ps h => by cases h) (dispatchEach_hs (fun s x hs hx => up ?_))
    cases hx.1 with
    | @queue _ xs h1 h2 =>
      refine Evtl.bind (serQueue_ev (hA' t (hD.queue hx.2)) (hmk 0 t).fresh _ hs (xs := xs)
        (fun x hx => ⟨h2 x hx, h1 x hx⟩)) (fun r hr hs' => Evtl.pure ?_ hs')
      exact .queue (fun x hx => (hr x hx).2) (fun x hx => (hr x hx).1)
  | oset a cmp t =>
    refine HS.plain (fun d ps h => by cases h) (dispatchEach_hs (fun s x hs hx => up ?_))
    cases hx.1 with
    | @oset _ _ _ xs h0 h1 h2 =>
      refine Evtl.bind (serMapLike_ev (J := fun ys => env.Sorted a cmp ys ∧ ∀ y ∈ ys, Obj env t y)
        (hA' t (hD.oset hx.2)) (hmk 0 t).fresh (emplaceO_keeps hE a cmp) _ hs (xs := xs)
        ⟨h0, fun x hx => ⟨h2 x hx, h1 x hx⟩⟩) (fun r hr hs' => Evtl.pure ?_ hs')
      exact .oset hr.1 (fun x hx => (hr.2 x hx).2) (fun x hx => (hr.2 x hx).1)
  | uset a eq t =>
    refine HS.plain (fun d ps h => by cases h) (dispatchEach_hs (fun s x hs hx => up ?_))
    cases hx.1 with
    | @uset _ _ _ xs h0 h1 h2 =>
      refine Evtl.bind (serMapLike_ev (J := fun ys => (a.repeats = false →
          ys.Pairwise (fun x y => env.eq eq x y = false)) ∧ ∀ y ∈ ys, Obj env t y)
        (hA' t (hD.uset hx.2)) (hmk 0 t).fresh (emplaceU_keeps hE a eq) _ hs (xs := xs)
        ⟨h0, fun x hx => ⟨h2 x hx, h1 x hx⟩⟩) (fun r hr hs' => Evtl.pure ?_ hs')
      exact .uset hr.1 (fun x hx => (hr.2 x hx).2) (fun x hx => (hr.2 x hx).1)
  | pair a b =>
    refine HS.plain (fun d ps h => by cases h) (dispatchEach_hs (fun s x hs hx => ?_))
    have hk := hx.2
    cases hx.1 with
    | @pair _ _ x y h1 h2 h3 h4 =>
      obtain ⟨k1, k2⟩ := hD.pair hk
      refine Evtl.bind (P := fun p : Val × Val => Obj env a p.1 ∧ Obj env b p.2) (m := m + 1) ?_
        (fun r hr hs' => Evtl.pure (.pair hr.1.2 hr.2.2 hr.1.1 hr.2.1) hs')
      simp only [serPair, hs.addBytes]
      refine Evtl.bind (pipe_ev (e := env.elemOf (h 0 a) a) (hB' a) hs ⟨⟨h3, h1⟩, k1⟩) (fun r hr hs' => ?_)
      exact Evtl.bind (pipe_ev (e := env.elemOf (h 0 b) b) (hB' b) hs' ⟨⟨h4, h2⟩, k2⟩)
        (fun r' hr' hs'' => Evtl.pure ⟨hr, hr'⟩ hs'')
  | tuple ts =>
    refine HS.plain (fun d ps h => by cases h) (dispatchEach_hs (fun s x hs hx => ?_))
    have hk := hx.2
    cases hx.1 with
    | @tuple _ xs hl h1 h2 =>
      have ho := hE.order ts.length
      have hm : ∀ i, i ∈ cfg.argOrder ts.length ↔ i < ts.length := fun i => by
        rw [ho.mem_iff, List.mem_range]
      refine Evtl.bind (P := fun ys => ys.length = ts.length ∧ ∀ (i : Nat) t y, ts[i]? = some t → ys[i]? = some y →
        Obj env t y) (m := m + 1) ?_ (fun r hr hs' => Evtl.pure (.tuple hr.1
          (fun i t x h1 h2 => (hr.2 i t x h1 h2).2) (fun i t x h1 h2 => (hr.2 i t x h1 h2).1)) hs')
      have hv := visitMembers_ev (cfg := cfg) (el := fun t => env.elemOf (h 0 t) t) hB' (ts := ts)
        (cfg.argOrder ts.length) xs hs hl
        (ho.nodup_iff.2 List.nodup_range) (fun i hi => (hm i).1 hi) (fun i t x ht hx => ⟨fun _ => ⟨⟨h2 i t x ht hx,
          h1 i t x ht hx⟩, hD.tuple hk i t x ht hx⟩, fun hn => absurd ((hm i).2 ?_) hn⟩)
      · simp only [serTuple, List.length_map]
        exact hv
      · exact (List.getElem?_eq_some_iff.1 ht).1
  | opt t =>
    refine HS.plain (fun d ps h => by cases h) (dispatchEach_hs (fun s x hs hx => up ?_))
    have hx1 := hx.1
    have key : ∀ y, Evtl U m (Formed env (.opt t)) (fun n =>
        serOptional cfg (env.ti (.opt t)).sizeof (env.elemOf (h n t) t) s y >>= fun r => .ok (.opt r.1, r.2)) := by
      intro y
      refine Evtl.bind (serOptional_ev (hA' t (hD.opt hx.2)) (hmk 0 t).fresh hb _ hs y) (fun r hr hs' => Evtl.pure ?_ hs')
      cases hr1 : r.1 with
      | none => exact .optNone
      | some z => exact .optSome (hr z hr1).2 (hr z hr1).1
    cases hx1 with
    | optNone => exact key none
    | optSome _ _ => exact key (some _)
  | variant ts =>
    rcases Bool.eq_false_or_eq_true (Ty.allOnlyBytes ts) with hb | hb
    · refine HS.plain (fun d ps h => by cases h) (fun s xs hs _ hx => ?_)
      obtain ⟨ys, h1, h2, h3⟩ := mapM_raw_safe (size := (env.ti (.variant ts)).sizeof) xs (fun x hxx => by
        obtain ⟨hf, _⟩ := hx x hxx
        cases hf with
        | variantBytes _ hl => exact ⟨_, rfl, hl⟩
        | variant hb' => rw [hb] at hb'; cases hb'
        | valueless hb' => rw [hb] at hb'; cases hb')
      simp only [dispatchStep_variantBytes hb, onRaw, h1]
      refine Evtl.bindC (dispatchByte_good hs h3 (m' := m + 1) (by omega)) (fun r hr hs' => ?_)
      refine Evtl.pure ⟨by simp [hr.1, h2], fun y hy => ?_⟩ hs'
      obtain ⟨bs, hbs, rfl⟩ := List.mem_map.1 hy
      exact .variantBytes hb (hr.2 bs hbs)
    simp only [dispatchStep_variant hb]
    refine HS.plain (fun d ps h => by cases h) (dispatchEach_hs (fun s x hs hx => up ?_))
    have hx1 := hx.1
    have hv := hx.2
    have key : ∀ x : Variant Val, (∀ i y, x = .holds i y → ∃ t, ts[i]? = some t ∧ Obj env t y) →
        Evtl U m (Formed env (.variant ts)) (fun n =>
          serVariant cfg (ts.map fun t => env.elemOf (h n t) t) s x >>= fun r => match r.1 with
          | .holds i x => .ok (Val.variant i x, r.2)
          | .valueless => .ok (.valueless, r.2)) := by
      intro x hx
      refine Evtl.bind (P := fun w : Variant Val => ∀ i y, w = .holds i y → ∃ t, ts[i]? = some t ∧ Obj env t y) (m := m)
        ?_ (fun r hr hs' => ?_)
      · refine Evtl.bindC (pipeSize_good hs _) (fun r _ hr => ?_)
        exact serializeEntry_ev (el := fun t => env.elemOf (h 0 t) t)
          (fun t ht => hA' t (hD.variant hv t ht)) (fun t => (hmk 0 t).fresh) hx ts r.1 0 hr
          (fun i t h => by simpa using h)
      · obtain ⟨w, s'⟩ := r
        cases w with
        | valueless => exact Evtl.pure (.valueless hb) hs'
        | holds i y =>
          obtain ⟨t, h1, h2⟩ := hr i y rfl
          exact Evtl.pure (.variant hb h1 h2.2 h2.1) hs'
    cases hx1 with
    | variantBytes hb' => rw [hb] at hb'; cases hb'
    | @variant _ i t y _ h1 h2 h3 => exact key (.holds i y) (by rintro _ _ ⟨⟩; exact ⟨t, h1, h3, h2⟩)
    | valueless => exact key .valueless nofun
  | uptr t =>
    refine HS.plain (fun d ps h => by cases h) (dispatchEach_hs (fun s x hs hx => up ?_))
    have hx1 := hx.1
    by_cases hv : env.isVirt t = true
    · obtain ⟨c, rfl⟩ : ∃ c, t = .cls c := by cases t <;> first | exact ⟨_, rfl⟩ | cases hv
      have hvv : (env.cls c).virt = true := hv
      have hvirt : env.virt cfg (.cls c) = some ⟨env.dynIdx c, env.construct cfg c⟩ := by
        unfold Env.virt; simp [hvv]
      have hA1 : HS U m (Formed env (.cls c)) (Formed env (.cls c)) (fun n => h n (.cls c)) :=
        (hA (.cls c) (hD.uptr hx.2) (fun _ => True)).imp (fun x hx => ⟨hx, fun _ _ _ => trivial⟩) (fun x hx => hx.1)
      have key : ∀ y : Option Val, (∀ z, y = some z → Formed env (.cls c) z) →
          Evtl U m (Formed env (.uptr (.cls c))) (fun n => serUniquePtr cfg (env.ti (.uptr (.cls c))).sizeof
            (env.elemOf (h n (.cls c)) (.cls c)) (env.virt cfg (.cls c)) s y >>= fun r => .ok (.ptr r.1, r.2)) := by
        intro y hy
        refine Evtl.bind (serUniquePtr_ev hA1 (e := env.elemOf (h 0 (.cls c)) (.cls c)) (fun h => ?_)
          (fun v hvv' i => ?_) hb _ hs hy) (fun r hr hs' => Evtl.pure ?_ hs')
        · rw [hvirt] at h; cases h
        · rw [hvirt] at hvv'
          cases hvv'
          exact construct_good hE hU hvv i
        · cases hr1 : r.1 with
          | none => exact .ptrNull
          | some z => exact .ptr (fun h => by rw [hv] at h; cases h) (hr z hr1)
      cases hx1 with
      | ptrNull => exact key none nofun
      | ptr _ h2 => exact key (some _) (by rintro _ ⟨⟩; exact h2)
    · have hvirt : env.virt cfg t = none := by
        unfold Env.virt
        cases t with
        | cls c => simp only [Env.isVirt] at hv; simp [hv]
        | _ => rfl
      have key : ∀ y : Option Val, (∀ z, y = some z → Obj env t z) →
          Evtl U m (Formed env (.uptr t)) (fun n => serUniquePtr cfg (env.ti (.uptr t)).sizeof
            (env.elemOf (h n t) t) (env.virt cfg t) s y >>= fun r => .ok (.ptr r.1, r.2)) := by
        intro y hy
        refine Evtl.bind (serUniquePtr_ev (hA' t (hD.uptr hx.2)) (e := env.elemOf (h 0 t) t) (fun _ => (hmk 0 t).fresh)
          (fun v hvv' i => by rw [hvirt] at hvv'; cases hvv') hb _ hs hy) (fun r hr hs' => Evtl.pure ?_ hs')
        cases hr1 : r.1 with
        | none => exact .ptrNull
        | some z => exact .ptr (fun _ => (hr z hr1).2) (hr z hr1).1
      cases hx1 with
      | ptrNull => exact key none nofun
      | ptr h1 h2 => exact key (some _) (by rintro _ ⟨⟩; exact ⟨h2, h1 (by simpa using hv)⟩)
  | arr j t =>
    refine HS.plain (fun d ps h => by cases h) (dispatchEach_hs (fun s x hs hx => ?_))
    have hk := hx.2
    cases hx.1 with
    | @arr _ _ xs hl h1 h2 =>
      simp only [hl, if_true]
      refine Evtl.bind (serializeArray_ev (e := env.elemOf (h 0 t) t) (hB' t) hs (fun x hx => ⟨⟨h2 x hx, h1 x hx⟩, hD.arr hk x hx⟩))
        (fun r hr hs' => Evtl.pure (.arr (by rw [hr.1, hl]) (fun x hx => (hr.2 x hx).2)
          (fun x hx => (hr.2 x hx).1)) hs')

/-- Every object is larger than those inside it. -/
theorem descends_sizeOf (k : Nat) : Descends env (fun _ => True) (fun _ x => sizeOf x < k)
    (fun _ x => sizeOf x < k + 1) where
  vec _ := trivial
  seq _ := trivial
  queue _ := trivial
  oset _ := trivial
  uset _ := trivial
  opt _ := trivial
  variant _ _ _ := trivial
  uptr _ := trivial
  pair h := by
    simp only [Val.coll.sizeOf_spec, List.cons.sizeOf_spec] at h
    omega
  tuple h i t x _ hx := by
    have := List.sizeOf_lt_of_mem (List.mem_of_getElem? hx)
    simp only [Val.coll.sizeOf_spec] at h
    omega
  arr h x hx := by
    have := List.sizeOf_lt_of_mem hx
    simp only [Val.coll.sizeOf_spec] at h
    omega
  cls {_ d _} h p hp i t x _ hx := by
    have := sizeOf_part (d := d) hp (List.mem_of_getElem? hx)
    omega
  poly {_ d _} h _ _ _ _ p hp i t x _ hx := by
    have := sizeOf_part (d := d) hp (List.mem_of_getElem? hx)
    omega

/-- Reading any bytes into well-formed objects ends well. -/
theorem dispatch_ev (hE : env.Sound cfg) (hU : ∀ u, Hazard cfg env u → U u) : ∀ (m k : Nat) (t : Ty) (Q : Nat → Prop),
    HS U m (fun x => Inv env Q t x ∧ sizeOf x < k) (Inv env Q t) (fun n => dispatch cfg env n t)
  | 0, _, _, _ => fun s xs hs _ _ => hs.zero.elim
  | _ + 1, 0, _, _ => fun s xs _ hne hx => by
    cases xs with
    | nil => exact absurd rfl hne
    | cons x xs => have := (hx x (by simp)).2; omega
  | m + 1, k + 1, t, Q => by
    have hA : ∀ t, True → ∀ Q, HS U m (Inv env Q t) (Inv env Q t) (fun n => dispatch cfg env n t) := by
      intro t _ Q s xs hs hne hx
      refine dispatch_ev hE hU m (sizeOf xs) t Q s xs hs hne (fun x h => ⟨hx x h, List.sizeOf_lt_of_mem h⟩)
    have := step hE hU (descends_sizeOf k) hA (fun t Q => dispatch_ev hE hU (m + 1) k t Q) t Q
    exact fun s xs hs hne hx => Evtl.shift (this s xs hs hne hx)

/-- The same for a complete object through `Traverse::with` at top level. -/
theorem traverseTop_ev (hE : env.Sound cfg) (hU : ∀ u, Hazard cfg env u → U u) {t : Ty} {s : Ser}
    (hs : Reads U m s) {x : Val} {Q : Nat → Prop} (hx : Inv env Q t x) :
    Evtl U m (Inv env Q t) (fun n => traverseTop cfg (elem cfg env n t) s x) := by
  have hp : ∀ s, Reads U m s → Evtl U m (Inv env Q t) (fun n => pipe cfg (elem cfg env n t) s x) := fun s hs =>
    pipe_ev (e := elem cfg env 0 t) (dispatch_ev hE hU m (sizeOf x + 1) t Q) hs ⟨hx, Nat.lt_succ_self _⟩
  unfold traverseTop
  by_cases hc : cfg.check = true
  · simp only [hc, if_true]
    exact hp s hs
  · simp only [hc]
    refine Evtl.bindS (withTypeIdx_good hs _) (fun s' hs' => ?_)
    refine Evtl.bind (hp s' hs') (fun r hr hs'' => ?_)
    exact Evtl.bindS (withMemUsed_good hs'' _ _) (fun s3 hs3 => Evtl.pure hr hs3)

end
end Ckpt
