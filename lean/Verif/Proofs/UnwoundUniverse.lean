import Verif.Proofs.Unwound
/-!
Objects of any type after a call that has ended.
-/

set_option autoImplicit false

namespace Ckpt

section
variable {cfg : Cfg} {env : Env} {h : Ty → Handler Val} {r : Ty → Residue Val}

theorem oneOf_each {T : Type} (f : Ser → T → Out (T × Ser)) : oneOf (dispatchEach f) = f := by
  funext s x
  unfold oneOf
  simp only [dispatchEach]
  cases f s x with
  | ok q => rfl
  | _ => rfl

theorem Keeps.imp {T : Type} {P P' : T → Prop} {h : Handler T} {r : Residue T} (hh : Keeps P h r)
    (h1 : ∀ x, P' x → P x) (h2 : ∀ x, P x → P' x) : Keeps P' h r :=
  fun s xs hs hne hx => (hh s xs hs hne (fun x hxx => h1 x (hx x hxx))).imp
    (fun _ hy => ⟨hy.1, fun y hyy => h2 y (hy.2 y hyy)⟩)

/-- Types other than classes. -/
theorem Keeps.plain {t : Ty} {Q : Nat → Prop} {f : Handler Val} {g : Residue Val}
    (hno : ∀ d ps, ¬ Formed env t (.obj d ps)) (hf : Keeps (Formed env t) f g) : Keeps (Inv env Q t) f g :=
  hf.imp (fun _ hx => hx.1) (fun _ hx => ⟨hx, fun d ps he => absurd (he ▸ hx) (hno d ps)⟩)

theorem plain_each {t : Ty} {Q : Nat → Prop} {f : Ser → Val → Out (Val × Ser)} {g : Ser → Val → Out Val}
    (hno : ∀ d ps, ¬ Formed env t (.obj d ps))
    (hf : ∀ s x, s.isUnpacking = true → Formed env t x → Settles (Formed env t) (f s x) (g s x)) :
    Keeps (Inv env Q t) (dispatchEach f) (dispatchEachEnd (oneOf (dispatchEach f)) g) := by
  rw [oneOf_each]
  exact (dispatchEach_keeps hf).plain hno

theorem onRaw_keeps {t : Ty} {Q : Nat → Prop} {size : Nat} (hno : ∀ d ps, ¬ Formed env t (.obj d ps))
    (h1 : ∀ x, Formed env t x → ∃ bs : Bytes, x = .raw bs ∧ bs.length = size)
    (h2 : ∀ bs : Bytes, bs.length = size → Formed env t (.raw bs)) :
    Keeps (Inv env Q t) (onRaw (dispatchByte size)) (onRawEnd (dispatchByteEnd size)) := by
  refine Keeps.plain hno (fun s xs hs _ hx => ?_)
  obtain ⟨ys, e1, e2, e3⟩ := mapM_raw_safe (size := size) xs (fun x hxx => h1 x (hx x hxx))
  simp only [onRaw, onRawEnd, e1]
  refine Settles.map (f := fun zs : List Bytes => zs.map Val.raw) (Q := Arr (Formed env t) xs.length)
    (dispatchByte_fin hs e3) (fun zs hz => ⟨?_, fun y hy => ?_⟩)
  · rw [List.length_map, hz.1, e2]
  · obtain ⟨bs, hbs, rfl⟩ := List.mem_map.1 hy
    exact h2 bs (hz.2 bs hbs)

theorem visited_unp (hE : env.Sound cfg) {s : Ser} (hs : s.isUnpacking = true) (c : Nat) :
    (env.cls c).visited s = (env.cls c).fields := by
  unfold ClassDef.visited
  rw [hs, if_pos rfl, hE.sym c]

theorem elems_keeps (hB : ∀ t, Keeps (Obj env t) (h t) (r t)) (ts : List Ty) :
    List.Forall₂ (fun (p : Val → Prop) (e : Elem Val × Residue Val) => Keeps p e.1.apply e.2)
      (ts.map (Obj env)) (ts.map fun t => (env.elemOf (h t) t, r t)) := by
  induction ts with
  | nil => exact .nil
  | cons t ts ih => exact .cons (hB t) ih

theorem fits_iff {ts : List Ty} {xs : List Val} : FitsAll (ts.map (Obj env)) xs ↔
    xs.length = ts.length ∧ ∀ (i : Nat) t x, ts[i]? = some t → xs[i]? = some x → Obj env t x := by
  unfold FitsAll
  simp only [List.length_map, List.getElem?_map]
  refine and_congr_right (fun _ => ⟨fun h i t x ht hx => h i _ x (by rw [ht]; rfl) hx, fun h i p x hp hx => ?_⟩)
  cases ht : ts[i]? with
  | none => rw [ht] at hp; cases hp
  | some t => rw [ht] at hp; cases hp; exact h i t x ht hx

theorem members_fin (hE : env.Sound cfg) (hB : ∀ t, Keeps (Obj env t) (h t) (r t)) {c : Nat} {s : Ser}
    (hs : s.isUnpacking = true) {p : List Val} (hp : PartOk env c p) :
    Settles (PartOk env c) (serMembers cfg (((env.cls c).visited s).map fun t => env.elemOf (h t) t) s p)
      (serMembersEnd cfg (((env.cls c).visited s).map fun t => (env.elemOf (h t) t, r t)) s p) := by
  rw [visited_unp hE hs]
  have := serMembers_fin (cfg := cfg) (elems_keeps hB (env.cls c).fields) hs (fits_iff.2 hp)
  simp only [List.map_map, Function.comp_def] at this
  exact this.imp (fun _ => fits_iff.1)

theorem step_cls_keeps (hE : env.Sound cfg) (hB : ∀ t, Keeps (Obj env t) (h t) (r t)) (c : Nat) (Q : Nat → Prop) :
    Keeps (Inv env Q (.cls c)) (dispatchStep cfg env h (.cls c)) (dispatchStepEnd cfg env h r (.cls c)) := by
  have hon : Keeps (Inv env Q (.cls c))
      (dispatchEach (onPart env c fun s p =>
        serMembers cfg (((env.cls c).visited s).map fun t => env.elemOf (h t) t) s p))
      (dispatchEachEnd (onPart env c fun s p =>
        serMembers cfg (((env.cls c).visited s).map fun t => env.elemOf (h t) t) s p)
        (onPartEnd env c fun s p =>
          serMembersEnd cfg (((env.cls c).visited s).map fun t => (env.elemOf (h t) t, r t)) s p)) := by
    refine dispatchEach_keeps (fun s x hs hx => ?_)
    obtain ⟨hf, hq⟩ := hx
    have hf' := hf
    cases hf with
    | @obj _ d ps _ _ _ _ _ =>
      obtain ⟨hc, hl, hp⟩ := hf'.parts
      have hi : List.idxOf c (env.chain d) < (env.chain d).length := List.idxOf_lt_length_of_mem hc
      have h1 : (env.chain d)[List.idxOf c (env.chain d)]? = some c := by
        rw [List.getElem?_eq_getElem hi, List.getElem_idxOf]
      have h2 : ps[List.idxOf c (env.chain d)]? = some (ps[List.idxOf c (env.chain d)]'(by omega)) :=
        List.getElem?_eq_getElem (by omega)
      unfold onPart onPartEnd
      simp only [h2]
      refine Settles.map (f := fun q => Val.obj d (ps.set (List.idxOf c (env.chain d)) q))
        (members_fin hE hB hs (hp _ _ _ h1 h2)) (fun q hq' => ?_)
      refine ⟨PartOk.obj hc (by simpa using hl) (fun j k p hj hps => ?_), fun d' ps' he => ?_⟩
      · by_cases hij : List.idxOf c (env.chain d) = j
        · subst hij
          rw [List.getElem?_set_self (by omega)] at hps
          rw [h1] at hj
          cases hj; cases hps
          exact hq'
        · rw [List.getElem?_set_ne hij] at hps
          exact hp j k p hj hps
      · cases he
        exact hq d ps rfl
  unfold dispatchStep dispatchStepEnd
  simp only
  by_cases hv : (env.cls c).virt = true
  · simp only [hv, if_true]
    intro s xs hs hne hx
    by_cases hd : s.vdis = true
    · simp only [hd, if_true]
      exact hon _ xs (unp_setVdis hs false) hne hx
    · simp only [hd]
      cases xs with
      | nil => exact absurd rfl hne
      | cons x rest =>
        obtain ⟨hf, hq⟩ := hx x (by simp)
        have hf' := hf
        cases hf with
        | @obj _ d ps _ _ _ _ _ =>
          obtain ⟨hc, hl, hp⟩ := hf'.parts
          simp only [Bool.false_eq_true, if_false]
          have hps : List.Forall₂ (PartOk env) (env.chain d) ps :=
            List.forall₂_iff_get.2 ⟨hl.symm, fun i h1 h2 =>
              hp i _ _ (List.getElem?_eq_getElem h1) (List.getElem?_eq_getElem h2)⟩
          refine Settles.map (f := fun ps => Val.obj d ps :: rest) (serChain_fin (I := PartOk env) (fun k s' qs hs' hne' hq' => ?_)
            (env.chain d) hs hps) (fun qs hqs => ⟨rfl, fun y hy => ?_⟩)
          · exact dispatchEach_keeps (P := PartOk env k) (fun s'' p hs'' hp'' => members_fin hE hB hs'' hp'') _ qs
              (unp_setVdis hs' false) hne' hq'
          · rcases List.mem_cons.1 hy with rfl | hy
            · refine ⟨PartOk.obj hc hqs.length_eq.symm (fun j k p hj hps => ?_), fun d' ps' he => by cases he; exact hq d ps rfl⟩
              rcases forall₂_getElem? hqs j with ⟨h1, _⟩ | ⟨a, b, h1, h2, h3⟩
              · rw [h1] at hj; cases hj
              · rw [h1] at hj; rw [h2] at hps; cases hj; cases hps; exact h3
            · exact hx y (by simp [hy])
  · simp only [hv]
    exact hon

theorem stepEnd_keeps (hE : env.Sound cfg) (hA : ∀ t Q, Keeps (Inv env Q t) (h t) (r t)) (t : Ty) (Q : Nat → Prop) :
    Keeps (Inv env Q t) (dispatchStep cfg env h t) (dispatchStepEnd cfg env h r t) := by
  have hA' : ∀ t, Keeps (Obj env t) (h t) (r t) := fun t =>
    (hA t (exact t)).imp (fun x => (inv_exact t x).2) (fun x => (inv_exact t x).1)
  have hmk := fun t => fresh_makes hE (h t) t
  have hraw : ∀ pid size, Keeps (fun b : Bytes => b.length = size) (primElem env pid size).apply (dispatchByteEnd size) :=
    fun _ size => dispatchByte_residue size
  cases t with
  | cls c => exact step_cls_keeps hE hA' c Q
  | prim id size =>
    exact onRaw_keeps (fun d ps h => by cases h) (fun x hx => by cases hx with | prim hl => exact ⟨_, rfl, hl⟩)
      (fun bs hb => .prim hb)
  | enm id pid size =>
    refine plain_each (fun d ps h => by cases h) (fun s x hs hx => ?_)
    cases hx with
    | enm hl => exact Settles.map (f := Val.raw) (serUnderlying_fin (hraw pid size) hs hl) (fun b hb => .enm hb)
  | chrono id pid size =>
    refine plain_each (fun d ps h => by cases h) (fun s x hs hx => ?_)
    cases hx with
    | chrono hl => exact Settles.map (f := Val.raw) (serUnderlying_fin (hraw pid size) hs hl) (fun b hb => .chrono hb)
  | str =>
    refine plain_each (fun d ps h => by cases h) (fun s x hs hx => ?_)
    cases hx with
    | str hl => exact Settles.map (f := Val.str) (serString_fin hE.grow hs hl) (fun b hb => .str hb)
  | vecBool =>
    refine plain_each (fun d ps h => by cases h) (fun s x hs hx => ?_)
    cases hx with
    | @vecBool cap bs hl =>
      exact Settles.map (f := fun v : Vec Bool => Val.vbool v.cap v.elems) (serVectorBool_fin hE.grow hs (v := ⟨cap, bs⟩) hl)
        (fun b hb => .vecBool hb)
  | vec t =>
    refine plain_each (fun d ps h => by cases h) (fun s x hs hx => ?_)
    cases hx with
    | @vec _ cap xs hl h1 h2 =>
      exact Settles.map (f := fun v : Vec Val => Val.vec v.cap v.elems) (serVector_fin hE.grow (hA' t) (hmk t) hs
        (v := ⟨cap, xs⟩) hl (fun x hx => ⟨h2 x hx, h1 x hx⟩))
        (fun v hv => .vec hv.1 (fun x hx => (hv.2 x hx).2) (fun x hx => (hv.2 x hx).1))
  | seq sk t =>
    refine plain_each (fun d ps h => by cases h) (fun s x hs hx => ?_)
    cases hx with
    | @seq _ _ xs h1 h2 =>
      exact Settles.map (f := Val.coll) (serList_fin (hA' t) (hmk t).fresh hs (fun x hx => ⟨h2 x hx, h1 x hx⟩))
        (fun ys hy => .seq (fun x hx => (hy x hx).2) (fun x hx => (hy x hx).1))
  | queue t =>
    refine plain_each (fun d ps h => by cases h) (fun s x hs hx => ?_)
    cases hx with
    | @queue _ xs h1 h2 =>
      refine Settles.map (f := Val.coll) (serQueue_fin (hA' t) (hmk t).fresh hs (I := fun ys => ∀ y ∈ ys, Obj env t y)
        (fun acc y ha hy => ?_) (fun x hx => ⟨h2 x hx, h1 x hx⟩))
        (fun ys hy => .queue (fun x hx => (hy x hx).2) (fun x hx => (hy x hx).1))
      intro z hz
      rcases List.mem_append.1 hz with hz | hz
      · exact ha z hz
      · rw [List.mem_singleton.1 hz]; exact hy
  | oset a cmp t =>
    refine plain_each (fun d ps h => by cases h) (fun s x hs hx => ?_)
    cases hx with
    | @oset _ _ _ xs h0 h1 h2 =>
      exact Settles.map (f := Val.coll) (serMapLike_fin (I := fun ys => env.Sorted a cmp ys ∧ ∀ y ∈ ys, Obj env t y)
        (hA' t) (hmk t).fresh (emplaceO_keeps hE a cmp) hs ⟨h0, fun x hx => ⟨h2 x hx, h1 x hx⟩⟩)
        (fun ys hy => .oset hy.1 (fun x hx => (hy.2 x hx).2) (fun x hx => (hy.2 x hx).1))
  | uset a eq t =>
    refine plain_each (fun d ps h => by cases h) (fun s x hs hx => ?_)
    cases hx with
    | @uset _ _ _ xs h0 h1 h2 =>
      exact Settles.map (f := Val.coll) (serMapLike_fin (I := fun ys => (a.repeats = false →
          ys.Pairwise (fun x y => env.eq eq x y = false)) ∧ ∀ y ∈ ys, Obj env t y)
        (hA' t) (hmk t).fresh (emplaceU_keeps hE a eq) hs ⟨h0, fun x hx => ⟨h2 x hx, h1 x hx⟩⟩)
        (fun ys hy => .uset hy.1 (fun x hx => (hy.2 x hx).2) (fun x hx => (hy.2 x hx).1))
  | pair a b =>
    refine plain_each (fun d ps h => by cases h) (fun s x hs hx => ?_)
    cases hx with
    | @pair _ _ x y h1 h2 h3 h4 =>
      exact Settles.map (f := fun p : Val × Val => Val.coll [p.1, p.2]) (serPair_fin (hA' a) (hA' b) hs (x := (x, y))
        ⟨h3, h1⟩ ⟨h4, h2⟩) (fun p hp => .pair hp.1.2 hp.2.2 hp.1.1 hp.2.1)
  | tuple ts =>
    refine plain_each (fun d ps h => by cases h) (fun s x hs hx => ?_)
    cases hx with
    | @tuple _ xs hl h1 h2 =>
      have := visitMembers_fin (cfg := cfg) (elems_keeps hA' ts) (cfg.argOrder ts.length) hs
        (fits_iff.2 ⟨hl, fun i t x ht hx => ⟨h2 i t x ht hx, h1 i t x ht hx⟩⟩)
      simp only [List.map_map, Function.comp_def] at this
      simp only [serTuple, List.length_map]
      exact Settles.map (f := Val.coll) this (fun ys hy => by
        obtain ⟨hl', h'⟩ := fits_iff.1 hy
        exact .tuple hl' (fun i t x ht hx => (h' i t x ht hx).2) (fun i t x ht hx => (h' i t x ht hx).1))
  | opt t =>
    refine plain_each (fun d ps h => by cases h) (fun s x hs hx => ?_)
    have key : ∀ y, (∀ z, y = some z → Obj env t z) → Settles (Formed env (.opt t))
        (serOptional cfg (env.ti (.opt t)).sizeof (env.elemOf (h t) t) s y >>= fun r => .ok (Val.opt r.1, r.2))
        (serOptionalEnd cfg (env.elemOf (h t) t) s y >>= fun z => .ok (Val.opt z)) := by
      intro y hy
      refine Settles.map (f := Val.opt) (serOptional_fin (hA' t) (hmk t).fresh hs hy) (fun z hz => ?_)
      cases z with
      | none => exact .optNone
      | some z => exact .optSome (hz z rfl).2 (hz z rfl).1
    cases hx with
    | optNone => exact key none nofun
    | optSome h1 h2 => exact key (some _) (by rintro _ ⟨⟩; exact ⟨h2, h1⟩)
  | variant ts =>
    rcases Bool.eq_false_or_eq_true (Ty.allOnlyBytes ts) with hb | hb
    · have hb' : Ty.allByteCopied ts = true := by rw [← hb]; exact (allByteCopied_eq ts)
      unfold dispatchStep dispatchStepEnd
      simp only [hb', if_true]
      refine onRaw_keeps (fun d ps h => by cases h) (fun x hx => ?_) (fun bs hl => .variantBytes hb hl)
      cases hx with
      | variantBytes _ hl => exact ⟨_, rfl, hl⟩
      | variant hb' => rw [hb] at hb'; cases hb'
      | valueless hb' => rw [hb] at hb'; cases hb'
    · have hb' : Ty.allByteCopied ts = false := by rw [← hb]; exact (allByteCopied_eq ts)
      have e1 : dispatchStep cfg env h (.variant ts) = dispatchVariant cfg (ts.map fun t => env.elemOf (h t) t) := by
        unfold dispatchStep
        simp only [hb', Bool.false_eq_true, if_false]
      have e2 : dispatchStepEnd cfg env h r (.variant ts) = dispatchEachEnd (oneOf (dispatchStep cfg env h (.variant ts)))
          (variantEnd cfg (ts.map fun t => env.elemOf (h t) t)) := by
        unfold dispatchStepEnd
        simp only [hb', Bool.false_eq_true, if_false]
      rw [e2, e1]
      clear e1 e2
      unfold dispatchVariant
      refine plain_each (t := .variant ts) (fun d ps h => by cases h) (fun s x hs hx => ?_)
      have hes : List.Forall₂ (fun (p : Val → Prop) (e : Elem Val × Residue Val) => Keeps p e.1.apply e.2 ∧ p e.1.fresh)
          (ts.map (Obj env)) (ts.map fun t => (env.elemOf (h t) t, r t)) := by
        clear hb hb' hx
        induction ts with
        | nil => exact .nil
        | cons t ts ih => exact .cons ⟨hA' t, (hmk t).fresh⟩ ih
      have key : ∀ x : Variant Val, (∀ i y, x = .holds i y → ∃ t, ts[i]? = some t ∧ Obj env t y) →
          Settles (Formed env (.variant ts))
            (serVariant cfg (ts.map fun t => env.elemOf (h t) t) s x >>= fun r => match r.1 with
              | .holds i x => .ok (Val.variant i x, r.2)
              | .valueless => .ok (.valueless, r.2))
            (serVariantEnd cfg (ts.map fun t => env.elemOf (h t) t) s x >>= fun x => match x with
              | .holds i x => .ok (Val.variant i x)
              | .valueless => .ok .valueless) := by
        intro x hx
        have := serVariant_fin (cfg := cfg) (I := fun w => ∀ i y, w = .holds i y → ∃ t, ts[i]? = some t ∧ Obj env t y) hes
          (fun i p x hp hpx j y hj => by
            cases hj
            rw [List.getElem?_map] at hp
            cases ht : ts[i]? with
            | none => rw [ht] at hp; cases hp
            | some t => rw [ht] at hp; cases hp; exact ⟨t, rfl, hpx⟩) hs hx
        simp only [List.map_map, Function.comp_def] at this
        have h1 := Settles.map (Q := Formed env (.variant ts)) (f := fun w : Variant Val => match w with
          | .holds i x => Val.variant i x
          | .valueless => .valueless) this (fun w hw => by
            cases w with
            | valueless => exact .valueless hb
            | holds i y =>
              obtain ⟨t, ht, hy⟩ := hw i y rfl
              exact .variant hb ht hy.2 hy.1)
        have e1 : ∀ q : Variant Val × Ser, (match q.1 with
              | .holds i x => (.ok (Val.variant i x, q.2) : Out (Val × Ser))
              | .valueless => .ok (.valueless, q.2)) = .ok ((match q.1 with
              | .holds i x => Val.variant i x
              | .valueless => .valueless), q.2) := by
          rintro ⟨w, s'⟩
          cases w <;> rfl
        have e2 : ∀ q : Variant Val, (match q with
              | .holds i x => (.ok (Val.variant i x) : Out Val)
              | .valueless => .ok .valueless) = .ok (match q with
              | .holds i x => Val.variant i x
              | .valueless => .valueless) := by
          intro w
          cases w <;> rfl
        simp only [e1, e2]
        exact h1
      cases hx with
      | variantBytes hb' => rw [hb] at hb'; cases hb'
      | @variant _ i t y _ h1 h2 h3 => exact key (.holds i y) (by rintro _ _ ⟨⟩; exact ⟨t, h1, h3, h2⟩)
      | valueless => exact key .valueless nofun
  | uptr t =>
    refine plain_each (fun d ps h => by cases h) (fun s x hs hx => ?_)
    by_cases hv : env.isVirt t = true
    · obtain ⟨c, rfl⟩ : ∃ c, t = .cls c := by cases t <;> first | exact ⟨_, rfl⟩ | cases hv
      have hvv : (env.cls c).virt = true := hv
      have hvirt : env.virt cfg (.cls c) = some ⟨env.dynIdx c, env.construct cfg c⟩ := by
        unfold Env.virt; simp [hvv]
      have hA1 : Keeps (Formed env (.cls c)) (h (.cls c)) (r (.cls c)) :=
        (hA (.cls c) (fun _ => True)).imp (fun x hx => ⟨hx, fun _ _ _ => trivial⟩) (fun x hx => hx.1)
      have key : ∀ y : Option Val, (∀ z, y = some z → Formed env (.cls c) z) → Settles (Formed env (.uptr (.cls c)))
          (serUniquePtr cfg (env.ti (.uptr (.cls c))).sizeof (env.elemOf (h (.cls c)) (.cls c)) (env.virt cfg (.cls c)) s y
            >>= fun r => .ok (Val.ptr r.1, r.2))
          (serUniquePtrEnd cfg (env.elemOf (h (.cls c)) (.cls c)) (r (.cls c)) (env.virt cfg (.cls c)) s y
            >>= fun z => .ok (Val.ptr z)) := by
        intro y hy
        refine Settles.map (f := Val.ptr) (serUniquePtr_fin (e := env.elemOf (h (.cls c)) (.cls c)) hA1 (fun h => ?_)
          (fun vi hvi i z hz => ?_) hs hy) (fun z hz => ?_)
        · rw [hvirt] at h; cases h
        · rw [hvirt] at hvi
          cases hvi
          have := construct_good (U := fun _ => True) hE (fun _ _ => trivial) hvv i
          have hz : env.construct cfg c i = .ok (some z) := hz
          rw [hz] at this
          exact this
        · cases z with
          | none => exact .ptrNull
          | some z => exact .ptr (fun h => by rw [hv] at h; cases h) (hz z rfl)
      cases hx with
      | ptrNull => exact key none nofun
      | ptr _ h2 => exact key (some _) (by rintro _ ⟨⟩; exact h2)
    · have hvirt : env.virt cfg t = none := by
        unfold Env.virt
        cases t with
        | cls c => simp only [Env.isVirt] at hv; simp [hv]
        | _ => rfl
      have key : ∀ y : Option Val, (∀ z, y = some z → Obj env t z) → Settles (Formed env (.uptr t))
          (serUniquePtr cfg (env.ti (.uptr t)).sizeof (env.elemOf (h t) t) (env.virt cfg t) s y
            >>= fun r => .ok (Val.ptr r.1, r.2))
          (serUniquePtrEnd cfg (env.elemOf (h t) t) (r t) (env.virt cfg t) s y >>= fun z => .ok (Val.ptr z)) := by
        intro y hy
        refine Settles.map (f := Val.ptr) (serUniquePtr_fin (e := env.elemOf (h t) t) (hA' t) (fun _ => (hmk t).fresh)
          (fun vi hvi i z hz => by rw [hvirt] at hvi; cases hvi) hs hy) (fun z hz => ?_)
        cases z with
        | none => exact .ptrNull
        | some z => exact .ptr (fun _ => (hz z rfl).2) (hz z rfl).1
      cases hx with
      | ptrNull => exact key none nofun
      | ptr h1 h2 => exact key (some _) (by rintro _ ⟨⟩; exact ⟨h2, h1 (by simpa using hv)⟩)
  | arr j t =>
    refine plain_each (fun d ps h => by cases h) (fun s x hs hx => ?_)
    cases hx with
    | @arr _ _ xs hl h1 h2 =>
      simp only [hl, if_true]
      refine Settles.map (f := Val.coll) (serializeArray_fin (e := env.elemOf (h t) t) (hA' t) hs
        (fun x hx => ⟨h2 x hx, h1 x hx⟩)) (fun ys hy => ?_)
      exact .arr (by rw [hy.1, hl]) (fun x hx => (hy.2 x hx).2) (fun x hx => (hy.2 x hx).1)

theorem dispatchEnd_keeps (hE : env.Sound cfg) : ∀ (n : Nat) (t : Ty) (Q : Nat → Prop),
    Keeps (Inv env Q t) (dispatch cfg env n t) (dispatchEnd cfg env n t)
  | 0, _, _ => fun _ _ _ _ _ => rfl
  | n + 1, t, Q => stepEnd_keeps hE (fun t Q => dispatchEnd_keeps hE n t Q) t Q

theorem traverseTop_fin {T : Type} {P : T → Prop} {e : Elem T} {r : Residue T} (hh : Keeps P e.apply r) {s : Ser}
    (hs : s.isUnpacking = true) {x : T} (hx : P x) :
    Settles P (traverseTop cfg e s x) (traverseTopEnd cfg e r s x) := by
  unfold traverseTop traverseTopEnd
  split
  · exact pipe_fin hh hs hx
  · exact Settles.bindS (withTypeIdx_loc hs _) (fun s' hs' => trailer_fin e.ti 1 (pipe_fin hh hs' hx)) ⟨x, rfl, hx⟩

end

/-! ### The nesting bound -/

theorem Out.Le.after {α β : Type} {o o' : Out α} {f f' : α → Out β} {g g' : Out β} (ho : Out.Le o o')
    (hf : ∀ a, Out.Le (f a) (f' a)) (hg : Out.Le g g') : Out.Le (o.after f g) (o'.after f' g') := by
  rcases ho with rfl | rfl
  · exact .inl rfl
  · cases o with
    | ok a => exact hf a
    | throw e => exact hg
    | _ => exact .refl _

/-- One ending refines another. -/
def Residue.Le {T : Type} (r r' : Residue T) : Prop := ∀ s xs, Out.Le (r s xs) (r' s xs)

section
variable {T : Type} {cfg : Cfg} {e e' : Elem T} {r r' : Residue T}

theorem traverseEnd_le {ti : TI} {h h' : Handler T} (hh : Handler.Le h h') (hr : Residue.Le r r') (s : Ser)
    (xs : List T) : Out.Le (traverseEnd cfg ti h r s xs) (traverseEnd cfg ti h' r' s xs) := by
  unfold traverseEnd
  split
  · exact Out.Le.after (.refl _) (fun s => Out.Le.after (hh s xs) (fun _ => .refl _) (hr s xs)) (.refl _)
  · exact hr s xs

theorem pipeEnd_le (h : Elem.Le e e') (hr : Residue.Le r r') (s : Ser) (x : T) :
    Out.Le (pipeEnd cfg e r s x) (pipeEnd cfg e' r' s x) := by
  obtain ⟨he, hh⟩ := h
  rw [he]
  exact Out.Le.bind (traverseEnd_le hh hr s [x]) (fun _ => .refl _)

theorem serializeArrayEnd_le (h : Elem.Le e e') (hr : Residue.Le r r') (s : Ser) (xs : List T) :
    Out.Le (serializeArrayEnd cfg e r s xs) (serializeArrayEnd cfg e' r' s xs) := by
  obtain ⟨he, hh⟩ := h
  unfold serializeArrayEnd
  split
  · rw [he]; exact traverseEnd_le hh hr s xs
  · exact .refl _

theorem pipeEachEnd_le (h : Elem.Le e e') (hr : Residue.Le r r') : ∀ (xs : List T) (s : Ser),
    Out.Le (pipeEachEnd cfg e r s xs) (pipeEachEnd cfg e' r' s xs)
  | [], _ => .refl _
  | x :: xs, s =>
    Out.Le.after (pipe_le h s x) (fun _ => Out.Le.bind (pipeEachEnd_le h hr xs _) (fun _ => .refl _))
      (Out.Le.bind (pipeEnd_le h hr s x) (fun _ => .refl _))

theorem dispatchEachEnd_le {f f' : Ser → T → Out (T × Ser)} {g g' : Ser → T → Out T}
    (hf : ∀ s x, Out.Le (f s x) (f' s x)) (hg : ∀ s x, Out.Le (g s x) (g' s x)) :
    Residue.Le (dispatchEachEnd f g) (dispatchEachEnd f' g') := by
  intro s xs
  induction xs generalizing s with
  | nil => exact .refl _
  | cons x xs ih =>
    exact Out.Le.after (hf s x) (fun _ => Out.Le.bind (ih _) (fun _ => .refl _))
      (Out.Le.bind (hg s x) (fun _ => .refl _))

theorem serVectorEnd_le (h : Elem.Le e e') (hr : Residue.Le r r') (s : Ser) (v : Vec T) :
    Out.Le (serVectorEnd cfg e r s v) (serVectorEnd cfg e' r' s v) := by
  unfold serVectorEnd
  simp only [constructVectorData_le h]
  exact Out.Le.after (.refl _) (fun _ => Out.Le.after (.refl _)
    (fun _ => Out.Le.bind (serializeArrayEnd_le h hr _ _) (fun _ => .refl _)) (.refl _)) (.refl _)

theorem unpackLoopEnd_le (h : Elem.Le e e') (add : List T → T → List T) : ∀ (n : Nat) (s : Ser) (acc : List T),
    Out.Le (unpackLoopEnd cfg e add n s acc) (unpackLoopEnd cfg e' add n s acc)
  | 0, _, _ => .refl _
  | n + 1, s, acc => by
    have hf : e'.fresh = e.fresh := by rw [h.1]
    unfold unpackLoopEnd
    rw [hf]
    exact Out.Le.after (pipe_le h s _) (fun _ => unpackLoopEnd_le h add n _ _) (.refl _)

theorem serListEnd_le (h : Elem.Le e e') (hr : Residue.Le r r') (s : Ser) (xs : List T) :
    Out.Le (serListEnd cfg e r s xs) (serListEnd cfg e' r' s xs) := by
  have hf : e'.fresh = e.fresh := by rw [h.1]
  have hc : e'.copyable = e.copyable := by rw [h.1]
  unfold serListEnd deserializeOrderedElemsEnd
  refine Out.Le.after (.refl _) (fun q => ?_) (.refl _)
  rw [hf, hc]
  split
  · exact pipeEachEnd_le h hr _ _
  · exact unpackLoopEnd_le h _ _ _ _

theorem serGrowEnd_le (h : Elem.Le e e') (add : List T → T → List T) (s : Ser) (xs : List T) :
    Out.Le (serGrowEnd cfg add e s xs) (serGrowEnd cfg add e' s xs) :=
  Out.Le.after (.refl _) (fun _ => unpackLoopEnd_le h _ _ _ _) (.refl _)

theorem serMembersEnd_le : ∀ {es es' : List (Elem T × Residue T)},
    List.Forall₂ (fun a b => Elem.Le a.1 b.1 ∧ Residue.Le a.2 b.2) es es' → ∀ (s : Ser) (xs : List T),
    Out.Le (serMembersEnd cfg es s xs) (serMembersEnd cfg es' s xs)
  | _, _, .nil, _, [] => .refl _
  | _, _, .nil, _, _ :: _ => .refl _
  | _, _, .cons .., _, [] => .refl _
  | _, _, .cons h hs, s, x :: xs =>
    Out.Le.after (pipe_le h.1 s x) (fun _ => Out.Le.bind (serMembersEnd_le hs _ xs) (fun _ => .refl _))
      (Out.Le.bind (pipeEnd_le h.1 h.2 s x) (fun _ => .refl _))

theorem serPairEnd_le {A B : Type} {e1 e1' : Elem A} {e2 e2' : Elem B} {r1 r1' : Residue A} {r2 r2' : Residue B}
    (h1 : Elem.Le e1 e1') (hr1 : Residue.Le r1 r1') (h2 : Elem.Le e2 e2') (hr2 : Residue.Le r2 r2') (s : Ser)
    (x : A × B) : Out.Le (serPairEnd cfg e1 r1 e2 r2 s x) (serPairEnd cfg e1' r1' e2' r2' s x) :=
  Out.Le.after (pipe_le h1 s _) (fun _ => Out.Le.bind (pipeEnd_le h2 hr2 _ _) (fun _ => .refl _))
    (Out.Le.bind (pipeEnd_le h1 hr1 s _) (fun _ => .refl _))

theorem visitMembersEnd_le {es es' : List (Elem T × Residue T)}
    (h : List.Forall₂ (fun a b => Elem.Le a.1 b.1 ∧ Residue.Le a.2 b.2) es es') : ∀ (is : List Nat) (s : Ser)
    (xs : List T), Out.Le (visitMembersEnd cfg es is s xs) (visitMembersEnd cfg es' is s xs)
  | [], _, _ => .refl _
  | i :: is, s, xs => by
    unfold visitMembersEnd
    rcases forall₂_getElem? h i with ⟨h1, h2⟩ | ⟨a, b, h1, h2, hab⟩
    · simp only [h1, h2]; exact .refl _
    · simp only [h1, h2]
      cases xs[i]? with
      | none => exact .refl _
      | some x =>
        exact Out.Le.after (pipe_le hab.1 s x) (fun _ => visitMembersEnd_le h is _ _)
          (Out.Le.bind (pipeEnd_le hab.1 hab.2 s x) (fun _ => .refl _))

theorem serOptionalEnd_le (h : Elem.Le e e') (s : Ser) (x : Option T) :
    Out.Le (serOptionalEnd cfg e s x) (serOptionalEnd cfg e' s x) := by
  have hf : e'.fresh = e.fresh := by rw [h.1]
  unfold serOptionalEnd
  rw [hf]
  refine Out.Le.after (.refl _) (fun q => ?_) (.refl _)
  split
  · exact Out.Le.after (pipe_le h _ _) (fun _ => .refl _) (.refl _)
  · exact .refl _

theorem serializeEntryEnd_le : ∀ {es es' : List (Elem T)}, List.Forall₂ Elem.Le es es' → ∀ (s : Ser)
    (v : Variant T) (entry cur : Nat),
    Out.Le (serializeEntryEnd cfg es s v entry cur) (serializeEntryEnd cfg es' s v entry cur)
  | _, _, .nil, _, _, _, _ => .refl _
  | _, _, .cons (a := a) (b := b) h hs, s, v, entry, cur => by
    have hf : b.fresh = a.fresh := by rw [h.1]
    unfold serializeEntryEnd
    rw [hf]
    split
    · exact Out.Le.after (pipe_le h s _) (fun _ => .refl _) (.refl _)
    · exact serializeEntryEnd_le hs s v entry (cur + 1)

theorem serVariantEnd_le {es es' : List (Elem T)} (h : List.Forall₂ Elem.Le es es') (s : Ser) (v : Variant T) :
    Out.Le (serVariantEnd cfg es s v) (serVariantEnd cfg es' s v) :=
  Out.Le.after (.refl _) (fun _ => serializeEntryEnd_le h _ _ _ _) (.refl _)

theorem reconstruct_via (h : Elem.Le e e') (virt : Option (Virt T)) (s : Ser) (p : Option T) :
    reconstructPointedTo cfg e' virt s p = reconstructPointedTo cfg e virt s p := by
  rw [h.1]; rfl

theorem serUniquePtrEnd_le (h : Elem.Le e e') (hr : Residue.Le r r') (virt : Option (Virt T)) (s : Ser) (p : Option T) :
    Out.Le (serUniquePtrEnd cfg e r virt s p) (serUniquePtrEnd cfg e' r' virt s p) := by
  unfold serUniquePtrEnd
  simp only [reconstruct_via h]
  refine Out.Le.after (.refl _) (fun q => ?_) (.refl _)
  split
  · exact .refl _
  · refine Out.Le.after (.refl _) (fun q => ?_) (.refl _)
    cases q.1 with
    | none => exact .refl _
    | some t => exact Out.Le.bind (pipeEnd_le h hr _ _) (fun _ => .refl _)

theorem serChainEnd_le {P : Type} {reg : SerReg} {root : Nat} {part part' : Nat → Elem P} {rpart rpart' : Nat → Residue P}
    (h : ∀ k, Elem.Le (part k) (part' k)) (hr : ∀ k, Residue.Le (rpart k) (rpart' k)) : ∀ (ks : List Nat) (s : Ser)
    (ps : List P), Out.Le (serChainEnd cfg reg root part rpart ks s ps) (serChainEnd cfg reg root part' rpart' ks s ps)
  | [], _, [] => .refl _
  | [], _, _ :: _ => .refl _
  | _ :: _, _, [] => .refl _
  | k :: ks, s, p :: ps => by
    unfold serChainEnd
    refine Out.Le.after (.refl _) (fun kind => ?_) (.refl _)
    split
    · exact .refl _
    · exact Out.Le.after (pipe_le (h k) _ p) (fun _ => Out.Le.bind (serChainEnd_le h hr ks _ ps) (fun _ => .refl _))
        (Out.Le.bind (pipeEnd_le (h k) (hr k) _ p) (fun _ => .refl _))

theorem oneOf_le {h h' : Handler T} (hh : Handler.Le h h') (s : Ser) (x : T) : Out.Le (oneOf h s x) (oneOf h' s x) :=
  Out.Le.bind (hh s [x]) (fun _ => .refl _)

end

section
variable {cfg : Cfg} {env : Env} {h h' : Ty → Handler Val} {r r' : Ty → Residue Val}

theorem endElems_le (hh : ∀ t, Handler.Le (h t) (h' t)) (hr : ∀ t, Residue.Le (r t) (r' t)) (ts : List Ty) :
    List.Forall₂ (fun a b : Elem Val × Residue Val => Elem.Le a.1 b.1 ∧ Residue.Le a.2 b.2)
      (ts.map fun t => (env.elemOf (h t) t, r t)) (ts.map fun t => (env.elemOf (h' t) t, r' t)) := by
  induction ts with
  | nil => exact .nil
  | cons t ts ih => exact .cons ⟨elemOf_le hh t, hr t⟩ ih

theorem onPartEnd_le {c : Nat} {g g' : Ser → List Val → Out (List Val)} (hg : ∀ s p, Out.Le (g s p) (g' s p)) (s : Ser)
    (v : Val) : Out.Le (onPartEnd env c g s v) (onPartEnd env c g' s v) := by
  unfold onPartEnd
  cases v with
  | obj d parts =>
    dsimp only
    cases parts[List.idxOf c (env.chain d)]? with
    | none => exact .refl _
    | some p => exact Out.Le.bind (hg s p) (fun _ => .refl _)
  | _ => exact .refl _

theorem dispatchStepEnd_le (hh : ∀ t, Handler.Le (h t) (h' t)) (hr : ∀ t, Residue.Le (r t) (r' t)) (t : Ty) :
    Residue.Le (dispatchStepEnd cfg env h r t) (dispatchStepEnd cfg env h' r' t) := by
  have hone : ∀ s x, Out.Le (oneOf (dispatchStep cfg env h t) s x) (oneOf (dispatchStep cfg env h' t) s x) :=
    oneOf_le (dispatchStep_le hh t)
  have he := elemOf_le (env := env) hh
  have hes := endElems_le (env := env) hh hr
  have hmem : ∀ (k : Nat) (s : Ser) (p : List Val),
      Out.Le (serMembers cfg (((env.cls k).visited s).map fun t => env.elemOf (h t) t) s p)
        (serMembers cfg (((env.cls k).visited s).map fun t => env.elemOf (h' t) t) s p) := fun k s p =>
    serMembers_le (elems_le hh _) s p
  have hmemE : ∀ (k : Nat) (s : Ser) (p : List Val),
      Out.Le (serMembersEnd cfg (((env.cls k).visited s).map fun t => (env.elemOf (h t) t, r t)) s p)
        (serMembersEnd cfg (((env.cls k).visited s).map fun t => (env.elemOf (h' t) t, r' t)) s p) := fun k s p =>
    serMembersEnd_le (hes _) s p
  cases t with
  | prim id size => exact fun _ _ => .refl _
  | enm id pid size => exact dispatchEachEnd_le hone (fun _ _ => .refl _)
  | chrono id pid size => exact dispatchEachEnd_le hone (fun _ _ => .refl _)
  | str => exact dispatchEachEnd_le hone (fun _ _ => .refl _)
  | vecBool => exact dispatchEachEnd_le hone (fun _ _ => .refl _)
  | vec t =>
    refine dispatchEachEnd_le hone (fun s v => ?_)
    cases v with
    | vec cap xs => exact Out.Le.bind (serVectorEnd_le (he t) (hr t) s _) (fun _ => .refl _)
    | _ => exact .refl _
  | seq k t =>
    refine dispatchEachEnd_le hone (fun s v => ?_)
    cases v with
    | coll xs => exact Out.Le.bind (serListEnd_le (he t) (hr t) s _) (fun _ => .refl _)
    | _ => exact .refl _
  | queue t =>
    refine dispatchEachEnd_le hone (fun s v => ?_)
    cases v with
    | coll xs => exact Out.Le.bind (serGrowEnd_le (he t) _ s _) (fun _ => .refl _)
    | _ => exact .refl _
  | oset a cmp t =>
    refine dispatchEachEnd_le hone (fun s v => ?_)
    cases v with
    | coll xs => exact Out.Le.bind (serGrowEnd_le (he t) _ s _) (fun _ => .refl _)
    | _ => exact .refl _
  | uset a eq t =>
    refine dispatchEachEnd_le hone (fun s v => ?_)
    cases v with
    | coll xs => exact Out.Le.bind (serGrowEnd_le (he t) _ s _) (fun _ => .refl _)
    | _ => exact .refl _
  | pair a b =>
    refine dispatchEachEnd_le hone (fun s v => ?_)
    cases v with
    | coll xs =>
      match xs with
      | [x, y] => exact Out.Le.bind (serPairEnd_le (he a) (hr a) (he b) (hr b) s _) (fun _ => .refl _)
      | [] => exact .refl _
      | [_] => exact .refl _
      | _ :: _ :: _ :: _ => exact .refl _
    | _ => exact .refl _
  | tuple ts =>
    refine dispatchEachEnd_le hone (fun s v => ?_)
    cases v with
    | coll xs => exact Out.Le.bind (visitMembersEnd_le (hes ts) _ s _) (fun _ => .refl _)
    | _ => exact .refl _
  | opt t =>
    refine dispatchEachEnd_le hone (fun s v => ?_)
    cases v with
    | opt x => exact Out.Le.bind (serOptionalEnd_le (he t) s _) (fun _ => .refl _)
    | _ => exact .refl _
  | variant ts =>
    unfold dispatchStepEnd
    dsimp only
    split
    · exact fun _ _ => .refl _
    · refine dispatchEachEnd_le hone (fun s v => ?_)
      unfold variantEnd
      cases v with
      | variant i x => exact Out.Le.bind (.refl _) (fun _ => Out.Le.bind (serVariantEnd_le (elems_le hh ts) s _) (fun _ => .refl _))
      | valueless => exact Out.Le.bind (.refl _) (fun _ => Out.Le.bind (serVariantEnd_le (elems_le hh ts) s _) (fun _ => .refl _))
      | _ => exact .refl _
  | uptr t =>
    refine dispatchEachEnd_le hone (fun s v => ?_)
    cases v with
    | ptr x => exact Out.Le.bind (serUniquePtrEnd_le (he t) (hr t) _ s _) (fun _ => .refl _)
    | _ => exact .refl _
  | arr k t =>
    refine dispatchEachEnd_le hone (fun s v => ?_)
    cases v with
    | coll xs =>
      dsimp only
      split
      · exact Out.Le.bind (serializeArrayEnd_le (he t) (hr t) s _) (fun _ => .refl _)
      · exact .refl _
    | _ => exact .refl _
  | cls c =>
    unfold dispatchStepEnd
    dsimp only
    split
    · intro s xs
      dsimp only
      split
      · exact dispatchEachEnd_le (fun s v => onPart_le (hmem c) s v) (fun s v => onPartEnd_le (hmemE c) s v) _ xs
      · split
        · refine Out.Le.bind (serChainEnd_le (fun k => ⟨rfl, fun s ps => dispatchEach_le (hmem k) _ ps⟩)
            (fun k s ps => dispatchEachEnd_le (hmem k) (hmemE k) _ ps) _ s _) (fun _ => .refl _)
        · exact .refl _
    · exact dispatchEachEnd_le (fun s v => onPart_le (hmem c) s v) (fun s v => onPartEnd_le (hmemE c) s v)

theorem dispatchEnd_le_succ (cfg : Cfg) (env : Env) : ∀ (n : Nat) (t : Ty),
    Residue.Le (dispatchEnd cfg env n t) (dispatchEnd cfg env (n + 1) t)
  | 0, _ => fun _ _ => .inl rfl
  | n + 1, t => dispatchStepEnd_le (fun t => dispatch_le_succ cfg env n t) (dispatchEnd_le_succ cfg env n) t

theorem dispatchEnd_le (cfg : Cfg) (env : Env) {n m : Nat} (hnm : n ≤ m) (t : Ty) :
    Residue.Le (dispatchEnd cfg env n t) (dispatchEnd cfg env m t) := by
  induction hnm with
  | refl => exact fun _ _ => .refl _
  | step _ ih => exact fun s xs => Out.Or.trans (ih s xs) (dispatchEnd_le_succ cfg env _ t s xs)

theorem traverseTopEnd_le {T : Type} {e e' : Elem T} {r r' : Residue T} (h : Elem.Le e e') (hr : Residue.Le r r')
    (s : Ser) (x : T) : Out.Le (traverseTopEnd cfg e r s x) (traverseTopEnd cfg e' r' s x) := by
  have hti : e'.ti = e.ti := by rw [h.1]
  unfold traverseTopEnd
  rw [hti]
  split
  · exact pipeEnd_le h hr s x
  · exact Out.Le.after (.refl _) (fun s => Out.Le.after (pipe_le h s x) (fun _ => .refl _) (pipeEnd_le h hr s x))
      (.refl _)

end
end Ckpt
