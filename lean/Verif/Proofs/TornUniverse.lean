import Verif.Proofs.Torn
import Verif.Proofs.UnwoundUniverse
/-!
What a call that throws has left in an object of any type.
-/

set_option autoImplicit false

namespace Ckpt

section
variable {cfg : Cfg} {env : Env} {h : Ty → Handler Val} {r : Ty → Residue Val} {m : Bytes}

theorem tears_each {t : Ty} {f : Ser → Val → Out (Val × Ser)} {g : Ser → Val → Out Val}
    (hf : ∀ s x, s.isUnpacking = true → Formed env t x → Cut m (Between env t x) (f s x) (f (s.more m) x) (g s x)) :
    Tears m (Formed env t) (Between env t) (dispatchEach f) (dispatchEachEnd (oneOf (dispatchEach f)) g) := by
  rw [oneOf_each]
  exact dispatchEach_tears (fun _ _ => .kept) (fun _ _ => .done) hf

theorem raw_list {size : Nat} : ∀ (xs : List Val), (∀ x ∈ xs, ∃ bs : Bytes, x = .raw bs ∧ bs.length = size) →
    ∃ ys : List Bytes, xs = ys.map Val.raw ∧ ∀ y ∈ ys, y.length = size
  | [], _ => ⟨[], rfl, by simp⟩
  | x :: xs, hx => by
    obtain ⟨bs, rfl, hb⟩ := hx x (by simp)
    obtain ⟨ys, rfl, h1⟩ := raw_list xs (fun y hy => hx y (by simp [hy]))
    exact ⟨bs :: ys, rfl, by simpa using ⟨hb, h1⟩⟩

theorem onRaw_tears {t : Ty} {size : Nat} (h1 : ∀ x, Formed env t x → ∃ bs : Bytes, x = .raw bs ∧ bs.length = size)
    (h2 : ∀ (a b : Bytes) (k : Nat), Between env t (.raw a) (.raw b) (.raw (b.take k ++ a.drop k))) :
    Tears m (Formed env t) (Between env t) (onRaw (dispatchByte size)) (onRawEnd (dispatchByteEnd size)) := by
  refine ⟨fun s xs hs _ hx => ?_, fun _ _ => .kept, fun _ _ => .done⟩
  obtain ⟨ys, rfl, hy⟩ := raw_list (size := size) xs (fun x hxx => h1 x (hx x hxx))
  simp only [onRaw, onRawEnd, mapM_raw]
  refine Cut.map (f := fun zs : List Bytes => zs.map Val.raw) (dispatchByte_cut hs hy) (fun ws zs hc => ?_)
  refine hc.map ?_
  rintro y w z ⟨k, rfl⟩
  exact h2 y w k

theorem elems_tears (hA : ∀ t, Tears m (Formed env t) (Between env t) (h t) (r t)) (ts : List Ty) :
    List.Forall₂ (fun (t : Ty) (e : Elem Val × Residue Val) => Tears m (Formed env t) (Between env t) e.1.apply e.2)
      ts (ts.map fun t => (env.elemOf (h t) t, r t)) := by
  induction ts with
  | nil => exact .nil
  | cons t ts ih => exact .cons (hA t) ih

theorem visited_more (hE : env.Sound cfg) {s : Ser} (hs : s.isUnpacking = true) (c : Nat) :
    (env.cls c).visited (s.more m) = (env.cls c).fields := visited_unp hE (more_unp hs) c

theorem members_cut (hE : env.Sound cfg) (hA : ∀ t, Tears m (Formed env t) (Between env t) (h t) (r t)) {c : Nat} {s : Ser}
    (hs : s.isUnpacking = true) {p : List Val} (hp : PartOk env c p) :
    Cut m (PartRead (Between env) (env.cls c).fields p)
      (serMembers cfg (((env.cls c).visited s).map fun t => env.elemOf (h t) t) s p)
      (serMembers cfg (((env.cls c).visited (s.more m)).map fun t => env.elemOf (h t) t) (s.more m) p)
      (serMembersEnd cfg (((env.cls c).visited s).map fun t => (env.elemOf (h t) t, r t)) s p) := by
  rw [visited_unp hE hs, visited_more hE hs]
  have := serMembers_cut (cfg := cfg) (elems_tears hA (env.cls c).fields) hs (xs := p)
    (List.forall₂_iff_get.2 ⟨hp.1.symm, fun i h1 h2 =>
      (hp.2 i _ _ (List.getElem?_eq_getElem h1) (List.getElem?_eq_getElem h2)).1⟩)
  simp only [List.map_map, Function.comp_def] at this
  exact this

theorem step_cls_tears (hE : env.Sound cfg) (hA : ∀ t, Tears m (Formed env t) (Between env t) (h t) (r t)) (c : Nat) :
    Tears m (Formed env (.cls c)) (Between env (.cls c)) (dispatchStep cfg env h (.cls c))
      (dispatchStepEnd cfg env h r (.cls c)) := by
  have hon : Tears m (Formed env (.cls c)) (Between env (.cls c))
      (dispatchEach (onPart env c fun s p =>
        serMembers cfg (((env.cls c).visited s).map fun t => env.elemOf (h t) t) s p))
      (dispatchEachEnd (onPart env c fun s p =>
        serMembers cfg (((env.cls c).visited s).map fun t => env.elemOf (h t) t) s p)
        (onPartEnd env c fun s p =>
          serMembersEnd cfg (((env.cls c).visited s).map fun t => (env.elemOf (h t) t, r t)) s p)) := by
    refine dispatchEach_tears (fun _ _ => .kept) (fun _ _ => .done) (fun s x hs hf => ?_)
    have hf' := hf
    cases hf with
    | @obj _ d ps _ _ _ _ _ =>
      obtain ⟨hc, hl, hp⟩ := hf'.parts
      have hi : List.idxOf c (env.chain d) < (env.chain d).length := List.idxOf_lt_length_of_mem hc
      have h1 : (env.chain d)[List.idxOf c (env.chain d)]? = some c := by
        rw [List.getElem?_eq_getElem hi, List.getElem_idxOf]
      have h2 : ps[List.idxOf c (env.chain d)]? = some (ps[List.idxOf c (env.chain d)]'(by omega)) :=
        List.getElem?_eq_getElem (by omega)
      unfold onPart onPartEnd
      simp only [h2]
      refine Cut.map (f := fun q => Val.obj d (ps.set (List.idxOf c (env.chain d)) q))
        (members_cut hE hA hs (hp _ _ _ h1 h2)) (fun q z hq => ?_)
      have e : ps.set (List.idxOf c (env.chain d)) z = (ps.set (List.idxOf c (env.chain d)) q).take
          (List.idxOf c (env.chain d)) ++ z :: ps.drop (List.idxOf c (env.chain d) + 1) := by
        rw [List.take_set_of_le (Nat.le_refl _)]
        exact List.set_eq_take_cons_drop z (by omega)
      rw [e]
      exact .obj h1 h2 (List.getElem?_set_self (by omega)) hq
  unfold dispatchStep dispatchStepEnd
  simp only
  by_cases hv : (env.cls c).virt = true
  · simp only [hv, if_true]
    refine ⟨fun s xs hs hne hx => ?_, fun _ _ => .kept, fun _ _ => .done⟩
    by_cases hd : s.vdis = true
    · simp only [hd, more_vdis, if_true, more_setVdis]
      exact hon.cut _ xs (unp_setVdis hs false) hne hx
    · simp only [hd, more_vdis]
      cases xs with
      | nil => exact absurd rfl hne
      | cons x rest =>
        have hf := hx x (by simp)
        have hf' := hf
        cases hf with
        | @obj _ d ps _ _ _ _ _ =>
          obtain ⟨hc, hl, hp⟩ := hf'.parts
          simp only [Bool.false_eq_true, if_false]
          have hps : List.Forall₂ (PartOk env) (env.chain d) ps :=
            List.forall₂_iff_get.2 ⟨hl.symm, fun i h1 h2 =>
              hp i _ _ (List.getElem?_eq_getElem h1) (List.getElem?_eq_getElem h2)⟩
          refine Cut.map (f := fun ps => Val.obj d ps :: rest) (serChain_cut (I := PartOk env)
            (C := fun k => PartRead (Between env) (env.cls k).fields) (fun k => ?_) (env.chain d) hs hps) (fun qs zs hqs => ?_)
          · have hd := dispatchEach_tears (P := PartOk env k) (B := PartRead (Between env) (env.cls k).fields)
              (fun _ _ => .kept) (fun _ _ => .done) (fun s'' p hs'' hp'' => members_cut hE hA (c := k) hs'' hp'')
            exact ⟨fun s' qs hs' hne' hq' => by
              have := hd.cut (s'.setVdis false) qs (unp_setVdis hs' false) hne' hq'
              rw [← more_setVdis] at this
              exact this, hd.kept, hd.done⟩
          · rcases hqs with rfl | ⟨j, k, p, q, z, h1, h2, h3, h4, rfl⟩
            · exact .part .done
            · exact .part (.obj h1 h2 h3 h4)
  · simp only [hv]
    exact hon

theorem stepEnd_tears (hE : env.Sound cfg) (hA : ∀ t, Tears m (Formed env t) (Between env t) (h t) (r t))
    (hK : ∀ t, Keeps (Formed env t) (h t) (r t)) (t : Ty) :
    Tears m (Formed env t) (Between env t) (dispatchStep cfg env h t) (dispatchStepEnd cfg env h r t) := by
  have hmk : ∀ t, Makes (Formed env t) (env.elemOf (h t) t) := fun t =>
    ⟨(hE.fresh t).1, fun d hd => (hE.dflt t d hd).1⟩
  have hraw : ∀ pid size, Tears m (fun b : Bytes => b.length = size) TornBytes (primElem env pid size).apply
      (dispatchByteEnd size) := fun _ size => dispatchByte_tears size
  cases t with
  | cls c => exact step_cls_tears hE hA c
  | prim id size =>
    exact onRaw_tears (fun x hx => by cases hx with | prim hl => exact ⟨_, rfl, hl⟩) (fun a b k => .prim k)
  | enm id pid size =>
    refine tears_each (fun s x hs hx => ?_)
    cases hx with
    | enm hl => exact Cut.map (f := Val.raw) (serUnderlying_cut (hraw pid size) hs hl) (by rintro _ _ rfl; exact .kept)
  | chrono id pid size =>
    refine tears_each (fun s x hs hx => ?_)
    cases hx with
    | chrono hl => exact Cut.map (f := Val.raw) (serUnderlying_cut (hraw pid size) hs hl) (by rintro _ _ rfl; exact .kept)
  | str =>
    refine tears_each (fun s x hs hx => ?_)
    cases hx with
    | str hl =>
      refine Cut.map (f := Val.str) (serString_cut hs) ?_
      rintro w z (rfl | ⟨k, hz⟩)
      · exact .kept
      · exact .str k hz
  | vecBool =>
    refine tears_each (fun s x hs hx => ?_)
    cases hx with
    | @vecBool cap bs hl =>
      refine Cut.map (f := fun v : Vec Bool => Val.vbool v.cap v.elems) (serVectorBool_cut hs (v := ⟨cap, bs⟩)) ?_
      rintro w z (hz | ⟨k, hz⟩)
      · rw [hz]; exact .vecBoolCap
      · rw [hz]; exact .vecBool k
  | vec t =>
    refine tears_each (fun s x hs hx => ?_)
    cases hx with
    | @vec _ cap xs hl h1 h2 =>
      refine Cut.map (f := fun v : Vec Val => Val.vec v.cap v.elems) (serVector_cut (hA t) (hK t) (hmk t) hs (v := ⟨cap, xs⟩) h2) ?_
      rintro w z (hz | ⟨rs, hr, hc⟩)
      · rw [hz]; exact .vecCap
      · exact .vec hr hc.torn
  | seq sk t =>
    refine tears_each (fun s x hs hx => ?_)
    cases hx with
    | @seq _ _ xs h1 h2 =>
      refine Cut.map (f := Val.coll) (serList_cut (hA t) (hK t) (hmk t).fresh hs h2) ?_
      rintro w z (rfl | ⟨hcp, rs, hr, hc⟩ | ⟨hcp, es, i, rfl, rfl⟩)
      · exact .kept
      · exact .seq hcp hr hc.torn
      · exact .seqAdd i hcp
  | queue t =>
    refine tears_each (fun s x hs hx => ?_)
    cases hx with
    | @queue _ xs h1 h2 =>
      refine Cut.map (f := Val.coll) (serQueue_cut (hA t) (hmk t).fresh hs) ?_
      rintro w z (rfl | ⟨es, i, rfl, rfl⟩)
      · exact .kept
      · exact .queue i
  | oset a cmp t =>
    refine tears_each (fun s x hs hx => ?_)
    cases hx with
    | @oset _ _ _ xs h0 h1 h2 =>
      refine Cut.map (f := Val.coll) (serMapLike_cut (hA t) (hmk t).fresh hs) ?_
      rintro w z (rfl | ⟨es, i, rfl, rfl⟩)
      · exact .kept
      · exact .oset i
  | uset a eq t =>
    refine tears_each (fun s x hs hx => ?_)
    cases hx with
    | @uset _ _ _ xs h0 h1 h2 =>
      refine Cut.map (f := Val.coll) (serMapLike_cut (hA t) (hmk t).fresh hs) ?_
      rintro w z (rfl | ⟨es, i, rfl, rfl⟩)
      · exact .kept
      · exact .uset i
  | pair a b =>
    refine tears_each (fun s x hs hx => ?_)
    cases hx with
    | @pair _ _ x y h1 h2 h3 h4 =>
      refine Cut.map (f := fun p : Val × Val => Val.coll [p.1, p.2]) (serPair_cut (hA a) (hA b) hs (x := (x, y)) h3 h4) ?_
      rintro w z (⟨h5, h6⟩ | ⟨h5, h6⟩)
      · rw [h5]; exact .fst h6
      · rw [h5]; exact .snd h6
  | tuple ts =>
    refine tears_each (fun s x hs hx => ?_)
    cases hx with
    | @tuple _ xs hl h1 h2 =>
      have := visitMembers_cut (cfg := cfg) (elems_tears hA ts) (cfg.argOrder ts.length)
        ((hE.order ts.length).nodup_iff.2 List.nodup_range) hs (xs := xs) (fun i t x _ ht hx => h2 i t x ht hx)
      simp only [List.map_map, Function.comp_def] at this
      simp only [serTuple, List.length_map]
      refine Cut.map (f := Val.coll) this ?_
      rintro ws zs ⟨h3, h4, _, h5⟩
      exact .tuple h5 h4 h3
  | opt t =>
    refine tears_each (fun s x hs hx => ?_)
    have key : ∀ y, Cut m (Between env (.opt t) (.opt y))
        (serOptional cfg (env.ti (.opt t)).sizeof (env.elemOf (h t) t) s y >>= fun r => .ok (Val.opt r.1, r.2))
        (serOptional cfg (env.ti (.opt t)).sizeof (env.elemOf (h t) t) (s.more m) y >>= fun r => .ok (Val.opt r.1, r.2))
        (serOptionalEnd cfg (env.elemOf (h t) t) s y >>= fun z => .ok (Val.opt z)) := fun y =>
      Cut.map (f := Val.opt) (serOptional_cut (hA t) (hmk t).fresh hs) (by rintro _ _ rfl; exact .kept)
    cases hx with
    | optNone => exact key none
    | optSome h1 h2 => exact key (some _)
  | variant ts =>
    rcases Bool.eq_false_or_eq_true (Ty.allOnlyBytes ts) with hb | hb
    · have hb' : Ty.allByteCopied ts = true := by rw [← hb]; exact (allByteCopied_eq ts)
      unfold dispatchStep dispatchStepEnd
      simp only [hb', if_true]
      refine onRaw_tears (fun x hx => ?_) (fun a b k => .variantBytes k hb)
      cases hx with
      | variantBytes _ hl => exact ⟨_, rfl, hl⟩
      | variant hb' => rw [hb] at hb'; cases hb'
      | valueless hb' => rw [hb] at hb'; cases hb'
    · have hb' : Ty.allByteCopied ts = false := by rw [← hb]; exact (allByteCopied_eq ts)
      have e1 : dispatchStep cfg env h (.variant ts) = dispatchVariant cfg (ts.map fun t => env.elemOf (h t) t) := by
        unfold dispatchStep
        simp only [hb', Bool.false_eq_true, if_false]
      have e2 : dispatchStepEnd cfg env h r (.variant ts) = dispatchEachEnd (oneOf (dispatchStep cfg env h (.variant ts)))
          (variantEnd cfg (ts.map fun t => env.elemOf (h t) t)) := by
        unfold dispatchStepEnd
        simp only [hb', Bool.false_eq_true, if_false]
      rw [e2, e1]
      clear e1 e2
      unfold dispatchVariant
      refine tears_each (t := .variant ts) (fun s x hs hx => ?_)
      have hes : ∀ e ∈ ts.map fun t => (env.elemOf (h t) t, r t), ∃ P B, Tears m P B e.1.apply e.2 ∧ P e.1.fresh := by
        intro e he
        obtain ⟨t, _, rfl⟩ := List.mem_map.1 he
        exact ⟨_, _, hA t, (hmk t).fresh⟩
      have key : ∀ (x : Variant Val) (v : Val), (v = match x with | .holds i x => Val.variant i x | .valueless => .valueless) →
          Cut m (Between env (.variant ts) v)
            (serVariant cfg (ts.map fun t => env.elemOf (h t) t) s x >>= fun r => match r.1 with
              | .holds i x => .ok (Val.variant i x, r.2)
              | .valueless => .ok (.valueless, r.2))
            (serVariant cfg (ts.map fun t => env.elemOf (h t) t) (s.more m) x >>= fun r => match r.1 with
              | .holds i x => .ok (Val.variant i x, r.2)
              | .valueless => .ok (.valueless, r.2))
            (serVariantEnd cfg (ts.map fun t => env.elemOf (h t) t) s x >>= fun x => match x with
              | .holds i x => .ok (Val.variant i x)
              | .valueless => .ok .valueless) := by
        intro x v hv
        have := serVariant_cut (cfg := cfg) hes hs (v := x)
        simp only [List.map_map, Function.comp_def] at this
        have h1 := Cut.map (B := Between env (.variant ts) v) (f := fun w : Variant Val => match w with
          | .holds i x => Val.variant i x
          | .valueless => .valueless) this (by rintro _ _ rfl; rw [hv]; exact .kept)
        have e1 : ∀ q : Variant Val × Ser, (match q.1 with
              | .holds i x => (.ok (Val.variant i x, q.2) : Out (Val × Ser))
              | .valueless => .ok (.valueless, q.2)) = .ok ((match q.1 with
              | .holds i x => Val.variant i x
              | .valueless => .valueless), q.2) := by
          rintro ⟨w, s'⟩
          cases w <;> rfl
        have e2 : ∀ q : Variant Val, (match q with
              | .holds i x => (.ok (Val.variant i x) : Out Val)
              | .valueless => .ok .valueless) = .ok (match q with
              | .holds i x => Val.variant i x
              | .valueless => .valueless) := by
          intro w
          cases w <;> rfl
        simp only [e1, e2]
        exact h1
      cases hx with
      | variantBytes hb' => rw [hb] at hb'; cases hb'
      | @variant _ i t y _ h1 h2 h3 => exact key (.holds i y) _ rfl
      | valueless => exact key .valueless _ rfl
  | uptr t =>
    refine tears_each (fun s x hs hx => ?_)
    have hfr : env.virt cfg t = none → Formed env t (env.elemOf (h t) t).fresh := fun _ => (hmk t).fresh
    have hco : ∀ vi, env.virt cfg t = some vi → ∀ i z, vi.construct i = .ok (some z) → Formed env t z := by
      intro vi hvi i z hz
      cases t with
      | cls c =>
        unfold Env.virt at hvi
        by_cases hv : (env.cls c).virt = true
        · simp only [hv, if_true] at hvi
          cases hvi
          have := construct_good (U := fun _ => True) hE (fun _ _ => trivial) hv i
          have hz : env.construct cfg c i = .ok (some z) := hz
          rw [hz] at this
          exact this
        · simp [hv] at hvi
      | _ => cases hvi
    have key : ∀ y : Option Val, (∀ z, y = some z → Formed env t z) → Cut m (Between env (.uptr t) (.ptr y))
        (serUniquePtr cfg (env.ti (.uptr t)).sizeof (env.elemOf (h t) t) (env.virt cfg t) s y
          >>= fun r => .ok (Val.ptr r.1, r.2))
        (serUniquePtr cfg (env.ti (.uptr t)).sizeof (env.elemOf (h t) t) (env.virt cfg t) (s.more m) y
          >>= fun r => .ok (Val.ptr r.1, r.2))
        (serUniquePtrEnd cfg (env.elemOf (h t) t) (r t) (env.virt cfg t) s y >>= fun z => .ok (Val.ptr z)) := by
      intro y hy
      refine Cut.map (f := Val.ptr) (serUniquePtr_cut (e := env.elemOf (h t) t) (hA t) hfr hco hs hy) ?_
      rintro w z (rfl | ⟨y', w', z', h1, rfl, rfl, h2⟩)
      · exact .kept
      · exact .ptr h1 h2
    cases hx with
    | ptrNull => exact key none nofun
    | ptr _ h2 => exact key (some _) (by rintro _ ⟨⟩; exact h2)
  | arr j t =>
    refine tears_each (fun s x hs hx => ?_)
    cases hx with
    | @arr _ _ xs hl h1 h2 =>
      simp only [hl, if_true]
      exact Cut.map (f := Val.coll) (serializeArray_cut (e := env.elemOf (h t) t) (hA t) hs h2)
        (fun ws zs hc => .arr hc.torn)

theorem dispatchEnd_tears (hE : env.Sound cfg) : ∀ (n : Nat) (t : Ty),
    Tears m (Formed env t) (Between env t) (dispatch cfg env n t) (dispatchEnd cfg env n t)
  | 0, _ => ⟨fun _ _ _ _ _ => trivial, fun _ _ => .kept, fun _ _ => .done⟩
  | n + 1, t => stepEnd_tears hE (fun t => dispatchEnd_tears hE n t)
      (fun t => (dispatchEnd_keeps hE n t (fun _ => True)).imp (fun _ hx => ⟨hx, fun _ _ _ => trivial⟩) (fun _ hx => hx.1)) t

theorem traverseTop_cut {T : Type} {P : T → Prop} {B : T → T → T → Prop} {e : Elem T} {r : Residue T}
    (hh : Tears m P B e.apply r) {s : Ser} (hs : s.isUnpacking = true) {x : T} (hx : P x) :
    Cut m (B x) (traverseTop cfg e s x) (traverseTop cfg e (s.more m) x) (traverseTopEnd cfg e r s x) := by
  unfold traverseTop traverseTopEnd
  split
  · exact pipe_cut hh hs hx
  · exact Cut.bindS (withTypeIdx_cut hs _) (fun s' hs' => trailer_cut e.ti 1 (hh.done x) (pipe_cut hh hs' hx))
      ⟨x, rfl, fun _ w _ _ => hh.kept x w⟩

end
end Ckpt
