import Verif.Proofs.MirrorContainers
import Verif.Spec.Formed
/-!
Writing what was read gives the bytes it was read from: all the types.
-/

set_option autoImplicit false

namespace Ckpt

/-- What the relation between what is read and what is written must admit; `V`: are there vectors? -/
structure Admits (V : Prop) (E : Val → Val → Prop) : Prop where
  refl : ∀ v, E v v
  vec : V → ∀ cap cap' xs ys, List.Forall₂ E xs ys → E (.vec cap xs) (.vec cap' ys)
  vbool : V → ∀ cap cap' bs, E (.vbool cap bs) (.vbool cap' bs)
  coll : ∀ xs ys, List.Forall₂ E xs ys → E (.coll xs) (.coll ys)
  opt : ∀ x y, Option.Rel E x y → E (.opt x) (.opt y)
  ptr : ∀ x y, Option.Rel E x y → E (.ptr x) (.ptr y)
  obj : ∀ d ps qs, List.Forall₂ (List.Forall₂ E) ps qs → E (.obj d ps) (.obj d qs)
  idx : ∀ (env : Env) (c : Nat) x y, E x y → env.dynIdx c y = env.dynIdx c x

theorem admits_eq : Admits False Eq where
  refl _ := rfl
  vec h := h.elim
  vbool h := h.elim
  coll xs ys h := by rw [List.forall₂_eq_eq_eq] at h; rw [h]
  opt x y h := by cases h <;> simp_all
  ptr x y h := by cases h <;> simp_all
  obj d ps qs h := by rw [List.forall₂_eq_eq_eq, List.forall₂_eq_eq_eq] at h; rw [h]
  idx env c x y h := by rw [h]

theorem admits_caps : Admits True SameButCaps where
  refl := .refl
  vec _ _ _ _ _ h := .vec h
  vbool _ _ _ _ := .vbool
  coll _ _ h := .coll h
  opt x y h := by
    cases h with
    | some h => exact .opt h
    | none => exact .refl _
  ptr x y h := by
    cases h with
    | some h => exact .ptr h
    | none => exact .refl _
  obj _ _ _ h := .obj h
  idx env c x y h := by cases h <;> rfl

theorem Copies.wrap {B D : Type} {v v' : Bool} {E : B → B → Prop} {E' : D → D → Prop} {f : Ser → Out (B × Ser)}
    {g : B → Ser → Out (B × Ser)} {f' : Ser → Out (D × Ser)} {g' : D → Ser → Out (D × Ser)} (W : B → D)
    (h : Copies v v' E f g) (hf : ∀ s, f' s = f s >>= fun r => .ok (W r.1, r.2))
    (hg : ∀ z s, g' (W z) s = g z s >>= fun r => .ok (W r.1, r.2)) (hE : ∀ z z', E z z' → E' (W z) (W z')) :
    Copies v v' E' f' g' := by
  intro inp n z s' h1
  rw [hf] at h1
  obtain ⟨⟨w, s1⟩, h2, h1⟩ := bind_eq_ok h1
  obtain ⟨bs, inp', w', hi, hs, he, hw⟩ := h _ _ _ _ h2
  cases h1
  refine ⟨bs, inp', W w', hi, hs, hE _ _ he, fun c k ho => ?_⟩
  rw [hg, hw c k ho]
  rfl

theorem onRaw_copies {v : Bool} {E : Val → Val → Prop} (hr : ∀ x, E x x) (size : Nat) :
    (onRaw (dispatchByte size)).Copies v v E := by
  intro ys inp n zs s' h
  unfold onRaw at h
  dsimp only at h
  split at h
  · next bs hb =>
    obtain ⟨⟨xs, s1⟩, h1, h⟩ := bind_eq_ok h
    obtain ⟨a, inp', xs', hi, hs, ⟨he, hl⟩, hg⟩ := dispatchByte_copies size _ _ _ _ _ h1
    obtain ⟨rfl, -⟩ := eq_of_same he
    cases h
    have hlen : bs.length = ys.length := by
      have : ∀ (l : List Val) (m : List Bytes), l.mapM Val.raw? = some m → m.length = l.length := by
        intro l
        induction l with
        | nil => intro m h; simp at h; simp [h]
        | cons x l ih =>
          intro m h
          simp only [List.mapM_cons, Option.bind_eq_bind, Option.bind_eq_some_iff] at h
          obtain ⟨_, _, l', hl', h⟩ := h
          cases h
          simp [ih _ hl']
      exact this _ _ hb
    refine ⟨a, inp', xs'.map .raw, hi, hs, ⟨List.forall₂_same.2 fun x _ => hr x, by simp [hl, hlen]⟩, fun c k ho => ?_⟩
    have hm : ∀ l : List Bytes, (l.map Val.raw).mapM Val.raw? = some l := by
      intro l
      induction l with
      | nil => rfl
      | cons x l ih => simp [List.mapM_cons, Val.raw?, ih]
    have a1 := hg c k ho
    dsimp only at a1
    simp only [onRaw, hm, a1, Out.bind_eq, Out.bind_ok]
  · cases h

section
variable {cfg : Cfg} {env : Env} {V : Prop} {S : Ty → Prop} {E : Val → Val → Prop} {h : Ty → Handler Val}

theorem onPart_copies {v : Bool} (hE : Admits V E) {c : Nat} {f : Ser → List Val → Out (List Val × Ser)}
    (hf : ∀ p, Copies v v (List.Forall₂ E) (fun s => f s p) (fun z s => f s z)) (x : Val) :
    Copies v v E (fun s => onPart env c f s x) (fun z s => onPart env c f s z) := by
  intro inp n z s' h
  cases x <;> try cases h
  next d parts =>
  dsimp only [onPart] at h
  split at h
  · next p hp =>
    obtain ⟨⟨q, s1⟩, h1, h⟩ := bind_eq_ok h
    obtain ⟨a, inp', q', hi, hs, he, hg⟩ := hf p _ _ _ _ h1
    cases h
    have hlt := (List.getElem?_eq_some_iff.1 hp).1
    refine ⟨a, inp', .obj d (parts.set (List.idxOf c (env.chain d)) q'), hi, hs, hE.obj _ _ _ ?_, fun k kd ho => ?_⟩
    · rw [List.forall₂_iff_get]
      refine ⟨by simp, fun j h1 h2 => ?_⟩
      simp only [List.get_eq_getElem, List.getElem_set]
      split
      · exact he
      · exact List.forall₂_same.2 fun x _ => hE.refl x
    · have a1 := hg k kd ho
      dsimp only at a1
      simp only [onPart, List.getElem?_set_self hlt, a1, Out.bind_eq, Out.bind_ok, List.set_set]
  · cases h

theorem traverse_inner {T : Type} {v : Bool} {ti : TI} {g : Handler T} {inp : Bytes} {n : Nat} {ys zs : List T} {s' : Ser}
    (ht : traverse cfg ti g (rdr v inp n) ys = .ok (zs, s')) : ∃ inp1 n1 s1, g (rdr v inp1 n1) ys = .ok (zs, s1) := by
  unfold traverse at ht
  split at ht
  · obtain ⟨s1, h1, ht⟩ := bind_eq_ok ht
    obtain ⟨a, inp1, hi1, rfl, g1⟩ := withTypeIdx_copies h1
    obtain ⟨⟨ws, s2⟩, h2, ht⟩ := bind_eq_ok ht
    obtain ⟨s3, h3, ht⟩ := bind_eq_ok ht
    cases ht
    exact ⟨_, _, _, ok_of_catch h2⟩
  · exact ⟨_, _, _, ht⟩

/-- The class of an object is kept. -/
def KeepsClass (env : Env) (g : Handler Val) : Prop := ∀ c inp n ys zs s', g (rdr false inp n) ys = .ok (zs, s') →
  zs.map (env.dynIdx c) = ys.map (env.dynIdx c)

theorem dispatchStep_keeps {c : Nat} (hv : (env.cls c).virt = true) : KeepsClass env (dispatchStep cfg env h (.cls c)) := by
  intro k inp n ys zs s' hd
  unfold dispatchStep at hd
  dsimp only at hd
  rw [if_pos hv] at hd
  simp only [show (rdr false inp n).vdis = false from rfl, Bool.false_eq_true, if_false] at hd
  split at hd
  · obtain ⟨⟨ps, s1⟩, h1, hd⟩ := bind_eq_ok hd
    cases hd
    rfl
  · cases hd

theorem elems_copy (hh : ∀ t, S t → (h t).Copies false false E) (ts : List Ty) (hts : ∀ t ∈ ts, S t) :
    ∀ e ∈ ts.map fun t => env.elemOf (h t) t, e.apply.Copies false false E := by
  intro e he
  obtain ⟨t, ht, rfl⟩ := List.mem_map.1 he
  exact hh t (hts t ht)

theorem dispatchStep_copies (hs : env.Sound cfg) (hS : env.OneForm cfg V S) (hE : Admits V E)
    (hh : ∀ t, S t → (h t).Copies false false E) (hk : ∀ c, (env.cls c).virt = true → KeepsClass env (h (.cls c)))
    (t : Ty) (ht : S t) : (dispatchStep cfg env h t).Copies false false E := by
  have h0 := hS t ht
  have hu : ∀ (pid size : Nat) (x : Bytes), Copies false false (fun z z' => z' = z ∧ z.length = size)
      (fun s => serUnderlying cfg (primElem env pid size) s x) (fun z s => serUnderlying cfg (primElem env pid size) s z) := by
    intro pid size x
    refine (pipe_copies (e := primElem env pid size) (dispatchByte_copies size) x).wrap id (fun s => rfl) (fun z s => rfl)
      fun _ _ h => h
  cases t with
  | prim id size => exact onRaw_copies hE.refl size
  | enm id pid size =>
    refine dispatchEach_copies fun x => ?_
    cases x <;> try (intro _ _ _ _ h; cases h)
    next bs => exact (hu pid size bs).wrap Val.raw (fun s => rfl) (fun z s => rfl) fun z z' h => by rw [h.1]; exact hE.refl _
  | chrono id pid size =>
    refine dispatchEach_copies fun x => ?_
    cases x <;> try (intro _ _ _ _ h; cases h)
    next bs => exact (hu pid size bs).wrap Val.raw (fun s => rfl) (fun z s => rfl) fun z z' h => by rw [h.1]; exact hE.refl _
  | str =>
    refine dispatchEach_copies fun x => ?_
    cases x <;> try (intro _ _ _ _ h; cases h)
    next x => exact (serString_copies _ x).wrap Val.str (fun s => rfl) (fun z s => rfl) fun z z' h => by rw [h]; exact hE.refl _
  | vecBool =>
    refine dispatchEach_copies fun x => ?_
    cases x <;> try (intro _ _ _ _ h; cases h)
    next cap bs =>
    refine (serVectorBool_copies _ ⟨cap, bs⟩).wrap (fun v => Val.vbool v.cap v.elems) (fun s => rfl) (fun z s => by cases z; rfl)
      fun z z' h => ?_
    rw [h]
    exact hE.vbool h0 _ _ _
  | vec t =>
    refine dispatchEach_copies fun x => ?_
    cases x <;> try (intro _ _ _ _ h; cases h)
    next cap xs =>
    exact (serVector_copies (e := env.elemOf (h t) t) (hh t h0.2.1) h0.2.2 _ ⟨cap, xs⟩).wrap (fun v => Val.vec v.cap v.elems)
      (fun s => rfl) (fun z s => by cases z; rfl) fun z z' h => hE.vec h0.1 _ _ _ _ h
  | seq k t =>
    refine dispatchEach_copies fun x => ?_
    cases x <;> try (intro _ _ _ _ h; cases h)
    next xs =>
    exact (serList_copies (e := env.elemOf (h t) t) (hh t h0.1) h0.2 _ xs).wrap Val.coll
      (fun s => rfl) (fun z s => rfl) fun z z' h => hE.coll _ _ h
  | queue t => exact h0.elim
  | oset a cmp t => exact h0.elim
  | uset a eq t => exact h0.elim
  | pair t u =>
    refine dispatchEach_copies fun x => ?_
    dsimp only
    split
    · next x y =>
      exact (serPair_copies (e1 := env.elemOf (h t) t) (e2 := env.elemOf (h u) u) (hh t h0.1) (hh u h0.2) _ (x, y)).wrap
        (fun p => Val.coll [p.1, p.2]) (fun s => rfl) (fun z s => by cases z; rfl)
        fun z z' h => hE.coll _ _ (.cons h.1 (.cons h.2 .nil))
    · intro _ _ _ _ h; cases h
  | tuple ts =>
    refine dispatchEach_copies fun x => ?_
    cases x <;> try (intro _ _ _ _ h; cases h)
    next xs =>
    exact (serTuple_copies hE.refl (elems_copy hh ts h0) hs.order xs).wrap Val.coll
      (fun s => rfl) (fun z s => rfl) fun z z' h => hE.coll _ _ h
  | opt t =>
    refine dispatchEach_copies fun x => ?_
    cases x <;> try (intro _ _ _ _ h; cases h)
    next x =>
    exact (serOptional_copies (e := env.elemOf (h t) t) (hh t h0) _ x).wrap Val.opt
      (fun s => rfl) (fun z s => rfl) fun z z' h => hE.opt _ _ h
  | variant ts =>
    simp only [dispatchStep]
    rw [if_pos h0]
    exact onRaw_copies hE.refl _
  | uptr t =>
    have key : (h t).Copies false false E ∧ ∀ vi, env.virt cfg t = some vi → cfg.ndebug = false ∧
        (∀ i x, vi.construct i = .ok (some x) → vi.dynIdx x = i) ∧
        (∀ x inp n z s', pipe cfg (env.elemOf (h t) t) (rdr false inp n) x = .ok (z, s') → vi.dynIdx z = vi.dynIdx x) ∧
        ∀ z z', E z z' → vi.dynIdx z' = vi.dynIdx z := by
      cases t with
      | cls c =>
        refine ⟨hh _ h0.1, fun vi hvi => ?_⟩
        simp only [Env.virt] at hvi
        split at hvi
        · next hv =>
          cases hvi
          refine ⟨(h0.2 hv).1, fun i x hx => ?_, fun x inp n z s' hp => ?_, fun z z' he => hE.idx env c z z' he⟩
          · simp only [Env.construct] at hx
            split at hx
            · cases hx
            · next d hd =>
              split at hx
              · split at hx <;> cases hx
              · split at hx
                · cases hx
                  obtain ⟨hf, hb⟩ := hs.fresh (.cls d)
                  generalize env.fresh (.cls d) = w at hf hb
                  cases hf
                  dsimp only [ByVal] at hb
                  subst hb
                  obtain ⟨hl, rfl⟩ := List.getElem?_eq_some_iff.1 hd
                  exact (h0.2 hv).2.idxOf_getElem _ hl
                · cases hx
          · obtain ⟨⟨ys, s1⟩, h1, hp⟩ := bind_eq_ok hp
            obtain ⟨inp1, n1, s2, h2⟩ := traverse_inner h1
            have := hk c hv c _ _ _ _ _ h2
            dsimp only at hp
            split at hp
            · cases hp
              simpa using this
            · cases hp
        · cases hvi
      | _ => exact ⟨hh _ h0, fun vi hvi => by cases hvi⟩
    refine dispatchEach_copies fun x => ?_
    cases x <;> try (intro _ _ _ _ h; cases h)
    next x =>
    exact (serUniquePtr_copies (e := env.elemOf (h t) t) key.1 key.2 _ x).wrap Val.ptr
      (fun s => rfl) (fun z s => rfl) fun z z' h => hE.ptr _ _ h
  | arr k t =>
    refine dispatchEach_copies fun x => ?_
    cases x <;> try (intro _ _ _ _ h; cases h)
    next xs =>
    intro inp n z s' hx
    dsimp only at hx
    split at hx
    · next hl =>
      obtain ⟨⟨ys, s1⟩, h1, hx⟩ := bind_eq_ok hx
      obtain ⟨bs, inp', ys', hi, hs, ⟨he, hz⟩, hg⟩ :=
        serializeArray_copies (e := env.elemOf (h t) t) (hh t h0) _ _ _ _ _ h1
      cases hx
      refine ⟨bs, inp', .coll ys', hi, hs, hE.coll _ _ he, fun c k ho => ?_⟩
      have a1 := hg c k ho
      dsimp only at a1 ⊢
      rw [if_pos (by rw [← he.length_eq, hz, hl])]
      simp only [serArray, a1, Out.bind_eq, Out.bind_ok]
    · cases hx
  | cls c =>
    have hm : ∀ k, (∀ t ∈ (env.cls k).fields, S t) → ∀ p, Copies false false (List.Forall₂ E)
        (fun s => serMembers cfg (((env.cls k).visited s).map fun t => env.elemOf (h t) t) s p)
        (fun z s => serMembers cfg (((env.cls k).visited s).map fun t => env.elemOf (h t) t) s z) := by
      intro k hf p
      have hv : ∀ s, (env.cls k).visited s = (env.cls k).fields := by
        intro s
        unfold ClassDef.visited
        rw [hs.sym k, ite_self]
      simp only [hv]
      exact serMembers_copies _ p (elems_copy hh _ hf)
    unfold dispatchStep
    dsimp only at h0 ⊢
    split
    · next hv =>
      rw [if_pos hv] at h0
      intro ys inp n zs s' hd
      simp only [show (rdr false inp n).vdis = false from rfl, Bool.false_eq_true, if_false] at hd
      split at hd
      · next d parts rest =>
        obtain ⟨⟨ps, s1⟩, h1, hd⟩ := bind_eq_ok hd
        cases hd
        have hpart : ∀ k, ((partElem (env.ti (.cls k)) (fun s ps => dispatchEach (fun s p => serMembers cfg
            (((env.cls k).visited s).map fun t => env.elemOf (h t) t) s p) (s.setVdis false) ps)
            ([] : List Val)).apply).Copies true false (List.Forall₂ E) := by
          intro k ys inp n zs s' hq
          exact dispatchEach_copies (hm k (h0 k)) ys inp n zs s' hq
        obtain ⟨bs, inp', ps', hi, hse, he, hg⟩ :=
          serChain_copies hs.serRegOk hpart _ (fun k hk => hs.hier _ k hk) _ _ _ _ _ h1
        refine ⟨bs, inp', .obj d ps' :: rest, hi, hse, ⟨.cons (hE.obj _ _ _ he) (List.forall₂_same.2 fun x _ => hE.refl x),
          by simp⟩, fun c k ho => ?_⟩
        have a1 := hg c k ho
        dsimp only at a1
        simp only [Bool.false_eq_true, if_false, a1, Out.bind_eq, Out.bind_ok]
      · cases hd
    · next hv =>
      rw [if_neg hv] at h0
      exact dispatchEach_copies fun x => onPart_copies hE (hm c h0) x

theorem dispatch_keeps {c : Nat} (hv : (env.cls c).virt = true) : ∀ n, KeepsClass env (dispatch cfg env n (.cls c))
  | 0 => fun _ _ _ _ _ _ h => by cases h
  | _ + 1 => dispatchStep_keeps hv

theorem dispatch_copies (hs : env.Sound cfg) (hS : env.OneForm cfg V S) (hE : Admits V E) :
    ∀ (n : Nat) (t : Ty), S t → (dispatch cfg env n t).Copies false false E
  | 0, _, _ => fun _ _ _ _ _ h => by cases h
  | n + 1, t, ht => dispatchStep_copies hs hS hE (fun t ht => dispatch_copies hs hS hE n t ht)
      (fun _ hv => dispatch_keeps hv n) t ht

theorem traverseTop_copies {T : Type} {E : T → T → Prop} {e : Elem T} (hh : e.apply.Copies false false E) (x : T) :
    Copies false false E (fun s => traverseTop cfg e s x) (fun z s => traverseTop cfg e s z) := by
  intro inp n z s' ht
  unfold traverseTop at ht ⊢
  split at ht
  · next hc =>
    simp only [if_pos hc]
    exact pipe_copies hh x _ _ _ _ ht
  · next hc =>
    simp only [if_neg hc]
    obtain ⟨s1, h1, ht⟩ := bind_eq_ok ht
    obtain ⟨a, inp1, rfl, rfl, g1⟩ := withTypeIdx_copies h1
    obtain ⟨⟨w, s2⟩, h2, ht⟩ := bind_eq_ok ht
    obtain ⟨b, inp2, w', rfl, rfl, he, g2⟩ := pipe_copies hh _ _ _ _ _ h2
    obtain ⟨s3, h3, ht⟩ := bind_eq_ok ht
    obtain ⟨d, inp3, rfl, rfl, g3⟩ := withMemUsed_copies h3
    cases ht
    refine ⟨a ++ b ++ d, inp3, w', by simp, by simp [Nat.add_assoc], he, fun c k ho => ?_⟩
    have a2 := g2 _ k (ho.put a)
    dsimp only at a2
    simp only [g1 c k ho, Out.bind_eq, Out.bind_ok, a2, g3 _ k ((ho.put a).put b)]
    simp only [ho.put_put]

/-- Reading an object from a stream, and writing it to a stream. -/
theorem stream_copies {T : Type} {E : T → T → Prop} {e : Elem T} (hh : e.apply.Copies false false E) {bytes rest : Bytes}
    {y z : T} (h : deserializeInPlaceFromStream cfg e bytes y = .ok (z, rest)) : ∃ bs z', bytes = bs ++ rest ∧ E z z' ∧
      serializeToStream cfg e z' ⟨[], none⟩ = .ok (z', ⟨bs, none⟩) := by
  obtain ⟨⟨w, s⟩, h1, h⟩ := bind_eq_ok h
  obtain ⟨bs, inp', z', hi, rfl, he, hg⟩ := traverseTop_copies hh y bytes 0 w s h1
  cases h
  refine ⟨bs, z', hi, he, ?_⟩
  have a1 := hg (.sizer 0) .sizer (.sizer (by decide))
  have a2 := hg (.streamPacker [] none 0) .streamPacker .stream
  dsimp only at a1 a2
  simp only [serializeToStream, getSize, a1, a2, Out.bind_eq, Out.bind_ok, Core.put, List.nil_append]
  rfl

end
end Ckpt
