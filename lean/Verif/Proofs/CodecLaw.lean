import Verif.Proofs.CodecRel
/-!
Every type of the universe obeys its codec (induction on the nesting bound).
-/

set_option autoImplicit false

namespace Ckpt

variable {R : RelMode} {K : Scope} {cfg : Cfg} {env : Env}

theorem Law.byVal {ti : TI} {h : Handler Val} {c : Codec Val} (L : Law K cfg ti h c) (t : Ty) :
    Law K cfg ti h (c.byVal t) where
  ti_valid := L.ti_valid
  one := L.one
  wr := fun xs hx hl hm => L.wr xs (fun x hx' => (hx x hx').1) hl hm
  rd := fun xs ys hx hp hl hm => L.rd xs ys (fun x hx' => (hx x hx').1) hp hl hm
  fp := fun xs hx hl hm => L.fp xs (fun x hx' => (hx x hx').1) hl hm

/-- Objects have the same dynamic type. -/
def SameDyn : Val → Val → Prop
  | .obj d _, .obj d' _ => d' = d
  | _, _ => True

theorem sameDyn_of_byVal {c : Nat} {x y : Val} (hx : ByVal (.cls c) x) (hy : ByVal (.cls c) y) :
    SameDyn x y := by
  unfold SameDyn
  split
  · simp only [ByVal] at hx hy; rw [hx, hy]
  · trivial

theorem All3.of_all2 {ι T : Type} {P Q : ι → T → Prop} {S : ι → T → T → Prop}
    (h : ∀ t x y, P t x → Q t y → S t x y) : ∀ {ts : List ι} {xs ys : List T}, All2 P ts xs →
    All2 Q ts ys → All3 S ts xs ys
  | [], [], [], _, _ => trivial
  | t :: ts, x :: xs, y :: ys, hp, hq => ⟨h t x y hp.1 hq.1, All3.of_all2 h hp.2 hq.2⟩
  | [], _ :: _, _, hp, _ => by simp [All2] at hp
  | _ :: _, [], _, hp, _ => by simp [All2] at hp
  | [], [], _ :: _, _, hq => by simp [All2] at hq
  | _ :: _, _ :: _, [], _, hq => by simp [All2] at hq

theorem All2.imp {ι T : Type} {P Q : ι → T → Prop} (h : ∀ t x, P t x → Q t x) :
    ∀ {ts : List ι} {xs : List T}, All2 P ts xs → All2 Q ts xs
  | [], [], _ => trivial
  | t :: ts, x :: xs, hp => ⟨h t x hp.1, All2.imp h hp.2⟩
  | [], _ :: _, hp => by simp [All2] at hp
  | _ :: _, [], hp => by simp [All2] at hp

theorem mem_chain_self (env : Env) (d : Nat) : d ∈ env.chain d := by simp [Env.chain]

/-- Constructing the class registered under the index of an object's class. -/
theorem construct_of_wt {c d : Nat} {ps : List (List Val)}
    (hc : c ∈ env.chain d) (hreg : d ∈ env.objReg (env.root c)) (ha : (env.cls d).abstract = false) :
    env.construct cfg c (env.dynIdx c (.obj d ps)) = .ok (some (env.fresh (.cls d))) := by
  unfold Env.construct Env.dynIdx ObjReg.idxOf
  have hlt := List.idxOf_lt_length_iff.2 hreg
  rw [List.getElem?_eq_getElem hlt, List.getElem_idxOf hlt]
  simp [ha, hc]

theorem codec_prior {K : Kind → Prop} (hv : env.Usable R K cfg) : ∀ (n : Nat) (t : Ty) (x y : Val),
    (codec R cfg env n t).P x → Clean R cfg env t y → (∀ c, t = .cls c → SameDyn x y) →
    (codec R cfg env n t).prior x y := by
  intro n
  induction n with
  | zero => intro t x y h; exact h.elim
  | succ n ih =>
    have ihv : ∀ t x y, ((codec R cfg env n t).byVal t).P x → Clean R cfg env t y → ByVal t y →
        ((codec R cfg env n t).byVal t).prior x y := by
      intro t x y hx hy hb
      refine ih t x y hx.1 hy ?_
      rintro c rfl
      exact sameDyn_of_byVal hx.2 hb
    have hfresh : ∀ t x, ((codec R cfg env n t).byVal t).P x →
        ((codec R cfg env n t).byVal t).prior x (env.fresh t) :=
      fun t x hx => ihv t x _ hx (hv.fresh t).1 (hv.fresh t).2
    have hget : ∀ {t : Ty} {xs ys : List Val}, (∀ x ∈ xs, ((codec R cfg env n t).byVal t).P x) →
        (∀ y ∈ ys, Clean R cfg env t y) → (∀ y ∈ ys, ByVal t y) → ∀ (i : Nat) a b,
        xs[i]? = some a → ys[i]? = some b → ((codec R cfg env n t).byVal t).prior a b := by
      intro t xs ys hx hy hb i a b ha hb'
      exact ihv t a b (hx a (List.mem_of_getElem? ha)) (hy b (List.mem_of_getElem? hb'))
        (hb b (List.mem_of_getElem? hb'))
    intro t x y hx hy hd
    cases hy with
    | prim h => exact h
    | enm h => exact h
    | chrono h => exact h
    | str => trivial
    | vec hcap he hb hc =>
      cases x <;> simp only [codec] at hx <;> try exact hx.elim
      exact ⟨⟨hget hx.all hc hb, he⟩, hcap _ hx.lt⟩
    | vecBool hcap =>
      cases x <;> simp only [codec] at hx <;> try exact hx.elim
      exact hcap _ hx.2
    | seq he hb hc =>
      cases x <;> simp only [codec] at hx <;> try exact hx.elim
      exact ⟨fun _ => hget hx.all hc hb, he⟩
    | queue => rfl
    | oset => rfl
    | uset => rfl
    | pair h1 h2 c1 c2 =>
      simp only [codec] at hx ⊢
      split at hx
      · exact ⟨ihv _ _ _ hx.1 c1 h1, ihv _ _ _ hx.2 c2 h2⟩
      · exact hx.elim
    | tuple hl hb hc =>
      cases x <;> simp only [codec] at hx <;> try exact hx.elim
      exact All3.of_all2 (Q := fun t y => Clean R cfg env t y ∧ ByVal t y)
        (fun t x y hp hq => ihv t x y hp hq.1 hq.2) hx
        (All2.of_get hl.symm (fun i t y ht hy => ⟨hc i t y ht hy, hb i t y ht hy⟩))
    | opt => trivial
    | variant h => rw [codec_variant h]; trivial
    | valueless h => rw [codec_variant h]; trivial
    | variantBytes h h' => rw [codec_variantBytes h]; exact h'
    | ptrNull =>
      rename_i t
      cases x <;> simp only [codec] at hx <;> try exact hx.elim
      refine ⟨fun a b _ h => (by cases h), fun a ha _ hnone => ?_, fun a vi ha _ hsome => ?_⟩
      · obtain ⟨h1, h2, h3⟩ := hx a ha
        refine hfresh t a ⟨h1, h2 ?_⟩
        cases t <;> simp_all [Env.virt, Env.isVirt]
      · obtain ⟨h1, h2, h3⟩ := hx a ha
        cases t <;> simp only [Env.virt] at hsome <;> try cases hsome
        rename_i c
        split at hsome
        · rename_i hvt
          cases hsome
          cases n with
          | zero => exact h1.elim
          | succ m =>
            cases a <;> try (exact h1.elim)
            rename_i d ps
            obtain ⟨hreg, hab⟩ := h3 c d ps rfl rfl hvt
            refine ⟨_, construct_of_wt (ps := ps) h1.1 hreg hab, ?_⟩
            have hf := hv.fresh (.cls d)
            have hcl : Clean R cfg env (.cls c) (env.fresh (.cls d)) := by
              generalize hfd : env.fresh (.cls d) = f at hf
              cases hf.1 with
              | obj g1 g2 g3 g4 g5 =>
                have : _ = d := hf.2
                subst this
                exact .obj h1.1 g2 g3 g4 g5
            refine ih _ _ _ h1 hcl ?_
            intro c' _
            cases hfd : env.fresh (.cls d) <;> try trivial
            rw [hfd] at hf
            exact hf.2
        · cases hsome
    | ptr hnv hb hc =>
      rename_i t y
      cases x <;> simp only [codec] at hx <;> try exact hx.elim
      have hnone : env.virt cfg t = none := by
        cases t <;> simp_all [Env.virt, Env.isVirt]
      refine ⟨fun a b ha hb' => ⟨?_, by rw [hnone]; intro vi h; cases h⟩,
        fun a _ h => (by cases h), fun a vi _ h => (by cases h)⟩
      obtain ⟨h1, h2, h3⟩ := hx a ha
      cases hb'
      exact ihv t a y ⟨h1, h2 hnv⟩ hc hb
    | arr hl hb hc =>
      cases x <;> simp only [codec] at hx <;> try exact hx.elim
      exact forall₂_of_get (by rw [hx.1, hl]) (hget hx.2.1 hc hb)
    | @obj c d' qs h1 h2 h3 h4 h5 =>
      cases x <;> simp only [codec] at hx <;> try exact hx.elim
      rename_i d ps
      have hdd : d' = d := hd c rfl
      subst hdd
      refine ⟨rfl, ?_⟩
      refine All3.of_all2 (Q := fun k q => All2 (fun t y => Clean R cfg env t y ∧ ByVal t y)
        (env.cls k).rfields q) ?_ hx.2.2 ?_
      · intro k p q hp hq
        refine ⟨fun he => All3.of_all2 (fun t x y hp hq => ihv t x y hp hq.1 hq.2) hp (he ▸ hq),
          fun _ => hq.imp (fun t y hy x hx => ihv t x y hx hy.1 hy.2)⟩
      · refine All2.of_get h2.symm (fun j k q hk hq => ?_)
        exact All2.of_get (h3 j k q hk hq).symm (fun i t y ht hy =>
          ⟨h5 j k q hk hq i t y ht hy, h4 j k q hk hq i t y ht hy⟩)

theorem codec_fresh {K : Kind → Prop} (hv : env.Usable R K cfg) (n : Nat) (t : Ty) :
    Fresh (elem cfg env n t) ((codec R cfg env n t).byVal t) where
  fresh := fun x hx => codec_prior hv n t x _ hx.1 (hv.fresh t).1 (by
    rintro c rfl; exact sameDyn_of_byVal hx.2 (hv.fresh _).2)
  dflt := fun d hd x hx => codec_prior hv n t x _ hx.1 (hv.dflt t d hd).1 (by
    rintro c rfl; exact sameDyn_of_byVal hx.2 (hv.dflt _ d hd).2)

/-! ### Ordered and unordered insertion -/

theorem foldl_emplaceUnique {T : Type} {lt : T → T → Bool} : ∀ (zs acc : List T),
    (acc ++ zs).Pairwise (fun x y => lt x y = true) → zs.foldl (emplaceUnique lt) acc = acc ++ zs
  | [], acc, _ => by simp
  | z :: zs, acc, h => by
    have hz : ∀ y ∈ acc, lt y z = true := fun y hy =>
      (List.pairwise_append.1 h).2.2 y hy z (by simp)
    have hins : emplaceUnique lt acc z = acc ++ [z] := by
      clear h
      induction acc with
      | nil => rfl
      | cons y ys ih =>
        simp only [emplaceUnique, hz y (by simp), if_true]
        rw [ih (fun y' hy' => hz y' (by simp [hy']))]
        rfl
    simp only [List.foldl_cons, hins]
    rw [foldl_emplaceUnique zs (acc ++ [z]) (by simpa using h)]
    simp

theorem foldl_emplaceMulti {T : Type} {lt : T → T → Bool} : ∀ (zs acc : List T),
    (acc ++ zs).Pairwise (fun x y => lt y x = false) → zs.foldl (emplaceMulti lt) acc = acc ++ zs
  | [], acc, _ => by simp
  | z :: zs, acc, h => by
    have hz : ∀ y ∈ acc, lt z y = false := fun y hy =>
      (List.pairwise_append.1 h).2.2 y hy z (by simp)
    have hins : emplaceMulti lt acc z = acc ++ [z] := by
      clear h
      induction acc with
      | nil => rfl
      | cons y ys ih =>
        simp only [emplaceMulti, hz y (by simp)]
        rw [ih (fun y' hy' => hz y' (by simp [hy']))]
        rfl
    simp only [List.foldl_cons, hins]
    rw [foldl_emplaceMulti zs (acc ++ [z]) (by simpa using h)]
    simp

theorem foldl_emplaceO {a : Assoc} {cmp : Nat} {zs : List Val} (h : env.Sorted a cmp zs) :
    zs.foldl (env.emplaceO a cmp) [] = zs := by
  unfold Env.emplaceO
  rw [multi_eq]
  unfold Env.Sorted at h
  split at h
  · rename_i hm
    simp only [hm, if_true]
    simpa using foldl_emplaceMulti zs [] (by simpa using h)
  · rename_i hm
    simp only [hm]
    simpa using foldl_emplaceUnique zs [] (by simpa using h)

theorem foldl_emplaceUnordered {T : Type} {multi : Bool} {eq : T → T → Bool} {arr : List T → List T}
    (harr : ∀ xs, (arr xs).Perm xs) : ∀ (zs acc : List T),
    (multi = false → (∀ y ∈ acc, ∀ z ∈ zs, eq y z = false) ∧ zs.Pairwise (fun x y => eq x y = false)) →
    (zs.foldl (emplaceUnordered multi eq arr) acc).Perm (acc ++ zs)
  | [], acc, _ => by simp
  | z :: zs, acc, h => by
    have hins : emplaceUnordered multi eq arr acc z = arr (z :: acc) := by
      unfold emplaceUnordered
      cases multi with
      | true => simp
      | false =>
        have : acc.any (fun y => eq y z) = false := by
          rw [List.any_eq_false]
          intro y hy
          simp [(h rfl).1 y hy z (by simp)]
        simp [this]
    simp only [List.foldl_cons, hins]
    have hperm := harr (z :: acc)
    refine (foldl_emplaceUnordered harr zs _ ?_).trans ?_
    · intro hm
      obtain ⟨h1, h2⟩ := h hm
      refine ⟨fun y hy z' hz' => ?_, (List.pairwise_cons.1 h2).2⟩
      rcases List.mem_cons.1 (hperm.mem_iff.1 hy) with rfl | hy
      · exact (List.pairwise_cons.1 h2).1 z' hz'
      · exact h1 y hy z' (by simp [hz'])
    · refine (hperm.append_right zs).trans ?_
      simpa using (List.perm_middle (a := z) (l₁ := acc) (l₂ := zs)).symm

theorem pairwise_respects {T : Type} {S : T → T → Prop} {f : T → T → Bool} {b : Bool}
    (hf : ∀ x y x' y', S x x' → S y y' → f x y = f x' y') {xs zs : List T}
    (h : List.Forall₂ S xs zs) (hp : xs.Pairwise (fun x y => f x y = b)) :
    zs.Pairwise (fun x y => f x y = b) := by
  induction h with
  | nil => exact .nil
  | @cons x z xs zs h1 h2 ih =>
    rw [List.pairwise_cons] at hp ⊢
    refine ⟨?_, ih hp.2⟩
    intro z' hz'
    obtain ⟨i, hi⟩ := List.getElem?_of_mem hz'
    obtain ⟨hl, hg⟩ := forall₂_get h2
    have hlt : i < xs.length := by
      rw [hl]
      rcases Nat.lt_or_ge i zs.length with h | h
      · exact h
      · rw [List.getElem?_eq_none h] at hi; cases hi
    have := hg i xs[i] z' (List.getElem?_eq_getElem hlt) hi
    rw [← hf x xs[i] z z' h1 this]
    exact hp.1 _ (List.getElem_mem hlt)

end Ckpt
