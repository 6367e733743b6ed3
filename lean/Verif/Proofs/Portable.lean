import Verif.Spec.Portable
import Verif.Proofs.Api
/-!
Programs with the same format write the same bytes.
-/

set_option autoImplicit false

namespace Ckpt

theorem node_same {cfg cfg' : Cfg} {ti ti' : TI} {w : Bool} (he : cfg'.endian = cfg.endian)
    (h : w = true → ti.Same ti') (n : Nat) (p : Bytes) : node cfg' w ti' n p = node cfg w ti n p := by
  cases w with
  | false => simp [node]
  | true => simp [node, he, (h rfl).1, (h rfl).2]

section
variable {T : Type} {cfg cfg' : Cfg} {w : Bool} {c c' : Codec T} {ti ti' : TI}
  (he : cfg'.endian = cfg.endian) (hti : w = true → ti.Same ti')
include he

theorem sizeNode_same (h : w = true → cfg.tiSize.Same cfg'.tiSize) (n : Nat) : sizeNode cfg' w n = sizeNode cfg w n := by
  rw [sizeNode, he, node_same he h]; rfl

theorem boolNode_same (h : w = true → cfg.tiBool.Same cfg'.tiBool) (b : Bool) : boolNode cfg' w b = boolNode cfg w b := by
  rw [boolNode, node_same he h]; rfl

include hti

theorem nodeEnc_same {x : T} (hx : c'.enc w x = c.enc w x) : nodeEnc cfg' w ti' c' x = nodeEnc cfg w ti c x := by
  rw [nodeEnc, hx, node_same he hti]; rfl

theorem arrEnc_same {xs : List T} (hx : ∀ x ∈ xs, c'.enc w x = c.enc w x) :
    arrEnc cfg' w ti' c' xs = arrEnc cfg w ti c xs := by
  have : xs.flatMap (c'.enc w) = xs.flatMap (c.enc w) := List.flatMap_congr hx
  rw [arrEnc, this, node_same he hti]; rfl

theorem seqEnc_same (h : w = true → cfg.tiSize.Same cfg'.tiSize) {xs : List T} (hx : ∀ x ∈ xs, c'.enc w x = c.enc w x) :
    seqEnc cfg' w ti' c' xs = seqEnc cfg w ti c xs := by
  have : xs.flatMap (nodeEnc cfg' w ti' c') = xs.flatMap (nodeEnc cfg w ti c) :=
    List.flatMap_congr fun x h => nodeEnc_same he hti (hx x h)
  rw [seqEnc, this, sizeNode_same he h]; rfl

end

section
variable {R R' : RelMode} {cfg cfg' : Cfg} {env env' : Env} {t : Ty}

theorem membersEnc_same {E E' : Ty → Elem Val} {C C' : Ty → Codec Val} {w : Bool} (he : cfg'.endian = cfg.endian)
    (hti : w = true → ∀ t, (E t).ti.Same (E' t).ti)
    (hC : ∀ t x, (C t).P x → (C' t).enc w x = (C t).enc w x) : ∀ {ts : List Ty} {xs : List Val},
    All2 (fun t x => (C t).P x) ts xs → membersEnc cfg' w E' C' ts xs = membersEnc cfg w E C ts xs
  | [], [], _ => rfl
  | t :: ts, x :: xs, h => by
    simp only [membersEnc]
    rw [nodeEnc_same he (fun hw => hti hw t) (hC t x h.1), membersEnc_same he hti hC h.2]
  | [], _ :: _, h => by simp [All2] at h
  | _ :: _, [], h => by simp [All2] at h

theorem enc_same (h : SameFormat cfg cfg' env env' t)
    (hplain : ∀ c, (env.cls c).virt = false → (env.cls c).bases = []) : ∀ (n : Nat) (u : Ty) (x : Val), (codec R cfg env n u).P x →
    (codec R' cfg' env' n u).enc cfg.check x = (codec R cfg env n u).enc cfg.check x
  | 0, _, _, hx => hx.elim
  | n + 1, u, x, hx => by
    have ih := enc_same h hplain n
    have ihv : ∀ u x, ((codec R cfg env n u).byVal u).P x → ((codec R' cfg' env' n u).byVal u).enc cfg.check x =
        ((codec R cfg env n u).byVal u).enc cfg.check x := fun u x hx => ih u x hx.1
    have he := h.endian
    have hmem : ∀ {ts : List Ty} {xs : List Val},
        All2 (fun t x => ((codec R cfg env n t).byVal t).P x) ts xs →
        membersEnc cfg' cfg.check (fun t => elem cfg' env' n t) (fun t => (codec R' cfg' env' n t).byVal t) ts xs =
        membersEnc cfg cfg.check (fun t => elem cfg env n t) (fun t => (codec R cfg env n t).byVal t) ts xs :=
      membersEnc_same he (fun hw t => h.inner hw t) ihv
    have hchain : ∀ d, env'.chain d = env.chain d := fun d => by simp [Env.chain, h.bases]
    have hroot : ∀ d, env'.root d = env.root d := fun d => by simp [Env.root, h.bases]
    cases u with
    | prim => rfl
    | enm id pid size =>
      cases x <;> try exact hx.elim
      exact nodeEnc_same he (fun hw => h.inner hw _) rfl
    | chrono id pid size =>
      cases x <;> try exact hx.elim
      exact nodeEnc_same he (fun hw => h.inner hw _) rfl
    | str =>
      cases x <;> try exact hx.elim
      simp only [codec, strEnc]
      rw [sizeNode_same he h.tiSize, node_same he h.tiChar]
    | vec t =>
      cases x <;> try exact hx.elim
      have hx : VecOk _ _ := hx
      simp only [codec, vecEnc]
      rw [sizeNode_same he h.tiSize, sizeNode_same he h.tiSize,
        arrEnc_same he (fun hw => h.inner hw _) (fun x hxm => ihv t x (hx.all x hxm))]
    | vecBool =>
      cases x <;> try exact hx.elim
      simp only [codec, vboolEnc]
      have hb : boolNode cfg' cfg.check = boolNode cfg cfg.check := funext fun b => boolNode_same he h.tiBool b
      rw [sizeNode_same he h.tiSize, sizeNode_same he h.tiSize, hb]
    | seq k t =>
      cases x <;> try exact hx.elim
      have hx : SeqOk _ _ := hx
      exact seqEnc_same he (fun hw => h.inner hw _) h.tiSize (fun x hxm => ihv t x (hx.1 x hxm))
    | queue t =>
      cases x <;> try exact hx.elim
      have hx : SeqOk _ _ := hx
      exact seqEnc_same he (fun hw => h.inner hw _) h.tiSize (fun x hxm => ihv t x (hx.1 x hxm))
    | oset a cmp t =>
      cases x <;> try exact hx.elim
      have hx : SeqOk _ _ := hx.1
      exact seqEnc_same he (fun hw => h.inner hw _) h.tiSize (fun x hxm => ihv t x (hx.1 x hxm))
    | uset a eq t =>
      cases x <;> try exact hx.elim
      have hx : SeqOk _ _ := hx.1
      exact seqEnc_same he (fun hw => h.inner hw _) h.tiSize (fun x hxm => ihv t x (hx.1 x hxm))
    | pair a b =>
      cases x <;> try exact hx.elim
      rename_i xs
      match xs, hx with
      | [x, y], hx =>
        simp only [codec] at hx ⊢
        rw [nodeEnc_same he (fun hw => h.inner hw a) (ihv a x hx.1),
          nodeEnc_same he (fun hw => h.inner hw b) (ihv b y hx.2)]
    | tuple ts =>
      cases x <;> try exact hx.elim
      rename_i xs
      simp only [codec] at hx ⊢
      have hx := All2.get hx
      simp only [tupleEnc, h.argOrder]
      refine List.flatMap_congr fun i _ => ?_
      unfold memberEnc
      cases ht : ts[i]? with
      | none => rfl
      | some u =>
        cases hy : xs[i]? with
        | none => rfl
        | some y => exact nodeEnc_same he (fun hw => h.inner hw u) (ihv u y (hx.2 i u y ht hy))
    | opt t =>
      cases x <;> try exact hx.elim
      rename_i x
      cases x with
      | none => exact boolNode_same he h.tiBool _
      | some x =>
        simp only [codec] at hx ⊢
        simp only [optEnc]
        rw [boolNode_same he h.tiBool, nodeEnc_same he (fun hw => h.inner hw t) (ihv t x (hx x rfl))]
    | variant ts =>
      rcases Bool.eq_false_or_eq_true (Ty.allOnlyBytes ts) with hb | hb
      · rw [codec_variantBytes hb, codec_variantBytes hb]; rfl
      rw [codec_variant hb] at hx ⊢
      rw [codec_variant hb]
      cases x <;> try exact hx.elim
      rename_i i x
      obtain ⟨_, u, hu, hx⟩ : _ ∧ ∃ u, ts[i]? = some u ∧ _ := hx
      simp only [variantCodec, variantEnc, hu]
      rw [sizeNode_same he h.tiSize]
      exact congrArg _ (nodeEnc_same he (fun hw => h.inner hw u) (ihv u x hx))
    | uptr t =>
      cases x <;> try exact hx.elim
      rename_i x
      cases x with
      | none => exact boolNode_same he h.tiBool _
      | some x =>
        obtain ⟨hx, hbv, hd⟩ := hx x rfl
        clear hbv
        simp only [codec, uptrEnc]
        rw [boolNode_same he h.tiBool, nodeEnc_same he (fun hw => h.inner hw t) (ih t x hx)]
        refine congrArg _ (congrArg (· ++ _) ?_)
        cases t with
        | cls c =>
          simp only [Env.virt, h.virt]
          cases hv : (env.cls c).virt with
          | false => rfl
          | true =>
            simp only [if_true, Option.map_some]
            have : env'.dynIdx c x = env.dynIdx c x := by
              cases x with
              | obj d ps =>
                simp only [Env.dynIdx, hroot]
                exact h.dynIdx _ _ (hd c d ps rfl rfl hv).1
              | _ => rfl
            rw [this, he, node_same he h.tiInt]
        | _ => rfl
    | arr k t =>
      cases x <;> try exact hx.elim
      obtain ⟨_, hx, _⟩ : _ ∧ _ ∧ _ := hx
      exact arrEnc_same he (fun hw => h.inner hw _) (fun x hxm => ihv t x (hx x hxm))
    | cls c =>
      cases x <;> try exact hx.elim
      rename_i d ps
      obtain ⟨_, hd, hx⟩ : _ ∧ _ ∧ _ := hx
      simp only [codec, h.virt, hchain]
      cases hv : (env.cls c).virt with
      | true =>
        simp only [if_true]
        clear hd
        revert ps
        generalize env.chain d = ks
        induction ks with
        | nil => intro ps _; cases ps <;> rfl
        | cons k ks ihk =>
          intro ps hps
          cases ps with
          | nil => simp [All2] at hps
          | cons p ps =>
            simp only [chainEnc]
            rw [ihk ps hps.2, node_same he (fun hw => h.inner hw _), h.fields, hmem hps.1]
      | false =>
        simp only [Bool.false_eq_true, if_false]
        obtain rfl := hd hv
        simp only [Env.chain, hplain d hv, List.nil_append] at hx
        match ps, hx with
        | [p], hx => simp only [List.flatMap_cons, List.flatMap_nil, List.append_nil, h.fields, hmem hx.1]
        | [], hx => simp [All2] at hx
        | _ :: _ :: _, hx => simp [All2] at hx

theorem IsEnc.same (h : SameFormat cfg cfg' env env' t)
    (hplain : ∀ c, (env.cls c).virt = false → (env.cls c).bases = []) {x : Val} {bs : Bytes} (hx' : WT R' env' t x)
    (hb : IsEnc R cfg env t x bs) : IsEnc R' cfg' env' t x bs := by
  obtain ⟨n0, h0⟩ := hb
  obtain ⟨n1, h1⟩ := codec_P (cfg := cfg') hx'
  refine ⟨max n0 n1, fun n hn => ⟨h1 n (by omega), ?_⟩⟩
  rw [← (h0 n (by omega)).2, topEnc, h.check, enc_same h hplain n t x (h0 n (by omega)).1,
    node_same h.endian (fun _ => h.top)]
  rfl

end
end Ckpt
