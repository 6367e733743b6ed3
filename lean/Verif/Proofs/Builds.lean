import Verif.Proofs.Api
import Verif.Proofs.Asym
import Verif.Proofs.Headers
import Verif.Spec.Builds
import Verif.Spec.Trace
/-!
Reading, in a build with error checking, data without inner headers.
-/

set_option autoImplicit false

namespace Ckpt

section
variable {cfg : Cfg} {env : Env} {T B : Type}

/-- The exception for a header that is not a type index at all. -/
def badHeader (ti : TI) (i : Nat) : Err := .ser (.wrongType ti.idx i) 0 [ti.name]

theorem pipe_badHeader {K : Scope} {e : Elem T} (hc : cfg.check = true) {s : Ser} (hs : s.Reader K) {b rest : Bytes}
    (hb : b.length = 4) (hr : s.remaining = b ++ rest) (hbad : validateIndex (intVal cfg.endian b) = false) (y : T) :
    pipe cfg e s y = .throw (badHeader e.ti (intVal cfg.endian b)) := by
  simp [pipe, traverse_reject hc hs hb hr (.inl hbad), badHeader]

theorem each_throw {f : Ser → T → Out (T × Ser)} {s : Ser} {y : T} {err : Err} (h : f s y = .throw err) :
    dispatchEach f s [y] = .throw err := by
  simp [dispatchEach, h]

theorem dispatch_opens (hc : cfg.check = true) (hE : env.Sound cfg) {t : Ty} (ho : env.opens t = true)
    {y : Val} (hf : Formed env t y) (hyb : ByVal t y) {s : Ser} (hs : s.Reader (Scope.quiet (· ∈ builtinKinds)))
    {b rest : Bytes} (hb : b.length = 4) (hr : s.remaining = b ++ rest)
    (hbad : validateIndex (intVal cfg.endian b) = false) (n : Nat) :
    ∃ a, Inside env (.obj t) a ∧
      dispatch cfg env (n + 1) t s [y] = .throw (badHeader (a.info cfg env) (intVal cfg.endian b)) := by
  have hp : ∀ {T : Type} (e : Elem T) (y : T),
      pipe cfg e s y = .throw (badHeader e.ti (intVal cfg.endian b)) := fun e y => pipe_badHeader hc hs hb hr hbad y
  have hfp := hs.not_footprinting
  have hun := hs.unpacking
  cases hf with
  | prim _ => cases ho
  | enm _ => exact ⟨_, .enm, by simp only [dispatch, dispatchStep]; exact each_throw (by simp [serUnderlying, hp, primElem, Traversed.info])⟩
  | chrono _ => exact ⟨_, .chrono, by simp only [dispatch, dispatchStep]; exact each_throw (by simp [serUnderlying, hp, primElem, Traversed.info])⟩
  | str _ => exact ⟨_, .strCount, by simp only [dispatch, dispatchStep]; exact each_throw (by simp [serString, hfp, pipeSize, hp, sizeElem, Traversed.info])⟩
  | vec _ _ _ =>
    exact ⟨_, .vecCount, by simp only [dispatch, dispatchStep]; exact each_throw (by simp [serVector, serializeVectorMeta, hfp, pipeSize, hp, sizeElem, Traversed.info])⟩
  | vecBool _ =>
    exact ⟨_, .vboolCount, by simp only [dispatch, dispatchStep]; exact each_throw (by
      simp [serVectorBool, serializeVectorMeta, hfp, pipeSize, hp, sizeElem, Traversed.info])⟩
  | seq _ _ =>
    exact ⟨_, .seqCount, by simp only [dispatch, dispatchStep]; exact each_throw (by simp [serList, serializeContainerSize, hfp, pipeSize, hp, sizeElem, Traversed.info])⟩
  | queue _ _ =>
    exact ⟨_, .queueCount, by simp only [dispatch, dispatchStep]; exact each_throw (by
      simp [serQueue, serializeContainerSize, hfp, pipeSize, hp, sizeElem, Traversed.info])⟩
  | oset _ _ _ =>
    exact ⟨_, .osetCount, by simp only [dispatch, dispatchStep]; exact each_throw (by
      simp [serMapLike, serializeContainerSize, hfp, pipeSize, hp, sizeElem, Traversed.info])⟩
  | uset _ _ _ =>
    exact ⟨_, .usetCount, by simp only [dispatch, dispatchStep]; exact each_throw (by
      simp [serMapLike, serializeContainerSize, hfp, pipeSize, hp, sizeElem, Traversed.info])⟩
  | pair _ _ _ _ =>
    exact ⟨_, .fst, by simp only [dispatch, dispatchStep]; exact each_throw (by simp [serPair, hs.addBytes, hp, Env.elemOf, Traversed.info])⟩
  | @tuple ts xs hlen _ _ =>
    cases h : cfg.argOrder ts.length with
    | nil =>
      have := (hE.order ts.length).length_eq
      rw [h, List.length_range] at this
      rw [List.length_eq_zero_iff.1 this.symm] at ho
      cases ho
    | cons i is =>
      have hi : i < ts.length := by
        have := (hE.order ts.length).mem_iff (a := i)
        rw [h] at this
        exact List.mem_range.1 (this.1 (List.mem_cons_self ..))
      have h1 : ts[i]? = some ts[i] := List.getElem?_eq_getElem hi
      have h2 : xs[i]? = some (xs[i]'(by omega)) := List.getElem?_eq_getElem (by omega)
      refine ⟨_, .tuple (List.getElem_mem hi), ?_⟩
      simp only [dispatch, dispatchStep]
      refine each_throw ?_
      simp [serTuple, List.length_map, h, visitMembers, h1, h2, hp, Env.elemOf, Traversed.info]
  | optNone =>
    exact ⟨_, .optFlag, by simp only [dispatch, dispatchStep]; exact each_throw (by simp [serOptional, hfp, hun, pipeBool, hp, boolElem, Traversed.info])⟩
  | optSome _ _ =>
    exact ⟨_, .optFlag, by simp only [dispatch, dispatchStep]; exact each_throw (by simp [serOptional, hfp, hun, pipeBool, hp, boolElem, Traversed.info])⟩
  | variant h _ _ _ =>
    refine ⟨_, .variantCount h, ?_⟩
    simp only [dispatch, dispatchStep, allByteCopied_eq, h, Bool.false_eq_true, if_false]
    exact each_throw (by simp [serVariant, pipeSize, hp, sizeElem, Traversed.info])
  | valueless h =>
    refine ⟨_, .variantCount h, ?_⟩
    simp only [dispatch, dispatchStep, allByteCopied_eq, h, Bool.false_eq_true, if_false]
    exact each_throw (by simp [serVariant, pipeSize, hp, sizeElem, Traversed.info])
  | variantBytes h _ => simp [Env.opens, h] at ho
  | ptrNull =>
    exact ⟨_, .ptrFlag, by simp only [dispatch, dispatchStep]; exact each_throw (by simp [serUniquePtr, hfp, pipeBool, hp, boolElem, Traversed.info])⟩
  | ptr _ _ =>
    exact ⟨_, .ptrFlag, by simp only [dispatch, dispatchStep]; exact each_throw (by simp [serUniquePtr, hfp, pipeBool, hp, boolElem, Traversed.info])⟩
  | @arr k t xs hlen _ _ =>
    have hk : 0 < xs.length := by
      simp only [Env.opens, bne_iff_ne, ne_eq] at ho
      omega
    refine ⟨_, .arr, ?_⟩
    simp only [dispatch, dispatchStep]
    refine each_throw ?_
    simp only [if_pos hlen, serArray, serializeArray, if_pos (show xs.length > 0 from hk),
      traverse_reject hc hs hb hr (.inl hbad)]
    rfl
  | @obj c d ps hcd hlen h1 _ _ =>
    have hd : d = c := hyb
    subst hd
    simp only [dispatch, dispatchStep]
    by_cases hv : (env.cls d).virt = true
    · simp only [hv, if_true, hs.1, Bool.false_eq_true, if_false]
      cases hch : env.chain d with
      | nil => simp [Env.chain] at hch
      | cons k ks =>
        cases ps with
        | nil => rw [hch] at hlen; cases hlen
        | cons p ps =>
          have hk : k ∈ env.chain d := by rw [hch]; exact List.mem_cons_self ..
          refine ⟨.part k, .virtPart hv hk, ?_⟩
          have hl : env.serReg.lookup cfg.ndebug k (env.root d) s.kind = .ok s.kind := by
            rw [← hE.hier d k hk]
            exact SerReg.lookup_eq hE.serRegOk _ _ hs.2.1
          rw [serChain_eq _ _ _ hs.1 hl]
          simp [hp, partElem, Traversed.info]
    · simp only [hv]
      cases hfl : (env.cls d).fields with
      | nil => simp [Env.opens, hv, hfl] at ho
      | cons u us =>
        obtain ⟨j, hj⟩ := List.getElem?_of_mem hcd
        refine ⟨.obj u, .member (by simpa using hv) (.inl (by rw [hfl]; exact List.mem_cons_self ..)), each_throw ?_⟩
        have hj' : List.idxOf d (env.chain d) < ps.length := by rw [hlen]; exact List.idxOf_lt_length_iff.2 hcd
        have hg : ps[List.idxOf d (env.chain d)]? = some (ps[List.idxOf d (env.chain d)]) := List.getElem?_eq_getElem hj'
        have hl := h1 (List.idxOf d (env.chain d)) d _ (List.getElem?_idxOf hcd) hg
        simp only [onPart, hg, ClassDef.visited, hun, if_true, hE.sym d, hfl, List.map_cons]
        cases hps : ps[List.idxOf d (env.chain d)] with
        | nil => rw [hps, hfl] at hl; cases hl
        | cons p q => simp [serMembers, hp, Env.elemOf, Traversed.info]

/-- Bytes that begin with a small number or with a flag. -/
def Small (e : Endian) (p : Bytes) : Prop :=
  (∃ k rest, k < smallCount ∧ p = intBytes e 8 k ++ rest) ∨ (∃ (f : Bool) (rest : Bytes), p = (if f then 1 else 0) :: rest)

theorem Small.append {e : Endian} {p : Bytes} (h : Small e p) (q : Bytes) : Small e (p ++ q) := by
  rcases h with ⟨k, rest, hk, rfl⟩ | ⟨f, rest, rfl⟩
  · exact .inl ⟨k, rest ++ q, hk, by simp⟩
  · exact .inr ⟨f, rest ++ q, by simp⟩

theorem Small.head {e : Endian} {p : Bytes} (h : Small e p) (hl : 4 ≤ p.length) : ∃ a b : Bytes, p = a ++ b ∧
    a.length = 4 ∧ validateIndex (intVal e a) = false := by
  rcases h with ⟨k, rest, hk, rfl⟩ | ⟨f, rest, rfl⟩
  · have hs : leBytes 8 k = leBytes 4 k ++ leBytes 4 (k / 256 ^ 4) := leBytes_append 4 4 k
    have hk' : k < 0xDE000000 := hk
    cases e
    · refine ⟨leBytes 4 k, leBytes 4 (k / 256 ^ 4) ++ rest, by simp [intBytes, hs], by simp, ?_⟩
      rw [Bool.eq_false_iff, ne_eq, validateIndex_iff (by simp only [intVal, leVal_leBytes]; omega)]
      simp only [intVal, leVal_leBytes]
      omega
    · refine ⟨(leBytes 4 (k / 256 ^ 4)).reverse, (leBytes 4 k).reverse ++ rest, by simp [intBytes, hs], by simp, ?_⟩
      rw [Bool.eq_false_iff, ne_eq, validateIndex_iff (by
        simp only [intVal, List.reverse_reverse, leVal_leBytes]; omega)]
      simp only [intVal, List.reverse_reverse, leVal_leBytes]
      omega
  · match rest, hl with
    | b1 :: b2 :: b3 :: rest, _ =>
      refine ⟨[if f then 1 else 0, b1, b2, b3], rest, rfl, rfl, ?_⟩
      have hlt := intVal_lt e [if f then 1 else 0, b1, b2, b3]
      rw [Bool.eq_false_iff, ne_eq, validateIndex_iff (by simpa using hlt)]
      have h1 := b1.toNat_lt
      have h2 := b2.toNat_lt
      have h3 := b3.toNat_lt
      cases e <;> cases f <;>
        simp only [intVal, leVal, List.reverse_cons, List.reverse_nil, List.nil_append, List.cons_append,
          Bool.false_eq_true, if_false, if_true, UInt8.toNat_zero, UInt8.toNat_one] <;> omega

theorem sizeNode_small {k : Nat} (h : k < smallCount) (rest : Bytes) :
    Small cfg.endian (sizeNode cfg false k ++ rest) := .inl ⟨k, rest, h, rfl⟩

theorem counted_small {R : RelMode} (hpl : ∀ c, (env.cls c).virt = false → (env.cls c).bases = []) {t : Ty} {x : Val}
    (h : BeginsCounted cfg env t x) :
    ∀ {n : Nat}, (codec R cfg env n t).P x → Small cfg.endian ((codec R cfg env n t).enc false x) := by
  induction h with
  | str hk => intro n hP; cases n with
    | zero => cases hP
    | succ n => exact sizeNode_small hk _
  | vec hk => intro n hP; cases n with
    | zero => cases hP
    | succ n => exact sizeNode_small hk _
  | vecBool hk => intro n hP; cases n with
    | zero => cases hP
    | succ n => exact sizeNode_small hk _
  | seq hk => intro n hP; cases n with
    | zero => cases hP
    | succ n => exact sizeNode_small hk _
  | queue hk => intro n hP; cases n with
    | zero => cases hP
    | succ n => exact sizeNode_small hk _
  | oset hk => intro n hP; cases n with
    | zero => cases hP
    | succ n => exact sizeNode_small hk _
  | uset hk => intro n hP; cases n with
    | zero => cases hP
    | succ n => exact sizeNode_small hk _
  | @opt t x => intro n hP; cases n with
    | zero => cases hP
    | succ n =>
      refine .inr ?_
      cases x with
      | none => exact ⟨false, _, rfl⟩
      | some x => exact ⟨true, _, rfl⟩
  | @uptr t x => intro n hP; cases n with
    | zero => cases hP
    | succ n =>
      refine .inr ?_
      cases x with
      | none => exact ⟨true, _, rfl⟩
      | some x => exact ⟨false, _, rfl⟩
  | @variant ts i x hk => intro n hP; cases n with
    | zero => cases hP
    | succ n =>
      cases ho : Ty.allOnlyBytes ts with
      | true => rw [codec_variantBytes ho] at hP; cases hP
      | false =>
        rw [codec_variant ho]
        exact sizeNode_small hk _
  | @pair a b x y _ ih => intro n hP; cases n with
    | zero => cases hP
    | succ n =>
      have := ih (n := n) hP.1.1
      simp only [codec, nodeEnc, node, Bool.false_eq_true, if_false]
      exact this.append _
  | @tuple ts xs i t x hi ht hx _ ih => intro n hP; cases n with
    | zero => cases hP
    | succ n =>
      obtain ⟨is, his⟩ : ∃ is, cfg.argOrder ts.length = i :: is := by
        cases h : cfg.argOrder ts.length with
        | nil => rw [h] at hi; cases hi
        | cons j is => rw [h] at hi; cases hi; exact ⟨is, rfl⟩
      have h1 : (codec R cfg env n t).P x := ((All2.get hP).2 i t x ht hx).1
      simp only [codec, tupleEnc, his, List.flatMap_cons, memberEnc, ht, hx, nodeEnc, node, Bool.false_eq_true, if_false]
      exact (ih h1).append _
  | @arr k t x xs _ ih => intro n hP; cases n with
    | zero => cases hP
    | succ n =>
      have h1 : (codec R cfg env n t).P x := (hP.2.1 x (List.mem_cons_self ..)).1
      simp only [codec, arrEnc, List.length_cons, gt_iff_lt, Nat.zero_lt_succ, if_true, node, Bool.false_eq_true, if_false,
        List.flatMap_cons]
      exact (ih h1).append _
  | @obj c d k ks t ts x p ps hch hfl _ ih => intro n hP; cases n with
    | zero => cases hP
    | succ n =>
      obtain ⟨hcd, hdc, hP⟩ := hP
      rw [hch] at hP
      have hP1 : All2 (fun t x => ((codec R cfg env n t).byVal t).P x) (env.cls k).fields (x :: p) := hP.1
      rw [hfl] at hP1
      have h1 : (codec R cfg env n t).P x := hP1.1.1
      by_cases hv : (env.cls c).virt = true
      · simp only [codec, hv, if_true, hch, chainEnc, hfl, membersEnc, nodeEnc, node, Bool.false_eq_true, if_false,
          List.append_assoc]
        exact (ih h1).append _
      · have hd := hdc (by simpa using hv)
        subst hd
        have hk : k = d := by
          rw [Env.chain, hpl d (by simpa using hv)] at hch
          simp only [List.nil_append, List.cons.injEq] at hch
          exact hch.1.symm
        subst hk
        simp only [codec, hv, Bool.false_eq_true, if_false, List.flatMap_cons, hfl, membersEnc, nodeEnc, node,
          List.append_assoc]
        exact (ih h1).append _

end
end Ckpt
