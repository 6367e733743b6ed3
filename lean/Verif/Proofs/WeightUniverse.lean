import Verif.Proofs.Weight
import Verif.Spec.Formed
import Verif.Proofs.VecAppend
/-!
What a reading call returns is paid for by the bytes it consumed: the types of the universe.
-/

set_option autoImplicit false

namespace Ckpt

local macro "lia" : tactic => `(tactic| (first | omega | (dsimp only at *; omega)))

variable {cfg : Cfg} {env : Env}

theorem weights_eq (t : Ty) : ∀ xs, env.weights t xs = (xs.map (env.weight t)).sum
  | [] => by simp [Env.weights]
  | x :: xs => by simp [Env.weights, weights_eq t xs]

theorem weightIn_eq (t : Ty) (x : Option Val) : env.weightIn t x = x.elim 0 (env.weight t) := by
  cases x <;> simp [Env.weightIn]

theorem weight_cls (c d : Nat) (v : Val) : env.weight (.cls c) v = env.weight (.cls d) v := by
  cases v <;> simp [Env.weight]

theorem weightsOf_set : ∀ {ts : List Ty} {xs : List Val} {i : Nat} {t : Ty} {x : Val} (y : Val), ts[i]? = some t →
    xs[i]? = some x → env.weightsOf ts (xs.set i y) + env.weight t x = env.weightsOf ts xs + env.weight t y
  | t :: ts, x :: xs, 0, _, _, y, ht, hx => by
    simp only [List.getElem?_cons_zero, Option.some.injEq] at ht hx
    subst ht hx
    simp only [List.set_cons_zero, Env.weightsOf]; omega
  | t :: ts, x :: xs, i + 1, _, _, y, ht, hx => by
    simp only [List.getElem?_cons_succ] at ht hx
    have := weightsOf_set y ht hx
    simp only [List.set_cons_succ, Env.weightsOf]; omega
  | [], _, _, _, _, _, ht, _ => by simp at ht
  | _ :: _, [], _, _, _, _, _, hx => by simp at hx

theorem weightParts_set : ∀ {ks : List Nat} {ps : List (List Val)} {i k : Nat} {p : List Val} (q : List Val),
    ks[i]? = some k → ps[i]? = some p →
    env.weightParts ks (ps.set i q) + env.weightsOf (env.cls k).rfields p =
      env.weightParts ks ps + env.weightsOf (env.cls k).rfields q
  | k :: ks, p :: ps, 0, _, _, q, hk, hp => by
    simp only [List.getElem?_cons_zero, Option.some.injEq] at hk hp
    subst hk hp
    simp only [List.set_cons_zero, Env.weightParts]; omega
  | k :: ks, p :: ps, i + 1, _, _, q, hk, hp => by
    simp only [List.getElem?_cons_succ] at hk hp
    have := weightParts_set q hk hp
    simp only [List.set_cons_succ, Env.weightParts]; omega
  | [], _, _, _, _, _, hk, _ => by simp at hk
  | _ :: _, [], _, _, _, _, _, hp => by simp at hp

theorem weightParts_out : ∀ {ks : List Nat} {ps : List (List Val)} {i : Nat} (q : List Val), ks[i]? = none →
    env.weightParts ks (ps.set i q) = env.weightParts ks ps
  | [], _, _, _, _ => by simp [Env.weightParts]
  | _ :: _, [], _, _, _ => by simp
  | k :: ks, p :: ps, 0, _, h => by simp at h
  | k :: ks, p :: ps, i + 1, q, h => by
    simp only [List.getElem?_cons_succ] at h
    simp only [List.set_cons_succ, Env.weightParts, weightParts_out q h]

open Classical in
/-- 1 for the types whose data have at least one byte. -/
noncomputable def grain (env : Env) (t : Ty) : Nat := if Solid env t then 1 else 0

theorem grain_solid {t : Ty} (h : Solid env t) : grain env t = 1 := by simp [grain, h]

theorem grain_le {t : Ty} {b : Nat} (h : Solid env t → 1 ≤ b) : grain env t ≤ b := by
  unfold grain
  split
  · next hs => exact h hs
  · omega

theorem grain_le_one (t : Ty) : grain env t ≤ 1 := grain_le (fun _ => Nat.le_refl _)

/-- The dispatch of type `t`: arrays of any length. -/
def TyPays (env : Env) (t : Ty) (h : Handler Val) : Prop :=
  ∀ xs, Pays ((xs.map (env.weight t)).sum + xs.length) (grain env t * xs.length) (fun s => h s xs)
    (fun ys => (ys.map (env.weight t)).sum + ys.length)

section
variable {t : Ty} {h : Ty → Handler Val}

theorem TyPays.pipe {h : Handler Val} (hh : TyPays env t h) (x : Val) :
    Pays (env.weight t x) (grain env t) (fun s => pipe cfg (env.elemOf h t) s x) (env.weight t) := by
  refine pipe_pays (v := 1) ?_
  intro s hs ys s' he
  obtain ⟨u, l, p⟩ := hh [x] s hs ys s' he
  simp only [List.map_cons, List.map_nil, List.sum_cons, List.sum_nil, List.length_singleton] at l p
  by_cases hl : ys.length = 0
  · have : ys = [] := List.length_eq_zero_iff.1 hl
    subst this
    simp only [List.map_nil, List.sum_nil] at *
    refine ⟨u, by lia, ?_⟩
    omega
  · exact ⟨u, by lia, by lia⟩

theorem serPair_pays {a b : Ty} {n : Nat} (ha : TyPays env a (h a)) (hb : TyPays env b (h b)) (x y : Val) :
    Pays (env.weight a x + env.weight b y) (grain env a + grain env b)
      (fun s => serPair cfg n (env.elemOf (h a) a) (env.elemOf (h b) b) s (x, y))
      (fun p => env.weight a p.1 + env.weight b p.2) := by
  intro s hs r s' he
  simp only [serPair, Ser.addBytes_of_unpacking hs] at he
  obtain ⟨⟨y1, s1⟩, h1, he⟩ := bind_eq_ok he
  obtain ⟨⟨y2, s2⟩, h2, he⟩ := bind_eq_ok he
  obtain ⟨u1, l1, p1⟩ := ha.pipe x s hs y1 s1 h1
  obtain ⟨u2, l2, p2⟩ := hb.pipe y s1 u1 y2 s2 h2
  cases he
  exact ⟨u2, by lia, by lia⟩

theorem serMembers_pays : ∀ {ts : List Ty}, (∀ t ∈ ts, TyPays env t (h t)) → ∀ xs : List Val,
    Pays (env.weightsOf ts xs) ((ts.map (grain env)).sum)
      (fun s => serMembers cfg (ts.map fun t => env.elemOf (h t) t) s xs) (env.weightsOf ts)
  | [], _, [] => Pays.pure (a := ([] : List Val)) (Nat.le_refl _)
  | t :: ts, ht, x :: xs => by
    have ih := serMembers_pays (ts := ts) (fun t' h' => ht t' (by simp [h'])) xs
    intro s hs r s' he
    simp only [List.map_cons, serMembers] at he
    obtain ⟨⟨y1, s1⟩, h1, he⟩ := bind_eq_ok he
    obtain ⟨⟨y2, s2⟩, h2, he⟩ := bind_eq_ok he
    obtain ⟨u1, l1, p1⟩ := (ht t (by simp)).pipe x s hs y1 s1 h1
    obtain ⟨u2, l2, p2⟩ := ih s1 u1 y2 s2 h2
    cases he
    simp only [List.map_cons, List.sum_cons, Env.weightsOf]
    exact ⟨u2, by lia, by lia⟩
  | [], _, _ :: _ => .none (by simp [serMembers])
  | _ :: _, _, [] => .none (by simp [serMembers])

theorem sum_solid {ts : List Ty} {t : Ty} (ht : t ∈ ts) (hs : Solid env t) : 1 ≤ (ts.map (grain env)).sum := by
  induction ts with
  | nil => simp at ht
  | cons a ts ih =>
    simp only [List.map_cons, List.sum_cons]
    rcases List.mem_cons.1 ht with rfl | ht
    · rw [grain_solid hs]; omega
    · have := ih ht; omega

theorem visitMembers_pays {ts : List Ty} (ht : ∀ t ∈ ts, TyPays env t (h t)) : ∀ (is : List Nat) (xs : List Val),
    Pays (env.weightsOf ts xs) ((is.map fun i => (ts[i]?.elim 0 (grain env))).sum)
      (fun s => visitMembers cfg (ts.map fun t => env.elemOf (h t) t) is s xs) (env.weightsOf ts)
  | [], xs => Pays.pure (Nat.le_refl _)
  | i :: is, xs => by
    intro s hs r s' he
    simp only [visitMembers, List.getElem?_map] at he
    cases hi : ts[i]? with
    | none => simp [hi] at he
    | some t =>
      cases hx : xs[i]? with
      | none => simp [hi, hx] at he
      | some x =>
        simp only [hi, hx, Option.map_some] at he
        obtain ⟨⟨y1, s1⟩, h1, he⟩ := bind_eq_ok he
        obtain ⟨u1, l1, p1⟩ := (ht t (List.mem_of_getElem? hi)).pipe x s hs y1 s1 h1
        obtain ⟨u2, l2, p2⟩ := visitMembers_pays ht is (xs.set i y1) s1 u1 r s' he
        have := weightsOf_set (env := env) y1 hi hx
        simp only [List.map_cons, List.sum_cons, hi, Option.elim_some]
        exact ⟨u2, by lia, by lia⟩

theorem tuple_grain (horder : ∀ n, (cfg.argOrder n).Perm (List.range n)) {ts : List Ty} :
    grain env (.tuple ts) ≤ ((cfg.argOrder ts.length).map fun i => (ts[i]?.elim 0 (grain env))).sum := by
  refine grain_le (fun hs => ?_)
  cases hs with
  | @tuple _ t ht hs =>
    obtain ⟨i, hi, rfl⟩ := List.getElem_of_mem ht
    have hm : i ∈ cfg.argOrder ts.length := (horder _).symm.subset (by simpa using hi)
    have : ∀ l : List Nat, i ∈ l → 1 ≤ (l.map fun i => (ts[i]?.elim 0 (grain env))).sum := by
      intro l hl
      induction l with
      | nil => simp at hl
      | cons a l ih =>
        simp only [List.map_cons, List.sum_cons]
        rcases List.mem_cons.1 hl with rfl | hl
        · rw [List.getElem?_eq_getElem hi]
          simp only [Option.elim, grain_solid hs]; omega
        · have := ih hl; omega
    exact this _ hm

/-- What a variant holds. -/
def variantWeight (env : Env) (ts : List Ty) : Variant Val → Nat
  | .holds i x => env.weight (ts[i]?.getD .str) x
  | .valueless => 0

theorem serializeEntry_pays (hfresh : ∀ t, env.weight t (env.fresh t) = 0) {ts : List Ty}
    (ht : ∀ t ∈ ts, TyPays env t (h t)) (v : Variant Val) : ∀ (us : List Ty) (entry cur : Nat),
    (∀ j, us[j]? = ts[cur + j]?) →
    Pays (variantWeight env ts v) 0
      (fun s => serializeEntry cfg (us.map fun t => env.elemOf (h t) t) s v entry cur) (variantWeight env ts)
  | [], _, _, _ => Pays.pure (Nat.le_refl _)
  | u :: us, entry, cur, hu => by
    have h0 : ts[cur]? = some u := by simpa using (hu 0).symm
    simp only [List.map_cons, serializeEntry]
    split
    · intro s hs r s' he
      simp only [hs, if_true] at he
      obtain ⟨⟨y1, s1⟩, h1, he⟩ := bind_eq_ok he
      obtain ⟨u1, l1, p1⟩ := (ht u (List.mem_of_getElem? h0)).pipe _ s hs y1 s1 h1
      cases he
      have hf := hfresh u
      simp only [variantWeight, h0, Option.getD_some, Env.elemOf] at *
      exact ⟨u1, by lia, by lia⟩
    · exact serializeEntry_pays hfresh ht v us entry (cur + 1) (fun j => by
        have := hu (j + 1)
        simp only [List.getElem?_cons_succ] at this
        rw [this]; congr 1; omega)

theorem serVariant_pays (hfresh : ∀ t, env.weight t (env.fresh t) = 0) {ts : List Ty}
    (ht : ∀ t ∈ ts, TyPays env t (h t)) (v : Variant Val) :
    Pays (variantWeight env ts v) 1 (fun s => serVariant cfg (ts.map fun t => env.elemOf (h t) t) s v)
      (variantWeight env ts) := by
  intro s hs r s' he
  obtain ⟨⟨k, s1⟩, h1, he⟩ := bind_eq_ok he
  obtain ⟨u1, l1, -⟩ := pipeSize_pays _ 0 s hs k s1 h1
  obtain ⟨u2, l2, p2⟩ := serializeEntry_pays hfresh ht v ts k 0 (fun j => by simp) s1 u1 r s' he
  exact ⟨u2, by lia, by lia⟩

/-- What a pointer leads to. -/
def ptrWeight (env : Env) (t : Ty) : Option Val → Nat
  | none => 0
  | some x => 1 + env.weight t x

/-- Bytes of the dynamic type index. -/
def idxBytes (env : Env) (t : Ty) : Nat := if env.isVirt t then 4 else 0

theorem construct_weight (hfresh : ∀ t, env.weight t (env.fresh t) = 0) {c i : Nat} {x : Val}
    (h : env.construct cfg c i = .ok (some x)) : env.weight (.cls c) x = 0 := by
  unfold Env.construct at h
  split at h
  · cases h
  · split at h
    · split at h <;> cases h
    · split at h
      · cases h
        rw [weight_cls c _]
        exact hfresh _
      · cases h

theorem reconstructPointedTo_pays (hfresh : ∀ t, env.weight t (env.fresh t) = 0) {t : Ty} (hd : Handler Val)
    (p : Option Val) :
    Pays (ptrWeight env t p + 1) (idxBytes env t)
      (fun s => reconstructPointedTo cfg (env.elemOf hd t) (env.virt cfg t) s p)
      (fun q => q.elim 0 (fun x => 1 + env.weight t x)) := by
  intro s hs r s' he
  unfold idxBytes
  cases hv : env.virt cfg t with
  | none =>
    have hb : env.isVirt t = false := by
      cases t <;> simp_all [Env.virt, Env.isVirt]
    simp only [reconstructPointedTo, hv, hs, if_true] at he
    rw [hb]
    cases p with
    | some x =>
      simp only [Out.ok.injEq, Prod.mk.injEq] at he
      obtain ⟨rfl, rfl⟩ := he
      simp only [ptrWeight, Option.elim, Bool.false_eq_true, if_false]
      exact ⟨hs, by lia, by lia⟩
    | none =>
      simp only [Out.ok.injEq, Prod.mk.injEq, Env.elemOf] at he
      obtain ⟨rfl, rfl⟩ := he
      have := hfresh t
      simp only [ptrWeight, Option.elim, Bool.false_eq_true, if_false]
      exact ⟨hs, by lia, by lia⟩
  | some vi =>
    obtain ⟨c, rfl, hcv, rfl⟩ : ∃ c, t = .cls c ∧ (env.cls c).virt = true ∧
        vi = ⟨env.dynIdx c, env.construct cfg c⟩ := by
      cases t <;> simp [Env.virt] at hv
      exact ⟨_, rfl, hv.1, hv.2.symm⟩
    have hb : env.isVirt (.cls c) = true := hcv
    simp only [reconstructPointedTo, hv, hs, if_true, Out.bind_eq, Out.bind_ok,
      Ser.footprinting_of_unpacking hs, Bool.false_eq_true, if_false] at he
    rw [if_pos hb]
    obtain ⟨⟨k, s1⟩, h1, he⟩ := bind_eq_ok he
    obtain ⟨u1, l1, -⟩ := pipeInt_pays (cfg := cfg) (e := intElem cfg) rfl _ 0 s hs k s1 h1
    cases p with
    | some x =>
      simp only at he
      obtain ⟨_, _, he⟩ := bind_eq_ok he
      cases he
      simp only [ptrWeight, Option.elim]
      exact ⟨u1, by lia, by lia⟩
    | none =>
      simp only [u1, if_true] at he
      obtain ⟨y, h2, he⟩ := bind_eq_ok he
      cases he
      simp only [ptrWeight]
      cases r with
      | none => simp only [Option.elim]; exact ⟨u1, by lia, by lia⟩
      | some y =>
        have := construct_weight (cfg := cfg) hfresh h2
        simp only [Option.elim]
        exact ⟨u1, by lia, by lia⟩

theorem serUniquePtr_pays (hfresh : ∀ t, env.weight t (env.fresh t) = 0) {t : Ty} {hd : Handler Val}
    (ht : TyPays env t hd) {n : Nat} (p : Option Val) :
    Pays (ptrWeight env t p) (grain env (.uptr t))
      (fun s => serUniquePtr cfg n (env.elemOf hd t) (env.virt cfg t) s p) (ptrWeight env t) := by
  intro s hs r s' he
  simp only [serUniquePtr, Ser.footprinting_of_unpacking hs, Bool.false_eq_true, if_false] at he
  obtain ⟨⟨b, s1⟩, h1, he⟩ := bind_eq_ok he
  obtain ⟨u1, l1, -⟩ := pipeBool_pays _ 0 s hs b s1 h1
  have hg1 := grain_le_one (env := env) (.uptr t)
  have hg : grain env (.uptr t) ≤ idxBytes env t + grain env t := grain_le (fun h => by
    cases h with
    | uptr h => rw [grain_solid h]; omega
    | poly h => unfold idxBytes; rw [if_pos (show env.isVirt (.cls _) = true from h)]; omega)
  cases b with
  | true =>
    simp only [if_true, u1] at he
    cases he
    simp only [ptrWeight]
    exact ⟨u1, by lia, by lia⟩
  | false =>
    simp only [Bool.false_eq_true, if_false] at he
    obtain ⟨⟨q, s2⟩, h2, he⟩ := bind_eq_ok he
    obtain ⟨u2, l2, p2⟩ := reconstructPointedTo_pays hfresh hd p s1 u1 q s2 h2
    cases q with
    | none => cases he
    | some x =>
      obtain ⟨⟨y, s3⟩, h3, he⟩ := bind_eq_ok he
      obtain ⟨u3, l3, p3⟩ := ht.pipe x s2 u2 y s3 h3
      cases he
      simp only [ptrWeight, Option.elim] at *
      exact ⟨u3, by lia, by lia⟩

/-! ### Classes -/

theorem onPart_pays {c b : Nat} {f : Ser → List Val → Out (List Val × Ser)}
    (hf : ∀ p, Pays (env.weightsOf (env.cls c).rfields p) b (fun s => f s p) (env.weightsOf (env.cls c).rfields))
    (v : Val) :
    Pays (env.weight (.cls c) v) b (fun s => onPart env c f s v) (env.weight (.cls c)) := by
  intro s hs r s' he
  cases v with
  | obj d parts =>
    simp only [onPart] at he
    cases hp : parts[List.idxOf c (env.chain d)]? with
    | none => simp [hp] at he
    | some p =>
      simp only [hp] at he
      obtain ⟨⟨q, s1⟩, h1, he⟩ := bind_eq_ok he
      obtain ⟨u1, l1, p1⟩ := hf p s hs q s1 h1
      cases he
      simp only [Env.weight]
      by_cases hc : c ∈ env.chain d
      · have hlt := List.idxOf_lt_length_iff.2 hc
        have hk : (env.chain d)[List.idxOf c (env.chain d)]? = some c := by
          rw [List.getElem?_eq_getElem hlt, List.getElem_idxOf hlt]
        have := weightParts_set (env := env) q hk hp
        exact ⟨u1, by lia, by lia⟩
      · have hk : (env.chain d)[List.idxOf c (env.chain d)]? = none := by
          rw [List.getElem?_eq_none_iff, List.idxOf_eq_length hc]
          exact Nat.le_refl _
        rw [weightParts_out q hk]
        exact ⟨u1, by lia, by lia⟩
  | _ => cases he

theorem Ser.unpacking_setVdis (s : Ser) (b : Bool) : (s.setVdis b).isUnpacking = s.isUnpacking := rfl

theorem Ser.left_setVdis (s : Ser) (b : Bool) : (s.setVdis b).left = s.left := rfl

theorem Pays.vdis {A : Type} {w0 b : Nat} {m : Ser → Out (A × Ser)} {w : A → Nat} (h : Pays w0 b m w) (v : Bool) :
    Pays w0 b (fun s => m (s.setVdis v)) w :=
  fun s hs a s' he => h (s.setVdis v) hs a s' he

theorem serChain_pays {reg : SerReg} {root : Nat} {f : Nat → Ser → List Val → Out (List Val × Ser)}
    (hf : ∀ k p, Pays (env.weightsOf (env.cls k).rfields p) 0 (fun s => f k s p) (env.weightsOf (env.cls k).rfields)) :
    ∀ (ks : List Nat) (ps : List (List Val)),
    Pays (env.weightParts ks ps) 0
      (fun s => serChain cfg reg root (fun k => partElem (env.ti (.cls k))
        (fun s ps => dispatchEach (f k) (s.setVdis false) ps) []) ks s ps) (env.weightParts ks)
  | [], [] => Pays.pure (a := ([] : List (List Val))) (Nat.le_refl _)
  | k :: ks, p :: ps => by
    intro s hs r s' he
    simp only [serChain] at he
    obtain ⟨kd, _, he⟩ := bind_eq_ok he
    split at he
    · cases he
    · obtain ⟨⟨q, s1⟩, h1, he⟩ := bind_eq_ok he
      obtain ⟨⟨qs, s2⟩, h2, he⟩ := bind_eq_ok he
      have hp : Pays (env.weightsOf (env.cls k).rfields p) 0 (fun s => pipe cfg (partElem (env.ti (.cls k))
          (fun s ps => dispatchEach (f k) (s.setVdis false) ps) []) s p) (env.weightsOf (env.cls k).rfields) := by
        refine pipe_pays (v := 1) ?_
        have hq := (dispatchEach_pays (hf k) [p]).vdis false
        intro s hs ys s' he
        obtain ⟨u, l, p1⟩ := hq s hs ys s' he
        simp only [List.map_cons, List.map_nil, List.sum_cons, List.sum_nil, List.length_singleton] at l p1
        by_cases hl : ys.length = 0
        · have : ys = [] := List.length_eq_zero_iff.1 hl
          subst this
          obtain ⟨⟨_, _⟩, _, he⟩ := bind_eq_ok (he : dispatchEach (f k) (s.setVdis false) [p] = _)
          obtain ⟨⟨_, _⟩, _, he⟩ := bind_eq_ok he
          cases he
        · exact ⟨u, by lia, by lia⟩
      obtain ⟨u1, l1, p1⟩ := hp (s.setVdis true) hs q s1 h1
      obtain ⟨u2, l2, p2⟩ := serChain_pays hf ks ps s1 u1 qs s2 h2
      cases he
      simp only [Env.weightParts, Ser.left_setVdis] at *
      exact ⟨u2, by lia, by lia⟩
  | [], _ :: _ => .none (by simp [serChain])
  | _ :: _, [] => .none (by simp [serChain])

theorem members_pays {c : Nat} (hm : ∀ t ∈ (env.cls c).rfields, TyPays env t (h t)) (p : List Val) :
    Pays (env.weightsOf (env.cls c).rfields p) (((env.cls c).rfields.map (grain env)).sum)
      (fun s => serMembers cfg (((env.cls c).visited s).map fun t => env.elemOf (h t) t) s p)
      (env.weightsOf (env.cls c).rfields) :=
  (serMembers_pays (cfg := cfg) hm p).congr (fun s hs => by simp only [ClassDef.visited, hs, if_true])

theorem onRaw_pays {size : Nat} (t : Ty) (hw : ∀ bs, env.weight t (.raw bs) = 0) (hg : grain env t ≤ size) :
    TyPays env t (onRaw (dispatchByte size)) := by
  intro xs s hs ys s' he
  simp only [onRaw] at he
  split at he
  · next zs hz =>
    obtain ⟨⟨ws, s1⟩, h1, he⟩ := bind_eq_ok he
    obtain ⟨u, l, hl, _⟩ := dispatchByte_pays size hs h1
    cases he
    have hlen : zs.length = xs.length := by
      clear h1 l hl he
      clear * - hz
      induction xs generalizing zs with
      | nil => simp at hz; simp [hz]
      | cons x xs ih =>
        simp only [List.mapM_cons] at hz
        cases hx : x.raw? with
        | none => simp [hx] at hz
        | some a =>
          cases hr : xs.mapM Val.raw? with
          | none => simp [hx, hr] at hz
          | some as =>
            simp only [hx, hr, Option.bind_eq_bind, Option.bind_some, Option.pure_def, Option.some.injEq] at hz
            subst hz
            simp [ih _ hr]
    have hsum : ((ws.map Val.raw).map (env.weight t)).sum = 0 := by
      rw [List.map_map]
      have : (env.weight t ∘ Val.raw) = fun _ => 0 := funext hw
      rw [this]
      clear h1 hl hlen
      induction ws <;> simp_all
    have hmul : grain env t * xs.length ≤ size * zs.length := by
      rw [hlen]; exact Nat.mul_le_mul_right _ hg
    simp only [List.length_map, hsum]
    exact ⟨u, by lia, by lia⟩
  · cases he

theorem each_pays {t : Ty} {f : Ser → Val → Out (Val × Ser)}
    (hf : ∀ x, Pays (env.weight t x) (grain env t) (fun s => f s x) (env.weight t)) :
    TyPays env t (dispatchEach f) :=
  fun xs => dispatchEach_pays hf xs

theorem dispatchStep_pays (hE : env.StartsEmpty) (horder : ∀ n, (cfg.argOrder n).Perm (List.range n))
    (harr : ∀ i xs, (env.arrange i xs).Perm xs) {S : Ty → Prop} (hS : Paid env S)
    (ih : ∀ t, S t → TyPays env t (h t))
    (hlen : ∀ {t : Ty} {s s' : Ser} {xs r : List Val}, h t s xs = .ok (r, s') → r.length = xs.length)
    {t : Ty} (ht : S t) : TyPays env t (dispatchStep cfg env h t) := by
  have hfresh := fun t => (hE t).1
  cases t with
  | prim id size =>
    exact onRaw_pays _ (fun _ => by simp [Env.weight]) (grain_le (fun hs => by cases hs; assumption))
  | enm id pid size =>
    refine each_pays fun x => ?_
    cases x with
    | raw bs =>
      have hp : Pays 0 size (fun s => serUnderlying cfg (primElem env pid size) s bs) (fun _ => 0) := by
        refine serUnderlying_pays (pipe_pays (v := 1) ?_)
        intro s hs ys s' he
        obtain ⟨u, l, hl, _⟩ := dispatchByte_pays size hs (show dispatchByte size s [bs] = _ from he)
        have : (ys.map fun _ => 0).sum = 0 := by
          clear he hl; induction ys <;> simp_all
        simp only [List.length_singleton] at l
        exact ⟨u, by lia, by lia⟩
      exact (hp.mono (by simp [Env.weight]) (grain_le (fun hs => by cases hs; assumption))).map _
        (fun _ => by simp [Env.weight])
    | _ => exact .none (by simp)
  | chrono id pid size =>
    refine each_pays fun x => ?_
    cases x with
    | raw bs =>
      have hp : Pays 0 size (fun s => serUnderlying cfg (primElem env pid size) s bs) (fun _ => 0) := by
        refine serUnderlying_pays (pipe_pays (v := 1) ?_)
        intro s hs ys s' he
        obtain ⟨u, l, hl, _⟩ := dispatchByte_pays size hs (show dispatchByte size s [bs] = _ from he)
        have : (ys.map fun _ => 0).sum = 0 := by
          clear he hl; induction ys <;> simp_all
        simp only [List.length_singleton] at l
        exact ⟨u, by lia, by lia⟩
      exact (hp.mono (by simp [Env.weight]) (grain_le (fun hs => by cases hs; assumption))).map _
        (fun _ => by simp [Env.weight])
    | _ => exact .none (by simp)
  | str =>
    refine each_pays fun x => ?_
    cases x with
    | str x =>
      exact ((serString_pays x).mono (by simp [Env.weight]) (grain_le_one _)).map _ (fun _ => by simp [Env.weight])
    | _ => exact .none (by simp)
  | vec t =>
    obtain ⟨h1, h2⟩ := hS.vec ht
    have hi := ih t h1
    refine each_pays fun x => ?_
    cases x with
    | vec cap xs =>
      refine ((serVector_pays (e := env.elemOf (h t) t) (w := env.weight t) (b := 1) (Nat.le_refl _) (hfresh t)
        ((hE t).2) (fun xs => ?_) ⟨cap, xs⟩).mono (w1 := env.weight (.vec t) (.vec cap xs))
        (by simp [Env.weight, weights_eq]) (grain_le_one _)).map (fun v => Val.vec v.cap v.elems)
        (fun _ => by simp [Env.weight, weights_eq])
      have := hi xs
      rw [grain_solid h2] at this
      exact this
    | _ => exact .none (by simp)
  | vecBool =>
    refine each_pays fun x => ?_
    cases x with
    | vbool cap bs =>
      exact ((serVectorBool_pays ⟨cap, bs⟩).mono (w1 := env.weight .vecBool (.vbool cap bs)) (by simp [Env.weight])
        (grain_le_one _)).map (fun v => Val.vbool v.cap v.elems)
        (fun _ => by simp [Env.weight])
    | _ => exact .none (by simp)
  | seq k t =>
    obtain ⟨h1, h2⟩ := hS.seq ht
    have hi := fun x => (ih t h1).pipe (cfg := cfg) x
    rw [grain_solid h2] at hi
    refine each_pays fun x => ?_
    cases x with
    | coll xs =>
      exact ((serList_pays (w := env.weight t) (hfresh t) hi xs).mono (by simp [Env.weight, weights_eq])
        (grain_le_one _)).map _ (fun _ => by simp [Env.weight, weights_eq])
    | _ => exact .none (by simp)
  | queue t =>
    obtain ⟨h1, h2⟩ := hS.queue ht
    have hi := fun x => (ih t h1).pipe (cfg := cfg) x
    rw [grain_solid h2] at hi
    refine each_pays fun x => ?_
    cases x with
    | coll xs =>
      exact ((serQueue_pays (w := env.weight t) (hfresh t) hi xs).mono (by simp [Env.weight, weights_eq])
        (grain_le_one _)).map _ (fun _ => by simp [Env.weight, weights_eq])
    | _ => exact .none (by simp)
  | oset a cmp t =>
    obtain ⟨h1, h2⟩ := hS.oset ht
    have hi := fun x => (ih t h1).pipe (cfg := cfg) x
    rw [grain_solid h2] at hi
    refine each_pays fun x => ?_
    cases x with
    | coll xs =>
      refine ((serMapLike_pays (w := env.weight t) (hfresh t) hi (fun acc y => ?_) xs).mono
        (by simp [Env.weight, weights_eq]) (grain_le_one _)).map _ (fun _ => by simp [Env.weight, weights_eq])
      unfold Env.emplaceO
      split
      · exact emplaceMulti_weight _ _
      · exact emplaceUnique_weight _ _
    | _ => exact .none (by simp)
  | uset a eq t =>
    obtain ⟨h1, h2⟩ := hS.uset ht
    have hi := fun x => (ih t h1).pipe (cfg := cfg) x
    rw [grain_solid h2] at hi
    refine each_pays fun x => ?_
    cases x with
    | coll xs =>
      exact ((serMapLike_pays (w := env.weight t) (hfresh t) hi
        (fun acc y => emplaceUnordered_weight (harr eq) acc y) xs).mono
        (by simp [Env.weight, weights_eq]) (grain_le_one _)).map _ (fun _ => by simp [Env.weight, weights_eq])
    | _ => exact .none (by simp)
  | pair a b =>
    obtain ⟨h1, h2⟩ := hS.pair ht
    refine each_pays fun x => ?_
    have hg : grain env (.pair a b) ≤ grain env a + grain env b := grain_le (fun hs => by
      cases hs with
      | fst hs => rw [grain_solid hs]; omega
      | snd hs => rw [grain_solid hs]; omega)
    match x with
    | .coll [x, y] =>
      exact ((serPair_pays (ih a h1) (ih b h2) x y).mono (w1 := env.weight (.pair a b) (.coll [x, y]))
        (by simp [Env.weight, Env.weightsOf]) hg).map (fun p => Val.coll [p.1, p.2])
        (fun _ => by simp [Env.weight, Env.weightsOf])
    | .coll [] | .coll [_] | .coll (_ :: _ :: _ :: _) => exact .none (by simp)
    | .raw _ | .str _ | .vec _ _ | .vbool _ _ | .opt _ | .variant _ _ | .valueless | .ptr _ | .obj _ _ =>
      exact .none (by simp)
  | tuple ts =>
    refine each_pays fun x => ?_
    cases x with
    | coll xs =>
      have hv := visitMembers_pays (cfg := cfg) (h := h) (ts := ts) (fun t hm => ih t (hS.tuple ht t hm))
        (cfg.argOrder ts.length) xs
      have hl : (ts.map fun t => env.elemOf (h t) t).length = ts.length := by simp
      refine ((hv.mono (Nat.le_refl _) (tuple_grain horder)).congr (m' := fun s => serTuple cfg
        (ts.map fun t => env.elemOf (h t) t) s xs) (fun s hs => by simp only [serTuple, hl])).mono
        (by simp [Env.weight]) (Nat.le_refl _) |>.map _ (fun _ => by simp [Env.weight])
    | _ => exact .none (by simp)
  | opt t =>
    refine each_pays fun x => ?_
    cases x with
    | opt x =>
      exact ((serOptional_pays (w := env.weight t) (hfresh t)
        (((ih t (hS.opt ht)).pipe (cfg := cfg) _).mono (Nat.le_refl _) (Nat.zero_le _)) x _).mono
        (Nat.le_refl _) (grain_le_one _)).map _ (fun _ => by simp [Env.weight, weightIn_eq])
    | _ => exact .none (by simp)
  | variant ts =>
    unfold dispatchStep
    dsimp only
    split
    · next hb =>
      exact onRaw_pays _ (fun _ => by simp [Env.weight]) (grain_le (fun hs => by
        cases hs with
        | variant h => simp [hb] at h
        | variantBytes h => exact h))
    · refine each_pays fun x => ?_
      have hv := serVariant_pays (cfg := cfg) (h := h) hfresh (fun t hm => ih t (hS.variant ht t hm))
      intro s hs r s' he
      have key : ∀ v : Variant Val, variantWeight env ts v = env.weight (.variant ts) x →
          (do let (x, s) ← serVariant cfg (ts.map fun t => env.elemOf (h t) t) s v
              match x with
              | .holds i x => Out.ok (Val.variant i x, s)
              | .valueless => Out.ok (Val.valueless, s)) = .ok (r, s') →
          s'.isUnpacking = true ∧ s'.left + grain env (.variant ts) ≤ s.left ∧
          env.weight (.variant ts) r + grain env (.variant ts) + s'.left ≤ env.weight (.variant ts) x + s.left := by
        intro v hw he
        obtain ⟨⟨y, s1⟩, h1, he⟩ := bind_eq_ok he
        obtain ⟨u, l, p⟩ := hv v s hs y s1 h1
        have hg := grain_le_one (env := env) (.variant ts)
        rw [← hw]
        cases y with
        | holds i y =>
          cases he
          simp only [variantWeight, Env.weight] at *
          exact ⟨u, by lia, by lia⟩
        | valueless =>
          cases he
          simp only [variantWeight, Env.weight] at *
          exact ⟨u, by lia, by lia⟩
      cases x with
      | variant i x => exact key (.holds i x) (by simp [variantWeight, Env.weight]) he
      | valueless => exact key .valueless (by simp [variantWeight, Env.weight]) he
      | _ => cases he
  | uptr t =>
    refine each_pays fun x => ?_
    cases x with
    | ptr x =>
      have hw : ∀ x, ptrWeight env t x = env.weight (.uptr t) (.ptr x) := by
        intro x
        cases x <;> simp [ptrWeight, Env.weight, weightIn_eq]
      exact ((serUniquePtr_pays hfresh (ih t (hS.uptr ht)) x).mono (Nat.le_of_eq (hw x)) (Nat.le_refl _)).map _
        (fun y => Nat.le_of_eq (hw y).symm)
    | _ => exact .none (by simp)
  | arr k t =>
    refine each_pays fun x => ?_
    cases x with
    | coll xs =>
      simp only
      split
      · next hk =>
        intro s hs r s' he
        obtain ⟨⟨ys, s1⟩, h1, he⟩ := bind_eq_ok he
        have hl : ys.length = xs.length := by
          have h1 : serializeArray cfg (env.elemOf (h t) t) s xs = _ := h1
          unfold serializeArray at h1
          split at h1
          · obtain ⟨s2, s3, h1⟩ := traverse_ok_inv h1
            exact hlen h1
          · cases h1; rfl
        obtain ⟨u, l, p⟩ := serializeArray_pays (cfg := cfg) (ih t (hS.arr ht) xs) s hs ys s1 h1
        cases he
        have hg : grain env (.arr k t) ≤ grain env t * xs.length := grain_le (fun hs => by
          cases hs with
          | arr h0 hs => rw [grain_solid hs]; omega)
        simp only [Env.weight, weights_eq]
        exact ⟨u, by lia, by lia⟩
      · exact .none (by simp)
    | _ => exact .none (by simp)
  | cls c =>
    unfold dispatchStep
    dsimp only
    have hm : ∀ t ∈ (env.cls c).rfields, TyPays env t (h t) := fun t ht' => ih t (hS.cls ht t ht')
    have hg : (env.cls c).virt = false → grain env (.cls c) ≤ (((env.cls c).rfields.map (grain env)).sum) :=
      fun hv => grain_le (fun hs => by
        cases hs with
        | cls _ h1 h2 => exact sum_solid h1 h2)
    split
    · next hv =>
      have hz : grain env (.cls c) = 0 := by
        unfold grain
        split
        · next hs => cases hs with
          | cls h' => simp [hv] at h'
        · rfl
      intro xs s hs ys s' he
      dsimp only at he
      split at he
      · have := dispatchEach_pays (fun v => (onPart_pays (c := c) (fun p => members_pays (cfg := cfg) hm p) v).mono
          (Nat.le_refl _) (Nat.zero_le _)) xs (s.setVdis false) hs ys s' he
        rw [hz]
        exact this
      · match xs with
        | .obj d parts :: rest =>
          dsimp only at he
          obtain ⟨⟨ps, s1⟩, h1, he⟩ := bind_eq_ok he
          obtain ⟨u, l, p⟩ := serChain_pays (f := fun k s p => serMembers cfg (((env.cls k).visited s).map fun t =>
            env.elemOf (h t) t) s p) (fun k p => (members_pays (cfg := cfg)
              (fun t ht' => ih t (hS.poly ht hv k t ht')) p).mono (Nat.le_refl _) (Nat.zero_le _))
              (env.chain d) parts s hs ps s1 h1
          cases he
          rw [hz]
          simp only [List.map_cons, List.sum_cons, List.length_cons, Env.weight]
          exact ⟨u, by lia, by lia⟩
        | [] => cases he
        | .raw _ :: _ | .str _ :: _ | .vec _ _ :: _ | .vbool _ _ :: _ | .opt _ :: _ | .variant _ _ :: _
        | .valueless :: _ | .ptr _ :: _ | .coll _ :: _ => cases he
    · next hv =>
      exact each_pays fun x => (onPart_pays (fun p => members_pays hm p) x).mono (Nat.le_refl _)
        (hg (by simpa using hv))

theorem dispatch_pays (hE : env.StartsEmpty) (horder : ∀ n, (cfg.argOrder n).Perm (List.range n))
    (harr : ∀ i xs, (env.arrange i xs).Perm xs) {S : Ty → Prop} (hS : Paid env S) :
    ∀ n t, S t → TyPays env t (dispatch cfg env n t)
  | 0, _, _ => fun _ => .none (by simp [dispatch])
  | n + 1, t, ht => dispatchStep_pays hE horder harr hS (dispatch_pays hE horder harr hS n) dispatch_length ht

end
end Ckpt
