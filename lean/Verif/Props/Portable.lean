import Verif.Props.Virtual
import Verif.Props.Containers
import Verif.Props.Headers
import Verif.Proofs.Portable
import Verif.Proofs.Post
import Verif.Spec.Demo
/-!
# Checkpoints read by another program (C51)
-/

set_option autoImplicit false

namespace Ckpt

variable {R R' : RelMode} {cfg cfg' : Cfg} {env env' : Env} {t : Ty} {x : Val}

/-- C51: two programs with the same format for `t` write the same bytes for the same value. -/
theorem C51_same_bytes (hv : env.Valid R (· ∈ builtinKinds) cfg) (hv' : env'.Valid R' (· ∈ builtinKinds) cfg')
    (h : SameFormat cfg cfg' env env' t) (hx : WT R env t x) (hx' : WT R' env' t x) {bs : Bytes}
    (hs : StreamForm cfg env t x bs) : StreamForm cfg' env' t x bs := by
  have := ((isEnc_of_stream hv hx hs).same h hv.plain hx').toStream hv' (fun _ h => h) { data := [] } (by simp)
  simp only [List.nil_append] at this
  exact this

/-- C51: the second program restores from the data of the first a value equal to the one saved, with its
own idea of equality `R'`, whichever way it reads and whatever clean object it reads into. -/
theorem C51_read_elsewhere (hv : env.Valid R (· ∈ builtinKinds) cfg)
    (hv' : env'.Valid R' (· ∈ builtinKinds) cfg') (h : SameFormat cfg cfg' env env' t) (hx : WT R env t x)
    (hx' : WT R' env' t x) (hb : ByVal t x) {bs : Bytes} (hs : StreamForm cfg env t x bs) {y : Val}
    (hy : Clean R' cfg' env' t y) (hyb : ByVal t y) : ReadsBack cfg' env' t bs y (Rel R' env' t x) :=
  reads_back hv' hx' hb (C51_same_bytes hv hv' h hx hx' hs) hy hyb

/-- C51: a program in which the saved type has another index rejects the data with an exception. -/
theorem C51_other_index_rejected (hv : env.Valid R (· ∈ builtinKinds) cfg) (hend : cfg'.endian = cfg.endian)
    (hx : WT R env t x) {bs : Bytes} (hs : StreamForm cfg env t x bs)
    (hne : (env'.ti t).idx ≠ (env.ti t).idx) (n : Nat) (rest : Bytes) :
    AllReadsThrow cfg' (elem cfg' env' n t) (bs ++ rest) := by
  obtain ⟨tl, rfl⟩ := streamForm_head hv hx hs
  rw [List.append_assoc]
  refine allReadsThrow (by simp) (.inr ?_) _
  rw [hend, intVal_intBytes_of_lt _ (show _ < 256 ^ 4 from (hv.ti t).1)]
  exact hne

/-! ## Other registration order -/

theorem dispatchEach_single {T : Type} {g : Ser → T → Out (T × Ser)} {s s' : Ser} {y : T} {zs : List T}
    (h : dispatchEach g s [y] = .ok (zs, s')) : ∃ z s1, zs = [z] ∧ g s y = .ok (z, s1) := by
  unfold dispatchEach at h
  obtain ⟨⟨z, s1⟩, h1, h2⟩ := bind_eq_ok h
  simp only [dispatchEach, Out.bind_eq, Out.bind_ok, Out.ok.injEq, Prod.mk.injEq] at h2
  exact ⟨z, s1, h2.1.symm, h1⟩

theorem onPart_class {c d : Nat} {ps : List (List Val)} {f : Ser → List Val → Out (List Val × Ser)} {s s' : Ser} {z : Val}
    (h : onPart env c f s (.obj d ps) = .ok (z, s')) : ∃ qs, z = .obj d qs := by
  cases hp : ps[List.idxOf c (env.chain d)]? with
  | none => simp [onPart, hp] at h
  | some p =>
    simp only [onPart, hp] at h
    obtain ⟨_, _, h2⟩ := bind_eq_ok h
    simp only [Out.ok.injEq, Prod.mk.injEq] at h2
    exact ⟨_, h2.1.symm⟩

/-- Serialization never changes the class of an object. -/
theorem class_kept {n c d : Nat} {ps : List (List Val)} {s s' : Ser} {z : Val}
    (h : pipe cfg (elem cfg env n (.cls c)) s (.obj d ps) = .ok (z, s')) : ∃ qs, z = .obj d qs := by
  have hone : ∀ s zs s', (elem cfg env n (.cls c)).apply s [.obj d ps] = .ok (zs, s') →
      ∃ qs, zs = [.obj d qs] := by
    intro s zs s' h
    cases n with
    | zero => exact absurd h (by simp [elem, Env.elemOf, dispatch])
    | succ n =>
      simp only [elem, Env.elemOf, dispatch, dispatchStep] at h
      by_cases hvt : (env.cls c).virt = true
      · simp only [hvt, if_true] at h
        split at h
        · obtain ⟨z, s1, rfl, h1⟩ := dispatchEach_single h
          obtain ⟨qs, rfl⟩ := onPart_class h1
          exact ⟨qs, rfl⟩
        · obtain ⟨⟨qs, s1⟩, _, h2⟩ := bind_eq_ok h
          simp only [Out.ok.injEq, Prod.mk.injEq] at h2
          exact ⟨qs, h2.1.symm⟩
      · simp only [hvt, Bool.false_eq_true, if_false] at h
        obtain ⟨z, s1, rfl, h1⟩ := dispatchEach_single h
        obtain ⟨qs, rfl⟩ := onPart_class h1
        exact ⟨qs, rfl⟩
  rw [pipe_eq] at h
  obtain ⟨⟨zs, s1⟩, h1, h2⟩ := bind_eq_ok h
  have : ∃ qs, zs = [.obj d qs] := by
    unfold traverse at h1
    split at h1
    · obtain ⟨s2, _, h3⟩ := bind_eq_ok h1
      obtain ⟨⟨zs', s3⟩, h4, h5⟩ := bind_eq_ok h3
      obtain ⟨_, _, h6⟩ := bind_eq_ok h5
      simp only [Out.ok.injEq, Prod.mk.injEq] at h6
      exact h6.1 ▸ hone _ _ _ (catchDepth_ok h4)
    · exact hone _ _ _ h1
  obtain ⟨qs, rfl⟩ := this
  simp only [only, Out.ok.injEq, Prod.mk.injEq] at h2
  exact ⟨qs, h2.1.symm⟩

/-- Whatever reading the pointer's bytes with class index `i` returns, it points to an object of the class
this program has under `i`. -/
theorem ptr_class_read (hv : env.Valid R (· ∈ builtinKinds) cfg) {c i d : Nat} (hvt : (env.cls c).virt = true)
    (hi : i < 2 ^ 32) (hd : (env.objReg (env.root c))[i]? = some d) (rest : Bytes) (n : Nat) :
    (∀ y k, deserialize cfg (elem cfg env n (.uptr (.cls c))) (ptrInput cfg env c i rest) = .ok (y, k) →
      ∃ qs, y = .ptr (some (.obj d qs))) ∧
    (∀ y u, deserializeFromStream cfg (elem cfg env n (.uptr (.cls c))) (ptrInput cfg env c i rest) = .ok (y, u) →
      ∃ qs, y = .ptr (some (.obj d qs))) := by
  have hE : ∀ e, ¬ (Scope.quiet (· ∈ builtinKinds)).errs e := fun _ h => h
  have hcon : ∀ v, env.construct cfg c i = .ok (some v) → ∃ ps, v = .obj d ps := by
    intro v h
    simp only [Env.construct, hd] at h
    split at h
    · split at h <;> simp at h
    · split at h
      · simp only [Out.ok.injEq, Option.some.injEq] at h
        have hf := hv.fresh (.cls d)
        rw [h] at hf
        obtain ⟨h1, h2⟩ := hf
        cases h1 with
        | obj _ _ _ _ => exact ⟨_, by rw [show _ = d from h2]⟩
      · simp at h
  have hm : ∀ m, Post (Scope.quiet (· ∈ builtinKinds))
      (fun s => traverseTop cfg (elem cfg env (m + 1) (.uptr (.cls c))) s (.ptr none))
      (intBytes cfg.endian 4 (env.ti (.uptr (.cls c))).idx ++ (boolNode cfg cfg.check false ++
        node cfg cfg.check cfg.tiInt 1 (intBytes cfg.endian 4 i))) (fun y => ∃ qs, y = .ptr (some (.obj d qs))) := by
    intro m
    have h1 := uptr_post_null (K := Scope.quiet (· ∈ builtinKinds)) (cfg := cfg) (e := elem cfg env m (.cls c))
      (sz := (env.ti (.uptr (.cls c))).sizeof) (vi := ⟨env.dynIdx c, env.construct cfg c⟩) hE hv.cfgOk hi
      (Q := fun z => ∃ qs, z = .obj d qs) (fun v h s z s' hz => by
        obtain ⟨ps, rfl⟩ := hcon v h
        exact class_kept hz)
    refine top_post (cfg := cfg) hE (hv.ti _) ?_
    refine (each_post (y := Val.ptr none) (Q := fun y => ∃ qs, y = .ptr (some (.obj d qs))) (g := fun s v => match v with
      | .ptr p => serUniquePtr cfg (env.ti (.uptr (.cls c))).sizeof (elem cfg env m (.cls c)) (env.virt cfg (.cls c)) s p
          >>= fun r => .ok (.ptr r.1, r.2)
      | _ => .ub .typeConfusion) ((h1.then (k := fun r => .ok (Val.ptr r.1, r.2)) ?_).congr fun s _ => by
        simp only [Env.virt, hvt, if_true])).congr fun s _ => rfl
    rintro b s y s' ⟨a, rfl, qs, rfl⟩ he
    simp only [Out.ok.injEq, Prod.mk.injEq] at he
    exact ⟨qs, he.1.symm⟩
  refine ⟨fun y k h => ?_, fun y u h => ?_⟩
  · simp only [deserialize_elem, fresh_ptr_null hv hvt] at h
    have hle := inPlace_le (cfg := cfg) (elem_le cfg env (Nat.le_succ n) (.uptr (.cls c))) (ptrInput cfg env c i rest) (.ptr none)
    have h : deserializeInPlace cfg (elem cfg env (n + 1) (.uptr (.cls c))) (ptrInput cfg env c i rest) (.ptr none) = _ :=
      (hle.eq_of_ne (by rw [h]; simp)).trans h
    unfold deserializeInPlace at h
    obtain ⟨⟨y', s'⟩, h1, h2⟩ := bind_eq_ok h
    simp only [Out.ok.injEq, Prod.mk.injEq] at h2
    exact h2.1 ▸ hm n { core := .unpacker (ptrInput cfg env c i rest) 0 0, kind := .unpacker }
      ⟨rfl, by simp [Scope.quiet, builtinKinds], by simp⟩ rest (by simp [Ser.remaining, ptrInput]) _ _ h1
  · simp only [deserializeFromStream_elem, fresh_ptr_null hv hvt] at h
    have hle := inStream_le (cfg := cfg) (elem_le cfg env (Nat.le_succ n) (.uptr (.cls c))) (ptrInput cfg env c i rest) (.ptr none)
    have h : deserializeInPlaceFromStream cfg (elem cfg env (n + 1) (.uptr (.cls c))) (ptrInput cfg env c i rest) (.ptr none) = _ :=
      (hle.eq_of_ne (by rw [h]; simp)).trans h
    unfold deserializeInPlaceFromStream at h
    obtain ⟨⟨y', s'⟩, h1, h2⟩ := bind_eq_ok h
    simp only [Out.ok.injEq, Prod.mk.injEq] at h2
    exact h2.1 ▸ hm n { core := .streamUnpacker (ptrInput cfg env c i rest) 0, kind := .streamUnpacker }
      ⟨rfl, by simp [Scope.quiet, builtinKinds], trivial⟩ rest (by simp [Ser.remaining, ptrInput]) _ _ h1

/-- C51: if the second program, the same build with the same type indices, registers the classes of the
hierarchy in another order, the object it makes from the data is of the class it has under the saved
index: whatever it returns never equals the saved value when that is another class. -/
theorem C51_reordered_other_class (hv : env.Valid R (· ∈ builtinKinds) cfg)
    (hv' : env'.Valid R' (· ∈ builtinKinds) cfg) {c d d' : Nat} {ps : List (List Val)}
    (hvt : (env.cls c).virt = true) (hvt' : (env'.cls c).virt = true)
    (hti : (env'.ti (.uptr (.cls c))).idx = (env.ti (.uptr (.cls c))).idx)
    (hx : WT R env (.uptr (.cls c)) (.ptr (some (.obj d ps)))) {bs : Bytes}
    (hs : StreamForm cfg env (.uptr (.cls c)) (.ptr (some (.obj d ps))) bs)
    (hd : (env'.objReg (env'.root c))[(env.objReg (env.root c)).idxOf d]? = some d') (n : Nat) :
    (∀ y k, deserialize cfg (elem cfg env' n (.uptr (.cls c))) bs = .ok (y, k) →
      ∃ qs, y = .ptr (some (.obj d' qs))) ∧
    (∀ y u, deserializeFromStream cfg (elem cfg env' n (.uptr (.cls c))) bs = .ok (y, u) →
      ∃ qs, y = .ptr (some (.obj d' qs))) := by
  obtain ⟨qs, _, _, hbs⟩ := C27_each_class_once hv hvt hx hs
  have hlt := (List.getElem?_eq_some_iff.1 hd).1
  have hsz := hv'.regSize (env'.root c)
  have h := ptr_class_read hv' hvt' (i := (env.objReg (env.root c)).idxOf d) (by omega) hd
    (node cfg cfg.check (env.ti (.cls c)) 1
      (List.zipWith (fun k q => node cfg cfg.check (env.ti (.cls k)) 1 q) (env.chain d) qs).flatten ++
      intBytes cfg.endian 8 ((env.ti (.uptr (.cls c))).sizeof * 1 % 2 ^ 64)) n
  have hb : ptrInput cfg env' c ((env.objReg (env.root c)).idxOf d) (node cfg cfg.check (env.ti (.cls c)) 1
      (List.zipWith (fun k q => node cfg cfg.check (env.ti (.cls k)) 1 q) (env.chain d) qs).flatten ++
      intBytes cfg.endian 8 ((env.ti (.uptr (.cls c))).sizeof * 1 % 2 ^ 64)) = bs := by
    rw [hbs, ptrInput, hti]
    simp only [node, if_true, List.append_assoc]
  rwa [hb] at h

/-- C51: so the value is not restored. -/
theorem C51_reordered_not_equal {c d d' : Nat} {ps qs : List (List Val)} (hne : d' ≠ d) :
    ¬ Rel R' env' (.uptr (.cls c)) (.ptr (some (.obj d ps))) (.ptr (some (.obj d' qs))) := by
  intro h
  cases h with
  | ptr h => cases h with
    | obj h1 _ _ _ => exact hne rfl

/-- C51: registering further classes after those of the first program keeps their indices. -/
theorem C51_classes_appended (reg reg' : Nat → ObjReg) (h : ∀ r, reg r <+: reg' r) :
    ∀ r d, d ∈ reg r → (reg' r).idxOf d = (reg r).idxOf d := by
  intro r d hd
  obtain ⟨l, hl⟩ := h r
  rw [← hl]
  exact List.idxOf_append_of_mem hd

end Ckpt

/-! ## Two programs -/

namespace Ckpt.Demo

variable {R : RelMode}

/-- The program with other registered classes, another hash function and other type names. -/
def env2 (reg : Nat → ObjReg) : Env :=
  { env with objReg := reg, arrange := fun _ xs => xs, ti := fun t => { env.ti t with name := 2 * code t } }

/-- The registry of the first program and a class that comes after. -/
def longer (r : Nat) : ObjReg := if r = 1 then [2, 1, 3, 5, 8] else []

/-- Classes 2 and 3 registered in the other order. -/
def swapped (r : Nat) : ObjReg := if r = 1 then [3, 1, 2, 5] else []

theorem clean2 {reg : Nat → ObjReg} {check ndebug : Bool} {t : Ty} {v : Val}
    (h : Clean R (cfg check ndebug) env t v) : Clean R (cfg check ndebug) (env2 reg) t v := by
  induction h <;> constructor <;> assumption

theorem valid2 {reg : Nat → ObjReg} (hreg : ∀ r, (reg r).length < 2 ^ 31) {check ndebug : Bool} :
    (env2 reg).Valid .contents (· ∈ builtinKinds) (cfg check ndebug) where
  cfgOk := valid_contents.cfgOk
  ti t := ti_valid t
  order := (valid_contents (check := check) (ndebug := ndebug)).order
  arrange _ _ := List.Perm.refl _
  fresh t := ⟨clean2 (valid_contents.fresh t).1, (valid_contents (check := check) (ndebug := ndebug)).fresh t |>.2⟩
  dflt t v h := ⟨clean2 (valid_contents.dflt t v h).1, ((valid_contents (check := check) (ndebug := ndebug)).dflt t v h).2⟩
  hier := (valid_contents (check := check) (ndebug := ndebug)).hier
  plain := (valid_contents (check := check) (ndebug := ndebug)).plain
  regSize := hreg
  serRegOk := (valid_contents (check := check) (ndebug := ndebug)).serRegOk
  kinds := (valid_contents (check := check) (ndebug := ndebug)).kinds
  sym := (valid_contents (check := check) (ndebug := ndebug)).sym

theorem same2 {check nd nd' : Bool} (t : Ty) : SameFormat (cfg check nd) (cfg check nd') env (env2 longer) t where
  check := rfl
  endian := rfl
  argOrder := rfl
  fields _ := rfl
  bases _ := rfl
  virt _ := rfl
  dynIdx := C51_classes_appended _ _ fun r => by
    by_cases h : r = 1 <;> simp [h, env, env2, longer]
  top := ⟨rfl, rfl⟩
  inner _ _ := ⟨rfl, rfl⟩
  tiSize _ := ⟨rfl, rfl⟩
  tiBool _ := ⟨rfl, rfl⟩
  tiChar _ := ⟨rfl, rfl⟩
  tiInt _ := ⟨rfl, rfl⟩

theorem rel2 {reg : Nat → ObjReg} {t : Ty} {a b : Val} (h : Rel R (env2 reg) t a b) : Rel R env t a b := by
  induction h <;> constructor <;> assumption

theorem wt2 {reg : Nat → ObjReg} (hreg : ∀ r d, d ∈ env.objReg r → d ∈ reg r) {t : Ty} {v : Val}
    (h : WT R env t v) : WT R (env2 reg) t v := by
  induction h with
  | ptr h1 h2 _ ih =>
    exact .ptr h1 (fun c d ps hc hd hv => ⟨hreg _ _ (h2 c d ps hc hd hv).1, (h2 c d ps hc hd hv).2⟩) ih
  | oset h1 h2 h3 h4 _ ih => exact .oset h1 (fun a b a' b' h h' => h2 a b a' b' (rel2 h) (rel2 h')) h3 h4 ih
  | uset h1 h2 h3 h4 h5 _ ih => exact .uset h1 (fun a b a' b' h h' => h2 a b a' b' (rel2 h) (rel2 h')) h3 h4 h5 ih
  | _ => constructor <;> assumption

/-- A circle whose radius has the bytes of the size of a pointer. -/
def tiny : Val := .obj 2 [[.str ⟨15, [99]⟩], [.raw (intBytes .little 8 ((env.ti (.uptr (.cls 1))).sizeof * 1 % 2 ^ 64))]]

/-- Classes 1 and 2 registered in the other order. -/
def baseFirst (r : Nat) : ObjReg := if r = 1 then [1, 2, 3, 5] else []

theorem tiny_wt : WT R env (.uptr (.cls 1)) (.ptr (some tiny)) := by
  refine .ptr (fun h => absurd h (by decide)) ?_ ?_
  · intro c d ps hc hd _
    cases hc; cases hd
    decide
  · exact wt_obj (by decide) (by decide) (.cons (.cons ⟨trivial, .str (by decide)⟩ .nil)
      (.cons (.cons ⟨trivial, .prim (by simp)⟩ .nil) .nil))

theorem base_wt : WT R (env2 baseFirst) (.uptr (.cls 1)) (.ptr (some (.obj 1 [[.str ⟨15, [99]⟩]]))) := by
  refine wt2 (fun r d => ?_) (.ptr (fun h => absurd h (by decide)) ?_ ?_)
  · by_cases h : r = 1 <;> simp [h, env, baseFirst]
    tauto
  · intro c d ps hc hd _
    cases hc; cases hd
    decide
  · exact wt_obj (by decide) (by decide) (.cons (.cons ⟨trivial, .str (by decide)⟩ .nil) .nil)

theorem small (r : Nat) (l : ObjReg) (hl : l.length = 4) : (if r = 1 then l else []).length < 2 ^ 31 := by
  split <;> simp [hl]

/-- C51, negation of the round trip for another order of registration.  What reading the circle in the program that registered the classes in another order gives (build
without error checking): an object of the base class, and no error. -/
theorem C51_reordered_slices {bs : Bytes} (hs : StreamForm (cfg false true) env (.uptr (.cls 1)) (.ptr (some tiny)) bs) :
    ∃ y k, Rel .contents (env2 baseFirst) (.uptr (.cls 1)) (.ptr (some (.obj 1 [[.str ⟨15, [99]⟩]]))) y ∧
    Yields (fun n => deserialize (cfg false true) (elem (cfg false true) (env2 baseFirst) n (.uptr (.cls 1))) bs)
      (.ok (y, k)) := by
  have hv := valid2 (reg := baseFirst) (fun r => small r _ rfl) (check := false) (ndebug := true)
  obtain ⟨bs', hs'⟩ := StreamForm.exists hv base_wt
  obtain ⟨qs, hl, hq, rfl⟩ := C27_each_class_once valid_contents rfl tiny_wt hs
  obtain ⟨qs', hl', hq', rfl⟩ := C27_each_class_once hv rfl base_wt hs'
  obtain ⟨q0, q1, rfl⟩ := List.length_eq_two.1 hl
  obtain ⟨q0', rfl⟩ := List.length_eq_one_iff.1 hl'
  have h0 := hq 0 1 _ q0 rfl rfl rfl
  have h0' := hq' 0 1 _ q0' rfl rfl rfl
  have h1 := hq 1 2 _ q1 rfl rfl rfl
  obtain ⟨n0, h0⟩ := h0
  obtain ⟨n0', h0'⟩ := h0'
  obtain ⟨n1, h1⟩ := h1
  have v0 : q0 = intBytes .little 8 1 ++ [99] := by
    have hr : serMembers (cfg false true) ((env.cls 1).fields.map (elem (cfg false true) env (n0 + 1))) (wroteStream [])
      [.str ⟨15, [99]⟩] = .ok ([.str ⟨15, [99]⟩], wroteStream (intBytes .little 8 1 ++ [99])) := rfl
    have h := hr.symm.trans (h0 (n0 + 1) (by omega))
    simp only [wroteStream, Out.ok.injEq, Prod.mk.injEq, Ser.mk.injEq, Core.streamPacker.injEq, true_and] at h
    exact h.1.1.symm
  have v0' : q0' = intBytes .little 8 1 ++ [99] := by
    have hr : serMembers (cfg false true) (((env2 baseFirst).cls 1).fields.map (elem (cfg false true) (env2 baseFirst) (n0' + 1)))
      (wroteStream []) [.str ⟨15, [99]⟩] = .ok ([.str ⟨15, [99]⟩], wroteStream (intBytes .little 8 1 ++ [99])) := rfl
    have h := hr.symm.trans (h0' (n0' + 1) (by omega))
    simp only [wroteStream, Out.ok.injEq, Prod.mk.injEq, Ser.mk.injEq, Core.streamPacker.injEq, true_and] at h
    exact h.1.1.symm
  have v1 : q1 = intBytes .little 8 ((env.ti (.uptr (.cls 1))).sizeof * 1 % 2 ^ 64) := by
    have hr : serMembers (cfg false true) ((env.cls 2).fields.map (elem (cfg false true) env (n1 + 1))) (wroteStream [])
      [.raw (intBytes .little 8 ((env.ti (.uptr (.cls 1))).sizeof * 1 % 2 ^ 64))] =
        .ok ([.raw (intBytes .little 8 ((env.ti (.uptr (.cls 1))).sizeof * 1 % 2 ^ 64))],
          wroteStream (intBytes .little 8 ((env.ti (.uptr (.cls 1))).sizeof * 1 % 2 ^ 64))) := rfl
    have h := hr.symm.trans (h1 (n1 + 1) (by omega))
    simp only [wroteStream, Out.ok.injEq, Prod.mk.injEq, Ser.mk.injEq, Core.streamPacker.injEq, true_and] at h
    exact h.1.1.symm
  subst v0 v0' v1
  obtain ⟨z, hz, he⟩ := (isEnc_of_stream hv base_wt hs').inPlace hv (fun _ h => h)
    (prior_of_clean hv trivial (hv.fresh _).2 (hv.fresh _).1)
    (intBytes .little 8 ((env.ti (.uptr (.cls 1))).sizeof * 1 % 2 ^ 64))
  simp only [deserialize_elem]
  exact ⟨z, _, hz, he⟩

example {check nd nd' : Bool} {bs : Bytes} (hs : StreamForm (cfg check nd) env sampleTy sample bs) :
    ReadsBack (cfg check nd') (env2 longer) sampleTy bs ((env2 longer).fresh sampleTy)
      (Rel .contents (env2 longer) sampleTy sample) :=
  have hv := valid2 (reg := longer) (fun r => by unfold longer; split <;> simp) (check := check) (ndebug := nd')
  C51_read_elsewhere valid_contents hv (same2 _) sample_wt
    (wt2 (fun r d => by by_cases h : r = 1 <;> simp [h, env, longer]; tauto) sample_wt) sample_byVal hs
    (hv.fresh _).1 (hv.fresh _).2

/-- A program in which one more type is registered before all others. -/
example {check nd nd' : Bool} {bs : Bytes} (hs : StreamForm (cfg check nd) env int (.raw [1, 2, 3, 4]) bs) (n : Nat) :
    AllReadsThrow (cfg check nd') (elem (cfg check nd')
      { env with ti := fun t => { env.ti t with idx := encodeIndex ((code t + 1) % 65536) } } n int) bs := by
  have := C51_other_index_rejected (R := .contents) (cfg := cfg check nd) (cfg' := cfg check nd') (env := env)
    (t := int) (x := .raw [1, 2, 3, 4])
    (env' := { env with ti := fun t => { env.ti t with idx := encodeIndex ((code t + 1) % 65536) } })
    valid_contents rfl (.prim rfl) hs (by decide : encodeIndex 22 ≠ encodeIndex 21) n []
  simpa using this

example {check nd : Bool} {bs : Bytes} (hs : StreamForm (cfg check nd) env (.uptr (.cls 1)) (.ptr (some circle)) bs)
    (n : Nat) (y : Val) (k : Nat)
    (h : deserialize (cfg check nd) (elem (cfg check nd) (env2 swapped) n (.uptr (.cls 1))) bs = .ok (y, k)) :
    ¬ Rel .contents (env2 swapped) (.uptr (.cls 1)) (.ptr (some circle)) y := by
  obtain ⟨qs, rfl⟩ := (C51_reordered_other_class (R := .contents) (d' := 3) valid_contents
    (valid2 (reg := swapped) (fun r => by unfold swapped; split <;> simp)) rfl rfl rfl circlePtr_wt hs rfl n).1 y k h
  exact C51_reordered_not_equal (by decide)

end Ckpt.Demo
