import Verif.Props.InPlace
import Verif.Proofs.Frame
import Verif.Proofs.Poly
import Verif.Proofs.RegOps
/-!
# Polymorphic classes (C27–C32)
-/

set_option autoImplicit false

namespace Ckpt

variable {R : RelMode} {cfg : Cfg} {env : Env} {x : Val}

/-! ## C27 -/

/-- C27: a `unique_ptr` to a base class comes back pointing to an object of the same dynamic class, and
every member of every class from the root down to it has the value it had. -/
theorem C27_dynamic_type (hv : env.Valid R (· ∈ builtinKinds) cfg) {c d : Nat} {ps : List (List Val)}
    (hx : WT R env (.uptr (.cls c)) (.ptr (some (.obj d ps)))) {bs : Bytes}
    (hs : StreamForm cfg env (.uptr (.cls c)) (.ptr (some (.obj d ps))) bs) :
    ReadsBack cfg env (.uptr (.cls c)) bs (.ptr none) fun z => ∃ qs,
      z = .ptr (some (.obj d qs)) ∧ ps.length = (env.chain d).length ∧ qs.length = (env.chain d).length ∧
      ∀ (j k : Nat) p q, (env.chain d)[j]? = some k → ps[j]? = some p → qs[j]? = some q →
        p.length = (env.cls k).fields.length ∧ q.length = (env.cls k).fields.length ∧
        ∀ (i : Nat) t a b, (env.cls k).fields[i]? = some t → p[i]? = some a → q[i]? = some b →
          Rel R env t a b := by
  refine (C21_unique_ptr hv hx hs none (fun _ h => by cases h)).mono ?_
  rintro z ⟨v', rfl, hr⟩
  cases hr with
  | obj h1 h2 h3 h4 =>
    exact ⟨_, rfl, h1, h2, fun j k p q hk hp hq =>
      ⟨(h3 j k p q hk hp hq).1, (h3 j k p q hk hp hq).2, h4 j k p q hk hp hq⟩⟩

/-- C27, what is written: null flag, dynamic class, then once for each class from the root down to the
dynamic class exactly the bytes its own serialize function writes for its own members. -/
theorem C27_each_class_once (hv : env.Valid R (· ∈ builtinKinds) cfg) {c d : Nat} {ps : List (List Val)}
    (hvt : (env.cls c).virt = true) (hx : WT R env (.uptr (.cls c)) (.ptr (some (.obj d ps)))) {bs : Bytes}
    (hs : StreamForm cfg env (.uptr (.cls c)) (.ptr (some (.obj d ps))) bs) :
    ∃ qs : List Bytes, qs.length = (env.chain d).length ∧
      (∀ (j k : Nat) p q, (env.chain d)[j]? = some k → ps[j]? = some p → qs[j]? = some q →
        Yields (fun n => serMembers cfg ((env.cls k).fields.map (elem cfg env n)) (wroteStream []) p)
          (.ok (p, wroteStream q))) ∧
      bs = node cfg true (env.ti (.uptr (.cls c))) 1 (boolNode cfg cfg.check false ++
        (node cfg cfg.check cfg.tiInt 1 (intBytes cfg.endian 4 ((env.objReg (env.root c)).idxOf d)) ++
          node cfg cfg.check (env.ti (.cls c)) 1
            (List.zipWith (fun k q => node cfg cfg.check (env.ti (.cls k)) 1 q) (env.chain d) qs).flatten)) :=
  ptr_levels hv (fun _ h => h) hvt (isEnc_of_stream hv hx hs)

/-- C27: a class is numbered in the registry of the root of its hierarchy: the first of its bases, or the class itself
if it has none. -/
theorem C27_numbered_by_root (c : Nat) :
    ((env.cls c).bases = [] → ∀ d ps, env.dynIdx c (.obj d ps) = (env.objReg c).idxOf d) ∧
    ∀ b bs, (env.cls c).bases = b :: bs → ∀ d ps, env.dynIdx c (.obj d ps) = (env.objReg b).idxOf d :=
  ⟨fun h d ps => by simp [Env.dynIdx, Env.root, h], fun b bs h d ps => by simp [Env.dynIdx, Env.root, h]⟩

example : (Demo.env.cls 1).bases = [] ∧ (Demo.env.cls 2).bases = [1] := ⟨rfl, rfl⟩

example : WT R Demo.env (.uptr (.cls 1)) (.ptr (some Demo.circle)) ∧ (Demo.env.cls 1).virt = true ∧
    Demo.env.chain 2 = [1, 2] ∧ Demo.env.Valid .exact (· ∈ builtinKinds) (Demo.cfg true false) :=
  ⟨Demo.circlePtr_wt, rfl, rfl, Demo.valid_exact⟩

/-! ## C28 -/

/-- C28: after any history of registrations, in any order, the lookup made when an object of class `d`
is serialized by serializer `k` finds an entry made for serializer `k` (with or without assertions). -/
theorem C28_finds_own_serializer (root : Nat → Nat) (ops : List RegOp) (nd : Bool) (d : Nat) {k : Kind}
    (hk : k ≠ .custom) : (RegOp.runAll root ops).lookup nd d (root d) k = .ok k :=
  SerReg.lookup_eq (RegOp.inv root ops) nd d (by cases k <;> simp_all [builtinKinds])

/-- C28, object registry: whatever order classes register in (and however often), every registered class
has an index of its own under which it is found again. -/
theorem C28_object_index (ds : List Nat) {d : Nat} (hd : d ∈ ds) :
    (ds.foldl ObjReg.register [])[ObjReg.idxOf (ds.foldl ObjReg.register []) d]? = some d ∧
    ∀ d', ObjReg.idxOf (ds.foldl ObjReg.register []) d' = ObjReg.idxOf (ds.foldl ObjReg.register []) d →
      d' = d := by
  have hm : d ∈ ds.foldl ObjReg.register [] := ObjReg.all.2 d |>.2 hd
  have h1 : (ds.foldl ObjReg.register [])[ObjReg.idxOf (ds.foldl ObjReg.register []) d]? = some d := by
    unfold ObjReg.idxOf
    rw [List.getElem?_eq_getElem (List.idxOf_lt_length_of_mem hm), List.getElem_idxOf]
  refine ⟨h1, fun d' h => ?_⟩
  have hlt : List.idxOf d' (ds.foldl ObjReg.register []) < (ds.foldl ObjReg.register []).length := by
    have : List.idxOf d' (ds.foldl ObjReg.register []) = List.idxOf d (ds.foldl ObjReg.register []) := h
    rw [this]; exact List.idxOf_lt_length_of_mem hm
  have h2 : (ds.foldl ObjReg.register [])[ObjReg.idxOf (ds.foldl ObjReg.register []) d']? = some d' := by
    unfold ObjReg.idxOf
    rw [List.getElem?_eq_getElem hlt, List.getElem_idxOf]
  rw [h, h1] at h2
  exact (Option.some.inj h2).symm

/-- C28, limit: a user-defined traverser is never linked, so dispatching it to a class that is not the
root of its hierarchy fails the library's assertion (without assertions: calls an empty function). -/
theorem C28_user_defined_not_found (root : Nat → Nat) (ops : List RegOp) (nd : Bool) {d : Nat} (hd : d ≠ root d) :
    (RegOp.runAll root ops).lookup nd d (root d) .custom = if nd then .throw .badFunctionCall else .abort :=
  SerReg.lookup_custom (RegOp.inv root ops) (RegOp.unlinked root ops) hd nd

example : Kind.streamUnpacker ∈ builtinKinds ∧ (2 : Nat) ≠ (fun _ => 1) 2 ∧
    ((RegOp.runAll (fun _ => 1) [.register 2 .unpacker, .instantiate 3, .register 1 .custom, .instantiate 2]) 2).length = 9 ∧
    ObjReg.idxOf ([2, 1, 2, 3].foldl ObjReg.register []) 3 = 2 := by decide

/-! ## C29 -/

/-- C29: whatever was serialized or deserialized before, of any type and with any outcome short of an
error, the next polymorphic object is dispatched by its dynamic class: all classes of the hierarchy from the
root to `d` are visited, by the serializer registry, not the declared class only. -/
theorem C29_reenabled {n : Nat} {t : Ty} {s s' : Ser} {y : Val} (hs : s.vdis = false)
    (h : traverseTop cfg (elem cfg env n t) s x = .ok (y, s') ∨ pipe cfg (elem cfg env n t) s x = .ok (y, s')) :
    s'.vdis = false ∧ ∀ c, (env.cls c).virt = true → ∀ m d ps rest,
      dispatch cfg env (m + 1) (.cls c) s' (.obj d ps :: rest) =
        serChain cfg env.serReg (env.root d) (fun k => partElem (env.ti (.cls k)) (fun s ps =>
          dispatchEach (fun s p => serMembers cfg (((env.cls k).visited s).map (elem cfg env m)) s p)
            (s.setVdis false) ps) []) (env.chain d) s' ps >>= fun r => .ok (.obj d r.1 :: rest, r.2) := by
  have hE : Throws (fun _ => True) := ⟨fun _ _ => trivial, fun _ _ _ => trivial, fun _ _ _ _ _ => trivial, fun _ _ => trivial⟩
  have hR : Moves (fun _ _ => True) :=
    ⟨fun _ => trivial, fun _ _ => trivial, fun _ _ => trivial, fun _ _ => trivial, fun _ _ _ _ _ _ => trivial⟩
  have hs' : s'.vdis = false := by
    rcases h with h | h
    · have := traverseTop_fr (cfg := cfg) hE.other hR (fun _ _ _ => trivial) (fun _ _ _ _ => trivial)
        (elem_fr (cfg := cfg) (env := env) hE hR n t) hs x
      rw [h] at this
      exact this.2
    · have := pipe_fr (cfg := cfg) hR (elem_fr (cfg := cfg) (env := env) hE hR n t) hs x
      rw [h] at this
      exact this.2
  exact ⟨hs', fun c hvt m d ps rest => dispatch_virt hvt m s' d ps rest hs'⟩

/-- A handler that leaves the virtual dispatch flag as it is, in the middle of an element. -/
theorem pipe_keeps {T : Type} {e : Elem T} {b : Bool}
    (he : ∀ s xs r, s.vdis = b → e.apply s xs = .ok r → r.2.vdis = b) {s : Ser} (hs : s.vdis = b) {a : T} {r : T × Ser}
    (h : pipe cfg e s a = .ok r) : r.2.vdis = b := by
  have hE : Throws (fun _ => True) := ⟨fun _ _ => trivial, fun _ _ _ => trivial, fun _ _ _ _ _ => trivial, fun _ _ => trivial⟩
  have hR : Moves (fun _ _ => True) :=
    ⟨fun _ => trivial, fun _ _ => trivial, fun _ _ => trivial, fun _ _ => trivial, fun _ _ _ _ _ _ => trivial⟩
  have hf : ∀ s xs, s.vdis = b → Fr (fun _ => True) (fun _ _ => True) b s (e.apply s xs) := by
    intro s xs hs
    cases h : e.apply s xs with
    | ok r => exact ⟨trivial, he s xs r hs h⟩
    | _ => trivial
  have : Fr (fun _ => True) (fun _ _ => True) b s (pipe cfg e s a) := by
    unfold pipe
    refine Fr.bind hR (b := b) ?_ (fun r hr => ?_)
    · unfold traverse
      split
      · next hc =>
        refine FrS.bind hR (withTypeIdx_fr hE.other hR hs fun _ _ => trivial) (fun s' hs' => ?_)
        refine Fr.bind hR (catchDepth_fr (hE.lifts cfg _) hc (hf s' [a] hs')) (fun r hr => ?_)
        exact FrS.bind hR (withMemUsed_fr hE.other hR hr (fun _ _ _ => trivial) _)
          (fun s'' hs'' => Fr.pure hR _ hs'')
      · exact hf s [a] hs
    · obtain ⟨ys, s'⟩ := r
      match ys with
      | [] => trivial
      | [y] => exact Fr.pure hR _ hr
      | _ :: _ :: _ => trivial
  rw [h] at this
  exact this.2

/-- C29, the exception: if the dynamic class `d` of an object is byte-copyable (so that its part is copied
by `dispatchByte`, which does not re-enable virtual dispatch), the object leaves virtual dispatch disabled,
whatever its other classes are. -/
theorem C29_byte_copyable_disables {P : Type} {reg : SerReg} {root : Nat} {part : Nat → Elem P} {d : Nat}
    (hd : ∀ s xs r, (part d).apply s xs = .ok r → r.2.vdis = s.vdis) :
    ∀ (ks : List Nat) {s s' : Ser} {ps qs : List P},
    serChain cfg reg root part (ks ++ [d]) s ps = .ok (qs, s') → s'.vdis = true
  | [], s, s', p :: ps, qs, h => by
    simp only [List.nil_append, serChain] at h
    obtain ⟨k, _, h⟩ := Out.bind_ok_inv h
    split at h
    · cases h
    obtain ⟨r, hr, h⟩ := Out.bind_ok_inv h
    obtain ⟨q, hq, h⟩ := Out.bind_ok_inv h
    have h1 := pipe_keeps (b := true) (fun s xs r hs hr => (hd s xs r hr).trans hs) rfl hr
    cases ps with
    | cons _ _ => simp [serChain] at hq
    | nil =>
      simp only [serChain, Out.ok.injEq] at hq
      subst hq
      simp only [Out.ok.injEq, Prod.mk.injEq] at h
      rw [← h.2]
      exact h1
  | k :: ks, s, s', p :: ps, qs, h => by
    simp only [List.cons_append, serChain] at h
    obtain ⟨kd, _, h⟩ := Out.bind_ok_inv h
    split at h
    · cases h
    obtain ⟨r, hr, h⟩ := Out.bind_ok_inv h
    obtain ⟨q, hq, h⟩ := Out.bind_ok_inv h
    have := C29_byte_copyable_disables hd ks (s' := q.2) (qs := q.1) hq
    simp only [Out.ok.injEq, Prod.mk.injEq] at h
    rw [← h.2]
    exact this
  | [], _, _, [], _, h => by simp [serChain] at h
  | _ :: _, _, _, [], _, h => by simp [serChain] at h

/-- `dispatchByte` is such a handler. -/
theorem dispatchByte_keeps (size : Nat) (s : Ser) (xs : List Bytes) (r : List Bytes × Ser)
    (h : dispatchByte size s xs = .ok r) : r.2.vdis = s.vdis := by
  simp only [dispatchByte] at h
  obtain ⟨q, hq, h⟩ := Out.bind_ok_inv h
  simp only [Out.ok.injEq] at h
  rw [← h]
  exact contiguousBytes_vdis hq

theorem idxOf_first {c : Nat} : ∀ {l : List Nat} {j : Nat}, l[j]? = some c → (∀ i < j, l[i]? ≠ some c) →
    List.idxOf c l = j
  | [], j, h, _ => by simp at h
  | a :: l, 0, h, _ => by simp at h; simp [h]
  | a :: l, j + 1, h, hf => by
    have h0 : a ≠ c := by simpa using hf 0 (by omega)
    rw [List.idxOf_cons_ne _ h0, idxOf_first (j := j) (by simpa using h) fun i hi => by
      simpa using hf (i + 1) (by omega)]

/-- C29, the consequence: with virtual dispatch disabled, a polymorphic object of any dynamic class `d` is
serialized (written or read) as if it were of its declared class `c`: only the members of that class are
visited, the other parts of the object stay as they are. -/
theorem C29_sliced {c d j : Nat} {ps : List (List Val)} {p : List Val} (hvt : (env.cls c).virt = true) {s : Ser}
    (hs : s.vdis = true) (hj : (env.chain d)[j]? = some c) (hfst : ∀ i < j, (env.chain d)[i]? ≠ some c)
    (hp : ps[j]? = some p) (n : Nat) :
    dispatch cfg env (n + 1) (.cls c) s [.obj d ps] =
      (serMembers cfg (((env.cls c).visited s).map (elem cfg env n)) (s.setVdis false) p).bind fun r =>
        .ok ([.obj d (ps.set j r.1)], r.2) := by
  have hidx := idxOf_first hj hfst
  simp only [dispatch, dispatchStep, hvt, if_true, hs, dispatchEach, onPart, hidx, hp]
  simp only [Out.bind_eq, Out.bind_assoc, Out.bind_ok]
  rfl

example : (Demo.env.cls 1).virt = true ∧ (Demo.env.chain 2)[0]? = some 1 ∧ (Demo.env.chain 2)[1]? = some 2 ∧
    (∀ i < 1, (Demo.env.chain 2)[i]? ≠ some 2) := ⟨rfl, rfl, rfl, by decide⟩

set_option maxRecDepth 4000 in
/-- A byte-copyable polymorphic object of 4 bytes, then a `Circle` held by a `Shape*`: the radius is not
written. -/
example :
    (match serChain (Demo.cfg false false) Demo.env.serReg 1
        (fun k => partElem ⟨k, encodeIndex k, 4⟩ (dispatchByte 4) []) [1]
        { core := .streamPacker [] none 0, kind := .streamPacker } [[1, 2, 3, 4]] with
      | .ok (_, s) => (match dispatch (Demo.cfg false false) Demo.env 3 (.cls 1) s [Demo.circle] with
        | .ok (_, s') => some s'.core
        | _ => none)
      | _ => none) =
    some (.streamPacker ([1, 2, 3, 4] ++ [1, 0, 0, 0, 0, 0, 0, 0, 99]) none 13) := by rfl

/-! ## C30 -/

/-- C30: of an array of objects of a virtually serializable class only the first is written (the bytes do
not depend on the others) and only the first is restored; the others keep the value the constructor gave
them. -/
theorem C30_array_first_only (hv : env.Valid R (· ∈ builtinKinds) cfg) {c : Nat}
    (hvt : (env.cls c).virt = true) (hx : WT R env (.cls c) x) (hb : ByVal (.cls c) x) (m : Nat) :
    ∃ bs, (∀ xs : List Val, xs.length = m → StreamForm cfg env (.arr (m + 1) (.cls c)) (.coll (x :: xs)) bs) ∧
      ∀ y ys, ys.length = m → Clean R cfg env (.cls c) y → ByVal (.cls c) y →
        ReadsOver cfg env (.arr (m + 1) (.cls c)) bs (.coll (y :: ys)) fun z =>
          ∃ x', z = .coll (x' :: ys) ∧ Rel R env (.cls c) x x' := by
  obtain ⟨n0, h0⟩ := codec_P (cfg := cfg) hx
  have hP := h0 (n0 + 1) (by omega)
  refine ⟨node cfg true (env.ti (.arr (m + 1) (.cls c))) 1 (node cfg cfg.check (env.ti (.cls c)) (m + 1)
    ((codec R cfg env (n0 + 1) (.cls c)).enc cfg.check x)), ?_, ?_⟩
  · rintro xs rfl
    have L := firstArr_law (xs := xs) (ys := xs) hv hvt n0 rfl hP
      (prior_of_clean hv hb (hv.fresh (.cls c)).2 (hv.fresh (.cls c)).1 _ hP)
    have := toStream_law (fun k h => h) (e := elem cfg env (n0 + 2) (.arr (xs.length + 1) (.cls c))) L rfl
      { data := [] } (by simp)
    simp only [List.nil_append] at this
    exact Yields.at (fun {n m} hnm => toStream_le (elem_le cfg env hnm _) _ _) (n0 + 2) this (by simp)
  · rintro y ys rfl hc hyb
    have L := firstArr_law (xs := ys) (ys := ys) hv hvt n0 rfl hP (prior_of_clean hv hb hyb hc _ hP)
    refine (readsOver_of_rd (n := n0 + 2) (top_rd (e := elem cfg env (n0 + 2) (.arr (ys.length + 1) (.cls c))) L rfl rfl)).mono ?_
    rintro z ⟨z', rfl, hz⟩
    exact ⟨z', rfl, codec_rel _ _ _ _ hz⟩

/-- C30, vectors: the number of elements is restored, but only the first element is; the others are as the
vector constructed them. -/
theorem C30_vector_first_only (hv : env.Valid R (· ∈ builtinKinds) cfg) {c : Nat}
    (hvt : (env.cls c).virt = true) (hx : WT R env (.cls c) x) (hb : ByVal (.cls c) x) {m cap : Nat}
    (hm : m + 1 ≤ cap) (hcap : cap < 2 ^ 64) :
    ∃ bs, (∀ xs : List Val, xs.length = m → StreamForm cfg env (.vec (.cls c)) (.vec cap (x :: xs)) bs) ∧
      ∀ cap', ReadsOver cfg env (.vec (.cls c)) bs (.vec cap' []) fun z =>
          ∃ x' k, z = .vec k (x' :: List.replicate m ((env.dflt (.cls c)).getD (env.fresh (.cls c)))) ∧
            Rel R env (.cls c) x x' := by
  obtain ⟨n0, h0⟩ := codec_P (cfg := cfg) hx
  have hP := h0 (n0 + 1) (by omega)
  have hn : Clean R cfg env (.cls c) ((env.dflt (.cls c)).getD (env.fresh (.cls c))) ∧
      ByVal (.cls c) ((env.dflt (.cls c)).getD (env.fresh (.cls c))) := by
    cases hd : env.dflt (.cls c) with
    | none => exact hv.fresh (.cls c)
    | some v => exact hv.dflt _ _ hd
  have hp := prior_of_clean hv hb hn.2 hn.1 _ hP
  refine ⟨node cfg true (env.ti (.vec (.cls c))) 1 (sizeNode cfg cfg.check cap ++ sizeNode cfg cfg.check (m + 1) ++
    node cfg cfg.check (env.ti (.cls c)) (m + 1) ((codec R cfg env (n0 + 1) (.cls c)).enc cfg.check x)), ?_, ?_⟩
  · rintro xs rfl
    have L := firstVec_law (xs := xs) (cap' := 0) hv hvt n0 hm hcap hP hp
    have := toStream_law (fun k h => h) (e := elem cfg env (n0 + 2) (.vec (.cls c))) L rfl
      { data := [] } (by simp)
    simp only [List.nil_append] at this
    exact Yields.at (fun {n m} hnm => toStream_le (elem_le cfg env hnm _) _ _) (n0 + 2) this (by simp)
  · intro cap'
    have L := firstVec_law (xs := List.replicate m x) (cap' := cap') hv hvt n0 (by simpa using hm) hcap hP hp
    have := readsOver_of_rd (n := n0 + 2) (top_rd (e := elem cfg env (n0 + 2) (.vec (.cls c))) L rfl rfl)
    simp only [topEnc, firstVec, List.length_replicate] at this
    refine this.mono ?_
    rintro z ⟨z', k, rfl, hz⟩
    exact ⟨z', k, rfl, codec_rel _ _ _ _ hz⟩

/-- C30: an array of at most one polymorphic object is restored exactly. -/
theorem C30_at_most_one (hv : env.Valid R (· ∈ builtinKinds) cfg) {c : Nat} (hvt : (env.cls c).virt = true)
    {n : Nat} {xs : List Val} (hx : WT R env (.arr n (.cls c)) (.coll xs)) {bs : Bytes}
    (hs : StreamForm cfg env (.arr n (.cls c)) (.coll xs) bs) {ys : List Val}
    (hy : Clean R cfg env (.arr n (.cls c)) (.coll ys)) :
    n ≤ 1 ∧ ReadsBack cfg env (.arr n (.cls c)) bs (.coll ys) (Rel R env (.arr n (.cls c)) (.coll xs)) := by
  refine ⟨?_, reads_back hv hx trivial hs hy trivial⟩
  cases hx with
  | arr _ h => exact h.1 hvt

example : WT R Demo.env (.cls 2) Demo.circle ∧ ByVal (.cls 2) Demo.circle ∧ (Demo.env.cls 2).virt = true ∧
    Demo.env.Valid .capacity (· ∈ builtinKinds) (Demo.cfg false true) :=
  ⟨Demo.circle_wt 2 (by decide), rfl, rfl, Demo.valid_capacity⟩

/-! ## C31 -/

/-- A pointer with dynamic class index `i`, as `C27_each_class_once` shows it is written, followed by
anything. -/
def ptrInput (cfg : Cfg) (env : Env) (c i : Nat) (rest : Bytes) : Bytes :=
  intBytes cfg.endian 4 (env.ti (.uptr (.cls c))).idx ++ (boolNode cfg cfg.check false ++
    node cfg cfg.check cfg.tiInt 1 (intBytes cfg.endian 4 i)) ++ rest

/-- All four ways to read the input into a null pointer. -/
def PtrReads (cfg : Cfg) (env : Env) (c : Nat) (inp : Bytes) (f : Fin) : Prop :=
  Yields (fun n => deserialize cfg (elem cfg env n (.uptr (.cls c))) inp) f.out ∧
  Yields (fun n => deserializeFromStream cfg (elem cfg env n (.uptr (.cls c))) inp) f.out ∧
  Yields (fun n => deserializeInPlace cfg (elem cfg env n (.uptr (.cls c))) inp (.ptr none)) f.out ∧
  Yields (fun n => deserializeInPlaceFromStream cfg (elem cfg env n (.uptr (.cls c))) inp (.ptr none)) f.out

/-- A new `unique_ptr` to a polymorphic class is null. -/
theorem fresh_ptr_null (hv : env.Valid R (· ∈ builtinKinds) cfg) {c : Nat} (hvt : (env.cls c).virt = true) :
    env.fresh (.uptr (.cls c)) = .ptr none := by
  have h := (hv.fresh (.uptr (.cls c))).1
  generalize env.fresh (.uptr (.cls c)) = w at h
  cases h with
  | ptrNull => rfl
  | ptr h1 => simp [Env.isVirt, hvt] at h1

theorem ptrReads_of (hv : env.Valid R (· ∈ builtinKinds) cfg) {c i : Nat} (hvt : (env.cls c).virt = true)
    (hi : i < 2 ^ 32) (rest : Bytes) {g : Fin} (hg : g.Plain)
    (hcon : (env.construct cfg c i : Out (Option Val)) = g.out ∨
      (env.construct cfg c i = .ok none ∧ g = .ub .nullDeref)) :
    PtrReads cfg env c (ptrInput cfg env c i rest) g := by
  have hE : ∀ e, ¬ (Scope.quiet (· ∈ builtinKinds)).errs e := fun _ h => h
  have h1 := uptr_ends_null (S := Scope.quiet (· ∈ builtinKinds)) (cfg := cfg) (e := elem cfg env 0 (.cls c))
    (sz := (env.ti (.uptr (.cls c))).sizeof) (vi := ⟨env.dynIdx c, env.construct cfg c⟩) hE hv.cfgOk hi hcon
  have h2 : Ends (Scope.quiet (· ∈ builtinKinds)) (fun s => (elem cfg env 1 (.uptr (.cls c))).apply s [.ptr none]) _ g :=
    (each_ends (y := Val.ptr none) (g := fun s v => match v with
      | .ptr p => serUniquePtr cfg (env.ti (.uptr (.cls c))).sizeof (elem cfg env 0 (.cls c)) (env.virt cfg (.cls c)) s p
          >>= fun r => .ok (.ptr r.1, r.2)
      | _ => .ub .typeConfusion) ((h1.bind (fun r => .ok (Val.ptr r.1, r.2))).congr fun s _ => by simp only [Env.virt, hvt, if_true])).congr
      fun s _ => rfl
  have h3 := allEnd_of_ends (fun _ h => h) (top_ends (cfg := cfg) hE hg (hv.ti _) h2) rest
  refine ⟨?_, ?_, h3.1, h3.2⟩
  · simp only [deserialize_elem, fresh_ptr_null hv hvt]; exact h3.1
  · simp only [deserializeFromStream_elem, fresh_ptr_null hv hvt]; exact h3.2

/-- C31: a dynamic class index outside the registry — any 32-bit pattern that is not the index of a
registered class, in particular every negative `int` — makes deserialization throw `std::out_of_range`. -/
theorem C31_unknown_class_throws (hv : env.Valid R (· ∈ builtinKinds) cfg) {c i : Nat}
    (hvt : (env.cls c).virt = true) (hi : i < 2 ^ 32) (hun : (env.objReg (env.root c)).length ≤ i) (rest : Bytes) :
    PtrReads cfg env c (ptrInput cfg env c i rest) (.throw .outOfRange) := by
  refine ptrReads_of hv hvt hi rest (by simp [Fin.Plain]) (.inl ?_)
  simp [Env.construct, List.getElem?_eq_none hun, Fin.out]

/-- C31: a negative index, read as a 32-bit pattern, is outside every registry. -/
theorem C31_negative_index (hv : env.Valid R (· ∈ builtinKinds) cfg) {c i : Nat}
    (hvt : (env.cls c).virt = true) (hi : i < 2 ^ 32) (hneg : 2 ^ 31 ≤ i) (rest : Bytes) :
    PtrReads cfg env c (ptrInput cfg env c i rest) (.throw .outOfRange) :=
  C31_unknown_class_throws hv hvt hi (by have := hv.regSize (env.root c); omega) rest

/-- C31: the index of an abstract class fails the library's assertion; with assertions compiled out, a null
pointer is used. -/
theorem C31_abstract_class (hv : env.Valid R (· ∈ builtinKinds) cfg) {c d i : Nat}
    (hvt : (env.cls c).virt = true) (hi : i < 2 ^ 32) (hd : (env.objReg (env.root c))[i]? = some d)
    (habs : (env.cls d).abstract = true) (rest : Bytes) :
    PtrReads cfg env c (ptrInput cfg env c i rest) (if cfg.ndebug then .ub .nullDeref else .abort) := by
  cases hnd : cfg.ndebug with
  | false =>
    refine ptrReads_of hv hvt hi rest (by simp [Fin.Plain]) (.inl ?_)
    simp [Env.construct, hd, habs, hnd, Fin.out]
  | true =>
    refine ptrReads_of hv hvt hi rest (by simp [Fin.Plain]) (.inr ⟨?_, rfl⟩)
    simp [Env.construct, hd, habs, hnd]

example : (Demo.env.cls 1).virt = true ∧ (Demo.env.objReg (Demo.env.root 1)).length ≤ 4 ∧
    (Demo.env.objReg (Demo.env.root 1))[3]? = some 5 ∧ (Demo.env.cls 5).abstract = true := by decide

/-! ## C32 -/

/-- C32: restoring a pointer in place over a pointer whose object is of another registered class fails the
library's assertion. -/
theorem C32_other_class_asserts (hv : env.Valid R (· ∈ builtinKinds) cfg) (hnd : cfg.ndebug = false) {c d d' : Nat}
    {ps qs : List (List Val)} (hvt : (env.cls c).virt = true)
    (hx : WT R env (.uptr (.cls c)) (.ptr (some (.obj d ps)))) {bs : Bytes}
    (hs : StreamForm cfg env (.uptr (.cls c)) (.ptr (some (.obj d ps))) bs)
    (hd' : d' ≠ d) (rest : Bytes) :
    AllEnd cfg env (.uptr (.cls c)) (bs ++ rest) (.ptr (some (.obj d' qs))) .abort := by
  have hE : ∀ e, ¬ (Scope.quiet (· ∈ builtinKinds)).errs e := fun _ h => h
  obtain ⟨bss, _, _, rfl⟩ := C27_each_class_once hv hvt hx hs
  have hmem : d ∈ env.objReg (env.root c) := by
    cases hx with
    | ptr _ h _ => exact (h c d ps rfl rfl hvt).1
  have hlt : (env.objReg (env.root c)).idxOf d < (env.objReg (env.root c)).length := List.idxOf_lt_length_of_mem hmem
  have hne : env.dynIdx c (.obj d' qs) ≠ (env.objReg (env.root c)).idxOf d := by
    intro h
    have h' : List.idxOf d' (env.objReg (env.root c)) = List.idxOf d (env.objReg (env.root c)) := h
    have hlt' : List.idxOf d (env.objReg (env.root c)) < (env.objReg (env.root c)).length := hlt
    have e1 : (env.objReg (env.root c))[List.idxOf d (env.objReg (env.root c))]? = some d := by
      rw [List.getElem?_eq_getElem hlt', List.getElem_idxOf]
    have e2 : (env.objReg (env.root c))[List.idxOf d' (env.objReg (env.root c))]? = some d' := by
      rw [List.getElem?_eq_getElem (h' ▸ hlt'), List.getElem_idxOf]
    rw [h', e1] at e2
    exact hd' (Option.some.inj e2).symm
  have h1 := uptr_ends_mismatch (S := Scope.quiet (· ∈ builtinKinds)) (cfg := cfg) (e := elem cfg env 0 (.cls c))
    (sz := (env.ti (.uptr (.cls c))).sizeof) (vi := ⟨env.dynIdx c, env.construct cfg c⟩) hE hv.cfgOk
    (i := (env.objReg (env.root c)).idxOf d) (by have := hv.regSize (env.root c); omega) (y := .obj d' qs) hne hnd
  have h2 : Ends (Scope.quiet (· ∈ builtinKinds))
      (fun s => (elem cfg env 1 (.uptr (.cls c))).apply s [.ptr (some (.obj d' qs))]) _ .abort :=
    (each_ends (y := Val.ptr (some (.obj d' qs))) (g := fun s v => match v with
      | .ptr p => serUniquePtr cfg (env.ti (.uptr (.cls c))).sizeof (elem cfg env 0 (.cls c)) (env.virt cfg (.cls c)) s p
          >>= fun r => .ok (.ptr r.1, r.2)
      | _ => .ub .typeConfusion) ((h1.bind (fun r => .ok (Val.ptr r.1, r.2))).congr fun s _ => by simp only [Env.virt, hvt, if_true])).congr
      fun s _ => rfl
  have h3 := fun rest => allEnd_of_ends (fun _ h => h) (top_ends (cfg := cfg) hE (by simp [Fin.Plain]) (hv.ti _) h2) rest
  have := h3 (node cfg cfg.check (env.ti (.cls c)) 1
      (List.zipWith (fun k q => node cfg cfg.check (env.ti (.cls k)) 1 q) (env.chain d) bss).flatten ++
      intBytes cfg.endian 8 ((env.ti (.uptr (.cls c))).sizeof * 1 % sizeMod) ++ rest)
  have hti : (elem cfg env 1 (.uptr (.cls c))).ti = env.ti (.uptr (.cls c)) := rfl
  rw [hti] at this
  simpa [node, sizeMod, List.append_assoc] using this

/-- C32: over an object of the same dynamic class, the pointer keeps pointing to an object of that class and
the members get the values they had when serialized. -/
theorem C32_same_class_updated (hv : env.Valid R (· ∈ builtinKinds) cfg) {c d : Nat} {ps qs : List (List Val)}
    (hx : WT R env (.uptr (.cls c)) (.ptr (some (.obj d ps)))) {bs : Bytes}
    (hs : StreamForm cfg env (.uptr (.cls c)) (.ptr (some (.obj d ps))) bs)
    (hy : Clean R cfg env (.cls c) (.obj d qs)) :
    ReadsOver cfg env (.uptr (.cls c)) bs (.ptr (some (.obj d qs))) fun z =>
      ∃ rs, z = .ptr (some (.obj d rs)) ∧ Rel R env (.cls c) (.obj d ps) (.obj d rs) := by
  have he := isEnc_of_stream hv hx hs
  have hp : ∀ n, (codec R cfg env n (.uptr (.cls c))).P (.ptr (some (.obj d ps))) →
      (codec R cfg env n (.uptr (.cls c))).prior (.ptr (some (.obj d ps))) (.ptr (some (.obj d qs))) := by
    intro n h
    cases n with
    | zero => exact h.elim
    | succ n =>
      show PtrPrior _ _ _ _ _
      refine ⟨?_, nofun, nofun⟩
      rintro a b ha hb
      cases ha; cases hb
      refine ⟨codec_prior hv.toUsable n _ _ _ (h _ rfl).1 hy (fun _ _ => rfl), ?_⟩
      intro vi hvi
      simp only [Env.virt] at hvi
      split at hvi
      · cases hvi; rfl
      · cases hvi
  intro rest
  refine ⟨?_, ?_⟩
  · obtain ⟨z, hz, hy⟩ := he.inPlace hv (fun _ h => h) hp rest
    refine ⟨z, ?_, hy⟩
    cases hz with
    | ptr h => cases h with
      | obj h1 h2 h3 h4 => exact ⟨_, rfl, .obj h1 h2 h3 h4⟩
  · obtain ⟨z, hz, hy⟩ := he.inStream hv (fun _ h => h) hp rest
    refine ⟨z, ?_, hy⟩
    cases hz with
    | ptr h => cases h with
      | obj h1 h2 h3 h4 => exact ⟨_, rfl, .obj h1 h2 h3 h4⟩

/-- C32: the existing object is the one that is read into; no object is constructed.  `construct` is not
called whatever it is: replacing it changes nothing. -/
theorem C32_object_reused {T : Type} (sz : Nat) (e : Elem T) (dyn : T → Nat) (con con' : Nat → Out (Option T)) (s : Ser)
    (y : T) (fresh' : T) :
    serUniquePtr cfg sz e (some ⟨dyn, con⟩) s (some y) =
      serUniquePtr cfg sz e (some ⟨dyn, con'⟩) s (some y) ∧
    serUniquePtr cfg sz e none s (some y) = serUniquePtr cfg sz { e with fresh := fresh' } none s (some y) :=
  ⟨rfl, rfl⟩

example : WT R Demo.env (.uptr (.cls 1)) (.ptr (some Demo.circle)) ∧
    Clean .exact (Demo.cfg true false) Demo.env (.cls 2) (Demo.fresh (.cls 2)) ∧ (3 : Nat) ≠ 2 :=
  ⟨Demo.circlePtr_wt, Demo.fresh_clean (fun _ _ => rfl) _, by decide⟩

end Ckpt
