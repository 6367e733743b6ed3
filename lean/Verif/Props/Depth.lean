import Verif.Proofs.Depth
import Verif.Proofs.File
import Verif.Proofs.Post
import Verif.Props.Weight
import Verif.Props.Safety
import Verif.Spec.DemoList
/-!
# Properties: how deeply reading nests (C81)
-/

set_option autoImplicit false

namespace Ckpt

section
variable {cfg : Cfg} {env : Env} {t : Ty} {depth : Nat}

theorem Good.ends {β : Type} {U : UB → Prop} {m : Nat} {o : Out (Val × Ser)} (f : Ser → β)
    (h : Good U m (Inv env (exact t) t) o) : EndsSafely U env t (o >>= fun q => .ok (q.1, f q.2)) := by
  cases o with
  | ok q => exact (inv_exact t q.1).1 h.1
  | throw e => trivial
  | abort => trivial
  | ub u => exact h
  | fuel => exact h.elim

theorem EndsSafely.ne_fuel {β : Type} {U : UB → Prop} {o : Out (Val × β)} (h : EndsSafely U env t o) : o ≠ .fuel := by
  rintro rfl
  exact h

/-- **C81**.  If objects of type `t` nest at most `depth` deep between containers, optionals, variants and pointers,
then reading one from a stream with any contents never has more than `depth` objects per byte of the stream (and one
byte more) being read within each other. -/
theorem C81_stream_in_place (hE : env.Sound cfg) (ht : NestsUpTo env depth t) (inp : Bytes) {y : Val}
    (hy : Formed env t y ∧ ByVal t y) :
    ∃ o, EndsSafely (Hazard cfg env) env t o ∧
      ∀ n, depth * (inp.length + 1) ≤ n → deserializeInPlaceFromStream cfg (elem cfg env n t) inp y = o := by
  have h := (traverseTop_depth (m := inp.length) (s := { core := .streamUnpacker inp 0, kind := .streamUnpacker })
    hE (fun _ => id) ht (Nat.le_refl _)
    ⟨Nat.lt_succ_self _, (fun h => by cases h), by simp [builtinKinds]⟩ ((inv_exact t y).2 hy)).ends Ser.unread
  exact ⟨_, h, fun n hn => (inStream_le (elem_le cfg env hn t) inp y).eq_of_ne h.ne_fuel⟩

/-- **C81**, for `deserializeFromStream`. -/
theorem C81_stream (hE : env.Sound cfg) (ht : NestsUpTo env depth t) (inp : Bytes) :
    ∃ o, EndsSafely (Hazard cfg env) env t o ∧
      ∀ n, depth * (inp.length + 1) ≤ n → deserializeFromStream cfg (elem cfg env n t) inp = o :=
  C81_stream_in_place hE ht inp (hE.fresh t)

/-- **C81**, for memory. -/
theorem C81_memory (hE : env.Sound cfg) (ht : NestsUpTo env depth t) (mem : Bytes) {y : Val}
    (hy : Formed env t y ∧ ByVal t y) :
    ∃ o, EndsSafely (fun u => Hazard cfg env u ∨ u = .readOverflow) env t o ∧
      ∀ n, depth * (mem.length + 1) ≤ n → deserializeInPlace cfg (elem cfg env n t) mem y = o := by
  have h := (traverseTop_depth (m := mem.length) (s := { core := .unpacker mem 0 0, kind := .unpacker })
    (U := fun u => Hazard cfg env u ∨ u = UB.readOverflow) hE (fun _ => .inl) ht (Nat.le_refl _)
    ⟨Nat.lt_succ_of_le (Nat.sub_le _ _), fun _ => .inr rfl, by simp [builtinKinds]⟩ ((inv_exact t y).2 hy)).ends Ser.count
  exact ⟨_, h, fun n hn => (inPlace_le (elem_le cfg env hn t) mem y).eq_of_ne h.ne_fuel⟩

/-- **C81**, for files, whichever system calls fail. -/
theorem C81_file (hE : env.Sound cfg) (ht : NestsUpTo env depth t) (F : Faults) (w : World) (file : Nat) {y : Val}
    (hy : Formed env t y ∧ ByVal t y) :
    ∃ f, FileEndsSafely (fun u => Hazard cfg env u ∨ u = .readOverflow) env t f ∧
      ∀ n, depth * (((w.files file).getD []).length + 1) ≤ n →
        (deserializeInPlaceFromFile cfg (elem cfg env n t) F w file y).1 = f := by
  unfold deserializeInPlaceFromFile
  have hr := setupForRead_cases F w file
  generalize setupForRead F w file = r at hr
  cases hr with
  | closed => exact ⟨.out (.throw .io), trivial, fun _ _ => rfl⟩
  | leaked => exact ⟨.out (.throw .io), trivial, fun _ _ => rfl⟩
  | @done w' bs h0 h1 h2 h3 h4 h5 h6 =>
    dsimp only
    simp only [h5, h0, Option.getD_some]
    have h := (traverseTop_depth (m := bs.length) (s := { core := .unpacker bs 0 0, kind := .unpackerIO })
      (U := fun u => Hazard cfg env u ∨ u = UB.readOverflow) hE (fun _ => .inl) ht (Nat.le_refl _)
      ⟨Nat.lt_succ_of_le (Nat.sub_le _ _), fun _ => .inr rfl, by simp [builtinKinds]⟩ ((inv_exact t y).2 hy)).ends
        (fun _ => ())
    generalize hq : (traverseTop cfg (elem cfg env (depth * (bs.length + 1)) t)
      { core := .unpacker bs 0 0, kind := .unpackerIO } y >>= fun q => Out.ok (q.1, ())) = q at h
    have hu : ∀ n, depth * (bs.length + 1) ≤ n → unpackIO cfg (elem cfg env n t) bs y = q >>= fun q => .ok q.1 := by
      intro n hn
      have hle := ((traverseTop_le (elem_le cfg env hn t) { core := .unpacker bs 0 0, kind := .unpackerIO } y).bind
        (fun q => Out.Or.refl (Out.ok (q.1, ())))).eq_of_ne (hq ▸ h.ne_fuel)
      rw [hq] at hle
      rw [← hle]
      simp [unpackIO, Out.bind_assoc]
    refine ⟨_, ?_, fun n hn => by rw [hu n hn]⟩
    cases q <;> simp only [Out.bind_eq, Out.bind_ok, Out.bind_throw, Out.bind_abort, Out.bind_ub, Out.bind_fuel,
      leave] <;> (try split) <;> first | exact h | trivial

end

/-! The bound is reached, but for the four bytes of the type index at the beginning. -/

section
variable {cfg : Cfg} {env : Env} {c : Nat}

theorem nullFlag_read (hc : cfg.check = false) (u : Nat) (rest : Bytes) (kind : Kind) (vdis : Bool) :
    pipeBool cfg ⟨.streamUnpacker (0 :: rest) u, kind, vdis⟩ true =
      .ok (false, ⟨.streamUnpacker rest (u + 1), kind, vdis⟩) := by
  simp [pipeBool, pipe, traverse, hc, boolElem, dispatchInt, dispatchByte, Ser.contiguousBytes, chunks, intVal]
  cases cfg.endian <;> simp [leVal]

/-- `struct Node { std::unique_ptr<Node> next; };` -/
structure IsNode (env : Env) (c : Nat) : Prop where
  virt : (env.cls c).virt = false
  bases : (env.cls c).bases = []
  fields : (env.cls c).fields = [.uptr (.cls c)]
  rfields : (env.cls c).rfields = [.uptr (.cls c)]
  fresh : env.fresh (.cls c) = .obj c [[.ptr none]]

theorem node_deep (hc : cfg.check = false) (hN : IsNode env c) (rest : Bytes) (kind : Kind) (vdis : Bool) :
    ∀ (k n u : Nat), n ≤ 2 * k → dispatch cfg env n (.uptr (.cls c))
      ⟨.streamUnpacker (List.replicate k 0 ++ rest) u, kind, vdis⟩ [.ptr none] = .fuel
  | _, 0, _, _ => rfl
  | 0, n + 1, _, h => by omega
  | k + 1, n + 1, u, h => by
    have hvirt : env.virt cfg (.cls c) = none := by simp [Env.virt, hN.virt]
    have hu : ∀ core, (⟨.streamUnpacker core (u + 1), kind, vdis⟩ : Ser).isUnpacking = true := fun _ => rfl
    have hf : (⟨.streamUnpacker (List.replicate (k + 1) 0 ++ rest) u, kind, vdis⟩ : Ser).isFootprinting = false := rfl
    have hnode : dispatch cfg env n (.cls c) ⟨.streamUnpacker (List.replicate k 0 ++ rest) (u + 1), kind, vdis⟩
        [.obj c [[.ptr none]]] = .fuel := by
      cases n with
      | zero => rfl
      | succ n =>
        have hch : env.chain c = [c] := by simp [Env.chain, hN.bases]
        simp only [dispatch, dispatchStep, hN.virt, Bool.false_eq_true, if_false, dispatchEach, onPart, hch]
        have hm : ((env.cls c).visited ⟨.streamUnpacker (List.replicate k 0 ++ rest) (u + 1), kind, vdis⟩) =
            [.uptr (.cls c)] := by simp [ClassDef.visited, hN.fields, hN.rfields]
        simp only [hm, List.map_cons, List.map_nil]
        have ih := node_deep hc hN rest kind vdis k n (u + 1) (by omega)
        simp [Env.elemOf, ih, serMembers, pipe, traverse, hc]
    simp only [dispatch, dispatchStep, dispatchEach, serUniquePtr, hf, Bool.false_eq_true, if_false, Option.isNone_none]
    rw [List.replicate_succ, List.cons_append, nullFlag_read hc]
    simp only [Out.bind_eq, Out.bind_ok, Bool.false_eq_true, if_false, reconstructPointedTo, hvirt, hu, if_true]
    simp [pipe, traverse, hc, Env.elemOf, hN.fresh, hnode]

/-- In a build without error checking, `k` bytes can make the reading of a list of nodes nest `2 * k` deep: the pointers
and the nodes of a list as long as the data.  The depth of the call stack is for the writer of the stream to choose. -/
theorem C81_reached (hc : cfg.check = false) (hN : IsNode env c) (hti : (env.ti (.uptr (.cls c))).Valid)
    (hfr : env.fresh (.uptr (.cls c)) = .ptr none) (k n : Nat) (hn : n ≤ 2 * k) :
    deserializeFromStream cfg (elem cfg env n (.uptr (.cls c)))
      (intBytes cfg.endian 4 (env.ti (.uptr (.cls c))).idx ++ List.replicate k 0) = .fuel := by
  rw [deserializeFromStream_elem, hfr]
  have hw := (withTypeIdx_rd (cfg := cfg) (K := Scope.quiet (fun _ => True)) hti
    { core := .streamUnpacker (intBytes cfg.endian 4 (env.ti (.uptr (.cls c))).idx ++ List.replicate k 0) 0,
      kind := .streamUnpacker } ⟨rfl, trivial, trivial⟩).1 (List.replicate k 0) rfl
  have hw' : withTypeIdx cfg (env.ti (.uptr (.cls c)))
      { core := .streamUnpacker (intBytes cfg.endian 4 (env.ti (.uptr (.cls c))).idx ++ List.replicate k 0) 0,
        kind := .streamUnpacker } = .ok ⟨.streamUnpacker (List.replicate k 0 ++ []) 4, .streamUnpacker, false⟩ := by
    rcases hw with ⟨b, _, hb⟩ | ⟨e, he, _⟩
    · unfold withTypeIdx' at hb
      obtain ⟨s, h1, h2⟩ := bind_eq_ok hb
      rw [h1]
      cases h2
      simp [Ser.advance]
    · exact he.elim
  simp only [deserializeInPlaceFromStream, traverseTop, hc, Bool.false_eq_true, if_false]
  have hd := node_deep hc hN [] .streamUnpacker false k n 4 hn
  simp only [elem, Env.elemOf, hw', Out.bind_eq, Out.bind_ok, pipe, traverse, hc, Bool.false_eq_true, if_false, hd,
    Out.bind_fuel]

end

namespace Demo

/-- Pointers to nodes, and nodes. -/
theorem list_nests : NestsUpTo listEnv 2 (.uptr (.cls 0)) := by
  refine ⟨fun t => t = .uptr (.cls 0) ∨ t = .cls 0, fun t => match t with | .cls _ => 2 | _ => 1, ?_, .inl rfl⟩
  constructor
  case pos => intro t _; split <;> omega
  case le => intro t _; split <;> omega
  case uptr => rintro t (h | h) <;> cases h; exact .inr rfl
  case cls =>
    rintro c (h | h) t ht <;> cases h
    rw [List.mem_singleton.1 ht]
    exact ⟨.inl rfl, by decide⟩
  case poly => rintro c _ hv; cases hv
  case variant => rintro ts (h | h) <;> cases h
  case tuple => rintro ts (h | h) <;> cases h
  all_goals (intros; rename_i h; rcases h with h | h <;> cases h)

/-- Reading a list of nodes takes at most two nested calls for each byte of the stream. -/
example (inp : Bytes) : ∃ o, EndsSafely (Hazard (cfg true false) listEnv) listEnv (.uptr (.cls 0)) o ∧
    ∀ n, 2 * (inp.length + 1) ≤ n →
      deserializeFromStream (cfg true false) (elem (cfg true false) listEnv n (.uptr (.cls 0))) inp = o :=
  C81_stream list_sound list_nests inp

theorem list_node (c : Nat) : IsNode listEnv c := ⟨rfl, rfl, rfl, rfl, by simp [listEnv, listFresh]⟩

/-- And as many if its writer so chooses. -/
example (k n : Nat) (hn : n ≤ 2 * k) :
    deserializeFromStream (cfg false false) (elem (cfg false false) listEnv n (.uptr (.cls 0)))
      (intBytes .little 4 (listEnv.ti (.uptr (.cls 0))).idx ++ List.replicate k 0) = .fuel :=
  C81_reached rfl (list_node 0) (ti_valid _) (by simp [listEnv, listFresh]) k n hn

/-- Polymorphic objects, lists of pairs and linked lists. -/
theorem occurring_nests {t : Ty} (ht : t ∈ occurring) : NestsUpTo Demo.env 2 t := by
  have hcls : ∀ d, ∀ t ∈ (Demo.env.cls d).fields, t ∈ occurring ∧
      (match t with | .cls _ => 2 | .pair .. => 2 | _ => 1) < 2 := by
    intro d
    match d with
    | 0 | 1 | 2 | 3 | 4 | 5 | 6 | 7 => simp [Demo.env, cls, occurring, int, double]
    | d + 8 => simp [Demo.env, cls]
  refine ⟨(· ∈ occurring), fun t => match t with | .cls _ => 2 | .pair .. => 2 | _ => 1, ?_, ht⟩
  refine ⟨?_, ?_, ?_, ?_, ?_, ?_, ?_, ?_, ?_, ?_, ?_, ?_, ?_, fun _ => hcls _, fun _ _ _ _ => fun k _ => hcls k⟩
  · intro t _; split <;> omega
  · intro t _; split <;> omega
  all_goals simp [occurring, int, double]

example (bytes : Bytes) : ∃ f, FileEndsSafely (fun u => Hazard (cfg true false) Demo.env u ∨ u = .readOverflow) Demo.env
    (.vec (.uptr (.cls 1))) f ∧ ∀ n, 2 * (bytes.length + 1) ≤ n → (deserializeInPlaceFromFile (cfg true false)
      (elem (cfg true false) Demo.env n (.vec (.uptr (.cls 1)))) noFaults
      { files := fun _ => some bytes, disk := fun _ => none } 0 (fresh (.vec (.uptr (.cls 1))))).1 = f :=
  C81_file sound (occurring_nests (by simp [occurring])) noFaults
    { files := fun _ => some bytes, disk := fun _ => none } 0 ((sound (check := true) (ndebug := false)).fresh _)

example (mem : Bytes) : ∃ o, EndsSafely (fun u => Hazard (cfg true false) Demo.env u ∨ u = .readOverflow) Demo.env
    (.cls 4) o ∧ ∀ n, 2 * (mem.length + 1) ≤ n → deserializeInPlace (cfg true false)
      (elem (cfg true false) Demo.env n (.cls 4)) mem (fresh (.cls 4)) = o :=
  C81_memory sound (occurring_nests (by simp [occurring])) mem ((sound (check := true) (ndebug := false)).fresh _)

end Demo

end Ckpt
