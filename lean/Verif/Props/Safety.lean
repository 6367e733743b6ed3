import Verif.Proofs.SafeUniverse
import Verif.Spec.DemoFormed
import Verif.Proofs.File
/-!
# Properties: arbitrary bytes (C38)
-/

set_option autoImplicit false

namespace Ckpt

/-- How reading arbitrary bytes may end: with a well-formed object, an exception, a failed assertion,
or undefined behaviour from the set `U`. -/
def EndsSafely {β : Type} (U : UB → Prop) (env : Env) (t : Ty) : Out (Val × β) → Prop
  | .ok r => Formed env t r.1 ∧ ByVal t r.1
  | .throw _ => True
  | .abort => True
  | .ub u => U u
  | .fuel => False

section
variable {cfg : Cfg} {env : Env} {t : Ty}

theorem Evtl.ends {β : Type} {U : UB → Prop} {m : Nat} {o : Nat → Out (Val × Ser)} (f : Ser → β)
    (h : Evtl U m (Inv env (exact t) t) o) :
    ∃ r, EndsSafely U env t r ∧ ∃ n0, ∀ n, n0 ≤ n → (o n >>= fun q => .ok (q.1, f q.2)) = r := by
  obtain ⟨r, hr, n0, h⟩ := h
  refine ⟨r >>= fun q => .ok (q.1, f q.2), ?_, n0, fun n hn => by rw [h n hn]⟩
  cases r with
  | ok q => exact (inv_exact t q.1).1 hr.1
  | throw e => trivial
  | abort => trivial
  | ub u => exact hr
  | fuel => exact hr.elim

/-- **C38**.  Whatever bytes a stream delivers, `deserializeInPlaceFromStream` into any well-formed
object ends: with a well-formed object of the type, with an exception, with a failed assertion, or in
one of the three hazards `Hazard` names (invalid `bool`; without assertions, a class that cannot be
constructed; a class that is not derived from the pointer's).  It never reads or writes out of range. -/
theorem C38_stream_in_place (hE : env.Sound cfg) (inp : Bytes) {y : Val} (hy : Formed env t y ∧ ByVal t y) :
    ∃ o, EndsSafely (Hazard cfg env) env t o ∧
      ∃ n0, ∀ n, n0 ≤ n → deserializeInPlaceFromStream cfg (elem cfg env n t) inp y = o :=
  (traverseTop_ev (m := inp.length + 1) hE (fun _ => id)
    ⟨Nat.lt_succ_self _, (fun h => by cases h), by simp [builtinKinds]⟩ ((inv_exact t y).2 hy)).ends Ser.unread

/-- **C38**, for `deserializeFromStream`. -/
theorem C38_stream (hE : env.Sound cfg) (inp : Bytes) :
    ∃ o, EndsSafely (Hazard cfg env) env t o ∧
      ∃ n0, ∀ n, n0 ≤ n → deserializeFromStream cfg (elem cfg env n t) inp = o :=
  C38_stream_in_place hE inp (hE.fresh t)

/-- With assertions, or without abstract classes in the registries, and when every pointer to a virtually
serializable class is to one all registered classes of the hierarchy derive from, the invalid `bool` is the
only hazard. -/
theorem C38_only_bool (hE : env.Sound cfg)
    (habs : cfg.ndebug = false ∨ ∀ r, ∀ d ∈ env.objReg r, (env.cls d).abstract = false)
    (hsib : ∀ c, (env.cls c).virt = true → ∀ d ∈ env.objReg (env.root c), c ∈ env.chain d) (inp : Bytes) :
    ∃ o, EndsSafely (· = .badBool) env t o ∧
      ∃ n0, ∀ n, n0 ≤ n → deserializeFromStream cfg (elem cfg env n t) inp = o := by
  obtain ⟨o, ho, h⟩ := C38_stream (t := t) hE inp
  refine ⟨o, ?_, h⟩
  cases o with
  | ub u =>
    cases (ho : Hazard cfg env u) with
    | bool => rfl
    | abstract hn _ hd ha =>
      rcases habs with h | h
      · rw [hn] at h; cases h
      · rw [h _ _ (List.mem_of_getElem? hd)] at ha; cases ha
    | sibling hv hd _ hc => exact absurd (hsib _ hv _ (List.mem_of_getElem? hd)) hc
  | _ => exact ho

/-- The unpacker that reads memory has one more hazard, and only one: it reads past the end of the buffer.
It never writes outside the objects it fills. -/
theorem C38_memory (hE : env.Sound cfg) (mem : Bytes) {y : Val} (hy : Formed env t y ∧ ByVal t y) :
    ∃ o, EndsSafely (fun u => Hazard cfg env u ∨ u = .readOverflow) env t o ∧
      ∃ n0, ∀ n, n0 ≤ n → deserializeInPlace cfg (elem cfg env n t) mem y = o :=
  (traverseTop_ev (m := mem.length + 1) hE (fun _ => .inl)
    ⟨Nat.lt_succ_of_le (Nat.sub_le _ _), fun _ => .inr rfl, by simp [builtinKinds]⟩ ((inv_exact t y).2 hy)).ends Ser.count

/-- How reading a file with arbitrary contents may end. -/
def FileEndsSafely (U : UB → Prop) (env : Env) (t : Ty) : Final Val → Prop
  | .out o => EndsSafely U env t (o >>= fun v => .ok (v, ()))
  | .terminate => True

/-- **C38**, for files: whatever the file holds, whether it exists or not and whichever system calls fail, reading it
ends like reading memory, or with an exception because the file cannot be read, or with `std::terminate` because
closing it failed.  The last does not happen if no system call fails. -/
theorem C38_file (hE : env.Sound cfg) (F : Faults) (w : World) (file : Nat) {y : Val}
    (hy : Formed env t y ∧ ByVal t y) :
    ∃ f, FileEndsSafely (fun u => Hazard cfg env u ∨ u = .readOverflow) env t f ∧
      (w.Ok → F = noFaults → f ≠ .terminate) ∧
      ∃ n0, ∀ n, n0 ≤ n → (deserializeInPlaceFromFile cfg (elem cfg env n t) F w file y).1 = f := by
  unfold deserializeInPlaceFromFile
  cases hr : setupForRead F w file with
  | mk b w' =>
  cases b with
  | none => exact ⟨.out (.throw .io), trivial, (fun _ _ h => by cases h), 0, fun _ _ => rfl⟩
  | some b =>
    obtain ⟨r, hr2, n0, h0⟩ := (traverseTop_ev (t := t) (x := y) (m := ((w'.files file).getD []).length + 1) hE
      (U := fun u => Hazard cfg env u ∨ u = UB.readOverflow) (fun _ => .inl) (s :=
        { core := .unpacker ((w'.files file).getD []) 0 0, kind := .unpackerIO })
      ⟨Nat.lt_succ_of_le (Nat.sub_le _ _), fun _ => .inr rfl, by simp [builtinKinds]⟩ ((inv_exact t y).2 hy)).ends
        (fun _ => ())
    have hu : ∀ n, n0 ≤ n → (unpackIO cfg (elem cfg env n t) ((w'.files file).getD []) y) =
        r >>= fun q => .ok q.1 := by
      intro n hn
      rw [← h0 n hn]
      simp [unpackIO, Out.bind_assoc]
    refine ⟨(leave F w' b (r >>= fun q => .ok q.1)).1, ?_, ?_, n0, fun n hn => by simp only [hu n hn]⟩
    · cases r <;> simp only [Out.bind_eq, Out.bind_ok, Out.bind_throw, Out.bind_abort, Out.bind_ub, Out.bind_fuel,
        leave] <;> (try split) <;> first | exact hr2 | trivial
    · rintro hw rfl
      have hc := setupForRead_cases noFaults w file
      rw [hr] at hc
      cases hc with
      | @done _ bs h0 h1 h2 h3 h4 h5 h6 =>
        by_cases ho : (∃ a, (r >>= fun q => .ok q.1) = .ok a) ∨ ∃ err, (r >>= fun q => Out.ok q.1) = .throw err
        · obtain ⟨w2, g, -⟩ := leave_noFaults (w := w')
            (b := { write := false, file := file, size := bs.length, buffer := w.nextMap, fd := some w.nextFd }) rfl h3 h4 hw.fds hw.maps ho
          rw [g]
          exact fun h => by cases h
        · cases r with
          | ok a => exact absurd (.inl ⟨_, rfl⟩) ho
          | throw e => exact absurd (.inr ⟨_, rfl⟩) ho
          | abort => exact fun h => by cases h
          | ub u => exact fun h => by cases h
          | fuel => exact fun h => by cases h

end

/-! The hazards are real. -/

/-- A `std::optional<int>` whose flag is the byte 2. -/
theorem C38_bool_hazard : ∃ inp n,
    deserializeFromStream (Demo.cfg false false) (elem (Demo.cfg false false) Demo.env n (.opt Demo.int)) inp =
      .ub .badBool :=
  ⟨intBytes .little 4 (Demo.env.ti (.opt Demo.int)).idx ++ [2], 1, rfl⟩

/-- Without assertions, a pointer to an object of an abstract class. -/
theorem C38_abstract_hazard : ∃ inp n,
    deserializeFromStream (Demo.cfg false true) (elem (Demo.cfg false true) Demo.env n (.uptr (.cls 1))) inp =
      .ub .nullDeref :=
  ⟨intBytes .little 4 (Demo.env.ti (.uptr (.cls 1))).idx ++ [0, 3, 0, 0, 0], 1, rfl⟩

/-- With assertions the same bytes stop the program. -/
theorem C38_abstract_asserted : ∃ inp n,
    deserializeFromStream (Demo.cfg false false) (elem (Demo.cfg false false) Demo.env n (.uptr (.cls 1))) inp =
      .abort :=
  ⟨intBytes .little 4 (Demo.env.ti (.uptr (.cls 1))).idx ++ [0, 3, 0, 0, 0], 1, rfl⟩

/-- A pointer to class 2 for which the bytes name its sibling, class 3. -/
theorem C38_sibling_hazard : ∃ inp n,
    deserializeFromStream (Demo.cfg false false) (elem (Demo.cfg false false) Demo.env n (.uptr (.cls 2))) inp =
      .ub .typeConfusion :=
  ⟨intBytes .little 4 (Demo.env.ti (.uptr (.cls 2))).idx ++ [0, 2, 0, 0, 0], 1, rfl⟩

/-- The example program meets the assumptions of the theorems, for any type and any bytes. -/
example (t : Ty) (inp : Bytes) : ∃ o, EndsSafely (Hazard (Demo.cfg true false) Demo.env) Demo.env t o ∧ ∃ n0, ∀ n, n0 ≤ n →
    deserializeFromStream (Demo.cfg true false) (elem (Demo.cfg true false) Demo.env n t) inp = o :=
  C38_stream Demo.sound inp

example (inp : Bytes) : ∃ o, EndsSafely (Hazard (Demo.cfg true false) Demo.env) Demo.env (.vec Demo.int) o ∧
    ∃ n0, ∀ n, n0 ≤ n → deserializeInPlaceFromStream (Demo.cfg true false)
      (elem (Demo.cfg true false) Demo.env n (.vec Demo.int)) inp (.vec 2 [.raw [1, 2, 3, 4]]) = o :=
  C38_stream_in_place Demo.sound inp ⟨.vec (by simp) (by simp [ByVal, Demo.int]) (by
    intro x hx; rw [List.mem_singleton.1 hx]; exact .prim rfl), trivial⟩

example (inp : Bytes) : ∃ o, EndsSafely (· = .badBool) Demo.plainEnv Demo.plainTy o ∧
    ∃ n0, ∀ n, n0 ≤ n → deserializeFromStream (Demo.cfg false true)
      (elem (Demo.cfg false true) Demo.plainEnv n Demo.plainTy) inp = o :=
  C38_only_bool Demo.plain_sound (.inr (by simp [Demo.plainEnv])) (by simp [Demo.plainEnv]) inp

example (inp : Bytes) : ∃ o, EndsSafely (fun u => Hazard (Demo.cfg true false) Demo.env u ∨ u = .readOverflow)
    Demo.env Demo.int o ∧ ∃ n0, ∀ n, n0 ≤ n → deserializeInPlace (Demo.cfg true false)
      (elem (Demo.cfg true false) Demo.env n Demo.int) inp (.raw [1, 2, 3, 4]) = o :=
  C38_memory Demo.sound inp ⟨.prim rfl, trivial⟩

example (bytes : Bytes) : ∃ f, FileEndsSafely (fun u => Hazard (Demo.cfg true false) Demo.env u ∨ u = .readOverflow)
    Demo.env Demo.int f ∧ f ≠ .terminate ∧ ∃ n0, ∀ n, n0 ≤ n → (deserializeInPlaceFromFile (Demo.cfg true false)
      (elem (Demo.cfg true false) Demo.env n Demo.int) noFaults
      { files := fun _ => some bytes, disk := fun _ => none, fds := [(0, 7)] } 0 (.raw [0, 0, 0, 0])).1 = f := by
  obtain ⟨f, h1, h2, h3⟩ := C38_file (t := Demo.int) (cfg := Demo.cfg true false) Demo.sound noFaults
    { files := fun _ => some bytes, disk := fun _ => none, fds := [(0, 7)] } 0 (y := .raw [0, 0, 0, 0])
    ⟨.prim rfl, trivial⟩
  exact ⟨f, h1, h2 ⟨by simp, by simp⟩ rfl, h3⟩

end Ckpt
