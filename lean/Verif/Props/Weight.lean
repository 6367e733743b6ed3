import Verif.Proofs.WeightUniverse
import Verif.Props.Torn
import Verif.Props.Builds
import Verif.Spec.DemoFormed
import Verif.Spec.World
/-!
# C80: how much the bytes that are read can make the object hold
-/

set_option autoImplicit false

namespace Ckpt

section
variable {cfg : Cfg} {env : Env} {t : Ty}

local macro "lia" : tactic => `(tactic| (first | omega | (dsimp only at *; omega)))

theorem top_pays (hE : env.Sound cfg) (h0 : env.StartsEmpty) (ht : Accounted env t) (n : Nat) (y : Val) :
    Pays (env.weight t y) 12 (fun s => traverseTop cfg (elem cfg env n t) s y) (env.weight t) := by
  obtain ⟨S, hS, ht⟩ := ht
  have hd := dispatch_pays (cfg := cfg) h0 hE.order hE.arrange hS n t ht
  intro s hs z s' he
  simp only [traverseTop] at he
  split at he
  · next hc =>
    obtain ⟨⟨ys, s3⟩, h1, he⟩ := bind_eq_ok he
    simp only [traverse, hc, if_true] at h1
    obtain ⟨s1, h2, h1⟩ := bind_eq_ok h1
    obtain ⟨⟨zs, s2⟩, h3, h1⟩ := bind_eq_ok h1
    obtain ⟨s4, h4, h1⟩ := bind_eq_ok h1
    cases h1
    obtain ⟨u1, l1⟩ := withTypeIdx_pays _ s hs s1 h2
    obtain ⟨u2, l2, p2⟩ := hd [y] s1 u1 zs s2 (catchDepth_ok h3)
    obtain ⟨u3, l3⟩ := withMemUsed_pays _ _ s2 u2 s3 h4
    match zs with
    | [z'] =>
      cases he
      simp only [List.map_cons, List.map_nil, List.sum_cons, List.sum_nil, List.length_singleton] at *
      exact ⟨u3, by lia, by lia⟩
    | [] => cases he
    | _ :: _ :: _ => cases he
  · obtain ⟨s1, h1, he⟩ := bind_eq_ok he
    obtain ⟨⟨z', s2⟩, h2, he⟩ := bind_eq_ok he
    obtain ⟨s3, h3, he⟩ := bind_eq_ok he
    cases he
    obtain ⟨u1, l1⟩ := withTypeIdx_pays _ s hs s1 h1
    obtain ⟨u2, l2, p2⟩ := hd.pipe (cfg := cfg) y s1 u1 z' s2 h2
    obtain ⟨u3, l3⟩ := withMemUsed_pays _ _ s2 u2 s' h3
    exact ⟨u3, by lia, by lia⟩

/-- **C80**, streams.  Whatever the bytes are: when reading in place from a stream returns, the object holds at most what
it held before and one thing for each byte that the call has taken from the stream, not counting the 12 bytes around
every checkpoint. -/
theorem C80_stream (hE : env.Sound cfg) (h0 : env.StartsEmpty) (ht : Accounted env t) {inp : Bytes} {y z : Val} {rest : Bytes}
    (h : Yields (fun n => deserializeInPlaceFromStream cfg (elem cfg env n t) inp y) (.ok (z, rest))) :
    env.weight t z + rest.length + 12 ≤ env.weight t y + inp.length := by
  obtain ⟨n, h⟩ := h
  obtain ⟨⟨z', s⟩, hs, he⟩ := ok_of_bind (h n (Nat.le_refl _))
  obtain ⟨u, l, p⟩ := top_pays hE h0 ht n y _ rfl z' s hs
  obtain ⟨inp', j, hj⟩ := top_onStream n hs
  obtain ⟨core, kind, vdis⟩ := s
  cases hj
  cases he
  simp only [Ser.left, Ser.unread] at *
  omega

/-- The same for an object that the call creates. -/
theorem C80_new_from_stream (hE : env.Sound cfg) (h0 : env.StartsEmpty) (ht : Accounted env t) {inp : Bytes} {z : Val}
    {rest : Bytes} (h : Yields (fun n => deserializeFromStream cfg (elem cfg env n t) inp) (.ok (z, rest))) :
    env.weight t z + rest.length + 12 ≤ inp.length := by
  have := C80_stream hE h0 ht (y := env.fresh t) h
  rw [(h0 t).1] at this
  omega

/-- The serializer reads from the memory `mem` and counts what it reads. -/
def Ser.onMemory (mem : Bytes) (s : Ser) : Prop := ∃ k, s.core = .unpacker mem k k ∧ k ≤ mem.length

theorem onMemory_moves (mem : Bytes) : Moves (fun s s' => s.onMemory mem → s'.onMemory mem) where
  refl _ := id
  trans h h' := h' ∘ h
  setVdis _ _ h := h
  addBytes s n := by
    rintro ⟨k, h, hk⟩
    obtain ⟨core, kind, vdis⟩ := s
    cases h
    exact ⟨k, rfl, hk⟩
  bytes s size num data r h := by
    rintro ⟨k, h', hk⟩
    obtain ⟨core, kind, vdis⟩ := s
    cases h'
    simp only [Ser.contiguousBytes] at h
    repeat' split at h
    all_goals first | cases h | skip
    exact ⟨_, rfl, by assumption⟩

theorem top_onMemory (n : Nat) {mem : Bytes} {kind : Kind} {y w : Val} {s : Ser}
    (h : traverseTop cfg (elem cfg env n t) { core := .unpacker mem 0 0, kind := kind } y = .ok (w, s)) :
    s.onMemory mem := by
  have := traverseTop_fr (E := fun _ => True) (fun _ _ => trivial) (onMemory_moves mem) (e := elem cfg env n t)
    (fun _ _ _ => trivial) (fun _ _ _ _ => trivial)
    (elem_fr ⟨fun _ _ => trivial, fun _ _ _ => trivial, fun _ _ _ _ _ => trivial, fun _ _ => trivial⟩
      (onMemory_moves mem) n t)
    (s := { core := .unpacker mem 0 0, kind := kind }) rfl y
  rw [h] at this
  exact this.1 ⟨0, rfl, Nat.zero_le _⟩

/-- **C80**, memory: one thing for each of the `k` bytes the call has read. -/
theorem C80_memory (hE : env.Sound cfg) (h0 : env.StartsEmpty) (ht : Accounted env t) {mem : Bytes} {y z : Val} {k : Nat}
    (h : Yields (fun n => deserializeInPlace cfg (elem cfg env n t) mem y) (.ok (z, k))) :
    env.weight t z + 12 ≤ env.weight t y + k ∧ k ≤ mem.length := by
  obtain ⟨n, h⟩ := h
  obtain ⟨⟨z', s⟩, hs, he⟩ := ok_of_bind (h n (Nat.le_refl _))
  obtain ⟨u, l, p⟩ := top_pays hE h0 ht n y _ rfl z' s hs
  obtain ⟨j, hj, hk⟩ := top_onMemory n hs
  obtain ⟨core, kind, vdis⟩ := s
  cases hj
  cases he
  simp only [Ser.left, Ser.count] at *
  omega

/-- The same for an object that the call creates. -/
theorem C80_new_from_memory (hE : env.Sound cfg) (h0 : env.StartsEmpty) (ht : Accounted env t) {mem : Bytes} {z : Val} {k : Nat}
    (h : Yields (fun n => deserialize cfg (elem cfg env n t) mem) (.ok (z, k))) :
    env.weight t z + 12 ≤ k ∧ k ≤ mem.length := by
  simp only [deserialize_elem] at h
  have := C80_memory hE h0 ht h
  rw [(h0 t).1] at this
  omega

theorem setupForRead_files (F : Faults) (w : World) (file : Nat) : (setupForRead F w file).2.files = w.files := by
  have h1 : (w.openRead F file).2.files = w.files := by
    unfold World.openRead; split <;> rfl
  have h2 : ∀ w : World, (w.fstat F file).2.files = w.files := by
    intro w; unfold World.fstat; split <;> rfl
  have h3 : ∀ (w : World) k, (w.mmap F file k).2.files = w.files := by
    intro w k; unfold World.mmap; split <;> rfl
  unfold setupForRead
  split
  · next h => rw [h] at h1; exact h1
  · next w1 h =>
    rw [h] at h1
    split
    · next h' => have := h2 w1; rw [h'] at this; exact this.trans h1
    · next w2 h' =>
      have e2 := h2 w1
      rw [h'] at e2
      split
      · next h'' => have := congrArg (fun q => q.2.files) h''; exact this.symm.trans ((h3 _ _).trans (e2.trans h1))
      · next h'' => have := congrArg (fun q => q.2.files) h''; exact this.symm.trans ((h3 _ _).trans (e2.trans h1))

/-- **C80**, files: one thing for each byte of the file. -/
theorem C80_file (hE : env.Sound cfg) (h0 : env.StartsEmpty) (ht : Accounted env t) {F : Faults} {w : World} {file : Nat}
    {y z : Val} {n : Nat}
    (h : (deserializeInPlaceFromFile cfg (elem cfg env n t) F w file y).1 = .out (.ok z)) :
    env.weight t z + 12 ≤ env.weight t y + ((w.files file).getD []).length := by
  have hf := setupForRead_files F w file
  unfold deserializeInPlaceFromFile at h
  split at h
  · cases h
  · next b w1 hs =>
    rw [hs] at hf
    have hu : unpackIO cfg (elem cfg env n t) ((w.files file).getD []) y = .ok z := by
      rw [← hf]
      revert h
      dsimp only
      cases hx : unpackIO cfg (elem cfg env n t) ((w1.files file).getD []) y with
      | ok z' =>
        intro h
        simp only [leave] at h
        split at h
        · cases h; rfl
        · cases h
      | throw e =>
        intro h
        simp only [leave] at h
        split at h <;> cases h
      | abort => intro h; cases h
      | ub u => intro h; cases h
      | fuel => intro h; cases h
    obtain ⟨⟨z', s⟩, hs, he⟩ := ok_of_bind hu
    obtain ⟨u, l, p⟩ := top_pays hE h0 ht n y _ rfl z' s hs
    obtain ⟨j, hj, hk⟩ := top_onMemory n hs
    obtain ⟨core, kind, vdis⟩ := s
    cases hj
    cases he
    simp only [Ser.left] at *
    omega

/-- The same for an object that the call creates. -/
theorem C80_new_from_file (hE : env.Sound cfg) (h0 : env.StartsEmpty) (ht : Accounted env t) {F : Faults} {w : World}
    {file : Nat} {z : Val} {n : Nat}
    (h : (deserializeFromFile cfg (elem cfg env n t) F w file).1 = .out (.ok z)) :
    env.weight t z + 12 ≤ ((w.files file).getD []).length := by
  have := C80_file hE h0 ht (y := env.fresh t) h
  rw [(h0 t).1] at this
  omega

/-! ### What is not bounded -/

/-- The beginning of the checkpoint of a vector: up to the number of elements. -/
def vectorHead (cfg : Cfg) (env : Env) (t : Ty) (cap n : Nat) : Bytes :=
  intBytes cfg.endian 4 (env.ti (.vec t)).idx ++ (sizeNode cfg cfg.check cap ++ sizeNode cfg cfg.check n)

/-- A stream. -/
def onInput (inp : Bytes) (k : Nat) : Ser := { core := .streamUnpacker inp k, kind := .streamUnpacker }

theorem onInput_reader (inp : Bytes) (k : Nat) : (onInput inp k).Reader (Scope.quiet (· ∈ builtinKinds)) :=
  ⟨rfl, (by decide : Kind.streamUnpacker ∈ builtinKinds), trivial⟩

theorem pipeSize_input (hc : cfg.Valid) {n : Nat} (hn : n < 2 ^ 64) (m : Nat) (rest : Bytes) (k : Nat) :
    pipeSize cfg (onInput (sizeNode cfg cfg.check n ++ rest) k) m =
      .ok (n, onInput rest (k + (sizeNode cfg cfg.check n).length)) := by
  obtain ⟨_, rfl, h⟩ := ((pipeSize_rd (K := Scope.quiet (· ∈ builtinKinds)) (m := m) hc hn).ok (fun _ h => h)
    (onInput_reader _ k)).1 rest rfl
  rw [h]
  simp [Ser.advance, onInput]

theorem header_input (hti : (env.ti t).Valid) (rest : Bytes) (k : Nat) :
    withTypeIdx cfg (env.ti t) (onInput (intBytes cfg.endian 4 (env.ti t).idx ++ rest) k) =
      .ok (onInput rest (k + 4)) := by
  obtain ⟨h, -⟩ := header_read (cfg := cfg) hti (onInput_reader _ k) (rest := rest) rfl
  rw [h]
  simp [Ser.advance, onInput]

/-- An array of bytes at the end of a stream. -/
theorem array_at_end {T : Type} {e : Elem T} {r : Residue T} {xs : List T} (hx : xs ≠ []) (k : Nat)
    (h : e.apply (onInput [] k) xs = .throw .streamShort) (hr : r (onInput [] k) xs = .ok xs) :
    serializeArray cfg e (onInput [] k) xs = .throw .streamShort ∧
      serializeArrayEnd cfg e r (onInput [] k) xs = .ok xs := by
  have hpos : xs.length > 0 := List.length_pos_iff.2 hx
  have hw : withTypeIdx cfg e.ti (onInput [] k) = .throw .streamShort := by
    simp [withTypeIdx, onInput, Ser.isPacking, Ser.isSizing, Ser.isUnpacking, Ser.mode, rawInt, dispatchInt, dispatchByte,
      Ser.contiguousBytes]
  unfold serializeArray serializeArrayEnd traverse traverseEnd
  rw [if_pos hpos, if_pos hpos]
  by_cases hc : cfg.check
  · simp only [hc, if_true, hw]
    exact ⟨rfl, rfl⟩
  · simp only [hc, Bool.false_eq_true, if_false]
    exact ⟨h, hr⟩

theorem bytes_at_end {size : Nat} (hs : 0 < size) {xs : List Bytes} (hx : xs ≠ []) (hl : ∀ x ∈ xs, x.length = size) (k : Nat) :
    dispatchByte size (onInput [] k) xs = .throw .streamShort ∧ dispatchByteEnd size (onInput [] k) xs = .ok xs := by
  have hpos : 0 < xs.length := List.length_pos_iff.2 hx
  have hf : xs.flatten.length = size * xs.length := by
    rw [List.length_flatten, List.map_congr_left (g := fun _ => size) hl]
    simp [Nat.mul_comm]
  have hm : ¬ (size * xs.length ≤ 0) := by have := Nat.mul_pos hs hpos; omega
  have hb : (onInput [] k).contiguousBytes size xs.length xs.flatten = .throw .streamShort := by
    simp only [Ser.contiguousBytes, onInput, hf, ne_eq, not_true, if_false, List.length_nil]
    rw [if_neg hm]
  refine ⟨by simp only [dispatchByte, hb]; rfl, ?_⟩
  simp only [dispatchByteEnd, bytesEnd, hb, Out.after]
  simp only [onInput, List.nil_append, List.length_nil, List.drop_zero, Out.bind_eq, Out.bind_ok]
  rw [chunks_flatten _ _ hl]

theorem top_at_end {e : Elem Val} {r : Residue Val} (he : e.ti = env.ti t) (hti : (env.ti t).Valid) {rest : Bytes} {y z : Val}
    (h : e.apply (onInput rest 4) [y] = .throw .streamShort) (hr : r (onInput rest 4) [y] = .ok [z]) :
    deserializeInPlaceFromStream cfg e (intBytes cfg.endian 4 (env.ti t).idx ++ rest) y = .throw .streamShort ∧
      inPlaceFromStreamEnd cfg e r (intBytes cfg.endian 4 (env.ti t).idx ++ rest) y = .ok z := by
  have hw := header_input (cfg := cfg) hti rest 0
  rw [← he] at hw ⊢
  rw [Nat.zero_add] at hw
  have hw' : withTypeIdx cfg e.ti ({ core := .streamUnpacker (intBytes cfg.endian 4 e.ti.idx ++ rest) 0, kind := .streamUnpacker } : Ser) =
    .ok (onInput rest 4) := hw
  unfold deserializeInPlaceFromStream inPlaceFromStreamEnd traverseTop traverseTopEnd pipe pipeEnd traverse traverseEnd
  by_cases hc : cfg.check
  · simp only [hc, if_true]
    rw [hw']
    simp only [Out.bind_eq, Out.bind_ok, Out.after, h, hr, catchDepth]
    exact ⟨rfl, trivial⟩
  · simp only [hc, Bool.false_eq_true, if_false]
    rw [hw']
    simp only [Out.bind_eq, Out.bind_ok, Out.after, h, hr]
    exact ⟨rfl, rfl⟩

theorem eachEnd_throw {T : Type} {f : Ser → T → Out (T × Ser)} {g : Ser → T → Out T} {s : Ser} {y z : T} {e : Err}
    (h : f s y = .throw e) (hg : g s y = .ok z) : dispatchEachEnd f g s [y] = .ok [z] := by
  simp only [dispatchEachEnd, h, hg, Out.after]
  rfl

theorem constructVectorData_length {T : Type} (e : Elem T) (n : Nat) (v : Vec T) :
    n ≤ (constructVectorData cfg e n v).elems.length := by
  unfold constructVectorData
  split
  · simp only [Vec.resize, List.length_append, List.length_take, List.length_replicate]; omega
  · split
    · simp only [Vec.resize, List.length_append, List.length_take, List.length_replicate]; omega
    · simp only [List.length_append, List.length_replicate]; omega

theorem reserve_cap_le {T : Type} (hg : ∀ n, n ≤ cfg.grow n) (v : Vec T) (n : Nat) :
    n ≤ (v.reserve cfg n).cap ∧ v.cap ≤ (v.reserve cfg n).cap := by
  unfold Vec.reserve
  have := hg n
  split
  · exact ⟨by assumption, Nat.le_refl _⟩
  · exact ⟨this, by dsimp only; omega⟩

theorem vectorData_cap_le {T : Type} (hg : ∀ n, n ≤ cfg.grow n) (e : Elem T) (n : Nat) (v : Vec T) :
    v.cap ≤ (constructVectorData cfg e n v).cap := by
  unfold constructVectorData
  split
  · exact (reserve_cap_le hg v n).2
  · split
    · exact (reserve_cap_le hg v n).2
    · exact (reserve_cap_le hg v _).2

theorem vectorData_all {T : Type} {P : T → Prop} {e : Elem T} (hf : P e.fresh) (hd : ∀ d, e.dflt = some d → P d)
    (n : Nat) {v : Vec T} (hv : ∀ x ∈ v.elems, P x) : ∀ x ∈ (constructVectorData cfg e n v).elems, P x := by
  have key : ∀ (d : T), P d → ∀ x ∈ v.elems.take n ++ List.replicate (n - v.elems.length) d, P x := by
    intro d h x hx
    rcases List.mem_append.1 hx with hx | hx
    · exact hv x (List.mem_of_mem_take hx)
    · rw [(List.mem_replicate.1 hx).2]; exact h
  unfold constructVectorData
  split
  · next d h => exact key d (hd d h)
  · split
    · exact key _ hf
    · intro x hx
      rcases List.mem_append.1 hx with hx | hx
      · exact hv x hx
      · rw [(List.mem_replicate.1 hx).2]; exact hf

/-- **C80**: what is bounded is what a call returns.  A stream of at most 44 bytes makes the library give a vector any
number of elements, and any capacity, before it notices that the stream has ended: the call throws, and the vector it
read into has them. -/
theorem C80_short_vector (hc : cfg.Valid) (hE : env.Sound cfg) {id size : Nat} (hs : 0 < size)
    (hti : (env.ti (.vec (.prim id size))).Valid) {cap n : Nat} (hcap : cap < 2 ^ 64) (hn : n < 2 ^ 64) (hpos : 0 < n)
    {y : Val} (hy : Formed env (.vec (.prim id size)) y) :
    (vectorHead cfg env (.prim id size) cap n).length ≤ 44 ∧
    Yields (fun m => deserializeInPlaceFromStream cfg (elem cfg env m (.vec (.prim id size)))
      (vectorHead cfg env (.prim id size) cap n) y) (.throw .streamShort) ∧
    ∃ c zs, n ≤ zs.length ∧ cap ≤ c ∧
      Leaves (fun m => inPlaceFromStreamEnd cfg (elem cfg env m (.vec (.prim id size)))
        (dispatchEnd cfg env m (.vec (.prim id size))) (vectorHead cfg env (.prim id size) cap n) y) (.vec c zs) := by
  cases hy with
  | @vec _ c0 xs hlen _ hel =>
  refine ⟨?_, ?_⟩
  · simp only [vectorHead, sizeNode, node, List.length_append, intBytes_length]
    split <;> simp only [List.length_append, intBytes_length] <;> omega
  let e : Elem Val := elem cfg env 1 (.prim id size)
  let v : Vec Val := (⟨c0, xs⟩ : Vec Val).reserve cfg cap
  have hv : v.elems = xs := by show (Vec.reserve cfg _ _).elems = _; unfold Vec.reserve; split <;> rfl
  have hP : ∀ x ∈ (constructVectorData cfg e n v).elems, Formed env (.prim id size) x :=
    vectorData_all (e := e) (hE.fresh _).1 (fun d hd => (hE.dflt _ d hd).1) n (by rw [hv]; exact hel)
  have hraw : ∃ ys : List Bytes, (constructVectorData cfg e n v).elems = ys.map .raw ∧ ∀ b ∈ ys, b.length = size := by
    clear * - hP
    generalize (constructVectorData cfg e n v).elems = l at hP
    induction l with
    | nil => exact ⟨[], rfl, by simp⟩
    | cons x l ih =>
      obtain ⟨ys, h1, h2⟩ := ih (fun a ha => hP a (by simp [ha]))
      cases hP x (by simp) with
      | @prim _ _ bs hb => exact ⟨bs :: ys, by simp [h1], by simp only [List.mem_cons]; rintro b (rfl | h); exacts [hb, h2 b h]⟩
  obtain ⟨ys, hys, hyl⟩ := hraw
  have hlen2 : n ≤ ys.length := by
    have := constructVectorData_length (cfg := cfg) e n v
    rw [hys, List.length_map] at this
    exact this
  have hne : ys ≠ [] := by
    rintro rfl
    simp at hlen2; omega
  let k := 4 + (sizeNode cfg cfg.check cap).length + (sizeNode cfg cfg.check n).length
  obtain ⟨b1, b2⟩ := bytes_at_end hs hne hyl k
  have a1 : e.apply (onInput [] k) (constructVectorData cfg e n v).elems = .throw .streamShort := by
    show dispatch cfg env 1 (.prim id size) _ _ = _
    rw [hys]
    simp only [dispatch, dispatchStep, onRaw, mapM_raw, b1]
    rfl
  have a2 : dispatchEnd cfg env 1 (.prim id size) (onInput [] k) (constructVectorData cfg e n v).elems =
      .ok (constructVectorData cfg e n v).elems := by
    rw [hys]
    simp only [dispatchEnd, dispatchStepEnd, onRawEnd, mapM_raw, b2]
    rfl
  obtain ⟨c1, c2⟩ := array_at_end (cfg := cfg) (e := e) (r := dispatchEnd cfg env 1 (.prim id size))
    (by rw [hys]; simpa using hne) k a1 a2
  have p1 := pipeSize_input hc hcap c0 (sizeNode cfg cfg.check n) 4
  have p2 := pipeSize_input hc hn v.elems.length [] (4 + (sizeNode cfg cfg.check cap).length)
  rw [List.append_nil] at p2
  have d1 : serVector cfg (env.ti (.vec (.prim id size))).sizeof e
      (onInput (sizeNode cfg cfg.check cap ++ sizeNode cfg cfg.check n) 4) ⟨c0, xs⟩ = .throw .streamShort := by
    have hf : (onInput (sizeNode cfg cfg.check cap ++ sizeNode cfg cfg.check n) 4).isFootprinting = false := rfl
    have hu : (onInput [] k).isUnpacking = true := rfl
    have hm : serializeVectorMeta cfg (onInput (sizeNode cfg cfg.check cap ++ sizeNode cfg cfg.check n) 4) ⟨c0, xs⟩ =
        .ok (n, v, onInput [] k) := by
      simp only [serializeVectorMeta, p1, Out.bind_eq, Out.bind_ok]
      exact (congrArg (fun o => Out.bind o _) p2).trans rfl
    simp only [serVector, hf, Bool.false_eq_true, if_false, hm, Out.bind_eq, Out.bind_ok, hu, if_true, c1]
    rfl
  have d2 : serVectorEnd cfg e (dispatchEnd cfg env 1 (.prim id size))
      (onInput (sizeNode cfg cfg.check cap ++ sizeNode cfg cfg.check n) 4) ⟨c0, xs⟩ = .ok (constructVectorData cfg e n v) := by
    simp only [serVectorEnd, p1, Out.after]
    rw [show pipeSize cfg (onInput (sizeNode cfg cfg.check n) (4 + (sizeNode cfg cfg.check cap).length))
      ((⟨c0, xs⟩ : Vec Val).reserve cfg cap).elems.length = _ from p2]
    show (serializeArrayEnd cfg e _ (onInput [] k) (constructVectorData cfg e n v).elems >>= fun es => _) = _
    rw [c2]
    rfl
  have g1 : dispatchStep cfg env (dispatch cfg env 1) (.vec (.prim id size))
      (onInput (sizeNode cfg cfg.check cap ++ sizeNode cfg cfg.check n) 4) [.vec c0 xs] = .throw .streamShort := by
    simp only [dispatchStep]
    refine each_throw ?_
    exact (congrArg (fun o => Out.bind o _) d1).trans rfl
  have g2 : dispatchStepEnd cfg env (dispatch cfg env 1) (dispatchEnd cfg env 1) (.vec (.prim id size))
      (onInput (sizeNode cfg cfg.check cap ++ sizeNode cfg cfg.check n) 4) [.vec c0 xs] =
      .ok [.vec (constructVectorData cfg e n v).cap (constructVectorData cfg e n v).elems] := by
    simp only [dispatchStepEnd]
    refine eachEnd_throw (e := .streamShort) (by simp only [oneOf, g1]; rfl) ?_
    exact (congrArg (fun o => Out.bind o _) d2).trans rfl
  obtain ⟨q1, q2⟩ := top_at_end (cfg := cfg) (env := env) (t := .vec (.prim id size))
    (e := elem cfg env 2 (.vec (.prim id size))) (r := dispatchEnd cfg env 2 (.vec (.prim id size))) rfl hti
    (by simpa only [elem, Env.elemOf, dispatch] using g1) (by simpa only [dispatchEnd] using g2)
  refine ⟨Yields.at (fun {_ _} hnm => inStream_le (elem_le cfg env hnm _) _ _) 2 q1 nofun, _, _, ?_, ?_,
    yields_of (fun n m => ends_le _ _) q2⟩
  · exact constructVectorData_length e n v
  · exact Nat.le_trans (reserve_cap_le hE.grow _ cap).1 (vectorData_cap_le hE.grow e n v)

/-- **C80**: the same for a string and its characters. -/
theorem C80_short_string (hc : cfg.Valid) (hti : (env.ti .str).Valid) {n : Nat} (hn : n < 2 ^ 64) (hpos : 0 < n) (x : Str) :
    (intBytes cfg.endian 4 (env.ti .str).idx ++ sizeNode cfg cfg.check n).length ≤ 24 ∧
    Yields (fun m => deserializeInPlaceFromStream cfg (elem cfg env m .str)
      (intBytes cfg.endian 4 (env.ti .str).idx ++ sizeNode cfg cfg.check n) (.str x)) (.throw .streamShort) ∧
    ∃ z : Str, z.chars.length = n ∧
      Leaves (fun m => inPlaceFromStreamEnd cfg (elem cfg env m .str) (dispatchEnd cfg env m .str)
        (intBytes cfg.endian 4 (env.ti .str).idx ++ sizeNode cfg cfg.check n) (.str x)) (.str z) := by
  refine ⟨?_, ?_⟩
  · simp only [sizeNode, node, List.length_append, intBytes_length]
    split <;> simp only [List.length_append, intBytes_length] <;> omega
  let k := 4 + (sizeNode cfg cfg.check n).length
  let z : Str := x.resize cfg n
  let cs : List Bytes := z.chars.map fun c => [c]
  have hlen : z.chars.length = n := by
    show (x.chars.take n ++ List.replicate (n - x.chars.length) 0).length = n
    simp only [List.length_append, List.length_take, List.length_replicate]; omega
  have hne : cs ≠ [] := by
    intro h
    have : cs.length = n := by simp [cs, hlen]
    rw [h] at this; simp at this; omega
  obtain ⟨b1, b2⟩ := bytes_at_end (size := 1) (by decide) hne (by simp [cs]) k
  obtain ⟨c1, c2⟩ := array_at_end (cfg := cfg) (e := charElem cfg) (r := dispatchByteEnd 1) hne k b1 b2
  have p1 := pipeSize_input hc hn x.chars.length [] 4
  rw [List.append_nil] at p1
  have hflat : cs.flatten = z.chars := by
    simp only [cs]; generalize z.chars = l; induction l <;> simp_all
  have d1 : serString cfg (env.ti .str).sizeof (onInput (sizeNode cfg cfg.check n) 4) x = .throw .streamShort := by
    have hf : (onInput (sizeNode cfg cfg.check n) 4).isFootprinting = false := rfl
    have hu : (onInput [] k).isUnpacking = true := rfl
    simp only [serString, hf, Bool.false_eq_true, if_false, p1, Out.bind_eq, Out.bind_ok]
    show Out.bind (serializeChars cfg (onInput [] k) z.chars) _ = _
    simp only [serializeChars, Out.bind_eq]
    rw [show serializeArray cfg (charElem cfg) (onInput [] k) (z.chars.map fun c => [c]) = _ from c1]
    rfl
  have d2 : serStringEnd cfg (onInput (sizeNode cfg cfg.check n) 4) x = .ok z := by
    simp only [serStringEnd, p1, Out.after]
    show (serializeArrayEnd cfg (charElem cfg) (dispatchByteEnd 1) (onInput [] k) cs >>= fun ys =>
      Out.ok ({ z with chars := ys.flatten } : Str)) = _
    rw [c2]
    show Out.ok ({ z with chars := cs.flatten } : Str) = _
    rw [hflat]
  have g1 : dispatchStep cfg env (dispatch cfg env 0) .str (onInput (sizeNode cfg cfg.check n) 4) [.str x] =
      .throw .streamShort := by
    simp only [dispatchStep]
    refine each_throw ?_
    exact (congrArg (fun o => Out.bind o _) d1).trans rfl
  have g2 : dispatchStepEnd cfg env (dispatch cfg env 0) (dispatchEnd cfg env 0) .str
      (onInput (sizeNode cfg cfg.check n) 4) [.str x] = .ok [.str z] := by
    simp only [dispatchStepEnd]
    refine eachEnd_throw (e := .streamShort) (by simp only [oneOf, g1]; rfl) ?_
    exact (congrArg (fun o => Out.bind o _) d2).trans rfl
  obtain ⟨q1, q2⟩ := top_at_end (cfg := cfg) (env := env) (t := .str)
    (e := elem cfg env 1 .str) (r := dispatchEnd cfg env 1 .str) rfl hti
    (by simpa only [elem, Env.elemOf, dispatch] using g1) (by simpa only [dispatchEnd] using g2)
  exact ⟨Yields.at (fun {_ _} hnm => inStream_le (elem_le cfg env hnm _) _ _) 1 q1 nofun, _, hlen,
    yields_of (fun n m => ends_le _ _) q2⟩

theorem new_of_stream (hv : env.Valid .capacity (· ∈ builtinKinds) cfg) {x : Val} (hx : WT .capacity env t x)
    (hb : ByVal t x) {bs : Bytes} (hs : StreamForm cfg env t x bs) : ∃ z, Rel .capacity env t x z ∧
      Yields (fun n => deserializeFromStream cfg (elem cfg env n t) bs) (.ok (z, [])) := by
  obtain ⟨z, h1, h2⟩ := (isEnc_of_stream hv hx hs).inStream hv (fun _ h => h)
    (prior_of_clean hv hb (hv.fresh t).2 (hv.fresh t).1) []
  rw [List.append_nil] at h2
  exact ⟨z, h1, h2⟩

/-- **C80**: unused capacity is not bounded.  At most 52 bytes give an empty vector any capacity. -/
theorem C80_capacity (hv : env.Valid .capacity (· ∈ builtinKinds) cfg) {cap : Nat} (hcap : cap < 2 ^ 64) :
    ∃ bs : Bytes, bs.length ≤ 52 ∧ ∃ c, cap ≤ c ∧
      Yields (fun n => deserializeFromStream cfg (elem cfg env n (.vec t)) bs) (.ok (.vec c [], [])) := by
  have hx : WT .capacity env (.vec t) (.vec cap []) :=
    .vec (Nat.zero_le _) hcap ⟨fun _ => Nat.zero_le _, fun _ => by simp⟩ (by simp) (by simp)
  obtain ⟨bs, hs⟩ := StreamForm.exists hv hx
  refine ⟨bs, ?_, ?_⟩
  · obtain ⟨n0, h0⟩ := isEnc_of_stream hv hx hs
    obtain ⟨-, h⟩ := h0 (n0 + 1) (by omega)
    rw [← h]
    simp only [topEnc, node, if_true, codec, vecEnc, sizeNode, arrEnc, List.length_nil, List.length_append, intBytes_length]
    repeat' split
    all_goals simp only [List.length_append, intBytes_length, List.length_nil]; omega
  · obtain ⟨z, hz, hr⟩ := new_of_stream hv hx (by simp [ByVal]) hs
    cases hz with
    | @vec _ _ c' _ ys h1 h2 _ =>
      have : ys = [] := List.length_eq_zero_iff.1 h2.symm
      subst this
      exact ⟨c', h1, hr⟩

/-- **C80**: the elements of a container must have data (`Accounted`).  For a class without members at most 64 bytes give a
vector any number of elements. -/
theorem C80_empty_elements (hv : env.Valid .capacity (· ∈ builtinKinds) cfg) {c : Nat} (hvirt : (env.cls c).virt = false)
    (hf : (env.cls c).fields = []) {n : Nat} (hn : n < 2 ^ 64) :
    ∃ bs : Bytes, bs.length ≤ 64 ∧ ∃ cap xs, xs.length = n ∧
      Yields (fun m => deserializeFromStream cfg (elem cfg env m (.vec (.cls c))) bs) (.ok (.vec cap xs, [])) := by
  have hb : (env.cls c).bases = [] := hv.plain c hvirt
  have hchain : env.chain c = [c] := by simp [Env.chain, hb]
  have hobj : WT .capacity env (.cls c) (.obj c [[]]) := by
    refine .obj (by simp [hchain]) (fun _ => rfl) (by simp [hchain]) ?_ ?_ ?_
    all_goals
      rw [hchain]
      intro j k p hj hp
      cases j with
      | zero =>
        simp only [List.getElem?_cons_zero, Option.some.injEq] at hj hp
        subst hj hp
        simp [hf]
      | succ j => simp at hj
  have hx : WT .capacity env (.vec (.cls c)) (.vec n (List.replicate n (.obj c [[]]))) := by
    refine .vec (by simp) hn ⟨fun h => ?_, fun h => ?_⟩ ?_ ?_
    · simp [Env.isVirt, hvirt] at h
    · exact absurd (hv.sym c) h
    · intro x hx
      rw [(List.mem_replicate.1 hx).2]; simp [ByVal]
    · intro x hx
      rw [(List.mem_replicate.1 hx).2]; exact hobj
  obtain ⟨bs, hs⟩ := StreamForm.exists hv hx
  refine ⟨bs, ?_, ?_⟩
  · obtain ⟨n0, h0⟩ := isEnc_of_stream hv hx hs
    obtain ⟨-, h⟩ := h0 (n0 + 2) (by omega)
    rw [← h]
    have he : ∀ w, (List.replicate n (Val.obj c [[]])).flatMap
        (((codec .capacity cfg env (n0 + 1) (.cls c)).byVal (.cls c)).enc w) = [] := by
      intro w
      rw [List.flatMap_eq_nil_iff]
      intro x hx
      rw [(List.mem_replicate.1 hx).2]
      simp [Codec.byVal, codec, hvirt, hf, membersEnc]
    have hl : (vecEnc cfg cfg.check (env.ti (.cls c)) ((codec .capacity cfg env (n0 + 1) (.cls c)).byVal (.cls c))
        ⟨n, List.replicate n (.obj c [[]])⟩).length ≤ 52 := by
      simp only [vecEnc, arrEnc, he, sizeNode, node, List.length_append]
      repeat' split
      all_goals simp only [List.length_append, intBytes_length, List.length_nil]; omega
    simp only [topEnc, node, if_true, List.length_append, intBytes_length]
    exact Nat.add_le_add_right (Nat.add_le_add_left hl 4) 8
  · obtain ⟨z, hz, hr⟩ := new_of_stream hv hx (by simp [ByVal]) hs
    cases hz with
    | @vec _ _ c' _ ys h1 h2 _ => exact ⟨c', ys, by simpa using h2.symm, hr⟩

end

namespace Demo

mutual
theorem fresh_weight : ∀ t, Demo.env.weight t (fresh t) = 0
  | .prim .. | .enm .. | .chrono .. => by simp [fresh, Env.weight]
  | .str | .vec _ | .vecBool | .seq .. | .queue _ | .oset .. | .uset .. => by simp [fresh, Env.weight, Env.weights]
  | .opt _ | .uptr _ => by simp [fresh, Env.weight, Env.weightIn]
  | .pair a b => by simp [fresh, Env.weight, Env.weightsOf, fresh_weight a, fresh_weight b]
  | .tuple ts => by simp [fresh, Env.weight, freshes_weight ts]
  | .variant [] => by simp [fresh, Env.weight]
  | .variant (t :: ts) => by
    simp only [fresh]
    split
    · simp [Env.weight]
    · simp [Env.weight, fresh_weight t]
  | .arr k t => by
    simp [fresh, Env.weight, weights_eq, fresh_weight t]
  | .cls 0 | .cls 1 | .cls 2 | .cls 3 | .cls 4 | .cls 5 | .cls 6 | .cls 7 => by decide +kernel
  | .cls (c + 8) => by
    simp [fresh, Env.weight, Env.chain, Env.weightParts, Env.weightsOf, Demo.env, cls]
theorem freshes_weight : ∀ ts, Demo.env.weightsOf ts (freshes ts) = 0
  | [] => by simp [freshes, Env.weightsOf]
  | t :: ts => by simp [freshes, Env.weightsOf, fresh_weight t, freshes_weight ts]
end

theorem startsEmpty : Demo.env.StartsEmpty := fun t => ⟨fresh_weight t, fun d hd => by
  have : d = fresh t := by
    simp only [Demo.env] at hd
    split at hd <;> cases hd
    rfl
  rw [this]
  exact fresh_weight t⟩

/-- The types that occur in vectors of pointers to polymorphic objects, in lists of pairs and in linked lists. -/
def occurring : List Ty :=
  [int, double, .str, .cls 6, .vec (.uptr (.cls 1)), .uptr (.cls 1), .cls 1, .uptr (.cls 4), .cls 4,
    .seq .list (.pair .str (.vec int)), .pair .str (.vec int), .vec int]

theorem occurring_paid : Paid Demo.env (· ∈ occurring) := by
  have hcls : ∀ d, ∀ t ∈ (Demo.env.cls d).rfields, t ∈ occurring := by
    intro d
    match d with
    | 0 | 1 | 2 | 3 | 4 | 5 | 6 | 7 => simp [Demo.env, cls, occurring]
    | d + 8 => simp [Demo.env, cls]
  have hi : Solid Demo.env int := .prim (by decide)
  have hp : Solid Demo.env (.uptr (.cls 1)) := .poly rfl
  refine ⟨?_, ?_, ?_, ?_, ?_, ?_, ?_, ?_, ?_, ?_, ?_, fun _ => hcls _, fun _ _ => hcls⟩
  all_goals simp [occurring, int, double]
  · exact ⟨hp, hi⟩
  · exact .fst .str

theorem named_accounted : Accounted Demo.env (.cls 6) := ⟨_, occurring_paid, by simp [occurring]⟩

/-- A stream of any bytes, read over a vector of polymorphic objects. -/
example (check ndebug : Bool) (inp : Bytes) (y z : Val) (rest : Bytes)
    (h : Yields (fun n => deserializeInPlaceFromStream (cfg check ndebug)
      (elem (cfg check ndebug) Demo.env n (.vec (.uptr (.cls 1)))) inp y) (.ok (z, rest))) :
    Demo.env.weight (.vec (.uptr (.cls 1))) z + rest.length + 12 ≤
      Demo.env.weight (.vec (.uptr (.cls 1))) y + inp.length :=
  C80_stream sound startsEmpty ⟨_, occurring_paid, by simp [occurring]⟩ h

/-- For `C80_stream`, `C80_new_from_stream`: an object of the weight 2, read from 26 bytes. -/
example : Demo.env.Sound (cfg false false) ∧ Demo.env.StartsEmpty ∧ Accounted Demo.env (.cls 6) ∧
    Demo.env.weight (.cls 6) named = 2 ∧ (namedStart ++ namedEnd).length = 26 ∧
    Yields (fun n => deserializeInPlaceFromStream (cfg false false) (elem (cfg false false) Demo.env n (.cls 6))
      (namedStart ++ namedEnd ++ [1, 2, 3]) (fresh (.cls 6))) (.ok (named, [1, 2, 3])) ∧
    Yields (fun n => deserializeFromStream (cfg false false) (elem (cfg false false) Demo.env n (.cls 6))
      (namedStart ++ namedEnd ++ [1, 2, 3])) (.ok (named, [1, 2, 3])) :=
  ⟨sound, startsEmpty, named_accounted, by decide +kernel, by decide,
    Yields.at (fun {_ _} hnm => inStream_le (elem_le (cfg false false) Demo.env hnm (.cls 6)) _ _) 3 rfl nofun,
    Yields.at (fun {_ _} hnm => inStream_le (elem_le (cfg false false) Demo.env hnm (.cls 6)) _ _) 3 rfl nofun⟩

/-- For `C80_memory`, `C80_new_from_memory`. -/
example : Yields (fun n => deserializeInPlace (cfg false false) (elem (cfg false false) Demo.env n (.cls 6))
      (namedStart ++ namedEnd ++ [1, 2, 3]) (fresh (.cls 6))) (.ok (named, 26)) ∧
    Yields (fun n => deserialize (cfg false false) (elem (cfg false false) Demo.env n (.cls 6))
      (namedStart ++ namedEnd ++ [1, 2, 3])) (.ok (named, 26)) :=
  ⟨Yields.at (fun {_ _} hnm => inPlace_le (elem_le (cfg false false) Demo.env hnm (.cls 6)) _ _) 3 rfl nofun,
    by
      simp only [deserialize_elem]
      exact Yields.at (fun {_ _} hnm => inPlace_le (elem_le (cfg false false) Demo.env hnm (.cls 6)) _ _) 3 rfl nofun⟩

/-- For `C80_file`, `C80_new_from_file`. -/
example : let w : World := { files := fun _ => some (namedStart ++ namedEnd), disk := fun _ => none }
    (deserializeInPlaceFromFile (cfg false false) (elem (cfg false false) Demo.env 3 (.cls 6)) noFaults w 0
      (fresh (.cls 6))).1 = .out (.ok named) ∧
    (deserializeFromFile (cfg false false) (elem (cfg false false) Demo.env 3 (.cls 6)) noFaults w 0).1 = .out (.ok named) :=
  ⟨rfl, rfl⟩

/-- For `C80_short_vector`: 44 bytes leave a vector of a thousand million elements. -/
example : ∃ c zs, 10 ^ 9 ≤ zs.length ∧ 10 ^ 9 ≤ c ∧
    Leaves (fun m => inPlaceFromStreamEnd (cfg true false) (elem (cfg true false) Demo.env m (.vec int))
      (dispatchEnd (cfg true false) Demo.env m (.vec int)) (vectorHead (cfg true false) Demo.env int (10 ^ 9) (10 ^ 9))
      (fresh (.vec int))) (.vec c zs) :=
  (C80_short_vector (valid_contents.cfgOk) sound (by decide) (ti_valid _) (by decide) (by decide) (by decide)
    (fresh_formed _)).2.2

/-- For `C80_short_string`. -/
example : (cfg true false).Valid ∧ (Demo.env.ti .str).Valid := ⟨valid_contents.cfgOk, ti_valid _⟩

/-- For `C80_capacity`, and for `C80_empty_elements` with a class without members. -/
example : Demo.env.Valid .capacity (· ∈ builtinKinds) (cfg true false) ∧ (Demo.env.cls 8).virt = false ∧
    (Demo.env.cls 8).fields = [] ∧ ¬ Accounted Demo.env (.vec (.cls 8)) := by
  refine ⟨valid_capacity, rfl, rfl, ?_⟩
  rintro ⟨S, hS, ht⟩
  obtain ⟨-, h⟩ := hS.vec ht
  cases h with
  | cls _ hm _ => cases hm

end Demo
end Ckpt
