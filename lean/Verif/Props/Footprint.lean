import Verif.Props.RoundTrip
/-!
# Memory footprint (C41, C42)
-/

set_option autoImplicit false

namespace Ckpt

/-! ## C41 -/

/-- C41: the offset is added to the footprint (as `size_t`), for arbitrary serialization code. -/
theorem C41_offset {T : Type} (cfg : Cfg) (e : Elem T) (x : T) (off : Nat) :
    (∀ f y, getMemoryFootprint cfg e x 0 = .ok (f, y) → getMemoryFootprint cfg e x off = .ok ((off + f) % 2 ^ 64, y)) ∧
    ((¬ ∃ r, getMemoryFootprint cfg e x 0 = .ok r) →
      getMemoryFootprint cfg e x off = getMemoryFootprint cfg e x 0) := by
  simp only [getMemoryFootprint, Out.bind_eq]
  cases traverseTop cfg e { core := .footprinter 0, kind := .footprinter } x with
  | ok r => simp [sizeMod]
  | _ => simp

section
variable {R : RelMode} {cfg : Cfg} {env : Env} {t : Ty} {x : Val}

/-- C41: the footprint of every object is at least its `sizeof`, and computing it does not change the
object. -/
theorem C41_at_least_sizeof (hv : env.Valid R (· ∈ builtinKinds) cfg) (hx : WT R env t x)
    (hs : (env.ti t).sizeof < 2 ^ 64) :
    ∃ f, Yields (fun n => getMemoryFootprint cfg (elem cfg env n t) x 0) (.ok (f, x)) ∧
      (env.ti t).sizeof ≤ f ∧ f < 2 ^ 64 := by
  obtain ⟨bs, n0, h0⟩ := exists_enc hv (fun _ h => h) hx
  obtain ⟨f, hf⟩ := IsEnc.footprint hv (fun _ h => h) ⟨n0, h0⟩
  obtain ⟨m, hm⟩ := hf 0
  have h1 := footprint_law (K := Scope.quiet (· ∈ builtinKinds)) (fun _ h => h) (law hv (max n0 m) t)
    (h0 (max n0 m) (by omega)).1 0
  have hti : (elem cfg env (max n0 m) t).ti = env.ti t := rfl
  rw [hti] at h1
  have h2 := (hm (max n0 m) (by omega)).symm.trans h1
  simp only [Out.ok.injEq, Prod.mk.injEq, and_true, Nat.zero_add] at h2
  refine ⟨_, hf 0, ?_⟩
  rw [Nat.zero_add, h2]
  have := Nat.mod_lt ((codec R cfg env (max n0 m) t).fp x) (show 0 < 2 ^ 64 by decide)
  rw [Nat.mod_eq_of_lt (by omega)]
  omega

/-! ## C42 -/

/-- The footprinter, having counted `m` bytes before, counts `f` bytes for the object `x`. -/
def Counted (cfg : Cfg) (env : Env) (t : Ty) (x : Val) (f : Nat) : Prop :=
  ∀ m < 2 ^ 64, Yields (fun n => pipe cfg (elem cfg env n t) { core := .footprinter m, kind := .footprinter } x)
    (.ok (x, { core := .footprinter ((m + f) % 2 ^ 64), kind := .footprinter }))

theorem pipe_footprinter (hv : env.Valid R (· ∈ builtinKinds) cfg) {n m : Nat} (hm : m < 2 ^ 64)
    (hp : (codec R cfg env n t).P x) :
    pipe cfg (elem cfg env n t) { core := .footprinter m, kind := .footprinter } x =
      .ok (x, { core := .footprinter ((m + (codec R cfg env n t).fp x) % 2 ^ 64), kind := .footprinter }) := by
  have := pipe_fp (law hv n t) hp { core := .footprinter m, kind := .footprinter }
    ⟨rfl, show Kind.footprinter ∈ builtinKinds by decide, hm⟩
  exact this

theorem Counted.codec (hv : env.Valid R (· ∈ builtinKinds) cfg) (hx : WT R env t x) {f : Nat}
    (h : Counted cfg env t x f) : ∃ n0, ∀ n ≥ n0, (codec R cfg env n t).fp x % 2 ^ 64 = f % 2 ^ 64 := by
  obtain ⟨n0, h0⟩ := codec_P (cfg := cfg) hx
  obtain ⟨n1, h1⟩ := h 0 (by decide)
  refine ⟨max n0 n1, fun n hn => ?_⟩
  have h2 := h1 n (by omega)
  simp only [pipe_footprinter hv (show 0 < 2 ^ 64 by decide) (h0 n (by omega))] at h2
  simpa using h2

theorem Counted.of_codec (hv : env.Valid R (· ∈ builtinKinds) cfg) (hx : WT R env t x) {f : Nat}
    (h : ∃ n0, ∀ n ≥ n0, (Ckpt.codec R cfg env n t).fp x % 2 ^ 64 = f % 2 ^ 64) : Counted cfg env t x f := by
  intro m hm
  obtain ⟨n0, h0⟩ := codec_P (cfg := cfg) hx
  obtain ⟨n1, h1⟩ := h
  refine ⟨max n0 n1, fun n hn => ?_⟩
  simp only [pipe_footprinter hv hm (h0 n (by omega))]
  have := h1 n (by omega)
  simp only [Out.ok.injEq, Prod.mk.injEq, true_and, Ser.mk.injEq, Core.footprinter.injEq, and_true]
  omega

theorem sum_mod {α : Type} {g f : α → Nat} : ∀ {xs : List α}, (∀ x ∈ xs, g x % 2 ^ 64 = f x % 2 ^ 64) →
    (xs.map g).sum % 2 ^ 64 = (xs.map f).sum % 2 ^ 64
  | [], _ => rfl
  | x :: xs, h => by
    have h1 := h x (by simp)
    have h2 := sum_mod (xs := xs) (fun y hy => h y (by simp [hy]))
    simp only [List.map_cons, List.sum_cons]
    omega

/-- What the footprinter counts is what the footprint is made of. -/
theorem C42_footprint (hv : env.Valid R (· ∈ builtinKinds) cfg) (hx : WT R env t x) {f : Nat}
    (hf : Counted cfg env t x f) (off : Nat) :
    Yields (fun n => getMemoryFootprint cfg (elem cfg env n t) x off)
      (.ok ((off + max (f % 2 ^ 64) (env.ti t).sizeof) % 2 ^ 64, x)) := by
  obtain ⟨n0, h0⟩ := codec_P (cfg := cfg) hx
  obtain ⟨n1, h1⟩ := hf.codec hv hx
  refine ⟨max n0 n1, fun n hn => ?_⟩
  have := footprint_law (K := Scope.quiet (· ∈ builtinKinds)) (fun _ h => h) (law hv n t) (h0 n (by omega)) off
  rw [h1 n (by omega)] at this
  exact this

/-- Every object is counted. -/
theorem C42_counted (hv : env.Valid R (· ∈ builtinKinds) cfg) (hx : WT R env t x) : ∃ f, Counted cfg env t x f := by
  obtain ⟨n0, h0⟩ := codec_P (cfg := cfg) hx
  refine ⟨(codec R cfg env n0 t).fp x, fun m hm => ⟨n0, fun n hn => ?_⟩⟩
  have h1 := pipe_footprinter hv hm (h0 n0 (Nat.le_refl _))
  have h3 := (pipe_le (cfg := cfg) (elem_le cfg env hn t) { core := .footprinter m, kind := .footprinter } x).eq_of_ne
    (by rw [h1]; simp)
  exact h3.trans h1

variable (hv : env.Valid R (· ∈ builtinKinds) cfg)
include hv

/-- C42: a byte-copyable object counts its size. -/
theorem C42_fundamental {id size : Nat} {bs : Bytes} (hx : WT R env (.prim id size) (.raw bs)) :
    Counted cfg env (.prim id size) (.raw bs) size := by
  refine .of_codec hv hx ⟨1, fun n hn => ?_⟩
  obtain ⟨k, rfl⟩ : ∃ k, n = k + 1 := ⟨n - 1, by omega⟩
  rfl

/-- C42: a vector counts itself, its elements and `sizeof(T)` for each unused slot. -/
theorem C42_vector {cap : Nat} {xs : List Val} {f : Val → Nat} (hx : WT R env (.vec t) (.vec cap xs))
    (hf : ∀ x ∈ xs, Counted cfg env t x (f x)) :
    Counted cfg env (.vec t) (.vec cap xs)
      ((env.ti (.vec t)).sizeof + (xs.map f).sum + (env.ti t).sizeof * (cap - xs.length)) := by
  refine .of_codec hv hx ?_
  cases hx with
  | vec _ _ _ _ hw =>
    obtain ⟨n0, h0⟩ := eventually_list (fun x h => (hf x h).codec hv (hw x h))
    refine ⟨n0 + 1, fun n hn => ?_⟩
    obtain ⟨k, rfl⟩ : ∃ k, n = k + 1 := ⟨n - 1, by omega⟩
    have := sum_mod (h0 k (by omega))
    simp only [codec, Codec.byVal]
    omega

/-- C42: a string counts itself and its capacity. -/
theorem C42_string {s : Str} (hx : WT R env .str (.str s)) :
    Counted cfg env .str (.str s) ((env.ti .str).sizeof + s.cap) := by
  refine .of_codec hv hx ⟨1, fun n hn => ?_⟩
  obtain ⟨k, rfl⟩ : ∃ k, n = k + 1 := ⟨n - 1, by omega⟩
  rfl

/-- C42: a unique pointer counts itself and the object it points to (of whatever class that is). -/
theorem C42_unique_ptr {f : Nat} (hx : WT R env (.uptr t) (.ptr (some x))) (hf : Counted cfg env t x f) :
    Counted cfg env (.uptr t) (.ptr (some x)) ((env.ti (.uptr t)).sizeof + f) := by
  refine .of_codec hv hx ?_
  cases hx with
  | ptr _ _ hw =>
    obtain ⟨n0, h0⟩ := hf.codec hv hw
    refine ⟨n0 + 1, fun n hn => ?_⟩
    obtain ⟨k, rfl⟩ : ∃ k, n = k + 1 := ⟨n - 1, by omega⟩
    have := h0 k (by omega)
    simp only [codec]
    omega

/-- C42: a null pointer counts itself. -/
theorem C42_null_ptr : Counted cfg env (.uptr t) (.ptr none) (env.ti (.uptr t)).sizeof := by
  refine .of_codec hv .ptrNull ⟨1, fun n hn => ?_⟩
  obtain ⟨k, rfl⟩ : ∃ k, n = k + 1 := ⟨n - 1, by omega⟩
  rfl

/-- C42: lists, deques, sets and maps, ordered or not, count themselves and their elements. -/
theorem C42_collections {xs : List Val} {f : Val → Nat} {ct : Ty}
    (hct : (∃ k, ct = .seq k t) ∨ (∃ a cmp, ct = .oset a cmp t) ∨ (∃ a eq, ct = .uset a eq t))
    (hx : WT R env ct (.coll xs)) (hf : ∀ x ∈ xs, Counted cfg env t x (f x)) :
    Counted cfg env ct (.coll xs) ((env.ti ct).sizeof + (xs.map f).sum) := by
  refine .of_codec hv hx ?_
  have hw : ∀ x ∈ xs, WT R env t x := by
    rcases hct with ⟨k, rfl⟩ | ⟨a, cmp, rfl⟩ | ⟨a, eq, rfl⟩ <;> cases hx <;> assumption
  obtain ⟨n0, h0⟩ := eventually_list (fun x h => (hf x h).codec hv (hw x h))
  refine ⟨n0 + 1, fun n hn => ?_⟩
  obtain ⟨k, rfl⟩ : ∃ k, n = k + 1 := ⟨n - 1, by omega⟩
  have := sum_mod (h0 k (by omega))
  rcases hct with ⟨k, rfl⟩ | ⟨a, cmp, rfl⟩ | ⟨a, eq, rfl⟩ <;> simp only [codec, Codec.byVal] <;> omega

/-- C42: arrays count their elements only. -/
theorem C42_array {k : Nat} {xs : List Val} {f : Val → Nat} (hx : WT R env (.arr k t) (.coll xs))
    (hf : ∀ x ∈ xs, Counted cfg env t x (f x)) : Counted cfg env (.arr k t) (.coll xs) (xs.map f).sum := by
  refine .of_codec hv hx ?_
  cases hx with
  | arr _ _ _ hw =>
    obtain ⟨n0, h0⟩ := eventually_list (fun x h => (hf x h).codec hv (hw x h))
    refine ⟨n0 + 1, fun n hn => ?_⟩
    obtain ⟨k, rfl⟩ : ∃ k, n = k + 1 := ⟨n - 1, by omega⟩
    have := sum_mod (h0 k (by omega))
    simp only [codec, Codec.byVal]
    omega

/-- C42: a pair counts its members in addition to itself. -/
theorem C42_pair {a b : Ty} {y : Val} {f g : Nat} (hx : WT R env (.pair a b) (.coll [x, y]))
    (hf : Counted cfg env a x f) (hg : Counted cfg env b y g) :
    Counted cfg env (.pair a b) (.coll [x, y]) ((env.ti (.pair a b)).sizeof + f + g) := by
  refine .of_codec hv hx ?_
  cases hx with
  | pair _ _ h1 h2 =>
    obtain ⟨n0, h0⟩ := hf.codec hv h1
    obtain ⟨m0, g0⟩ := hg.codec hv h2
    refine ⟨max n0 m0 + 1, fun n hn => ?_⟩
    obtain ⟨k, rfl⟩ : ∃ k, n = k + 1 := ⟨n - 1, by omega⟩
    have := h0 k (by omega)
    have := g0 k (by omega)
    simp only [codec, Codec.byVal]
    omega

/-- C42, the exceptions: queues and stacks count `sizeof(T)` for each element, not what the elements own;
nor does an optional count what its value owns; a `std::vector<bool>` does not count its bits. -/
theorem C42_not_counted :
    (∀ xs, WT R env (.queue t) (.coll xs) →
      Counted cfg env (.queue t) (.coll xs) ((env.ti (.queue t)).sizeof + (env.ti t).sizeof * xs.length)) ∧
    (∀ x, WT R env (.opt t) (.opt (some x)) →
      Counted cfg env (.opt t) (.opt (some x)) ((env.ti (.opt t)).sizeof + (env.ti t).sizeof)) ∧
    (∀ cap bs, WT R env .vecBool (.vbool cap bs) →
      Counted cfg env .vecBool (.vbool cap bs) (env.ti .vecBool).sizeof) := by
  refine ⟨fun xs hx => .of_codec hv hx ⟨1, fun n hn => ?_⟩, fun x hx => .of_codec hv hx ⟨1, fun n hn => ?_⟩,
    fun cap bs hx => .of_codec hv hx ⟨1, fun n hn => ?_⟩⟩ <;>
  (obtain ⟨k, rfl⟩ : ∃ k, n = k + 1 := ⟨n - 1, by omega⟩
   rfl)

omit hv in
theorem membersFp_mod {ts : List Ty} {n : Nat} : ∀ {p : List Val} {fs : List Nat}, p.length = ts.length →
    fs.length = ts.length →
    (∀ (i : Nat) t x f, ts[i]? = some t → p[i]? = some x → fs[i]? = some f →
      (codec R cfg env n t).fp x % 2 ^ 64 = f % 2 ^ 64) →
    membersFp (fun t => (codec R cfg env n t).byVal t) ts p % 2 ^ 64 = fs.sum % 2 ^ 64 := by
  induction ts with
  | nil =>
    intro p fs hp hf _
    obtain rfl := List.length_eq_zero_iff.mp hp
    obtain rfl := List.length_eq_zero_iff.mp hf
    rfl
  | cons t ts ih =>
    intro p fs hp hf h
    obtain ⟨x, p, rfl⟩ := List.exists_cons_of_length_eq_add_one hp
    obtain ⟨f, fs, rfl⟩ := List.exists_cons_of_length_eq_add_one hf
    have h1 := h 0 t x f rfl rfl rfl
    have h2 := ih (p := p) (fs := fs) (by simpa using hp) (by simpa using hf)
      (fun i t x f a b c => h (i + 1) t x f (by simpa using a) (by simpa using b) (by simpa using c))
    simp only [membersFp, List.sum_cons, Codec.byVal] at *
    omega

omit hv in
theorem chainFp_mod {n : Nat} : ∀ {ks : List Nat} {ps : List (List Val)} {fss : List (List Nat)},
    ps.length = ks.length → fss.length = ks.length →
    (∀ (j k : Nat) p fs, ks[j]? = some k → ps[j]? = some p → fss[j]? = some fs →
      membersFp (fun t => (codec R cfg env n t).byVal t) (env.cls k).fields p % 2 ^ 64 = fs.sum % 2 ^ 64) →
    chainFp (fun k p => membersFp (fun t => (codec R cfg env n t).byVal t) (env.cls k).fields p) ks ps % 2 ^ 64 =
      (fss.map List.sum).sum % 2 ^ 64 := by
  intro ks
  induction ks with
  | nil =>
    intro ps fss hp hf _
    obtain rfl := List.length_eq_zero_iff.mp hp
    obtain rfl := List.length_eq_zero_iff.mp hf
    rfl
  | cons k ks ih =>
    intro ps fss hp hf h
    obtain ⟨p, ps, rfl⟩ := List.exists_cons_of_length_eq_add_one hp
    obtain ⟨fs, fss, rfl⟩ := List.exists_cons_of_length_eq_add_one hf
    have h1 := h 0 k p fs rfl rfl rfl
    have h2 := ih (ps := ps) (fss := fss) (by simpa using hp) (by simpa using hf)
      (fun j k p fs a b c => h (j + 1) k p fs (by simpa using a) (by simpa using b) (by simpa using c))
    simp only [chainFp, List.map_cons, List.sum_cons] at *
    omega

/-- C42: an object — of the declared class `c` or, behind a pointer, of a class `d` derived from it —
counts the members that the serialize functions of its class and of the classes this one derives from
visit, and nothing else: no padding, no other members. -/
theorem C42_object {c d : Nat} {ps : List (List Val)} {fss : List (List Nat)}
    (hx : WT R env (.cls c) (.obj d ps)) (hl : fss.length = (env.chain d).length)
    (hl' : ∀ (j k : Nat) fs, (env.chain d)[j]? = some k → fss[j]? = some fs → fs.length = (env.cls k).fields.length)
    (hf : ∀ (j k : Nat) p fs, (env.chain d)[j]? = some k → ps[j]? = some p → fss[j]? = some fs →
      ∀ (i : Nat) t x f, (env.cls k).fields[i]? = some t → p[i]? = some x → fs[i]? = some f → Counted cfg env t x f) :
    Counted cfg env (.cls c) (.obj d ps) (fss.map List.sum).sum := by
  refine .of_codec hv hx ?_
  cases hx with
  | obj _ _ h1 h2 h3 h4 =>
    have := eventually_get (xs := ps) (Q := fun j p n => ∀ k fs, (env.chain d)[j]? = some k → fss[j]? = some fs →
      ∀ (i : Nat) x, p[i]? = some x → ∀ t f, (env.cls k).fields[i]? = some t → fs[i]? = some f →
      (codec R cfg env n t).fp x % 2 ^ 64 = f % 2 ^ 64) (by
        intro j p hp
        cases hk : (env.chain d)[j]? with
        | none => exact ⟨0, by simp⟩
        | some k =>
          cases hfs : fss[j]? with
          | none => exact ⟨0, by simp⟩
          | some fs =>
            have := eventually_get (xs := p) (Q := fun i x n => ∀ t f, (env.cls k).fields[i]? = some t →
              fs[i]? = some f → (codec R cfg env n t).fp x % 2 ^ 64 = f % 2 ^ 64) (by
                intro i x hx
                cases ht : (env.cls k).fields[i]? with
                | none => exact ⟨0, by simp⟩
                | some t =>
                  cases hf' : fs[i]? with
                  | none => exact ⟨0, by simp⟩
                  | some f =>
                    obtain ⟨n0, h0⟩ := (hf j k p fs hk hp hfs i t x f ht hx hf').codec hv (h4 j k p hk hp i t x ht hx)
                    refine ⟨n0, fun n hn t' f' ht' hf'' => ?_⟩
                    cases ht'
                    cases hf''
                    exact h0 n hn)
            obtain ⟨n0, h0⟩ := this
            refine ⟨n0, fun n hn k' fs' hk' hfs' => ?_⟩
            cases hk'
            cases hfs'
            exact h0 n hn)
    obtain ⟨n0, h0⟩ := this
    refine ⟨n0 + 1, fun n hn => ?_⟩
    obtain ⟨m, rfl⟩ : ∃ k, n = k + 1 := ⟨n - 1, by omega⟩
    exact chainFp_mod (n := m) h1 hl fun j k p fs hk hp hfs =>
      membersFp_mod (n := m) (h2 j k p hk hp) (hl' j k fs hk hfs)
        (fun i t x f a b e => h0 m (by omega) j p hp k fs hk hfs i x b t f a e)

end

/-- Footprint of the demo sample: its value is counted. -/
example : ∃ f, Counted (Demo.cfg true false) Demo.env Demo.sampleTy Demo.sample f :=
  C42_counted Demo.valid_contents Demo.sample_wt
end Ckpt
