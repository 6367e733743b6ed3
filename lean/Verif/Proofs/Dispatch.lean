import Verif.Proofs.Laws
import Verif.Spec.Wire
/-!
Writing / reading / footprint laws of the dispatch layer.
-/

set_option autoImplicit false

namespace Ckpt

section
variable {K : Scope} {cfg : Cfg}

theorem contiguousBytes_wr {size num : Nat} {data : Bytes} (h : data.length = size * num) :
    Wr K cfg (fun s => s.contiguousBytes size num data) (fun _ => data) data := by
  intro s hs
  obtain ⟨core, kind, vdis⟩ := s
  cases core <;> simp [Ser.Writer] at hs <;> simp [Ser.contiguousBytes, Ser.emit, h]
  · split <;> simp
  · split <;> simp

theorem contiguousBytes_rd {size num : Nat} {data bs : Bytes} (h : data.length = size * num)
    (hb : bs.length = size * num) :
    Rd K (fun s => s.contiguousBytes size num data) bs (· = bs) := by
  intro s hs
  obtain ⟨core, kind, vdis⟩ := s
  cases core <;> simp [Ser.Reader] at hs
  · rename_i mem cur used
    constructor
    · intro rest hr
      simp [Ser.remaining] at hr
      refine .inl ⟨bs, rfl, ?_⟩
      have hl := congrArg List.length hr
      simp at hl
      have : cur + bs.length ≤ mem.length := by omega
      simp [Ser.contiguousBytes, h, this, hr, Ser.advance, ← hb]
    · intro t ht he
      simp [Ser.remaining] at he
      have h0 : 0 < t.length := List.length_pos_of_ne_nil ht
      have hl := congrArg List.length he
      simp at hl
      have : ¬ (cur + size * num ≤ mem.length) := by omega
      simp [Ser.contiguousBytes, h, this, Ser.short]
  · rename_i inp n
    constructor
    · intro rest hr
      simp [Ser.remaining] at hr
      refine .inl ⟨bs, rfl, ?_⟩
      have hl := congrArg List.length hr
      simp at hl
      have : bs.length ≤ inp.length := by omega
      simp [Ser.contiguousBytes, h, this, Ser.advance, ← hb]
      subst hr; simp
    · intro t ht he
      simp [Ser.remaining] at he
      have h0 : 0 < t.length := List.length_pos_of_ne_nil ht
      have hl := congrArg List.length he
      simp at hl
      have : ¬ (size * num ≤ inp.length) := by omega
      simp [Ser.contiguousBytes, h, this, Ser.short]

theorem contiguousBytes_fp {size num : Nat} {data : Bytes} :
    Fp K (fun s => s.contiguousBytes size num data) (size * num) data := by
  intro s hs
  obtain ⟨core, kind, vdis⟩ := s
  cases core <;> simp [Ser.Footer] at hs
  simp [Ser.contiguousBytes, Ser.addBytes]

/-- A function of the result alone changes nothing but the result. -/
theorem Wr.map {B C : Type} {m : Ser → Out (B × Ser)} {bs : Bool → Bytes} {b : B}
    (h : Wr K cfg m bs b) (f : B → C) :
    Wr K cfg (fun s => m s >>= fun p => .ok (f p.1, p.2)) bs (f b) := by
  refine (h.bind (k := fun p => .ok (f p.1, p.2)) (Wr.pure (f b))).congr (fun _ _ => rfl) ?_
  intro w; simp

theorem Rd.map {B C : Type} {m : Ser → Out (B × Ser)} {bs : Bytes} {Q : B → Prop} {Q' : C → Prop}
    (h : Rd K m bs Q) (f : B → C) (hf : ∀ b, Q b → Q' (f b)) :
    Rd K (fun s => m s >>= fun p => .ok (f p.1, p.2)) bs Q' := by
  refine (h.bind (k := fun p => .ok (f p.1, p.2)) (bs' := []) (Q' := Q')
    (fun b hb => Rd.pure (hf b hb))).congr (fun _ _ => rfl) (by simp) (fun _ h => h)

theorem Fp.map {B C : Type} {m : Ser → Out (B × Ser)} {n : Nat} {b : B}
    (h : Fp K m n b) (f : B → C) :
    Fp K (fun s => m s >>= fun p => .ok (f p.1, p.2)) n (f b) :=
  (h.bind (k := fun p => .ok (f p.1, p.2)) (Fp.pure (f b))).congr (fun _ _ => rfl) (by simp)

theorem chunks_of_flatten {size : Nat} : ∀ {xs : List Bytes}, (∀ x ∈ xs, x.length = size) →
    chunks size xs.length xs.flatten = xs
  | [], _ => rfl
  | x :: xs, h => by
    have hx : x.length = size := h x (by simp)
    have ih := chunks_of_flatten (size := size) (xs := xs) (fun y hy => h y (by simp [hy]))
    simp [chunks, ← hx]
    rw [hx]; exact ih

theorem flatten_length_eq {size : Nat} {xs : List Bytes} (h : ∀ x ∈ xs, x.length = size) :
    xs.flatten.length = size * xs.length := by
  induction xs with
  | nil => simp
  | cons x xs ih =>
    simp [ih (fun y hy => h y (by simp [hy])), h x (by simp), Nat.mul_add, Nat.add_comm]

theorem dispatchByte_wr {size : Nat} {xs : List Bytes} (h : ∀ x ∈ xs, x.length = size) :
    Wr K cfg (fun s => dispatchByte size s xs) (fun _ => xs.flatten) xs := by
  have h' := (contiguousBytes_wr (K := K) (cfg := cfg) (flatten_length_eq h)).map
    (chunks size xs.length)
  rw [chunks_of_flatten h] at h'
  exact h'

theorem dispatchByte_rd {size : Nat} {xs ys : List Bytes} (h : ∀ x ∈ xs, x.length = size)
    (hy : ∀ x ∈ ys, x.length = size) (hl : ys.length = xs.length) :
    Rd K (fun s => dispatchByte size s ys) xs.flatten (· = xs) := by
  refine (contiguousBytes_rd (flatten_length_eq hy) (by rw [flatten_length_eq h, hl])).map
    (chunks size ys.length) ?_
  rintro _ rfl
  rw [hl, chunks_of_flatten h]

theorem dispatchByte_fp {size : Nat} {xs : List Bytes} (h : ∀ x ∈ xs, x.length = size) :
    Fp K (fun s => dispatchByte size s xs) (size * xs.length) xs := by
  have h' := (contiguousBytes_fp (K := K) (size := size) (num := xs.length) (data := xs.flatten)).map
    (chunks size xs.length)
  rw [chunks_of_flatten h] at h'
  exact h'

theorem map_intVal_intBytes {n : Nat} {xs : List Nat} (h : ∀ x ∈ xs, x < 256 ^ n) :
    (xs.map (intBytes cfg.endian n)).map (intVal cfg.endian) = xs := by
  rw [List.map_map]
  conv => rhs; rw [← List.map_id xs]
  apply List.map_congr_left
  intro x hx
  simpa using intVal_intBytes_of_lt _ (h x hx)

theorem intBytes_len_mem {n : Nat} {xs : List Nat} :
    ∀ x ∈ xs.map (intBytes cfg.endian n), x.length = n := by
  intro x hx
  obtain ⟨v, _, rfl⟩ := List.mem_map.1 hx
  exact intBytes_length _ _ _

theorem dispatchInt_wr {n : Nat} {xs : List Nat} (h : ∀ x ∈ xs, x < 256 ^ n) :
    Wr K cfg (fun s => dispatchInt cfg n s xs) (fun _ => xs.flatMap (intBytes cfg.endian n)) xs := by
  have h' := (dispatchByte_wr (K := K) (cfg := cfg) (intBytes_len_mem (cfg := cfg) (n := n) (xs := xs))).map
    (List.map (intVal cfg.endian))
  rw [map_intVal_intBytes h] at h'
  exact h'

theorem dispatchInt_rd {n : Nat} {xs ys : List Nat} (h : ∀ x ∈ xs, x < 256 ^ n)
    (hl : ys.length = xs.length) :
    Rd K (fun s => dispatchInt cfg n s ys) (xs.flatMap (intBytes cfg.endian n)) (· = xs) := by
  have h' := (dispatchByte_rd (K := K) (intBytes_len_mem (cfg := cfg) (n := n) (xs := xs))
    (intBytes_len_mem (cfg := cfg) (n := n) (xs := ys)) (by simp [hl])).map
    (Q' := (· = xs)) (List.map (intVal cfg.endian)) (by
      rintro _ rfl
      exact map_intVal_intBytes h)
  exact h'

theorem dispatchInt_fp {n : Nat} {xs : List Nat} (h : ∀ x ∈ xs, x < 256 ^ n) :
    Fp K (fun s => dispatchInt cfg n s xs) (n * xs.length) xs := by
  have h' := (dispatchByte_fp (K := K) (intBytes_len_mem (cfg := cfg) (n := n) (xs := xs))).map
    (List.map (intVal cfg.endian))
  rw [map_intVal_intBytes h, List.length_map] at h'
  exact h'

/-- Take the only element of a singleton array. -/
def only {B : Type} (p : List B × Ser) : Out (B × Ser) :=
  match p.1 with
  | [y] => .ok (y, p.2)
  | _ => .ub .badRegion

theorem only_wr {B : Type} {m : Ser → Out (List B × Ser)} {bs : Bool → Bytes} {b : B}
    (h : Wr K cfg m bs [b]) : Wr K cfg (fun s => m s >>= only) bs b := by
  refine (h.bind (k := only) (bs' := fun _ => []) (c := b) (Wr.pure b)).congr (fun _ _ => rfl) ?_
  intro w; simp

theorem only_rd {B : Type} {m : Ser → Out (List B × Ser)} {bs : Bytes} {Q : List B → Prop}
    {Q' : B → Prop} (h : Rd K m bs Q) (hq : ∀ l, Q l → ∃ b, l = [b] ∧ Q' b) :
    Rd K (fun s => m s >>= only) bs Q' := by
  refine (h.bind (k := only) (bs' := []) (Q' := Q') ?_).congr (fun _ _ => rfl) (by simp)
    (fun _ h => h)
  intro l hl
  obtain ⟨b, rfl, hb⟩ := hq l hl
  exact Rd.pure hb

theorem only_fp {B : Type} {m : Ser → Out (List B × Ser)} {n : Nat} {b : B}
    (h : Fp K m n [b]) : Fp K (fun s => m s >>= only) n b :=
  (h.bind (k := only) (n' := 0) (c := b) (Fp.pure b)).congr (fun _ _ => rfl) (by simp)

theorem rawInt_eq (n : Nat) (s : Ser) (v : Nat) :
    rawInt cfg n s v = (dispatchInt cfg n s [v] >>= only) := by
  unfold rawInt
  cases dispatchInt cfg n s [v] <;> simp only [Out.bind_eq, Out.bind, only]
  split <;> simp_all

theorem pipe_eq {T : Type} (e : Elem T) (s : Ser) (x : T) :
    pipe cfg e s x = (traverse cfg e.ti e.apply s [x] >>= only) := by
  unfold pipe
  cases traverse cfg e.ti e.apply s [x] <;> simp only [Out.bind_eq, Out.bind, only]
  split <;> simp_all

theorem rawInt_wr {n v : Nat} (h : v < 256 ^ n) :
    Wr K cfg (fun s => rawInt cfg n s v) (fun _ => intBytes cfg.endian n v) v := by
  have := only_wr (dispatchInt_wr (K := K) (cfg := cfg) (xs := [v]) (n := n) (by simpa using h))
  exact this.congr (fun _ _ => rawInt_eq _ _ _) (by simp)

theorem rawInt_rd {n v v0 : Nat} (h : v < 256 ^ n) :
    Rd K (fun s => rawInt cfg n s v0) (intBytes cfg.endian n v) (· = v) := by
  have := only_rd (dispatchInt_rd (K := K) (cfg := cfg) (xs := [v]) (ys := [v0]) (n := n)
    (by simpa using h) rfl) (Q' := (· = v)) (by rintro _ rfl; exact ⟨v, rfl, rfl⟩)
  exact this.congr (fun _ _ => rawInt_eq _ _ _) (by simp) (fun _ h => h)

/-! ### Headers -/

/-- `withTypeIdx` as a computation with a trivial result. -/
def withTypeIdx' (cfg : Cfg) (ti : TI) (s : Ser) : Out (Unit × Ser) :=
  withTypeIdx cfg ti s >>= fun s => .ok ((), s)

def withMemUsed' (cfg : Cfg) (ti : TI) (len : Nat) (s : Ser) : Out (Unit × Ser) :=
  withMemUsed cfg ti s len >>= fun s => .ok ((), s)

theorem withTypeIdx_emit {ti : TI} (h : ti.Valid) {s : Ser} (hs : s.Writer K) :
    withTypeIdx cfg ti s = s.emit (if s.headers then intBytes cfg.endian 4 ti.idx else []) := by
  unfold withTypeIdx
  by_cases hh : s.headers = true
  · have hh' := hh
    simp only [Ser.headers] at hh'
    simp only [hh', if_true, hh]
    have := rawInt_wr (K := K) (cfg := cfg) (n := 4) (v := ti.idx) (by simpa using h.1) s hs
    simp only [this, Out.bind_eq, Out.bind_assoc, Out.bind_ok]
    simp
  · have hh' := hh
    simp only [Ser.headers] at hh'
    simp only [hh', hs.not_unpacking, hh]
    simp [Ser.emit_nil hs]

theorem withMemUsed_emit {ti : TI} {len : Nat} {s : Ser} (hs : s.Writer K) :
    withMemUsed cfg ti s len =
      s.emit (if s.headers then intBytes cfg.endian 8 (ti.sizeof * len % 2 ^ 64) else []) := by
  unfold withMemUsed
  by_cases hh : s.headers = true
  · have hh' := hh
    simp only [Ser.headers] at hh'
    simp only [hh', if_true, hh]
    have := rawInt_wr (K := K) (cfg := cfg) (n := 8) (v := ti.sizeof * len % sizeMod)
      (Nat.mod_lt _ (by decide)) s hs
    simp only [this, Out.bind_eq, Out.bind_assoc, Out.bind_ok]
    simp [sizeMod]
  · have hh' := hh
    simp only [Ser.headers] at hh'
    simp only [hh', hs.not_unpacking, hh]
    simp [Ser.emit_nil hs]

theorem withTypeIdx_rd {ti : TI} (h : ti.Valid) :
    Rd K (withTypeIdx' cfg ti) (intBytes cfg.endian 4 ti.idx) (fun _ => True) := by
  have h1 := (rawInt_rd (K := K) (cfg := cfg) (n := 4) (v := ti.idx) (v0 := 0)
    (by simpa using h.1)).bind (k := fun p =>
      (if validateIndex p.1 == false || ti.idx != p.1 then
        (.throw (.ser (.wrongType ti.idx p.1) 0 [ti.name]) : Out Ser)
      else .ok p.2) >>= fun s => .ok ((), s)) (bs' := []) (Q' := fun _ => True) (by
      rintro _ rfl
      refine (Rd.pure (K := K) (b := ()) trivial).congr ?_ rfl (fun _ h => h)
      intro s _
      simp [h.2])
  refine h1.congr ?_ (by simp) (fun _ h => h)
  intro s hs
  simp only [withTypeIdx', withTypeIdx, hs.not_packing.1, hs.not_packing.2, hs.unpacking]
  simp [Out.bind_assoc]

theorem withMemUsed_rd {ti : TI} {len : Nat} :
    Rd K (withMemUsed' cfg ti len) (intBytes cfg.endian 8 (ti.sizeof * len % 2 ^ 64))
      (fun _ => True) := by
  have h1 := (rawInt_rd (K := K) (cfg := cfg) (n := 8) (v := ti.sizeof * len % sizeMod) (v0 := 0)
    (Nat.mod_lt _ (by decide))).bind (k := fun p =>
      (if ti.sizeof * len % sizeMod != p.1 then
        (.throw (.ser (.memUsed ti.name p.1 (ti.sizeof * len % sizeMod)) 0 []) : Out Ser)
      else .ok p.2) >>= fun s => .ok ((), s)) (bs' := []) (Q' := fun _ => True) (by
      rintro _ rfl
      refine (Rd.pure (K := K) (b := ()) trivial).congr ?_ rfl (fun _ h => h)
      intro s _
      simp)
  refine h1.congr ?_ (by simp [sizeMod]) (fun _ h => h)
  intro s hs
  simp only [withMemUsed', withMemUsed, hs.not_packing.1, hs.not_packing.2, hs.unpacking]
  simp [Out.bind_assoc]

theorem withTypeIdx_fp {ti : TI} {s : Ser} (hs : s.Footer K) : withTypeIdx cfg ti s = .ok s := by
  simp [withTypeIdx, hs.not_packing.1, hs.not_packing.2, hs.not_unpacking]

theorem withMemUsed_fp {ti : TI} {len : Nat} {s : Ser} (hs : s.Footer K) :
    withMemUsed cfg ti s len = .ok s := by
  simp [withMemUsed, hs.not_packing.1, hs.not_packing.2, hs.not_unpacking]

theorem catchDepth_wr {B : Type} {m : Ser → Out (B × Ser)} {bs : Bool → Bytes} {b : B} {ti : TI}
    (h : Wr K cfg m bs b) : Wr K cfg (fun s => catchDepth ti (m s)) bs b := by
  intro s hs
  simp only [h s hs]
  rcases Ser.emit_cases s (bs (cfg.check && s.headers)) with ⟨s', he⟩ | he <;>
    simp [he, catchDepth]

theorem Scope.Fails.catchDepth {α : Type} {o : Out α} (h : K.Fails o) (ti : TI) :
    K.Fails (catchDepth ti o) := by
  obtain ⟨e, he, rfl⟩ := h
  cases e with
  | ser k d tr => exact ⟨_, K.closed k d tr ti.name he, rfl⟩
  | _ => exact ⟨_, he, rfl⟩

theorem catchDepth_rd {B : Type} {m : Ser → Out (B × Ser)} {bs : Bytes} {Q : B → Prop} {ti : TI}
    (h : Rd K m bs Q) : Rd K (fun s => catchDepth ti (m s)) bs Q := by
  intro s hs
  obtain ⟨h1, h2⟩ := h s hs
  constructor
  · intro rest hr
    rcases h1 rest hr with ⟨b, hb, he⟩ | hf
    · exact .inl ⟨b, hb, by simp [he, catchDepth]⟩
    · exact .inr (hf.catchDepth ti)
  · intro t ht he
    rcases h2 t ht he with hm | hf
    · left
      simp only [hm]
      obtain ⟨core, kind, vdis⟩ := s
      cases core <;> simp [Ser.Reader] at hs <;> simp [Ser.short, catchDepth]
    · exact .inr (hf.catchDepth ti)

theorem traverse_wr {T : Type} {ti : TI} {h : Handler T} {xs ys : List T} {enc : Bool → Bytes}
    (hti : ti.Valid) (hw : Wr K cfg (fun s => h s xs) enc ys) :
    Wr K cfg (fun s => traverse cfg ti h s xs) (fun w => node cfg w ti xs.length (enc w)) ys := by
  by_cases hc : cfg.check = true
  · intro s hs
    simp only [traverse, hc, if_true, Out.bind_eq, withTypeIdx_emit hti hs, Bool.true_and]
    have hwc := catchDepth_wr (ti := ti) hw
    have hn : node cfg s.headers ti xs.length (enc s.headers) =
        (if s.headers then intBytes cfg.endian 4 ti.idx else []) ++ (enc s.headers ++
          (if s.headers then intBytes cfg.endian 8 (ti.sizeof * xs.length % 2 ^ 64) else [])) := by
      unfold node; split <;> simp
    rw [hn, Ser.emit_append]
    cases he : s.emit (if s.headers then intBytes cfg.endian 4 ti.idx else []) with
    | ok s1 =>
      obtain ⟨hs1, hh1, _⟩ := Ser.emit_ok hs he
      have h2 := hwc s1 hs1
      simp only [hc, Bool.true_and, hh1] at h2
      simp only [Out.bind_ok, h2, Out.bind_assoc, Ser.emit_append]
      cases he2 : s1.emit (enc s.headers) with
      | ok s2 =>
        obtain ⟨hs2, hh2, _⟩ := Ser.emit_ok hs1 he2
        simp only [Out.bind_ok, withMemUsed_emit hs2, hh2, hh1]
      | _ => rfl
    | _ => rfl
  · simp only [Bool.not_eq_true] at hc
    intro s hs
    have := hw s hs
    simp only [hc, Bool.false_and] at this
    simp [traverse, hc, node, this]

theorem traverse_rd {T : Type} {ti : TI} {h : Handler T} {ys : List T} {bs : Bytes}
    {Q : List T → Prop} (hti : ti.Valid) (hr : Rd K (fun s => h s ys) bs Q) :
    Rd K (fun s => traverse cfg ti h s ys) (node cfg cfg.check ti ys.length bs) Q := by
  by_cases hc : cfg.check = true
  · have h1 := (withTypeIdx_rd (K := K) (cfg := cfg) hti).bind
      (k := fun p => catchDepth ti (h p.2 ys) >>= fun q =>
        withMemUsed' cfg ti ys.length q.2 >>= fun r => .ok (q.1, r.2)) (Q' := Q)
      (bs' := bs ++ intBytes cfg.endian 8 (ti.sizeof * ys.length % 2 ^ 64)) (by
        intro _ _
        exact (catchDepth_rd hr).bind (k := fun q =>
          withMemUsed' cfg ti ys.length q.2 >>= fun r => .ok (q.1, r.2)) (fun b hb =>
            withMemUsed_rd.map (f := fun _ => b) (fun _ _ => hb)))
    refine h1.congr ?_ (by simp [node, hc]) (fun _ h => h)
    intro s _
    simp [traverse, hc, withTypeIdx', withMemUsed', Out.bind_assoc]
  · simp only [Bool.not_eq_true] at hc
    refine hr.congr ?_ (by simp [node, hc]) (fun _ h => h)
    intro s _
    simp [traverse, hc]

theorem traverse_fp {T : Type} {ti : TI} {h : Handler T} {xs ys : List T} {n : Nat}
    (hf : Fp K (fun s => h s xs) n ys) : Fp K (fun s => traverse cfg ti h s xs) n ys := by
  intro s hs
  have := hf s hs
  unfold traverse
  split
  · simp only [withTypeIdx_fp hs, Out.bind_eq, Out.bind_ok, this, catchDepth,
      withMemUsed_fp (hs.addBytes n)]
  · exact this

end
end Ckpt
