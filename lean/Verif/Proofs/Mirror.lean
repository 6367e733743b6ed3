import Verif.Spec.SameButCaps
import Verif.Proofs.Virtual
import Verif.Proofs.Post
import Verif.Proofs.Safe
/-!
Writing what was read gives the bytes it was read from.
-/

set_option autoImplicit false

namespace Ckpt

/-- A stream to read from. -/
def rdr (v : Bool) (inp : Bytes) (n : Nat) : Ser := { core := .streamUnpacker inp n, kind := .streamUnpacker, vdis := v }

/-- What is written. -/
def Core.put (bs : Bytes) : Core → Core
  | .sizer n => .sizer ((n + bs.length) % sizeMod)
  | .streamPacker out l n => .streamPacker (out ++ bs) l (n + bs.length)
  | c => c

/-- A sizer, or a stream that takes everything. -/
inductive Open : Core → Kind → Prop
  | sizer {n : Nat} : n < sizeMod → Open (.sizer n) .sizer
  | stream {out : Bytes} {n : Nat} : Open (.streamPacker out none n) .streamPacker

theorem Open.put {c : Core} {k : Kind} (h : Open c k) (bs : Bytes) : Open (c.put bs) k := by
  cases h
  · exact .sizer (Nat.mod_lt _ (by decide))
  · exact .stream

theorem Open.put_put {c : Core} {k : Kind} (h : Open c k) (a b : Bytes) : (c.put a).put b = c.put (a ++ b) := by
  cases h
  · simp only [Core.put, List.length_append, Nat.mod_add_mod, Nat.add_assoc]
  · simp only [Core.put, List.length_append, List.append_assoc, Nat.add_assoc]

theorem Open.put_nil {c : Core} {k : Kind} (h : Open c k) : c.put [] = c := by
  cases h
  · simp only [Core.put, List.length_nil, Nat.add_zero]; rw [Nat.mod_eq_of_lt (by assumption)]
  · simp [Core.put]

theorem Open.kind {c : Core} {k : Kind} (h : Open c k) : k ∈ builtinKinds := by
  cases h <;> simp [builtinKinds]

theorem Open.modes {c : Core} {k : Kind} (h : Open c k) (v : Bool) :
    ((⟨c, k, v⟩ : Ser).isPacking || (⟨c, k, v⟩ : Ser).isSizing) = true ∧ (⟨c, k, v⟩ : Ser).isUnpacking = false ∧
      (⟨c, k, v⟩ : Ser).isFootprinting = false := by
  cases h <;> exact ⟨rfl, rfl, rfl⟩

theorem Open.addBytes {c : Core} {k : Kind} (h : Open c k) (v : Bool) (n : Nat) :
    (⟨c, k, v⟩ : Ser).addBytes n = ⟨c, k, v⟩ := by
  cases h <;> rfl

theorem Open.bytes {c : Core} {k : Kind} (h : Open c k) {v : Bool} {size num : Nat} {data : Bytes}
    (hd : data.length = size * num) : (⟨c, k, v⟩ : Ser).contiguousBytes size num data = .ok (data, ⟨c.put data, k, v⟩) := by
  cases h
  · simp only [Ser.contiguousBytes, Core.put, hd]
  · simp only [Ser.contiguousBytes, hd, ne_eq, not_true_eq_false, if_false, Core.put]

theorem rdr_bytes {v : Bool} {inp : Bytes} {n size num : Nat} {data bs : Bytes} {s' : Ser}
    (h : (rdr v inp n).contiguousBytes size num data = .ok (bs, s')) :
    bs.length = size * num ∧ ∃ inp', inp = bs ++ inp' ∧ s' = rdr v inp' (n + bs.length) := by
  simp only [rdr, Ser.contiguousBytes] at h
  split at h
  · cases h
  · split at h
    · next hl =>
      cases h
      have hb : (List.take (size * num) inp).length = size * num := List.length_take_of_le hl
      exact ⟨hb, _, (List.take_append_drop _ _).symm, by rw [hb]; rfl⟩
    · cases h

/-- `f` writes `bs` and gives `b`. -/
def Emits {B : Type} (v v' : Bool) (f : Ser → Out (B × Ser)) (bs : Bytes) (b : B) : Prop :=
  ∀ c k, Open c k → f ⟨c, k, v⟩ = .ok (b, ⟨c.put bs, k, v'⟩)

section
variable {B D : Type} {v v' v'' : Bool}

theorem Emits.pure {b : B} : Emits v v (fun s => .ok (b, s)) [] b := fun c k h => by rw [h.put_nil]

theorem Emits.bind {f : Ser → Out (B × Ser)} {g : B × Ser → Out (D × Ser)} {a b : Bytes} {x : B} {y : D}
    (hf : Emits v v' f a x) (hg : Emits v' v'' (fun s => g (x, s)) b y) : Emits v v'' (fun s => f s >>= g) (a ++ b) y := by
  intro c k h
  have := hg _ k (h.put a)
  simp only [hf c k h, Out.bind_eq, Out.bind_ok, ← h.put_put]
  exact this

theorem Emits.map {f : Ser → Out (B × Ser)} {g : B × Ser → Out (D × Ser)} {a : Bytes} {x : B} {y : D}
    (hf : Emits v v' f a x) (hg : ∀ s, g (x, s) = .ok (y, s)) : Emits v v' (fun s => f s >>= g) a y := by
  intro c k h
  simp only [hf c k h, Out.bind_eq, Out.bind_ok, hg]

end

/-- What `f` reads from a stream, `g` writes as it was; `E`: read and written. -/
def Copies {B : Type} (v v' : Bool) (E : B → B → Prop) (f : Ser → Out (B × Ser)) (g : B → Ser → Out (B × Ser)) : Prop :=
  ∀ inp n z s', f (rdr v inp n) = .ok (z, s') → ∃ bs inp' z', inp = bs ++ inp' ∧ s' = rdr v' inp' (n + bs.length) ∧
    E z z' ∧ Emits v v' (g z') bs z'

/-- The same for a dispatcher. -/
def Handler.Copies {T : Type} (v v' : Bool) (E : T → T → Prop) (h : Handler T) : Prop :=
  ∀ ys, Ckpt.Copies v v' (fun zs zs' => List.Forall₂ E zs zs' ∧ zs.length = ys.length) (fun s => h s ys) (fun zs s => h s zs)

section
variable {v : Bool} {cfg : Cfg}

theorem chunks_join (size k : Nat) (bs : Bytes) (h : bs.length = size * k) : (chunks size k bs).flatten = bs := by
  induction k generalizing bs with
  | zero => exact (List.length_eq_zero_iff.1 h).symm
  | succ k ih =>
    rw [Nat.mul_succ] at h
    simp only [chunks, List.flatten_cons, ih (bs.drop size) (by rw [List.length_drop]; omega), List.take_append_drop]

theorem eq_of_same {α : Type} {P : α → Prop} {xs ys : List α} (h : List.Forall₂ (fun x x' => x' = x ∧ P x) xs ys) :
    ys = xs ∧ ∀ x ∈ xs, P x := by
  induction h with
  | nil => simp
  | cons h _ ih => simp [h.1, h.2, ih.1]; exact ih.2

theorem allSame {α : Type} (xs : List α) : List.Forall₂ Eq xs xs := List.forall₂_same.2 fun _ _ => rfl

theorem dispatchByte_copies (size : Nat) :
    (dispatchByte size).Copies v v (fun x x' => x' = x ∧ x.length = size) := by
  intro ys inp n z s' h
  obtain ⟨⟨bs, s1⟩, h1, h⟩ := bind_eq_ok h
  cases h
  obtain ⟨hb, inp', hi, hs⟩ := rdr_bytes h1
  refine ⟨bs, inp', chunks size ys.length bs, hi, hs, ⟨List.forall₂_same.2 fun x hx =>
    ⟨rfl, chunks_mem_length _ _ _ hb x hx⟩, chunks_length ..⟩, fun c k ho => ?_⟩
  simp only [dispatchByte, chunks_length, chunks_join _ _ _ hb, ho.bytes hb, Out.bind_eq, Out.bind_ok]

theorem dispatchInt_copies (n : Nat) : (dispatchInt cfg n).Copies v v Eq := by
  intro ys inp m z s' h
  obtain ⟨⟨z', s1⟩, h1, h⟩ := bind_eq_ok h
  cases h
  obtain ⟨bs, inp', z', hi, hs, ⟨he, hl⟩, hg⟩ := dispatchByte_copies n _ _ _ _ _ h1
  obtain ⟨rfl, hx⟩ := eq_of_same he
  refine ⟨bs, inp', _, hi, hs, ⟨allSame _, by simpa using hl⟩, ?_⟩
  have hm : (z'.map (intVal cfg.endian)).map (intBytes cfg.endian n) = z' := by
    rw [List.map_map]
    exact (List.map_congr_left (g := id) fun x hxm => by
      have := intBytes_intVal cfg.endian x
      rw [hx x hxm] at this
      exact this).trans (List.map_id _)
  intro c k ho
  have := hg c k ho
  dsimp only at this
  simp only [dispatchInt, hm, this, Out.bind_eq, Out.bind_ok]

theorem rawInt_copies (n w : Nat) : Copies v v (fun z z' => z' = z ∧ z < 256 ^ n)
    (fun s => rawInt cfg n s w) (fun z s => rawInt cfg n s z) := by
  intro inp m z s' h
  obtain ⟨⟨ys, s1⟩, h1, h⟩ := bind_eq_ok h
  have hy : ∀ y ∈ ys, y < 256 ^ n := by
    obtain ⟨⟨xs, s2⟩, h2, h3⟩ := bind_eq_ok h1
    cases h3
    obtain ⟨⟨bs, s2⟩, h2, h3⟩ := bind_eq_ok h2
    cases h3
    intro y hy
    obtain ⟨x, hx, rfl⟩ := List.mem_map.1 hy
    rw [← chunks_mem_length _ _ _ (rdr_bytes h2).1 x hx]
    exact intVal_lt _ _
  obtain ⟨bs, inp', z', hi, hs, ⟨he, -⟩, hg⟩ := dispatchInt_copies n _ _ _ _ _ h1
  rw [List.forall₂_eq_eq_eq] at he
  subst he
  dsimp only at h
  split at h
  · cases h
    exact ⟨bs, inp', _, hi, hs, ⟨rfl, hy _ (by simp)⟩, hg.map fun s => rfl⟩
  · cases h

/-- Writing a given integer. -/
theorem rawInt_emits (n w : Nat) : ∃ z, Emits v v (fun s => rawInt cfg n s w) (intBytes cfg.endian n w) z := by
  refine ⟨intVal cfg.endian (intBytes cfg.endian n w), fun c k ho => ?_⟩
  have hl : (intBytes cfg.endian n w).length = n * 1 := by simp
  simp only [rawInt, dispatchInt, dispatchByte, List.map_cons, List.map_nil, List.length_cons, List.length_nil, Nat.zero_add,
    List.flatten_cons, List.flatten_nil, List.append_nil, ho.bytes hl, Out.bind_eq, Out.bind_ok, chunks]
  rw [List.take_of_length_le (by simp)]

theorem withTypeIdx_copies {ti : TI} {inp : Bytes} {n : Nat} {s' : Ser} (h : withTypeIdx cfg ti (rdr v inp n) = .ok s') :
    ∃ bs inp', inp = bs ++ inp' ∧ s' = rdr v inp' (n + bs.length) ∧
      ∀ c k, Open c k → withTypeIdx cfg ti ⟨c, k, v⟩ = .ok ⟨c.put bs, k, v⟩ := by
  obtain ⟨⟨i, s1⟩, h1, h⟩ := bind_eq_ok (show (rawInt cfg 4 (rdr v inp n) _ >>= fun r =>
    if validateIndex r.1 == false || ti.idx != r.1 then _ else _) = .ok s' from h)
  obtain ⟨bs, inp', z', hi, hs, ⟨rfl, -⟩, hg⟩ := rawInt_copies 4 _ _ _ _ _ h1
  dsimp only at h
  split at h
  · cases h
  · next hx =>
    cases h
    have hidx : ti.idx = z' := by
      simp only [Bool.or_eq_true, beq_iff_eq, bne_iff_ne, not_or, ne_eq, Decidable.not_not] at hx
      exact hx.2
    refine ⟨bs, inp', hi, hs, fun c k ho => ?_⟩
    simp only [withTypeIdx, (ho.modes v).1, if_true, hidx, hg c k ho, Out.bind_eq, Out.bind_ok]

theorem withMemUsed_copies {ti : TI} {inp : Bytes} {n len : Nat} {s' : Ser}
    (h : withMemUsed cfg ti (rdr v inp n) len = .ok s') :
    ∃ bs inp', inp = bs ++ inp' ∧ s' = rdr v inp' (n + bs.length) ∧
      ∀ c k, Open c k → withMemUsed cfg ti ⟨c, k, v⟩ len = .ok ⟨c.put bs, k, v⟩ := by
  obtain ⟨⟨i, s1⟩, h1, h⟩ := bind_eq_ok (show (rawInt cfg 8 (rdr v inp n) _ >>= fun r =>
    if ti.sizeof * len % sizeMod != r.1 then _ else _) = .ok s' from h)
  obtain ⟨bs, inp', z', hi, hs, ⟨rfl, -⟩, hg⟩ := rawInt_copies 8 _ _ _ _ _ h1
  dsimp only at h
  split at h
  · cases h
  · next hx =>
    cases h
    have hidx : ti.sizeof * len % sizeMod = z' := by
      simpa only [bne_iff_ne, ne_eq, Decidable.not_not] using hx
    refine ⟨bs, inp', hi, hs, fun c k ho => ?_⟩
    simp only [withMemUsed, (ho.modes v).1, if_true, hidx, hg c k ho, Out.bind_eq, Out.bind_ok]

end

theorem ok_of_catch {α : Type} {ti : TI} {o : Out α} {a : α} (h : catchDepth ti o = .ok a) : o = .ok a := by
  cases o with
  | throw e => cases e <;> cases h
  | _ => exact h

section
variable {v v' : Bool} {cfg : Cfg} {T : Type} {E : T → T → Prop} {e : Elem T}

theorem traverse_copies {ti : TI} {h : Handler T} (hh : h.Copies v v' E) :
    Handler.Copies v v' E (traverse cfg ti h) := by
  intro ys inp n zs s' ht
  unfold traverse at ht ⊢
  split at ht
  · next hc =>
    obtain ⟨s1, h1, ht⟩ := bind_eq_ok ht
    obtain ⟨a, inp1, hi1, rfl, g1⟩ := withTypeIdx_copies h1
    obtain ⟨⟨ws, s2⟩, h2, ht⟩ := bind_eq_ok ht
    obtain ⟨b, inp2, zs', hi2, rfl, ⟨he, hl⟩, g2⟩ := hh _ _ _ _ _ (ok_of_catch h2)
    obtain ⟨s3, h3, ht⟩ := bind_eq_ok ht
    obtain ⟨d, inp3, hi3, rfl, g3⟩ := withMemUsed_copies h3
    cases ht
    refine ⟨a ++ b ++ d, inp3, zs', by rw [hi1, hi2, hi3]; simp only [List.append_assoc], ?_, ⟨he, hl⟩, fun c k ho => ?_⟩
    · simp only [List.length_append, Nat.add_assoc]
    · have hlen : zs'.length = ys.length := by rw [← hl, he.length_eq]
      have hb := g2 _ k (ho.put a)
      simp only [if_pos hc, g1 c k ho, Out.bind_eq, Out.bind_ok] at hb ⊢
      have hd := g3 _ k ((ho.put a).put b)
      rw [ho.put_put, ho.put_put] at hd
      rw [hb, hlen]
      simp only [catchDepth, Out.bind_ok, ho.put_put, hd]
  · next hc =>
    obtain ⟨b, inp2, zs', hi2, hs, he, g⟩ := hh _ _ _ _ _ ht
    refine ⟨b, inp2, zs', hi2, hs, he, fun c k ho => ?_⟩
    simp only [if_neg hc]
    exact g c k ho

theorem pipe_copies (hh : e.apply.Copies v v' E) (x : T) :
    Copies v v' E (fun s => pipe cfg e s x) (fun z s => pipe cfg e s z) := by
  intro inp n z s' h
  obtain ⟨⟨ys, s1⟩, h1, h⟩ := bind_eq_ok h
  obtain ⟨bs, inp', zs', hi, hs, ⟨he, hl⟩, hg⟩ := traverse_copies hh _ _ _ _ _ h1
  dsimp only at h
  split at h
  · cases h
    cases he with
    | cons he ht =>
      cases ht
      exact ⟨bs, inp', _, hi, hs, he, hg.map fun s => rfl⟩
  · cases h

/-- A local variable. -/
theorem pipeInt_copies {e : Elem Nat} (k : Nat) (he : e.apply = dispatchInt cfg k) (x : Nat) :
    Copies v v Eq (fun s => pipe cfg e s x) (fun z s => pipe cfg e s z) :=
  pipe_copies (by rw [he]; exact dispatchInt_copies k) x

theorem pipeSize_copies (x : Nat) : Copies v v Eq (fun s => pipeSize cfg s x) (fun z s => pipeSize cfg s z) :=
  pipeInt_copies 8 rfl x

theorem pipeBool_copies (x : Bool) : Copies v v Eq (fun s => pipeBool cfg s x) (fun z s => pipeBool cfg s z) := by
  intro inp n z s' h
  obtain ⟨⟨w, s1⟩, h1, h⟩ := bind_eq_ok h
  obtain ⟨bs, inp', w', hi, hs, rfl, hg⟩ := pipeInt_copies 1 rfl _ _ _ _ _ h1
  dsimp only at h
  split at h
  · next hw =>
    cases h; subst hw
    exact ⟨bs, inp', false, hi, hs, rfl, hg.map fun s => rfl⟩
  · split at h
    · next hw =>
      cases h; subst hw
      exact ⟨bs, inp', true, hi, hs, rfl, hg.map fun s => rfl⟩
    · cases h

/-- The same where the writer does not look at the result. -/
theorem pipeBool_reads {x : Bool} {inp : Bytes} {n : Nat} {z : Bool} {s' : Ser}
    (h : pipeBool cfg (rdr v inp n) x = .ok (z, s')) : ∃ bs inp', inp = bs ++ inp' ∧ s' = rdr v inp' (n + bs.length) ∧
      Emits v v (fun s => pipe cfg (boolElem cfg) s z.toNat) bs z.toNat := by
  obtain ⟨⟨w, s1⟩, h1, h⟩ := bind_eq_ok h
  obtain ⟨bs, inp', w', hi, hs, rfl, hg⟩ := pipeInt_copies 1 rfl _ _ _ _ _ h1
  dsimp only at h
  split at h
  · next hw =>
    cases h; subst hw
    exact ⟨bs, inp', hi, hs, hg⟩
  · split at h
    · next hw =>
      cases h; subst hw
      exact ⟨bs, inp', hi, hs, hg⟩
    · cases h

theorem pipeEach_copies {E : T → T → Prop} (hh : e.apply.Copies v v E) : ∀ ys : List T,
    Copies v v (fun zs zs' => List.Forall₂ E zs zs' ∧ zs.length = ys.length) (fun s => pipeEach cfg e s ys)
      (fun zs s => pipeEach cfg e s zs)
  | [] => fun inp n z s' h => by
    cases h
    exact ⟨[], inp, [], rfl, rfl, ⟨.nil, rfl⟩, .pure⟩
  | y :: ys => fun inp n z s' h => by
    obtain ⟨⟨w, s1⟩, h1, h⟩ := bind_eq_ok h
    obtain ⟨a, inp1, w', rfl, rfl, ew, g1⟩ := pipe_copies hh _ _ _ _ _ h1
    obtain ⟨⟨ws, s2⟩, h2, h⟩ := bind_eq_ok h
    obtain ⟨b, inp2, ws', rfl, rfl, ⟨ews, hl⟩, g2⟩ := pipeEach_copies hh ys _ _ _ _ h2
    cases h
    exact ⟨a ++ b, inp2, w' :: ws', by simp, by simp [Nat.add_assoc], ⟨.cons ew ews, by simp [hl]⟩,
      g1.bind (g2.map fun s => rfl)⟩

theorem serializeArray_copies {E : T → T → Prop} (hh : e.apply.Copies v v E) (ys : List T) :
    Copies v v (fun zs zs' => List.Forall₂ E zs zs' ∧ zs.length = ys.length) (fun s => serializeArray cfg e s ys)
      (fun zs s => serializeArray cfg e s zs) := by
  intro inp n z s' h
  unfold serializeArray at h ⊢
  split at h
  · next hl =>
    obtain ⟨bs, inp', zs', hi, hs, ⟨he, hz⟩, hg⟩ := traverse_copies hh _ _ _ _ _ h
    refine ⟨bs, inp', zs', hi, hs, ⟨he, hz⟩, ?_⟩
    intro c k ho
    dsimp only
    rw [if_pos (by rw [← he.length_eq, hz]; exact hl)]
    exact hg c k ho
  · next hl =>
    cases h
    have : ys = [] := by cases ys <;> simp_all
    subst this
    exact ⟨[], inp, [], rfl, rfl, ⟨.nil, rfl⟩, .pure⟩

theorem dispatchEach_copies {f : Ser → T → Out (T × Ser)}
    (hf : ∀ x, Copies v v E (fun s => f s x) (fun z s => f s z)) : Handler.Copies v v E (dispatchEach f)
  | [] => fun inp n z s' h => by
    cases h
    exact ⟨[], inp, [], rfl, rfl, ⟨.nil, rfl⟩, .pure⟩
  | y :: ys => fun inp n z s' h => by
    obtain ⟨⟨w, s1⟩, h1, h⟩ := bind_eq_ok h
    obtain ⟨a, inp1, w', rfl, rfl, ew, g1⟩ := hf _ _ _ _ _ h1
    obtain ⟨⟨ws, s2⟩, h2, h⟩ := bind_eq_ok h
    obtain ⟨b, inp2, ws', rfl, rfl, ⟨ews, hl⟩, g2⟩ := dispatchEach_copies hf ys _ _ _ _ h2
    cases h
    exact ⟨a ++ b, inp2, w' :: ws', by simp, by simp [Nat.add_assoc], ⟨.cons ew ews, by simp [hl]⟩,
      g1.bind (g2.map fun s => rfl)⟩

end
end Ckpt
