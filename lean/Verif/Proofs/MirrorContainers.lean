import Verif.Proofs.Mirror
/-!
Writing what was read gives the bytes it was read from: containers.
-/

set_option autoImplicit false

namespace Ckpt

theorem rdr_modes (v : Bool) (inp : Bytes) (n : Nat) : (rdr v inp n).isFootprinting = false ∧ (rdr v inp n).isUnpacking = true :=
  ⟨rfl, rfl⟩

section
variable {v : Bool} {cfg : Cfg} {T : Type} {E : T → T → Prop} {e : Elem T}

theorem vecResize_length (x : Vec T) (n : Nat) (d : T) : (x.resize cfg n d).elems.length = n := by
  simp only [Vec.resize, List.length_append, List.length_take, List.length_replicate]
  omega

theorem construct_length (hd : e.dflt = none → e.copyable = true) (n : Nat) (x : Vec T) :
    (constructVectorData cfg e n x).elems.length = n := by
  unfold constructVectorData
  split
  · exact vecResize_length ..
  · next h => rw [if_pos (hd h)]; exact vecResize_length ..

theorem Vec.reserve_self (x : Vec T) : x.reserve cfg x.cap = x := by simp [Vec.reserve]

theorem serVector_copies (hh : e.apply.Copies v v E) (hd : e.dflt = none → e.copyable = true) (sz : Nat) (x : Vec T) :
    Copies v v (fun z z' => List.Forall₂ E z.elems z'.elems) (fun s => serVector cfg sz e s x)
      (fun z s => serVector cfg sz e s z) := by
  intro inp m z s' h
  simp only [serVector, (rdr_modes v inp m).1, Bool.false_eq_true, if_false] at h
  obtain ⟨⟨n, w, s1⟩, h1, h⟩ := bind_eq_ok h
  obtain ⟨⟨cap, s2⟩, h2, h1⟩ := bind_eq_ok h1
  obtain ⟨a, inp1, _, rfl, rfl, rfl, g1⟩ := pipeSize_copies _ _ _ _ _ h2
  obtain ⟨⟨n', s2⟩, h3, h1⟩ := bind_eq_ok h1
  obtain ⟨b, inp2, _, rfl, rfl, rfl, g2⟩ := pipeSize_copies _ _ _ _ _ h3
  cases h1
  obtain ⟨⟨es, s2⟩, h4, h⟩ := bind_eq_ok h
  simp only [(rdr_modes v _ _).2, if_true] at h4
  obtain ⟨d, inp3, es', rfl, rfl, ⟨he, hl⟩, g3⟩ := serializeArray_copies hh _ _ _ _ _ h4
  cases h
  rw [construct_length hd] at hl
  refine ⟨a ++ b ++ d, inp3, ⟨cap, es'⟩, by simp, by simp [Nat.add_assoc], he, fun c k ho => ?_⟩
  have a1 := g1 c k ho
  have a2 := g2 _ k (ho.put a)
  have a3 := g3 _ k ((ho.put a).put b)
  dsimp only at a1 a2 a3
  simp only [serVector, serializeVectorMeta, (ho.modes v).2, Bool.false_eq_true, if_false, a1, Out.bind_eq, Out.bind_ok]
  rw [show (Vec.reserve cfg ⟨cap, es'⟩ cap : Vec T) = ⟨cap, es'⟩ from Vec.reserve_self ⟨cap, es'⟩]
  dsimp only
  rw [← he.length_eq, hl, a2]
  simp only [Out.bind_ok, (((ho.put a).put b).modes v).2, Bool.false_eq_true, if_false, a3]
  simp only [ho.put_put]

theorem bools_copies : ∀ (xs : List Bool) {inp : Bytes} {n : Nat} {zs : List Bool} {s' : Ser},
    unpackBools cfg (rdr v inp n) xs = .ok (zs, s') → ∃ bs inp', inp = bs ++ inp' ∧ s' = rdr v inp' (n + bs.length) ∧
      zs.length = xs.length ∧ ∀ c k, Open c k → packBools cfg ⟨c, k, v⟩ zs = .ok ⟨c.put bs, k, v⟩
  | [], _, _, _, _, h => by
    cases h
    exact ⟨[], _, rfl, rfl, rfl, fun c k ho => by rw [ho.put_nil]; rfl⟩
  | _ :: xs, _, _, _, _, h => by
    obtain ⟨⟨z, s1⟩, h1, h⟩ := bind_eq_ok h
    obtain ⟨a, inp1, rfl, rfl, g1⟩ := pipeBool_reads h1
    obtain ⟨⟨zs, s2⟩, h2, h⟩ := bind_eq_ok h
    obtain ⟨b, inp2, rfl, rfl, hl, g2⟩ := bools_copies xs h2
    cases h
    refine ⟨a ++ b, inp2, by simp, by simp [Nat.add_assoc], by simp [hl], fun c k ho => ?_⟩
    have a1 := g1 c k ho
    have a2 := g2 _ k (ho.put a)
    dsimp only at a1 a2
    simp only [packBools, a1, Out.bind_eq, Out.bind_ok, a2, ho.put_put]

theorem serVectorBool_copies (sz : Nat) (x : Vec Bool) :
    Copies v v (fun z z' => z.elems = z'.elems) (fun s => serVectorBool cfg sz s x) (fun z s => serVectorBool cfg sz s z) := by
  intro inp m z s' h
  simp only [serVectorBool, (rdr_modes v inp m).1, Bool.false_eq_true, if_false] at h
  obtain ⟨⟨n, w, s1⟩, h1, h⟩ := bind_eq_ok h
  obtain ⟨⟨cap, s2⟩, h2, h1⟩ := bind_eq_ok h1
  obtain ⟨a, inp1, _, rfl, rfl, rfl, g1⟩ := pipeSize_copies _ _ _ _ _ h2
  obtain ⟨⟨n', s2⟩, h3, h1⟩ := bind_eq_ok h1
  obtain ⟨b, inp2, _, rfl, rfl, rfl, g2⟩ := pipeSize_copies _ _ _ _ _ h3
  cases h1
  simp only [(rdr_modes v _ _).2, if_true] at h
  obtain ⟨⟨es, s2⟩, h4, h⟩ := bind_eq_ok h
  obtain ⟨d, inp3, rfl, rfl, hl, g3⟩ := bools_copies _ h4
  cases h
  rw [vecResize_length] at hl
  refine ⟨a ++ b ++ d, inp3, ⟨cap, es⟩, by simp, by simp [Nat.add_assoc], rfl, fun c k ho => ?_⟩
  have a1 := g1 c k ho
  have a2 := g2 _ k (ho.put a)
  have a3 := g3 _ k ((ho.put a).put b)
  dsimp only at a1 a2 a3
  simp only [serVectorBool, serializeVectorMeta, (ho.modes v).2, Bool.false_eq_true, if_false, a1, Out.bind_eq, Out.bind_ok]
  rw [show (Vec.reserve cfg ⟨cap, es⟩ cap : Vec Bool) = ⟨cap, es⟩ from Vec.reserve_self ⟨cap, es⟩]
  dsimp only
  rw [hl, a2]
  simp only [Out.bind_ok, (((ho.put a).put b).modes v).2, Bool.false_eq_true, if_false, a3]
  simp only [ho.put_put]

theorem singles {ys : List Bytes} (h : ∀ y ∈ ys, y.length = 1) : ys.flatten.map (fun c => [c]) = ys := by
  induction ys with
  | nil => rfl
  | cons y ys ih =>
    obtain ⟨c, rfl⟩ := List.length_eq_one_iff.1 (h y (by simp))
    simp [ih fun z hz => h z (by simp [hz])]

theorem serString_copies (sz : Nat) (x : Str) :
    Copies v v Eq (fun s => serString cfg sz s x) (fun z s => serString cfg sz s z) := by
  intro inp m z s' h
  simp only [serString, (rdr_modes v inp m).1, Bool.false_eq_true, if_false] at h
  obtain ⟨⟨n, s1⟩, h1, h⟩ := bind_eq_ok h
  obtain ⟨a, inp1, _, rfl, rfl, rfl, g1⟩ := pipeSize_copies _ _ _ _ _ h1
  obtain ⟨⟨cs, s2⟩, h2, h⟩ := bind_eq_ok h
  obtain ⟨⟨ys, s3⟩, h3, h2⟩ := bind_eq_ok h2
  obtain ⟨b, inp2, ys', rfl, rfl, ⟨he, hl⟩, g2⟩ :=
    serializeArray_copies (e := charElem cfg) (dispatchByte_copies 1) _ _ _ _ _ h3
  obtain ⟨rfl, hone⟩ := eq_of_same he
  cases h2
  cases h
  have hlen : ys'.flatten.length = n := by
    rw [flatten_length_of 1 _ hone, hl]
    simp only [Str.resize, List.length_map, List.length_append, List.length_take, List.length_replicate]
    omega
  refine ⟨a ++ b, inp2, _, by simp, by simp [Nat.add_assoc], rfl, fun c k ho => ?_⟩
  have a1 := g1 c k ho
  have a2 := g2 _ k (ho.put a)
  dsimp only at a1 a2
  simp only [serString, (ho.modes v).2, Bool.false_eq_true, if_false, hlen, a1, Out.bind_eq, Out.bind_ok]
  have hr : ∀ cap, Str.resize cfg ⟨cap, ys'.flatten⟩ n = ⟨cap, ys'.flatten⟩ := fun cap => by
    conv_lhs => rw [← hlen]
    exact Str.resize_self ⟨cap, ys'.flatten⟩
  simp only [hr, serializeChars, singles hone, a2, Out.bind_eq, Out.bind_ok, ho.put_put]

theorem seqResize_length (xs : List T) (n : Nat) (x : T) : (seqResize xs n x).length = n := by
  simp only [seqResize, List.length_append, List.length_take, List.length_replicate]
  omega

theorem serList_copies (hh : e.apply.Copies v v E) (hc : e.copyable = true) (sz : Nat) (xs : List T) :
    Copies v v (List.Forall₂ E) (fun s => serList cfg sz e s xs) (fun z s => serList cfg sz e s z) := by
  intro inp m z s' h
  obtain ⟨⟨n, s1⟩, h1, h⟩ := bind_eq_ok h
  simp only [serializeContainerSize, (rdr_modes v inp m).1, Bool.false_eq_true, if_false] at h1
  obtain ⟨a, inp1, _, rfl, rfl, rfl, g1⟩ := pipeSize_copies _ _ _ _ _ h1
  simp only [(rdr_modes v _ _).2, if_true, deserializeOrderedElems, hc] at h
  obtain ⟨b, inp2, zs', rfl, rfl, ⟨he, hl⟩, g2⟩ := pipeEach_copies hh _ _ _ _ _ h
  rw [seqResize_length] at hl
  refine ⟨a ++ b, inp2, zs', by simp, by simp [Nat.add_assoc], he, fun c k ho => ?_⟩
  have a1 := g1 c k ho
  have a2 := g2 _ k (ho.put a)
  dsimp only at a1 a2
  simp only [serList, serializeContainerSize, (ho.modes v).2, Bool.false_eq_true, if_false, ← he.length_eq, hl, a1, Out.bind_eq,
    Out.bind_ok, ((ho.put a).modes v).2, a2, ho.put_put]

theorem serMembers_copies : ∀ (es : List (Elem T)) (xs : List T), (∀ e ∈ es, e.apply.Copies v v E) →
    Copies v v (List.Forall₂ E) (fun s => serMembers cfg es s xs) (fun z s => serMembers cfg es s z)
  | [], [], _, inp, n, z, s', h => by
    cases h
    exact ⟨[], inp, [], rfl, rfl, .nil, .pure⟩
  | [], _ :: _, _, _, _, _, _, h => by cases h
  | _ :: _, [], _, _, _, _, _, h => by cases h
  | e :: es, y :: ys, hh, inp, n, z, s', h => by
    obtain ⟨⟨w, s1⟩, h1, h⟩ := bind_eq_ok h
    obtain ⟨a, inp1, w', rfl, rfl, ew, g1⟩ := pipe_copies (hh e (by simp)) _ _ _ _ _ h1
    obtain ⟨⟨ws, s2⟩, h2, h⟩ := bind_eq_ok h
    obtain ⟨b, inp2, ws', rfl, rfl, ews, g2⟩ := serMembers_copies es ys (fun e he => hh e (by simp [he])) _ _ _ _ h2
    cases h
    exact ⟨a ++ b, inp2, w' :: ws', by simp, by simp [Nat.add_assoc], .cons ew ews,
      g1.bind (g2.map fun s => rfl)⟩

theorem serPair_copies {A B : Type} {EA : A → A → Prop} {EB : B → B → Prop} {e1 : Elem A} {e2 : Elem B}
    (h1 : e1.apply.Copies v v EA) (h2 : e2.apply.Copies v v EB) (sz : Nat) (x : A × B) :
    Copies v v (fun z z' => EA z.1 z'.1 ∧ EB z.2 z'.2) (fun s => serPair cfg sz e1 e2 s x)
      (fun z s => serPair cfg sz e1 e2 s z) := by
  intro inp n z s' h
  obtain ⟨⟨w, s1⟩, h3, h⟩ := bind_eq_ok (show (pipe cfg e1 (rdr v inp n) x.1 >>= fun r => pipe cfg e2 r.2 x.2 >>= fun q =>
    .ok ((r.1, q.1), q.2)) = .ok (z, s') from h)
  obtain ⟨a, inp1, w', rfl, rfl, ew, g1⟩ := pipe_copies h1 _ _ _ _ _ h3
  obtain ⟨⟨u, s2⟩, h4, h⟩ := bind_eq_ok h
  obtain ⟨b, inp2, u', rfl, rfl, eu, g2⟩ := pipe_copies h2 _ _ _ _ _ h4
  cases h
  refine ⟨a ++ b, inp2, (w', u'), by simp, by simp [Nat.add_assoc], ⟨ew, eu⟩, fun c k ho => ?_⟩
  have a1 := g1 c k ho
  have a2 := g2 _ k (ho.put a)
  dsimp only at a1 a2
  simp only [serPair, ho.addBytes, a1, Out.bind_eq, Out.bind_ok, a2, ho.put_put]

theorem visitMembers_copies {es : List (Elem T)} (hr : ∀ x, E x x) (hh : ∀ e ∈ es, e.apply.Copies v v E) :
    ∀ (is : List Nat), is.Nodup → ∀ (xs : List T) {inp : Bytes} {n : Nat} {zs : List T} {s' : Ser},
    visitMembers cfg es is (rdr v inp n) xs = .ok (zs, s') →
    (∀ j, j ∉ is → zs[j]? = xs[j]?) ∧ ∃ bs inp' ws, inp = bs ++ inp' ∧ s' = rdr v inp' (n + bs.length) ∧
      List.Forall₂ E zs ws ∧ (∀ j, j ∉ is → ws[j]? = zs[j]?) ∧
      ∀ us : List T, (∀ j ∈ is, us[j]? = ws[j]?) → Emits v v (fun s => visitMembers cfg es is s us) bs us
  | [], _, xs, inp, n, zs, s', h => by
    cases h
    exact ⟨fun _ _ => rfl, [], inp, xs, rfl, rfl, List.forall₂_same.2 fun x _ => hr x, fun _ _ => rfl, fun _ _ => .pure⟩
  | i :: is, hn, xs, inp, n, zs, s', h => by
    unfold visitMembers at h
    split at h
    · next e x h1 h2 =>
      obtain ⟨⟨y, s1⟩, h3, h⟩ := bind_eq_ok h
      obtain ⟨a, inp1, y', rfl, rfl, ey, g1⟩ := pipe_copies (hh e (List.mem_of_getElem? h1)) _ _ _ _ _ h3
      obtain ⟨hni, hn⟩ := List.nodup_cons.1 hn
      obtain ⟨hk, b, inp2, ws, rfl, rfl, he, hw, g2⟩ := visitMembers_copies hr hh is hn _ h
      have hlt : i < xs.length := (List.getElem?_eq_some_iff.1 h2).1
      have hzi : zs[i]? = some y := by rw [hk i hni]; simp [hlt]
      refine ⟨fun j hj => ?_, a ++ b, inp2, ws.set i y', by simp, by simp [Nat.add_assoc], ?_, ?_, ?_⟩
      · simp only [List.mem_cons, not_or] at hj
        rw [hk j hj.2, List.getElem?_set_ne (Ne.symm hj.1)]
      · rw [List.forall₂_iff_get] at he ⊢
        refine ⟨by simpa using he.1, fun j h1 h2 => ?_⟩
        simp only [List.get_eq_getElem, List.getElem_set]
        split
        · next hij =>
          subst hij
          rw [List.getElem?_eq_getElem h1] at hzi
          cases hzi
          exact ey
        · exact he.2 j h1 (by simpa using h2)
      · intro j hj
        simp only [List.mem_cons, not_or] at hj
        rw [List.getElem?_set_ne (Ne.symm hj.1), hw j hj.2]
      · intro us hus c k ho
        have hwl : i < ws.length := by
          rw [← he.length_eq]
          exact (List.getElem?_eq_some_iff.1 hzi).1
        have hui : us[i]? = some y' := by rw [hus i (by simp)]; simp [hwl]
        have hset : us.set i y' = us := by
          obtain ⟨hl, rfl⟩ := List.getElem?_eq_some_iff.1 hui
          exact List.set_getElem_self hl
        have a1 := g1 c k ho
        have a2 := g2 us (fun j hj => by
          rw [hus j (by simp [hj]), List.getElem?_set_ne (fun h => hni (by rw [h]; exact hj))]) _ k (ho.put a)
        dsimp only at a1 a2
        simp only [visitMembers, h1, hui, a1, Out.bind_eq, Out.bind_ok, hset, a2, ho.put_put]
    · cases h

theorem serTuple_copies {es : List (Elem T)} (hr : ∀ x, E x x) (hh : ∀ e ∈ es, e.apply.Copies v v E)
    (ho : ∀ n, (cfg.argOrder n).Perm (List.range n)) (xs : List T) :
    Copies v v (List.Forall₂ E) (fun s => serTuple cfg es s xs) (fun z s => serTuple cfg es s z) := by
  intro inp n z s' h
  obtain ⟨-, bs, inp', ws, hi, hs, he, -, hg⟩ :=
    visitMembers_copies hr hh _ ((ho es.length).nodup_iff.2 List.nodup_range) xs h
  exact ⟨bs, inp', ws, hi, hs, he, hg ws fun _ _ => rfl⟩

theorem serOptional_copies (hh : e.apply.Copies v v E) (sz : Nat) (x : Option T) :
    Copies v v (Option.Rel E) (fun s => serOptional cfg sz e s x) (fun z s => serOptional cfg sz e s z) := by
  intro inp n z s' h
  simp only [serOptional, (rdr_modes v inp n).1, (rdr_modes v inp n).2, Bool.false_eq_true, if_false, if_true] at h
  obtain ⟨⟨f, s1⟩, h1, h⟩ := bind_eq_ok h
  obtain ⟨a, inp1, rfl, rfl, g1⟩ := pipeBool_reads h1
  cases f
  · cases h
    refine ⟨a, inp1, none, rfl, rfl, .none, fun c k ho => ?_⟩
    have a1 := g1 c k ho
    dsimp only [Bool.toNat] at a1
    simp only [serOptional, (ho.modes v).2, Bool.false_eq_true, if_false, Option.isSome, Bool.toNat, Out.bind_eq]
    rw [a1]
    rfl
  · obtain ⟨⟨y, s2⟩, h2, h⟩ := bind_eq_ok h
    obtain ⟨b, inp2, y', rfl, rfl, ey, g2⟩ := pipe_copies hh _ _ _ _ _ h2
    cases h
    refine ⟨a ++ b, inp2, some y', by simp, by simp [Nat.add_assoc], .some ey, fun c k ho => ?_⟩
    have a1 := g1 c k ho
    have a2 := g2 _ k (ho.put a)
    dsimp only [Bool.toNat] at a1 a2
    simp only [serOptional, (ho.modes v).2, Bool.false_eq_true, if_false, Option.isSome, Bool.toNat, Out.bind_eq]
    rw [a1]
    simp only [Out.bind_ok, a2, ho.put_put]

theorem serUniquePtr_copies (hh : e.apply.Copies false false E) {virt : Option (Virt T)}
    (hv : ∀ vi, virt = some vi → cfg.ndebug = false ∧ (∀ i t, vi.construct i = .ok (some t) → vi.dynIdx t = i) ∧
      (∀ x inp n z s', pipe cfg e (rdr false inp n) x = .ok (z, s') → vi.dynIdx z = vi.dynIdx x) ∧
      ∀ z z', E z z' → vi.dynIdx z' = vi.dynIdx z) (sz : Nat) (x : Option T) :
    Copies false false (Option.Rel E) (fun s => serUniquePtr cfg sz e virt s x)
      (fun z s => serUniquePtr cfg sz e virt s z) := by
  intro inp n z s' h
  simp only [serUniquePtr, (rdr_modes false inp n).1, Bool.false_eq_true, if_false] at h
  obtain ⟨⟨f, s1⟩, h1, h⟩ := bind_eq_ok h
  obtain ⟨a, inp1, f', rfl, rfl, rfl, g1⟩ := pipeBool_copies _ _ _ _ _ h1
  cases f
  · obtain ⟨⟨t, s2⟩, h2, h⟩ := bind_eq_ok h
    cases virt with
    | none =>
      have hs2 : s2 = rdr false inp1 (n + a.length) := by
        unfold reconstructPointedTo at h2
        cases x <;> (simp only [(rdr_modes false _ _).2, if_true] at h2; cases h2; rfl)
      subst hs2
      cases t with
      | none => cases h
      | some t =>
        obtain ⟨⟨y, s3⟩, h3, h⟩ := bind_eq_ok h
        obtain ⟨b, inp2, y', rfl, rfl, ey, g2⟩ := pipe_copies hh _ _ _ _ _ h3
        cases h
        refine ⟨a ++ b, inp2, some y', by simp, by simp [Nat.add_assoc], .some ey, fun c k ho => ?_⟩
        have a1 := g1 c k ho
        have a2 := g2 _ k (ho.put a)
        dsimp only at a1 a2
        simp only [serUniquePtr, (ho.modes false).2, Bool.false_eq_true, if_false, Option.isNone, a1, Out.bind_eq, Out.bind_ok,
          reconstructPointedTo, a2, ho.put_put]
    | some vi =>
      obtain ⟨hnd, hcon, hkeep, hE⟩ := hv vi rfl
      simp only [reconstructPointedTo, (rdr_modes false _ _).1, (rdr_modes false _ _).2, if_true, Bool.false_eq_true, if_false,
        Out.bind_eq, Out.bind_ok] at h2
      obtain ⟨⟨i, s3⟩, h3, h2⟩ := bind_eq_ok h2
      obtain ⟨b, inp2, _, rfl, rfl, rfl, g2⟩ := pipeInt_copies (e := intElem cfg) 4 rfl _ _ _ _ _ h3
      have key : s2 = rdr false inp2 (n + a.length + b.length) ∧ ∀ t', t = some t' → vi.dynIdx t' = i := by
        cases x with
        | none =>
          simp only [(rdr_modes false _ _).2, if_true] at h2
          obtain ⟨t', h4, h2⟩ := bind_eq_ok h2
          cases h2
          exact ⟨rfl, fun t' ht => hcon i t' (ht ▸ h4)⟩
        | some x =>
          dsimp only at h2
          simp only [Out.assertThat, hnd, Bool.or_false] at h2
          split at h2
          · next hi =>
            cases h2
            refine ⟨rfl, fun t' ht => ?_⟩
            cases ht
            exact (beq_iff_eq.1 hi).symm
          · cases h2
      obtain ⟨rfl, hidx⟩ := key
      cases t with
      | none => cases h
      | some t =>
        obtain ⟨⟨y, s3⟩, h4, h⟩ := bind_eq_ok h
        have hy : vi.dynIdx y = i := (hkeep _ _ _ _ _ h4).trans (hidx t rfl)
        obtain ⟨d, inp3, y', rfl, rfl, ey, g3⟩ := pipe_copies hh _ _ _ _ _ h4
        cases h
        have hy' : vi.dynIdx y' = i := (hE _ _ ey).trans hy
        refine ⟨a ++ b ++ d, inp3, some y', by simp, by simp [Nat.add_assoc], .some ey, fun c k ho => ?_⟩
        have a1 := g1 c k ho
        have a2 := g2 _ k (ho.put a)
        have a3 := g3 _ k ((ho.put a).put b)
        dsimp only at a1 a2 a3
        simp only [serUniquePtr, (ho.modes false).2, Bool.false_eq_true, if_false, Option.isNone, a1, Out.bind_eq, Out.bind_ok,
          reconstructPointedTo, ((ho.put a).modes false).2, hy', a2, Out.assertThat, beq_self_eq_true, Bool.true_or, if_true, a3]
        simp only [ho.put_put]
  · simp only [if_true, (rdr_modes false _ _).2] at h
    cases h
    refine ⟨a, inp1, none, rfl, rfl, .none, fun c k ho => ?_⟩
    have a1 := g1 c k ho
    dsimp only at a1
    simp only [serUniquePtr, (ho.modes false).2, Bool.false_eq_true, if_false, Option.isNone, a1, Out.bind_eq, Out.bind_ok,
      if_true, ite_self]

theorem serChain_copies {P : Type} {E : P → P → Prop} {reg : SerReg} {rt : Nat → Nat} (hreg : reg.Inv rt) {root : Nat}
    {part : Nat → Elem P} (hh : ∀ k, (part k).apply.Copies true false E) : ∀ (ks : List Nat), (∀ k ∈ ks, rt k = root) →
    ∀ ps : List P, Copies false false (List.Forall₂ E) (fun s => serChain cfg reg root part ks s ps)
      (fun z s => serChain cfg reg root part ks s z)
  | [], _, [], inp, n, z, s', h => by
    cases h
    exact ⟨[], inp, [], rfl, rfl, .nil, .pure⟩
  | [], _, _ :: _, _, _, _, _, h => by cases h
  | _ :: _, _, [], _, _, _, _, h => by cases h
  | j :: ks, hroot, p :: ps, inp, n, z, s', h => by
    simp only [serChain] at h
    have hlk : ∀ {k : Kind}, k ∈ builtinKinds → reg.lookup cfg.ndebug j root k = .ok k := fun hk => by
      rw [← hroot j (by simp)]
      exact SerReg.lookup_eq hreg cfg.ndebug j hk
    rw [hlk (show (rdr false inp n).kind ∈ builtinKinds by simp [rdr, builtinKinds])] at h
    simp only [Out.bind_eq, Out.bind_ok, ne_eq, not_true_eq_false, if_false] at h
    obtain ⟨⟨w, s1⟩, h1, h⟩ := bind_eq_ok h
    obtain ⟨a, inp1, w', rfl, rfl, ew, g1⟩ := pipe_copies (hh j) _ _ _ _ _ (show pipe cfg (part j) (rdr true inp n) p = _ from h1)
    obtain ⟨⟨ws, s2⟩, h2, h⟩ := bind_eq_ok h
    obtain ⟨b, inp2, ws', rfl, rfl, ews, g2⟩ :=
      serChain_copies hreg hh ks (fun k hk => hroot k (by simp [hk])) ps _ _ _ _ h2
    cases h
    refine ⟨a ++ b, inp2, w' :: ws', by simp, by simp [Nat.add_assoc], .cons ew ews, fun c k ho => ?_⟩
    have a1 := g1 c k ho
    have a2 := g2 _ k (ho.put a)
    dsimp only at a1 a2
    simp only [serChain, hlk ho.kind, Out.bind_eq, Out.bind_ok, ne_eq, not_true_eq_false, if_false, Ser.setVdis, a1, a2, ho.put_put]

end
end Ckpt
