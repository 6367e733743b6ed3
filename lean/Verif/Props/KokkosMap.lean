import Verif.Props.Kokkos
import Verif.Proofs.KMap
/-!
# `Kokkos::UnorderedMap` (C50)

What is written are the keys in all slots for which the map has an entry, so that slots not in use must not hold
the key of an entry.  A new map has value-initialised keys in all slots.
-/

set_option autoImplicit false

namespace Ckpt

variable {R : RelMode} {cfg : Cfg} {env : Env} {tk tv : Ty} {k : KMapTI} {h : KHash Val Val}

/-- Type `UnorderedMap<Key, Value>` of a program. -/
def kmapOf (cfg : Cfg) (env : Env) (k : KMapTI) (h : KHash Val Val) (tk tv : Ty) (n : Nat) : Elem (KMap Val Val) :=
  kmapElem cfg k h (elem cfg env n tk) (elem cfg env n tv)

theorem kmapP_of {m : KMap Val Val} (ok : m.Ok h)
    (hx : ∀ p ∈ m.slots, m.find h p.1 ≠ none → WT R env tk p.1 ∧ ByVal tk p.1)
    (hy : ∀ p ∈ occupied m.slots, WT R env tv p.2 ∧ ByVal tv p.2) :
    ∃ n, KMapP h ((codec R cfg env n tk).byVal tk) ((codec R cfg env n tv).byVal tv) m := by
  obtain ⟨n1, h1⟩ := eventually_list (xs := m.slots)
    (Q := fun p n => m.find h p.1 ≠ none → (codec R cfg env n tk).P p.1) (fun p hp => by
      by_cases hf : m.find h p.1 = none
      · exact ⟨0, fun _ _ hn => absurd hf hn⟩
      · obtain ⟨n0, h0⟩ := codec_P (cfg := cfg) (hx p hp hf).1
        exact ⟨n0, fun n hn _ => h0 n hn⟩)
  obtain ⟨n2, h2⟩ := eventually_list (xs := occupied m.slots) (Q := fun p n => (codec R cfg env n tv).P p.2)
    (fun p hp => codec_P (cfg := cfg) (hy p hp).1)
  refine ⟨max n1 n2, ok, fun p hp hf => ⟨h1 _ (by omega) p hp hf, (hx p hp hf).2⟩,
    fun p hp => ⟨h2 _ (by omega) p hp, (hy p hp).2⟩⟩

/-- C50: if no slot that is not in use holds the key of an entry, the map is written and read back over any map
`m0`, which keeps its entries and receives copies of those with other keys; over an empty map exactly the entries
written are restored.  Equal keys must have equal copies, and insertions must succeed. -/
theorem C50_roundtrip (hv : env.Valid R (· ∈ builtinKinds) cfg) (hk : k.map.Valid) (hu : k.u32.Valid) (hl : h.Lawful)
    (hK : ∀ a b q, Rel R env tk a b → h.eq a q = h.eq b q) {m : KMap Val Val} (ok : m.Ok h) (ns : m.NoStale h)
    (hx : ∀ p ∈ occupied m.slots, (WT R env tk p.1 ∧ ByVal tk p.1) ∧ WT R env tv p.2 ∧ ByVal tv p.2) :
    ∃ bs, Yields (fun n => serializeToStream cfg (kmapOf cfg env k h tk tv n) m { data := [] })
        (.ok (m, { data := bs })) ∧
      Yields (fun n => getSize cfg (kmapOf cfg env k h tk tv n) m) (.ok (bs.length % 2 ^ 64, m)) ∧
      (bs.length < 2 ^ 64 → Yields (fun n => serialize cfg (kmapOf cfg env k h tk tv n) none m)
        (.ok ({ mem := bs, size := bs.length, managed := true, calls := [] }, m))) ∧
      ∀ (m0 : KMap Val Val) (rest : Bytes), h.Room (max m.capacity m0.size) (m0.size + m.size) →
        (∃ m', KMap.ReadOver h (Rel R env tk) (Rel R env tv) m0 m m' ∧
          Yields (fun n => deserializeInPlace cfg (kmapOf cfg env k h tk tv n) (bs ++ rest) m0) (.ok (m', bs.length))) ∧
        (∃ m', KMap.ReadOver h (Rel R env tk) (Rel R env tv) m0 m m' ∧
          Yields (fun n => deserializeInPlaceFromStream cfg (kmapOf cfg env k h tk tv n) (bs ++ rest) m0)
            (.ok (m', rest))) := by
  obtain ⟨n0, hP⟩ := kmapP_of (R := R) (cfg := cfg) (env := env) (tk := tk) (tv := tv) ok
    (fun p hp hf => by
      obtain ⟨a, b⟩ := p
      cases b with
      | none => exact absurd (ns a hp) hf
      | some b => exact (hx (a, b) (mem_occupied.2 hp)).1)
    (fun p hp => (hx p hp).2)
  have key : ∀ m0 : KMap Val Val, _ := fun m0 => family_roundtrip (K := (· ∈ builtinKinds)) (cfg := cfg) (fun _ h => h)
    (E := kmapOf cfg env k h tk tv)
    (C := fun n => kmapCodec cfg k h (elem cfg env n tk) (elem cfg env n tv) ((codec R cfg env n tk).byVal tk)
      ((codec R cfg env n tv).byVal tv) m0)
    (fun hnm => kmapElem_le (elem_le cfg env hnm tk) (elem_le cfg env hnm tv)) (n0 := n0)
    (kmapLaw hl hk hu ((law hv n0 tk).byVal tk) ((law hv n0 tv).byVal tv) (codec_fresh hv.toUsable n0 tk)
      (codec_fresh hv.toUsable n0 tv) (fun a b q hr => hK a b q (codec_rel _ _ _ _ hr)) m0) (x := m) ⟨hP, ns⟩
    (ok := fun y => y = m0 ∧ h.Room (max m.capacity m0.size) (m0.size + m.size)) (fun _ hy => hy)
    (rel := fun m m' => KMap.ReadOver h (Rel R env tk) (Rel R env tv) m0 m m')
    (fun m' hr => ⟨fun q => by
        have := hr.merged q
        revert this
        cases m0.find h q with
        | some v => exact id
        | none =>
          exact fun hq => hq.mono fun _ _ hab => codec_rel _ _ _ _ hab,
      hr.distinct, hr.capacity, fun hz => by
        obtain ⟨l, h1, h2⟩ := hr.entries hz
        exact ⟨l, h1, h2.imp fun _ _ hpq => ⟨codec_rel _ _ _ _ hpq.1, codec_rel _ _ _ _ hpq.2⟩⟩⟩)
  obtain ⟨bs, h1, h2, h3, -⟩ := key m
  refine ⟨bs, h1, h2, h3, fun m0 rest room => ?_⟩
  obtain ⟨bs', h1', -, -, h4⟩ := key m0
  have := h1.unique h1'
  simp only [Out.ok.injEq, Prod.mk.injEq, OStream.mk.injEq, true_and, and_true] at this
  subst this
  exact h4 m0 rest ⟨rfl, room⟩

/-- C50: reading over an empty map, keys and values. -/
theorem C50_same_entries {rK rV : Val → Val → Prop} {m0 m m' : KMap Val Val} (hr : KMap.ReadOver h rK rV m0 m m')
    (he : m0.size = 0) :
    m'.size = m.size ∧ (∀ q, OptRel rV (m.find h q) (m'.find h q)) ∧
      (∀ a b, (a, b) ∈ occupied m.slots → ∃ a' b', (a', b') ∈ occupied m'.slots ∧ rK a a' ∧ rV b b') ∧
      (∀ a' b', (a', b') ∈ occupied m'.slots → ∃ a b, (a, b) ∈ occupied m.slots ∧ rK a a' ∧ rV b b') := by
  obtain ⟨l, hp, hf⟩ := hr.entries he
  have hnil : occupied m0.slots = [] := List.length_eq_zero_iff.1 he
  refine ⟨?_, fun q => ?_, fun a b hab => ?_, fun a' b' hab => ?_⟩
  · exact (hp.length_eq.trans hf.length_eq.symm)
  · have := hr.merged q
    have hq : m0.find h q = none := by simp [KMap.find, hnil]
    rw [hq] at this
    exact this
  · obtain ⟨i, hi, he⟩ := List.mem_iff_getElem.1 hab
    obtain ⟨hlen, hget⟩ := List.forall₂_iff_get.1 hf
    have := hget i hi (by omega)
    simp only [List.get_eq_getElem, he] at this
    exact ⟨_, _, hp.mem_iff.2 (List.getElem_mem (by omega)), this⟩
  · obtain ⟨i, hi, he⟩ := List.mem_iff_getElem.1 (hp.mem_iff.1 hab)
    obtain ⟨hlen, hget⟩ := List.forall₂_iff_get.1 hf
    have := hget i (by omega) hi
    simp only [List.get_eq_getElem, he] at this
    exact ⟨_, _, List.getElem_mem (by omega), this⟩

/-- C50: if a slot that is not in use holds the key of an entry (as all those slots do when the map has an entry
for the value-initialised key), then what is written can not be read back with error checking: every call ends with
a `serialization_error`. -/
theorem C50_stale_key_rejected (hc : cfg.check = true) (hv : env.Valid R (· ∈ builtinKinds) cfg) (hk : k.map.Valid)
    (hsz : k.map.sizeof < 2 ^ 31) (hu : k.u32.Valid) (hl : h.Lawful) {m : KMap Val Val} (ok : m.Ok h)
    (st : ¬ m.NoStale h) (hx : ∀ p ∈ m.slots, m.find h p.1 ≠ none → WT R env tk p.1 ∧ ByVal tk p.1)
    (hy : ∀ p ∈ occupied m.slots, WT R env tv p.2 ∧ ByVal tv p.2) :
    ∃ bs, Yields (fun n => serializeToStream cfg (kmapOf cfg env k h tk tv n) m { data := [] })
        (.ok (m, { data := bs })) ∧
      ∀ (m0 : KMap Val Val) (rest : Bytes),
        (∃ r, Yields (fun n => deserializeInPlace cfg (kmapOf cfg env k h tk tv n) (bs ++ rest) m0)
          (.throw (.ser (.memUsed k.map.name r k.map.sizeof) 0 []))) ∧
        (∃ r, Yields (fun n => deserializeInPlaceFromStream cfg (kmapOf cfg env k h tk tv n) (bs ++ rest) m0)
          (.throw (.ser (.memUsed k.map.name r k.map.sizeof) 0 []))) := by
  obtain ⟨n, hP⟩ := kmapP_of (R := R) (cfg := cfg) (env := env) (tk := tk) (tv := tv) ok hx hy
  have hle : ∀ {n m : Nat}, n ≤ m → Elem.Le (kmapOf cfg env k h tk tv n) (kmapOf cfg env k h tk tv m) :=
    fun hnm => kmapElem_le (elem_le cfg env hnm tk) (elem_le cfg env hnm tv)
  have LK := (law hv n tk).byVal tk
  have LV := (law hv n tv).byVal tv
  have FK := codec_fresh (R := R) hv.toUsable n tk
  have FV := codec_fresh (R := R) hv.toUsable n tv
  have hs32 : m.size < 2 ^ 32 := Nat.lt_of_le_of_lt (occupied_length _) ok.cap_lt
  -- more pairs than entries
  have hstale : 0 < m.stale h := by
    simp only [KMap.NoStale, not_forall] at st
    obtain ⟨a, ha, hf⟩ := st
    refine List.countP_pos_iff.2 ⟨_, ha, ?_⟩
    cases hfa : m.find h a with
    | none => exact absurd hfa hf
    | some _ => rfl
  have hlen := kmapPairs_length hl ok.distinct
  obtain ⟨q, qs, hq⟩ : ∃ q qs, (kmapPairs h m).drop m.size = q :: qs := by
    cases hd : (kmapPairs h m).drop m.size with
    | nil =>
      have := List.drop_eq_nil_iff.1 hd
      omega
    | cons q qs => exact ⟨q, qs, rfl⟩
  have hsplit : kmapPairs h m = (kmapPairs h m).take m.size ++ q :: qs := by rw [← hq, List.take_append_drop]
  -- what is written
  let cK := (codec R cfg env n tk).byVal tk
  let cV := (codec R cfg env n tv).byVal tv
  let enc := fun w => kmapEnc cfg w k h (elem cfg env n tk) (elem cfg env n tv) cK cV m
  let C : Codec (KMap Val Val) :=
    { kmapCodec cfg k h (elem cfg env n tk) (elem cfg env n tv) cK cV m with
      P := fun x => KMapP h cK cV x, prior := fun _ _ => False }
  have L : Law (Scope.quiet (· ∈ builtinKinds)) cfg (kmapOf cfg env k h tk tv n).ti (kmapOf cfg env k h tk tv n).apply C :=
    Law.ofEach hk trivial (fun m hm => serKMap_wr hu LK LV hm) (fun _ _ _ hf => hf.elim) (fun m _ => serKMap_fp)
  have hw := toStream_law (K := Scope.quiet (· ∈ builtinKinds)) (fun _ h => h) L hP ⟨[], none⟩ (by simp)
  refine ⟨topEnc cfg k.map C m, Yields.at (fun hnm => toStream_le (hle hnm) _ _) n
    (by have h := hw; simp only [List.nil_append] at h; exact h) (by simp), ?_⟩
  intro m0 rest
  have hr := each_rd (serKMap_rd (K := Scope.quiet (· ∈ builtinKinds)) (cfg := cfg) (h := h) hu LK LV FK FV hs32 ok.cap_lt
    (m0 := m0) (ps := (kmapPairs h m).take m.size) (fun p hp => hP.pairs p (List.mem_of_mem_take hp))
    (by rw [List.length_take]; omega))
  obtain ⟨a, rest', hbytes, ha⟩ : ∃ a rest', topEnc cfg k.map C m ++ rest =
      intBytes cfg.endian 4 k.map.idx ++ ((node cfg cfg.check k.u32 1 (intBytes cfg.endian 4 m.size) ++
        (node cfg cfg.check k.u32 1 (intBytes cfg.endian 4 m.capacity) ++
          ((kmapPairs h m).take m.size).flatMap (pairEnc2 cfg cfg.check (elem cfg env n tk) (elem cfg env n tv) cK cV))) ++
        ((intBytes cfg.endian 4 (elem cfg env n tk).ti.idx ++ a) ++ rest')) ∧ a.length = 4 := by
    have e1 : topEnc cfg k.map C m ++ rest = intBytes cfg.endian 4 k.map.idx ++ ((
        node cfg true k.u32 1 (intBytes cfg.endian 4 m.size) ++
        (node cfg true k.u32 1 (intBytes cfg.endian 4 m.capacity) ++
          ((kmapPairs h m).take m.size).flatMap (pairEnc2 cfg true (elem cfg env n tk) (elem cfg env n tv) cK cV))) ++
        (intBytes cfg.endian 4 (elem cfg env n tk).ti.idx ++ (cK.enc true q.1 ++
          (intBytes cfg.endian 8 ((elem cfg env n tk).ti.sizeof * 1 % 2 ^ 64) ++
            (nodeEnc cfg true (elem cfg env n tv).ti cV q.2 ++
            (qs.flatMap (pairEnc2 cfg true (elem cfg env n tk) (elem cfg env n tv) cK cV) ++
            (intBytes cfg.endian 8 (k.map.sizeof * 1 % 2 ^ 64) ++ rest))))))) := by
      have : C.enc cfg.check m = kmapHead cfg true k m ++
          ((kmapPairs h m).take m.size ++ q :: qs).flatMap (pairEnc2 cfg true (elem cfg env n tk) (elem cfg env n tv) cK cV) := by
        rw [← hsplit, hc]; rfl
      simp only [topEnc, node, if_true, this, kmapHead, List.flatMap_append, List.flatMap_cons, List.append_assoc]
      simp only [pairEnc2, nodeEnc, node, if_true, List.append_assoc]
    rw [e1, hc]
    generalize hz : cK.enc true q.1 ++ _ = z
    refine ⟨z.take 4, z.drop 4, ?_, ?_⟩
    · simp only [List.append_assoc, List.take_append_drop]
    · have := congrArg List.length hz
      simp only [List.length_append, intBytes_length] at this
      rw [List.length_take]; omega
  constructor
  · obtain ⟨r, hr'⟩ := extra_rejected (e := kmapOf cfg env k h tk tv n) hc hk hsz hr LK.ti_valid ha
      (s := { core := .unpacker (topEnc cfg k.map C m ++ rest) 0 0, kind := .unpacker })
      ⟨rfl, by simp [Scope.quiet, builtinKinds], by simp⟩ (rest := rest') (by simp only [Ser.remaining]; exact hbytes)
    refine ⟨r, Yields.at (fun hnm => inPlace_le (hle hnm) _ _) n ?_ (by simp)⟩
    unfold deserializeInPlace
    rw [hr']
    rfl
  · obtain ⟨r, hr'⟩ := extra_rejected (e := kmapOf cfg env k h tk tv n) hc hk hsz hr LK.ti_valid ha
      (s := { core := .streamUnpacker (topEnc cfg k.map C m ++ rest) 0, kind := .streamUnpacker })
      ⟨rfl, by simp [Scope.quiet, builtinKinds], trivial⟩ (rest := rest') (by simp only [Ser.remaining]; exact hbytes)
    refine ⟨r, Yields.at (fun hnm => inStream_le (hle hnm) _ _) n ?_ (by simp)⟩
    unfold deserializeInPlaceFromStream
    rw [hr']
    rfl

/-! ### Maps of `int` -/

/-- Equality of the values of a primitive type. -/
def Demo.rawEq : Val → Val → Bool
  | .raw a, .raw b => a == b
  | .raw _, _ => false
  | _, .raw _ => false
  | _, _ => true

/-- A hash table with four slots at least; the first free slot is taken. -/
def Demo.hash {V : Type} : KHash Val V where
  eq := Demo.rawEq
  place slots _ := slots.findIdx? fun p => p.2.isNone
  capacity n := max 4 n
  key0 := .raw [0, 0, 0, 0]

theorem Demo.hash_lawful {V : Type} : (Demo.hash (V := V)).Lawful where
  refl a := by cases a <;> simp [Demo.hash, Demo.rawEq]
  symm a b := by cases a <;> cases b <;> simp_all [Demo.hash, Demo.rawEq]
  trans a b c := by
    cases a <;> cases b <;> simp [Demo.hash, Demo.rawEq] <;> cases c <;> simp [Demo.rawEq] <;> rintro rfl <;> exact id
  place slots k i hi := by
    obtain ⟨hlt, hp, -⟩ := List.findIdx?_eq_some_iff_getElem.1 hi
    refine ⟨slots[i].1, ?_⟩
    rw [List.getElem?_eq_getElem hlt]
    have : slots[i].2 = none := by simpa using hp
    rw [← this]

/-- While a slot is free, insertions succeed. -/
theorem Demo.hash_room {V : Type} (cap n : Nat) (hn : n ≤ max 4 cap) : (Demo.hash (V := V)).Room cap n := by
  intro slots a hlen ho
  cases hf : Demo.hash.place slots a with
  | some i => rfl
  | none =>
  have hno := List.findIdx?_eq_none_iff.1 hf
  have hall : ∀ p ∈ slots, ∃ v, p.2 = some v := by
    intro p hp
    cases h2 : p.2 with
    | none => have := hno p hp; simp [h2] at this
    | some v => exact ⟨v, rfl⟩
  have : (occupied slots).length = slots.length := by
    clear hlen ho hno hf
    induction slots with
    | nil => rfl
    | cons p slots ih =>
      obtain ⟨v, hv⟩ := hall p (by simp)
      simp only [occupied, List.filterMap_cons, hv, Option.map_some, List.length_cons]
      exact congrArg (· + 1) (ih fun q hq => hall q (by simp [hq]))
  simp only [Demo.hash] at hlen
  omega

def Demo.num (n : UInt8) : Val := .raw [n, 0, 0, 0]

/-- `{5: 1, 7: 2}`. -/
def Demo.kmap : KMap Val Val :=
  ⟨[(Demo.num 0, none), (Demo.num 5, some (Demo.num 1)), (Demo.num 0, none), (Demo.num 7, some (Demo.num 2))]⟩

/-- `{136: 0, 0: 1}`. -/
def Demo.kmapZero : KMap Val Val :=
  ⟨[(Demo.num 0, none), (Demo.num 0, none), (Demo.num 136, some (Demo.num 0)), (Demo.num 0, some (Demo.num 1))]⟩

/-- Type information. -/
def Demo.kmapTI : KMapTI :=
  { map := { name := 9, idx := encodeIndex 9, sizeof := 136 }, u32 := { name := 10, idx := encodeIndex 10, sizeof := 4 } }

theorem Demo.kmap_ok : Demo.kmap.Ok Demo.hash := ⟨by simp [KMap.Distinct, Demo.kmap, occupied, Demo.hash, Demo.rawEq, Demo.num], by decide⟩

theorem Demo.kmap_noStale : Demo.kmap.NoStale Demo.hash := by
  intro a ha
  simp only [Demo.kmap, List.mem_cons, Prod.mk.injEq, reduceCtorEq, and_false, and_true, List.not_mem_nil, or_false,
    false_or] at ha
  rcases ha with rfl | rfl <;> rfl

theorem Demo.kmapZero_ok : Demo.kmapZero.Ok Demo.hash :=
  ⟨by simp [KMap.Distinct, Demo.kmapZero, occupied, Demo.hash, Demo.rawEq, Demo.num], by decide⟩

theorem Demo.kmapZero_stale : ¬ Demo.kmapZero.NoStale Demo.hash := by
  intro hs
  have := hs (Demo.num 0) (by simp [Demo.kmapZero])
  cases this

theorem Demo.kmap_values {m : KMap Val Val} (hm : m = Demo.kmap ∨ m = Demo.kmapZero) :
    ∀ p ∈ m.slots, (∃ n, p.1 = Demo.num n) ∧ ∀ v, p.2 = some v → ∃ n, v = Demo.num n := by
  rcases hm with rfl | rfl <;>
    simp only [Demo.kmap, Demo.kmapZero, List.mem_cons, List.not_mem_nil, or_false] <;>
    rintro _ (rfl | rfl | rfl | rfl) <;> simp <;> exact ⟨_, rfl⟩

theorem Demo.num_wt (n : UInt8) : WT .contents Demo.env Demo.int (Demo.num n) ∧ ByVal Demo.int (Demo.num n) :=
  ⟨.prim rfl, trivial⟩

example : Demo.env.Valid .contents (· ∈ builtinKinds) (Demo.cfg true true) ∧ Demo.kmapTI.map.Valid ∧
    Demo.kmapTI.u32.Valid ∧ (Demo.hash (V := Val)).Lawful ∧
    (∀ a b q, Rel .contents Demo.env Demo.int a b → (Demo.hash (V := Val)).eq a q = (Demo.hash (V := Val)).eq b q) ∧ Demo.kmap.Ok Demo.hash ∧
    Demo.kmap.NoStale Demo.hash ∧
    (∀ p ∈ occupied Demo.kmap.slots, (WT .contents Demo.env Demo.int p.1 ∧ ByVal Demo.int p.1) ∧
      WT .contents Demo.env Demo.int p.2 ∧ ByVal Demo.int p.2) ∧
    (Demo.hash (V := Val)).Room (max Demo.kmap.capacity Demo.kmapZero.size) (Demo.kmapZero.size + Demo.kmap.size) := by
  refine ⟨Demo.valid_contents, encodeIndex_valid (by decide), encodeIndex_valid (by decide), Demo.hash_lawful, ?_,
    Demo.kmap_ok, Demo.kmap_noStale, ?_, Demo.hash_room _ _ (by decide)⟩
  · intro a b q hr
    cases hr; rfl
  · rintro ⟨a, b⟩ hp
    obtain ⟨⟨n, h1⟩, hb⟩ := Demo.kmap_values (.inl rfl) _ (mem_occupied.1 hp)
    obtain ⟨n', h2⟩ := hb b rfl
    simp only at h1
    subst h1; subst h2
    exact ⟨Demo.num_wt n, Demo.num_wt n'⟩

example : (Demo.cfg true true).check = true ∧ Demo.kmapTI.map.sizeof < 2 ^ 31 ∧ Demo.kmapZero.Ok Demo.hash ∧
    ¬ Demo.kmapZero.NoStale Demo.hash ∧
    (∀ p ∈ Demo.kmapZero.slots, Demo.kmapZero.find Demo.hash p.1 ≠ none →
      WT .contents Demo.env Demo.int p.1 ∧ ByVal Demo.int p.1) ∧
    (∀ p ∈ occupied Demo.kmapZero.slots, WT .contents Demo.env Demo.int p.2 ∧ ByVal Demo.int p.2) := by
  refine ⟨rfl, by decide, Demo.kmapZero_ok, Demo.kmapZero_stale, fun p hp _ => ?_, ?_⟩
  · obtain ⟨⟨n, h1⟩, -⟩ := Demo.kmap_values (.inr rfl) p hp
    rw [h1]; exact Demo.num_wt n
  · rintro ⟨a, b⟩ hp
    obtain ⟨n', h2⟩ := (Demo.kmap_values (.inr rfl) _ (mem_occupied.1 hp)).2 b rfl
    subst h2
    exact Demo.num_wt n'

theorem Demo.kmapOf_le {cfg : Cfg} {h : KHash Val Val} {n m : Nat} (hnm : n ≤ m) :
    Elem.Le (kmapOf cfg Demo.env Demo.kmapTI h Demo.int Demo.int n) (kmapOf cfg Demo.env Demo.kmapTI h Demo.int Demo.int m) :=
  kmapElem_le (elem_le _ _ hnm _) (elem_le _ _ hnm _)

/-- C50: without error checking a map with such a slot can be read back with fewer entries and without an error. -/
theorem C50_stale_key_loses_entry : ∃ bs m' n,
    Yields (fun n => serializeToStream (Demo.cfg false true) (kmapOf (Demo.cfg false true) Demo.env Demo.kmapTI Demo.hash
      Demo.int Demo.int n) Demo.kmapZero { data := [] }) (.ok (Demo.kmapZero, { data := bs })) ∧
    Yields (fun n => deserializeInPlace (Demo.cfg false true) (kmapOf (Demo.cfg false true) Demo.env Demo.kmapTI
      Demo.hash Demo.int Demo.int n) bs (.make Demo.hash 0)) (.ok (m', n)) ∧
    Demo.kmapZero.find Demo.hash (Demo.num 136) = some (Demo.num 0) ∧
    m'.find Demo.hash (Demo.num 136) = none :=
  ⟨[173, 9, 0, 222, 2, 0, 0, 0, 4, 0, 0, 0, 0, 0, 0, 0, 1, 0, 0, 0, 0, 0, 0, 0, 1, 0, 0, 0, 136, 0, 0, 0, 0, 0, 0, 0,
      0, 0, 0, 0, 1, 0, 0, 0, 136, 0, 0, 0, 0, 0, 0, 0],
    ⟨[(Demo.num 0, some (Demo.num 1)), (Demo.num 0, none), (Demo.num 0, none), (Demo.num 0, none)]⟩, 36,
    Yields.at (fun hnm => toStream_le (Demo.kmapOf_le hnm) _ _) 2 rfl (by simp),
    Yields.at (fun hnm => inPlace_le (Demo.kmapOf_le hnm) _ _) 2 rfl (by simp), rfl, rfl⟩

/-- Hash table that accepts one entry. -/
def Demo.single : KHash Val Val :=
  { Demo.hash (V := Val) with place := fun slots _ => if (occupied slots).length = 0 then some 0 else none }

/-- C50: a failed insertion is not noticed. -/
theorem C50_failed_insertion_loses_entry : ∃ bs m',
    Yields (fun n => serializeToStream (Demo.cfg false true) (kmapOf (Demo.cfg false true) Demo.env Demo.kmapTI
      Demo.single Demo.int Demo.int n) Demo.kmap { data := [] }) (.ok (Demo.kmap, { data := bs })) ∧
    Yields (fun n => deserializeInPlace (Demo.cfg false true) (kmapOf (Demo.cfg false true) Demo.env Demo.kmapTI
      Demo.single Demo.int Demo.int n) bs (.make Demo.single 0)) (.ok (m', bs.length)) ∧
    m'.size < Demo.kmap.size :=
  ⟨[173, 9, 0, 222, 2, 0, 0, 0, 4, 0, 0, 0, 5, 0, 0, 0, 1, 0, 0, 0, 7, 0, 0, 0, 2, 0, 0, 0, 136, 0, 0, 0, 0, 0, 0, 0],
    ⟨[(Demo.num 5, some (Demo.num 1)), (Demo.num 0, none), (Demo.num 0, none), (Demo.num 0, none)]⟩,
    Yields.at (fun hnm => toStream_le (Demo.kmapOf_le hnm) _ _) 2 rfl (by simp),
    Yields.at (fun hnm => inPlace_le (Demo.kmapOf_le hnm) _ _) 2 rfl (by simp), by decide⟩

end Ckpt
