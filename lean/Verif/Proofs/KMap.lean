import Verif.Spec.KMap
import Verif.Proofs.Asym
import Verif.Proofs.Top
import Verif.Proofs.ViewTop
/-!
`Kokkos::UnorderedMap`: entries of a map, and the laws.
-/

set_option autoImplicit false

namespace Ckpt

section
variable {K V : Type} {h : KHash K V} {m : KMap K V}

theorem mem_occupied {slots : List (K × Option V)} {k : K} {v : V} :
    (k, v) ∈ occupied slots ↔ (k, some v) ∈ slots := by
  simp only [occupied, List.mem_filterMap, Option.map_eq_some_iff]
  constructor
  · rintro ⟨⟨k', o⟩, hm, v', h1, h2⟩
    simp only [Prod.mk.injEq] at h2 h1
    obtain ⟨rfl, rfl⟩ := h2
    subst h1; exact hm
  · intro hm
    exact ⟨_, hm, v, rfl, rfl⟩

theorem find_some (hl : h.Lawful) (hd : (occupied m.slots).Pairwise fun a b => h.eq a.1 b.1 = false) {k : K} {v : V} :
    m.find h k = some v ↔ ∃ k', (k', v) ∈ occupied m.slots ∧ h.eq k' k = true := by
  unfold KMap.find
  generalize occupied m.slots = l at hd
  induction l with
  | nil => simp
  | cons a l ih =>
    rw [List.pairwise_cons] at hd
    simp only [List.findSome?_cons, List.mem_cons]
    by_cases ha : h.eq a.1 k = true
    · simp only [ha, if_true, Option.some.injEq]
      constructor
      · rintro rfl; exact ⟨a.1, .inl rfl, ha⟩
      · rintro ⟨k', hm, he⟩
        rcases hm with hm | hm
        · rw [← hm]
        · have := hd.1 _ hm
          rw [hl.trans _ _ _ ha (hl.symm _ _ he)] at this
          simp at this
    · simp only [ha]
      rw [if_neg (by simp)]
      rw [ih hd.2]
      constructor
      · rintro ⟨k', hm, he⟩; exact ⟨k', .inr hm, he⟩
      · rintro ⟨k', hm | hm, he⟩
        · rw [← hm] at ha; exact absurd he ha
        · exact ⟨k', hm, he⟩

theorem find_none {k : K} : m.find h k = none ↔ ∀ p ∈ occupied m.slots, h.eq p.1 k = false := by
  unfold KMap.find
  rw [List.findSome?_eq_none_iff]
  refine forall_congr' fun p => forall_congr' fun _ => ?_
  cases h.eq p.1 k <;> simp

/-- Setting a free slot adds an entry. -/
theorem occupied_set : ∀ {slots : List (K × Option V)} {i : Nat} {k0 k : K} {v : V}, slots[i]? = some (k0, none) →
    (occupied (slots.set i (k, some v))).Perm ((k, v) :: occupied slots)
  | [], _, _, _, _, hi => by simp at hi
  | p :: slots, 0, k0, k, v, hi => by
    simp only [List.getElem?_cons_zero, Option.some.injEq] at hi
    subst hi
    simp [occupied]
  | p :: slots, i + 1, k0, k, v, hi => by
    have ih := occupied_set (k := k) (v := v) (slots := slots) (i := i) (by simpa using hi)
    simp only [List.set_cons_succ, occupied, List.filterMap_cons]
    cases hp : p.2 with
    | none => simpa [occupied] using ih
    | some w =>
      simp only [Option.map_some]
      exact (ih.cons _).trans (.swap _ _ _)

theorem insert_new (hl : h.Lawful) {k : K} {v : V} (hf : m.find h k = none) (hp : (h.place m.slots k).isSome) :
    (occupied (m.insert h k v).slots).Perm ((k, v) :: occupied m.slots) ∧
      (m.insert h k v).slots.length = m.slots.length := by
  obtain ⟨i, hi⟩ := Option.isSome_iff_exists.1 hp
  obtain ⟨k0, h0⟩ := hl.place _ _ _ hi
  simp only [KMap.insert, hf, hi]
  exact ⟨occupied_set h0, by simp⟩

theorem distinct_perm (hl : h.Lawful) {a b : List (K × V)} (hp : a.Perm b)
    (hd : b.Pairwise fun x y => h.eq x.1 y.1 = false) : a.Pairwise fun x y => h.eq x.1 y.1 = false := by
  refine (hp.pairwise_iff ?_).2 hd
  intro x y hxy
  cases he : h.eq y.1 x.1 with
  | false => rfl
  | true => rw [hl.symm _ _ he] at hxy; simp at hxy

/-- Inserting entries one after the other. -/
theorem insertAll (hl : h.Lawful) {cap n : Nat} (hroom : h.Room cap n) : ∀ (l : List (K × V)) (m : KMap K V),
    m.slots.length = h.capacity cap → (occupied m.slots).Pairwise (fun a b => h.eq a.1 b.1 = false) →
    (occupied m.slots).length + l.length ≤ n →
    let m' := l.foldl (fun m p => m.insert h p.1 p.2) m
    m'.slots.length = h.capacity cap ∧ (occupied m'.slots).Pairwise (fun a b => h.eq a.1 b.1 = false) ∧
      (occupied m'.slots).length ≤ (occupied m.slots).length + l.length ∧
      ((∀ p ∈ l, m.find h p.1 = none) → l.Pairwise (fun a b => h.eq a.1 b.1 = false) →
        (occupied m'.slots).Perm (l ++ occupied m.slots)) ∧
      ∀ k, m'.find h k = (m.find h k).or (l.findSome? fun p => if h.eq p.1 k then some p.2 else none)
  | [], m, h1, h2, h3 => ⟨h1, h2, by simp, fun _ _ => by simp, fun k => by simp⟩
  | (k, v) :: l, m, h1, h2, h3 => by
    simp only [List.length_cons] at h3
    cases hf : m.find h k with
    | some w =>
      have hi : m.insert h k v = m := by simp [KMap.insert, hf]
      obtain ⟨g1, g2, g3, g4, g5⟩ := insertAll hl hroom l m h1 h2 (by omega)
      simp only [List.foldl_cons, hi]
      refine ⟨g1, g2, by simp only [List.length_cons]; omega, fun hn _ => ?_, fun q => ?_⟩
      · have := hn (k, v) (by simp)
        rw [hf] at this; simp at this
      · rw [g5, List.findSome?_cons]
        by_cases he : h.eq k q = true
        · obtain ⟨k', hm, he'⟩ := (find_some hl h2).1 hf
          rw [(find_some hl h2).2 ⟨k', hm, hl.trans _ _ _ he' he⟩]
          simp
        · simp [he]
    | none =>
      obtain ⟨hperm, hlen⟩ := insert_new (v := v) hl hf (hroom m.slots k h1 (by omega))
      have hd' : (occupied (m.insert h k v).slots).Pairwise (fun a b => h.eq a.1 b.1 = false) := by
        refine distinct_perm hl hperm (List.pairwise_cons.2 ⟨fun p hp => ?_, h2⟩)
        have := find_none.1 hf p hp
        cases he : h.eq k p.1 with
        | false => rfl
        | true => rw [hl.symm _ _ he] at this; simp at this
      have hcnt : (occupied (m.insert h k v).slots).length = (occupied m.slots).length + 1 := by
        rw [hperm.length_eq]; rfl
      obtain ⟨g1, g2, g3, g4, g5⟩ := insertAll hl hroom l (m.insert h k v) (by rw [hlen]; exact h1) hd' (by omega)
      have hfind : ∀ q, (m.insert h k v).find h q = (m.find h q).or (if h.eq k q then some v else none) := by
        intro q
        by_cases he : h.eq k q = true
        · have : m.find h q = none := by
            rw [find_none] at hf ⊢
            intro p hp
            cases hpq : h.eq p.1 q with
            | false => rfl
            | true =>
              have := hf p hp
              rw [hl.trans _ _ _ hpq (hl.symm _ _ he)] at this
              simp at this
          rw [this]
          simp only [he, if_true, Option.none_or]
          exact (find_some hl hd').2 ⟨k, by rw [hperm.mem_iff]; simp, he⟩
        · simp only [he]
          rw [if_neg (by simp), Option.or_none]
          cases hq : m.find h q with
          | none =>
            rw [find_none] at hq ⊢
            intro p hp
            rw [hperm.mem_iff] at hp
            rcases List.mem_cons.1 hp with rfl | hp
            · simpa using he
            · exact hq p hp
          | some w =>
            obtain ⟨k', hm, he'⟩ := (find_some hl h2).1 hq
            exact (find_some hl hd').2 ⟨k', by rw [hperm.mem_iff]; simp [hm], he'⟩
      simp only [List.foldl_cons]
      refine ⟨g1, g2, by simp only [List.length_cons]; omega, fun hn hpw => ?_, fun q => ?_⟩
      · rw [List.pairwise_cons] at hpw
        have hn' : ∀ p ∈ l, (m.insert h k v).find h p.1 = none := by
          intro p hp
          rw [hfind, hn p (by simp [hp])]
          have := hpw.1 p hp
          simp only at this
          simp [this]
        refine (g4 hn' hpw.2).trans ?_
        refine (hperm.append_left l).trans ?_
        simpa using List.perm_middle
      · rw [g5, hfind, List.findSome?_cons, Option.or_assoc]
        congr 1
        by_cases he : h.eq k q = true <;> simp [he]

end

section
variable {K : Scope} {cfg : Cfg} {A B : Type} {eK : Elem A} {eV : Elem B} {cK : Codec A} {cV : Codec B}
  {k : KMapTI} {h : KHash A B}

/-- A pair as written. -/
def pairEnc2 (cfg : Cfg) (w : Bool) (eK : Elem A) (eV : Elem B) (cK : Codec A) (cV : Codec B) (p : A × B) : Bytes :=
  nodeEnc cfg w eK.ti cK p.1 ++ nodeEnc cfg w eV.ti cV p.2

theorem packPairs_wr {X : Type} (x : X) (LK : Law K cfg eK.ti eK.apply cK) (LV : Law K cfg eV.ti eV.apply cV) :
    ∀ {ps : List (A × B)}, (∀ p ∈ ps, cK.P p.1 ∧ cV.P p.2) →
    Wr K cfg (fun s => packPairs cfg eK eV s ps >>= fun s => .ok (x, s))
      (fun w => ps.flatMap (pairEnc2 cfg w eK eV cK cV)) x
  | [], _ => (Wr.pure x).congr (fun _ _ => rfl) (fun _ => rfl)
  | (a, b) :: ps, hp => by
    have h1 := hp (a, b) (by simp)
    have ih := packPairs_wr x LK LV (ps := ps) (fun p hp' => hp p (by simp [hp']))
    refine ((pipe_wr LK h1.1).bind (k := fun r => pipe cfg eV r.2 b >>= fun q =>
      packPairs cfg eK eV q.2 ps >>= fun s => .ok (x, s)) ((pipe_wr LV h1.2).bind ih)).congr ?_ ?_
    · intro s _
      simp only [packPairs, Out.bind_eq, Out.bind_assoc]
    · intro w; simp [pairEnc2]

theorem insertPairs_rd (LK : Law K cfg eK.ti eK.apply cK) (LV : Law K cfg eV.ti eV.apply cV) (FK : Fresh eK cK)
    (FV : Fresh eV cV) : ∀ {ps : List (A × B)} {m : KMap A B}, (∀ p ∈ ps, cK.P p.1 ∧ cV.P p.2) →
    Rd K (fun s => insertPairs cfg h eK eV ps.length s m) (ps.flatMap (pairEnc2 cfg cfg.check eK eV cK cV))
      (fun r => ∃ l : List (A × B), List.Forall₂ (fun p q : A × B => cK.rel p.1 q.1 ∧ cV.rel p.2 q.2) ps l ∧
        r = l.foldl (fun m p => m.insert h p.1 p.2) m)
  | [], m, _ => Rd.pure ⟨[], .nil, rfl⟩
  | (a, b) :: ps, m, hp => by
    have h1 := hp (a, b) (by simp)
    simp only [List.length_cons, insertPairs, List.flatMap_cons, pairEnc2, List.append_assoc]
    refine (pipe_rd LK h1.1 (FK.fresh _ h1.1)).bind fun x hx => ?_
    dsimp only
    refine (pipe_rd LV h1.2 (FV.fresh _ h1.2)).bind fun y hy => ?_
    refine (insertPairs_rd LK LV FK FV (m := m.insert h x y) (ps := ps) (fun p hp' => hp p (by simp [hp']))).mono ?_
    rintro _ ⟨l, hl, rfl⟩
    exact ⟨(x, y) :: l, .cons ⟨hx, hy⟩ hl, rfl⟩

/-- Size and capacity as written. -/
def kmapHead (cfg : Cfg) (w : Bool) (k : KMapTI) (m : KMap A B) : Bytes :=
  node cfg w k.u32 1 (intBytes cfg.endian 4 m.size) ++ node cfg w k.u32 1 (intBytes cfg.endian 4 m.capacity)

/-- The map as written. -/
def kmapEnc (cfg : Cfg) (w : Bool) (k : KMapTI) (h : KHash A B) (eK : Elem A) (eV : Elem B) (cK : Codec A) (cV : Codec B)
    (m : KMap A B) : Bytes :=
  kmapHead cfg w k m ++ (kmapPairs h m).flatMap (pairEnc2 cfg w eK eV cK cV)

theorem occupied_length (l : List (A × Option B)) : (occupied l).length ≤ l.length := List.length_filterMap_le _ _

/-- The maps considered. -/
structure KMapP (h : KHash A B) (cK : Codec A) (cV : Codec B) (m : KMap A B) : Prop where
  ok : m.Ok h
  keys : ∀ p ∈ m.slots, m.find h p.1 ≠ none → cK.P p.1
  values : ∀ p ∈ occupied m.slots, cV.P p.2

theorem KMapP.pairs {m : KMap A B} (hm : KMapP h cK cV m) : ∀ p ∈ kmapPairs h m, cK.P p.1 ∧ cV.P p.2 := by
  intro p hp
  simp only [kmapPairs, List.mem_filterMap, Option.map_eq_some_iff] at hp
  obtain ⟨q, hq, v, hv, rfl⟩ := hp
  refine ⟨hm.keys q hq (by rw [hv]; simp), ?_⟩
  unfold KMap.find at hv
  obtain ⟨r, hr, hrv⟩ := List.exists_of_findSome?_eq_some hv
  split at hrv
  · simp only [Option.some.injEq] at hrv; subst hrv; exact hm.values r hr
  · simp at hrv

theorem serKMap_wr (hu : k.u32.Valid) (LK : Law K cfg eK.ti eK.apply cK) (LV : Law K cfg eV.ti eV.apply cV)
    {m : KMap A B} (hm : KMapP h cK cV m) :
    Wr K cfg (fun s => serKMap cfg k h eK eV s m) (fun w => kmapEnc cfg w k h eK eV cK cV m) m := by
  have hc := hm.ok.cap_lt
  have hs : m.size < 256 ^ 4 := Nat.lt_of_le_of_lt (occupied_length _) hc
  have w1 := pipe_wr (K := K) (cfg := cfg) (e := u32Elem cfg k.u32) (intLaw hu) (x := m.size) hs
  have w2 := pipe_wr (K := K) (cfg := cfg) (e := u32Elem cfg k.u32) (intLaw hu) (x := m.capacity) hc
  have w3 : Wr K cfg (fun s => if s.isUnpacking then insertPairs cfg h eK eV m.size s (m.rehash h m.capacity)
      else packPairs cfg eK eV s (kmapPairs h m) >>= fun s => .ok (m, s))
      (fun w => (kmapPairs h m).flatMap (pairEnc2 cfg w eK eV cK cV)) m :=
    (packPairs_wr m LK LV hm.pairs).congr (fun s hs => by simp [hs.not_unpacking]) (fun _ => rfl)
  have w23 := w2.bind (k := fun q => if q.2.isUnpacking then insertPairs cfg h eK eV m.size q.2 (m.rehash h q.1)
    else packPairs cfg eK eV q.2 (kmapPairs h m) >>= fun s => .ok (m, s)) w3
  refine (w1.bind (k := fun r => pipe cfg (u32Elem cfg k.u32) r.2 m.capacity >>= fun q =>
    if q.2.isUnpacking then insertPairs cfg h eK eV r.1 q.2 (m.rehash h q.1)
    else packPairs cfg eK eV q.2 (kmapPairs h m) >>= fun s => .ok (m, s)) w23).congr ?_ ?_
  · intro s hs
    simp only [serKMap, hs.not_footprinting, Bool.false_eq_true, if_false, Out.bind_eq]
  · intro w; simp [kmapEnc, kmapHead, nodeEnc, u32Elem, intCodec]

/-- Its footprint. -/
def kmapFp (k : KMapTI) (eK : Elem A) (eV : Elem B) (m : KMap A B) : Nat :=
  k.map.sizeof + (m.capacity * eK.ti.sizeof + m.size * eV.ti.sizeof) % sizeMod

theorem serKMap_fp {m : KMap A B} : Fp K (fun s => serKMap cfg k h eK eV s m) (kmapFp k eK eV m) m := by
  refine ((Fp.addBytes_post m _).addBytes_pre (k := k.map.sizeof)).congr ?_ rfl
  intro s hs
  simp [serKMap, hs.footprinting]

/-- Reading the size, the capacity and this number of pairs. -/
theorem serKMap_rd (hu : k.u32.Valid) (LK : Law K cfg eK.ti eK.apply cK) (LV : Law K cfg eV.ti eV.apply cV)
    (FK : Fresh eK cK) (FV : Fresh eV cV) {size cap : Nat} (hs : size < 2 ^ 32) (hc : cap < 2 ^ 32) {m0 : KMap A B}
    {ps : List (A × B)} (hps : ∀ p ∈ ps, cK.P p.1 ∧ cV.P p.2) (hl : ps.length = size) :
    Rd K (fun s => serKMap cfg k h eK eV s m0)
      (node cfg cfg.check k.u32 1 (intBytes cfg.endian 4 size) ++ (node cfg cfg.check k.u32 1 (intBytes cfg.endian 4 cap) ++
        ps.flatMap (pairEnc2 cfg cfg.check eK eV cK cV)))
      (fun r => ∃ l : List (A × B), List.Forall₂ (fun p q : A × B => cK.rel p.1 q.1 ∧ cV.rel p.2 q.2) ps l ∧
        r = l.foldl (fun m p => m.insert h p.1 p.2) (m0.rehash h cap)) := by
  subst hl
  have r1 := pipe_rd (K := K) (cfg := cfg) (e := u32Elem cfg k.u32) (intLaw hu) (x := ps.length) (y := m0.size) hs trivial
  have r2 := pipe_rd (K := K) (cfg := cfg) (e := u32Elem cfg k.u32) (intLaw hu) (x := cap) (y := m0.capacity) hc trivial
  have r3 := insertPairs_rd (h := h) LK LV FK FV (m := m0.rehash h cap) hps
  have r23 := r2.bind (k := fun q => if q.2.isUnpacking then insertPairs cfg h eK eV ps.length q.2 (m0.rehash h q.1)
    else packPairs cfg eK eV q.2 (kmapPairs h m0) >>= fun s => .ok (m0, s)) (fun c hc' => by
      obtain rfl : c = cap := hc'
      exact r3.congr (fun s hs => by simp [hs.unpacking]) rfl (fun _ h => h))
  refine (r1.bind (k := fun r => pipe cfg (u32Elem cfg k.u32) r.2 m0.capacity >>= fun q =>
    if q.2.isUnpacking then insertPairs cfg h eK eV r.1 q.2 (m0.rehash h q.1)
    else packPairs cfg eK eV q.2 (kmapPairs h m0) >>= fun s => .ok (m0, s)) fun n hn => by
      obtain rfl : n = ps.length := hn
      exact r23).congr ?_ ?_ (fun _ h => h)
  · intro s hs
    simp only [serKMap, hs.not_footprinting, Bool.false_eq_true, if_false, Out.bind_eq]
  · simp [nodeEnc, u32Elem, intCodec]

theorem find_entry (hl : h.Lawful) {m : KMap A B} (hd : m.Distinct h) {a : A} {b : B} (hm : (a, some b) ∈ m.slots) :
    m.find h a = some b := (find_some hl hd).2 ⟨a, mem_occupied.2 hm, hl.refl a⟩

theorem kmapPairs_eq (hl : h.Lawful) {m : KMap A B} (hd : m.Distinct h) (ns : m.NoStale h) :
    kmapPairs h m = occupied m.slots := by
  unfold kmapPairs occupied
  refine List.filterMap_congr ?_
  rintro ⟨a, b⟩ hp
  cases b with
  | none => simp [ns a hp]
  | some b => simp [find_entry hl hd hp]

/-- Slots not in use that hold the key of an entry. -/
def KMap.stale (h : KHash A B) (m : KMap A B) : Nat :=
  m.slots.countP fun p => p.2.isNone && (m.find h p.1).isSome

theorem kmapPairs_length (hl : h.Lawful) {m : KMap A B} (hd : m.Distinct h) :
    (kmapPairs h m).length = m.size + m.stale h := by
  have key : ∀ l : List (A × Option B), (∀ p ∈ l, p ∈ m.slots) →
      (l.filterMap fun p => (m.find h p.1).map fun v => (p.1, v)).length =
        (occupied l).length + l.countP fun p => p.2.isNone && (m.find h p.1).isSome := by
    intro l
    induction l with
    | nil => intro _; simp [occupied]
    | cons p l ih =>
      intro hp
      have ih := ih fun q hq => hp q (by simp [hq])
      obtain ⟨a, b⟩ := p
      simp only [occupied, List.filterMap_cons, List.countP_cons]
      simp only [occupied] at ih
      cases b with
      | none =>
        cases hf : m.find h a with
        | none => simp [ih]
        | some v => simp [ih]; omega
      | some b =>
        have := find_entry hl hd (hp (a, some b) (by simp))
        simp [this, ih]; omega
  exact key m.slots fun _ h => h

theorem OptRel.mono {X Y : Type} {r r' : X → Y → Prop} (hr : ∀ x y, r x y → r' x y) {a : Option X} {b : Option Y}
    (ho : OptRel r a b) : OptRel r' a b := by
  cases ho with
  | none => exact .none
  | some hab => exact .some (hr _ _ hab)

theorem findSome_copy {rK : A → A → Prop} {rV : B → B → Prop} (hK : ∀ a b q, rK a b → h.eq a q = h.eq b q) (k : A) :
    ∀ {ps l : List (A × B)}, List.Forall₂ (fun p q => rK p.1 q.1 ∧ rV p.2 q.2) ps l →
    OptRel rV (ps.findSome? fun p => if h.eq p.1 k then some p.2 else none)
      (l.findSome? fun p => if h.eq p.1 k then some p.2 else none)
  | _, _, .nil => by simpa using OptRel.none
  | _, _, .cons (a := p) (b := q) hpq hl => by
    simp only [List.findSome?_cons, hK _ _ k hpq.1]
    by_cases he : h.eq q.1 k = true
    · simp only [he, if_true]; exact .some hpq.2
    · simp only [he]
      rw [if_neg (by simp), if_neg (by simp)]
      exact findSome_copy hK k hl

theorem pairwise_copy (hl : h.Lawful) {rK : A → A → Prop} {rV : B → B → Prop}
    (hK : ∀ a b q, rK a b → h.eq a q = h.eq b q) {ps l : List (A × B)}
    (hf : List.Forall₂ (fun p q => rK p.1 q.1 ∧ rV p.2 q.2) ps l)
    (hd : ps.Pairwise fun a b => h.eq a.1 b.1 = false) : l.Pairwise fun a b => h.eq a.1 b.1 = false := by
  induction hf with
  | nil => exact .nil
  | @cons p q ps l hpq hf ih =>
    rw [List.pairwise_cons] at hd ⊢
    refine ⟨fun y hy => ?_, ih hd.2⟩
    obtain ⟨i, hi, rfl⟩ := List.mem_iff_getElem.1 hy
    obtain ⟨hlen, hget⟩ := List.forall₂_iff_get.1 hf
    have hil : i < ps.length := by omega
    have hx : rK ps[i].1 l[i].1 ∧ rV ps[i].2 l[i].2 := hget i hil hi
    have := hd.1 ps[i] (List.getElem_mem hil)
    rw [hK _ _ _ hpq.1] at this
    cases he : h.eq q.1 l[i].1 with
    | false => rfl
    | true =>
      have h2 := hl.symm _ _ he
      rw [← hK _ _ _ hx.1] at h2
      rw [hl.symm _ _ h2] at this
      simp at this

theorem occupied_make (cap : Nat) : occupied (KMap.make h cap).slots = [] := by
  simp [occupied, KMap.make]

theorem find_of_occupied {m : KMap A B} {l : List (A × B)} (hm : occupied m.slots = l) (k : A) :
    m.find h k = l.findSome? fun p => if h.eq p.1 k then some p.2 else none := by rw [KMap.find, hm]

/-- Rehashing and inserting copies of the pairs written. -/
theorem readOver (hl : h.Lawful) {rK : A → A → Prop} {rV : B → B → Prop} (hK : ∀ a b q, rK a b → h.eq a q = h.eq b q)
    {m0 : KMap A B} {cap : Nat} {ps l : List (A × B)}
    (room : h.Room (max cap m0.size) (m0.size + ps.length))
    (hf : List.Forall₂ (fun p q => rK p.1 q.1 ∧ rV p.2 q.2) ps l) :
    let m' := l.foldl (fun m p => m.insert h p.1 p.2) (m0.rehash h cap)
    m'.capacity = h.capacity (max cap m0.size) ∧ m'.Distinct h ∧
      (∀ k, ∃ o, m'.find h k = (m0.find h k).or o ∧
        OptRel rV (ps.findSome? fun p => if h.eq p.1 k then some p.2 else none) o) ∧
      (m0.size = 0 → ps.Pairwise (fun a b => h.eq a.1 b.1 = false) → (occupied m'.slots).Perm l) := by
  have e0 : occupied (KMap.make h (max cap m0.size)).slots = [] := occupied_make _
  obtain ⟨a1, a2, a3, a4, a5⟩ := insertAll hl room (occupied m0.slots) (KMap.make h (max cap m0.size))
    (by simp [KMap.make]) (by rw [e0]; exact .nil) (by rw [e0]; simp [KMap.size])
  have f0 : ∀ k, (KMap.make h (max cap m0.size)).find h k = none := fun k => by simp [KMap.find, e0]
  have hlen : ps.length = l.length := hf.length_eq
  have a3' : (occupied (m0.rehash h cap).slots).length ≤ m0.size := by
    rw [e0] at a3; simpa [KMap.size, KMap.rehash] using a3
  obtain ⟨b1, b2, b3, b4, b5⟩ := insertAll hl room l (m0.rehash h cap) a1 a2 (by omega)
  refine ⟨b1, b2, fun k => ⟨_, ?_, findSome_copy hK k hf⟩, fun hz hd => ?_⟩
  · rw [b5]
    congr 1
    have := a5 k
    rw [f0, Option.none_or] at this
    exact this
  · have hnil : occupied (m0.rehash h cap).slots = [] := by
      rw [← List.length_eq_zero_iff]; omega
    have := b4 (fun p _ => by simp [KMap.find, hnil]) (pairwise_copy hl hK hf hd)
    simpa [hnil] using this

/-- The map read over `m0`. -/
def kmapCodec (cfg : Cfg) (k : KMapTI) (h : KHash A B) (eK : Elem A) (eV : Elem B) (cK : Codec A) (cV : Codec B)
    (m0 : KMap A B) : Codec (KMap A B) where
  P m := KMapP h cK cV m ∧ m.NoStale h
  enc w m := kmapEnc cfg w k h eK eV cK cV m
  prior m y := y = m0 ∧ h.Room (max m.capacity m0.size) (m0.size + m.size)
  rel m m' := KMap.ReadOver h cK.rel cV.rel m0 m m'
  fp m := kmapFp k eK eV m
  multi _ := True

theorem serKMap_over (hl : h.Lawful) (hu : k.u32.Valid) (LK : Law K cfg eK.ti eK.apply cK)
    (LV : Law K cfg eV.ti eV.apply cV) (FK : Fresh eK cK) (FV : Fresh eV cV)
    (hK : ∀ a b q, cK.rel a b → h.eq a q = h.eq b q) {m y : KMap A B} (hm : KMapP h cK cV m) (ns : m.NoStale h)
    (room : h.Room (max m.capacity y.size) (y.size + m.size)) :
    Rd K (fun s => serKMap cfg k h eK eV s y) (kmapEnc cfg cfg.check k h eK eV cK cV m)
      (KMap.ReadOver h cK.rel cV.rel y m) := by
  have hps := kmapPairs_eq hl hm.ok.distinct ns
  have hpl : (kmapPairs h m).length = m.size := by rw [hps]; rfl
  have hs : m.size < 2 ^ 32 := Nat.lt_of_le_of_lt (occupied_length _) hm.ok.cap_lt
  refine (serKMap_rd hu LK LV FK FV hs hm.ok.cap_lt (m0 := y) hm.pairs hpl).congr (fun _ _ => rfl) ?_ ?_
  · simp [kmapEnc, kmapHead]
  · rintro _ ⟨l, hf, rfl⟩
    rw [← hpl] at room
    obtain ⟨c1, c2, c3, c4⟩ := readOver hl hK room hf
    refine ⟨fun q => ?_, c2, c1, fun hz => ⟨l, c4 hz (by rw [hps]; exact hm.ok.distinct), hps ▸ hf⟩⟩
    obtain ⟨o, ho, hr⟩ := c3 q
    rw [hps] at hr
    cases hfq : y.find h q with
    | some v => rw [ho, hfq]; rfl
    | none => rw [ho, hfq]; exact hr

theorem kmapLaw (hl : h.Lawful) (hk : k.map.Valid) (hu : k.u32.Valid) (LK : Law K cfg eK.ti eK.apply cK)
    (LV : Law K cfg eV.ti eV.apply cV) (FK : Fresh eK cK) (FV : Fresh eV cV)
    (hK : ∀ a b q, cK.rel a b → h.eq a q = h.eq b q) (m0 : KMap A B) :
    Law K cfg (kmapElem cfg k h eK eV).ti (kmapElem cfg k h eK eV).apply (kmapCodec cfg k h eK eV cK cV m0) := by
  refine Law.ofEach hk trivial (fun m hm => serKMap_wr hu LK LV hm.1) ?_ (fun m _ => serKMap_fp)
  rintro m y ⟨hm, ns⟩ ⟨rfl, room⟩
  exact serKMap_over hl hu LK LV FK FV hK hm ns room

/-! ### Refining element types -/

theorem packPairs_le {fl : Failure} {eK eK' : Elem A} {eV eV' : Elem B} (h1 : Elem.Or fl eK eK') (h2 : Elem.Or fl eV eV') :
    ∀ (ps : List (A × B)) (s : Ser), Out.Or fl (packPairs cfg eK eV s ps) (packPairs cfg eK' eV' s ps)
  | [], _ => .refl _
  | (_, _) :: ps, _ => Out.Or.bind (pipe_le h1 _ _) fun _ => Out.Or.bind (pipe_le h2 _ _) fun _ =>
      packPairs_le h1 h2 ps _

theorem insertPairs_le {fl : Failure} {eK eK' : Elem A} {eV eV' : Elem B} (h1 : Elem.Or fl eK eK') (h2 : Elem.Or fl eV eV') :
    ∀ (n : Nat) (s : Ser) (m : KMap A B), Out.Or fl (insertPairs cfg h eK eV n s m) (insertPairs cfg h eK' eV' n s m)
  | 0, _, _ => .refl _
  | n + 1, s, m => by
    have hf1 : eK'.fresh = eK.fresh := by rw [h1.1]
    have hf2 : eV'.fresh = eV.fresh := by rw [h2.1]
    unfold insertPairs
    rw [hf1, hf2]
    exact Out.Or.bind (pipe_le h1 _ _) fun _ => Out.Or.bind (pipe_le h2 _ _) fun _ => insertPairs_le h1 h2 n _ _

theorem kmapElem_le {fl : Failure} {eK eK' : Elem A} {eV eV' : Elem B} (h1 : Elem.Or fl eK eK') (h2 : Elem.Or fl eV eV') :
    Elem.Or fl (kmapElem cfg k h eK eV) (kmapElem cfg k h eK' eV') := by
  refine ⟨rfl, dispatchEach_le fun s m => ?_⟩
  have t1 : eK'.ti = eK.ti := by rw [h1.1]
  have t2 : eV'.ti = eV.ti := by rw [h2.1]
  unfold serKMap
  rw [t1, t2]
  split
  · exact .refl _
  · refine Out.Or.bind (.refl _) fun _ => Out.Or.bind (.refl _) fun _ => ?_
    dsimp only
    split
    · exact insertPairs_le h1 h2 _ _ _
    · exact Out.Or.bind (packPairs_le h1 h2 _ _) fun _ => .refl _

end

/-! ### More bytes than are read -/

/-- With error checking, if another object begins where an object should end, reading fails. -/
theorem extra_rejected {T : Type} {K : Kind → Prop} {cfg : Cfg} {e : Elem T} (hc : cfg.check = true) (hti : e.ti.Valid)
    (hsz : e.ti.sizeof < 2 ^ 31) {y : T} {p : Bytes} {Q : List T → Prop}
    (hr : Rd (Scope.quiet K) (fun s => e.apply s [y]) p Q) {ti : TI} (hti' : ti.Valid) {a rest : Bytes}
    (ha : a.length = 4) {s : Ser} (hs : s.Reader (Scope.quiet K))
    (hrem : s.remaining = intBytes cfg.endian 4 e.ti.idx ++ (p ++ ((intBytes cfg.endian 4 ti.idx ++ a) ++ rest))) :
    ∃ n, traverseTop cfg e s y = .throw (.ser (.memUsed e.ti.name n e.ti.sizeof) 0 []) := by
  obtain ⟨_, -, h1⟩ := ((withTypeIdx_rd (cfg := cfg) hti).ok (fun _ h => h) hs).1 _ hrem
  have hle : (intBytes cfg.endian 4 e.ti.idx).length ≤ s.remaining.length := by rw [hrem]; simp
  have hrem1 : (s.advance (intBytes cfg.endian 4 e.ti.idx).length).remaining =
      p ++ ((intBytes cfg.endian 4 ti.idx ++ a) ++ rest) := by
    rw [Ser.remaining_advance, hrem, List.drop_left]
  have hs1 := hs.advance hle
  obtain ⟨l, -, h2⟩ := ((catchDepth_rd (ti := e.ti) hr).ok (fun _ h => h) hs1).1 _ hrem1
  have hle2 : p.length ≤ (s.advance (intBytes cfg.endian 4 e.ti.idx).length).remaining.length := by rw [hrem1]; simp
  have hrem2 : ((s.advance (intBytes cfg.endian 4 e.ti.idx).length).advance p.length).remaining =
      (intBytes cfg.endian 4 ti.idx ++ a) ++ rest := by
    rw [Ser.remaining_advance, hrem1, List.drop_left]
  have hs2 := hs1.advance hle2
  have hmod : e.ti.sizeof * 1 % sizeMod = e.ti.sizeof := by
    rw [Nat.mul_one]; exact Nat.mod_eq_of_lt (by simp only [sizeMod]; omega)
  have hlarge := intVal_header_large hti'.1 hti'.2 a cfg.endian ha
  have h3 := withMemUsed_reject (cfg := cfg) (ti := e.ti) (len := 1) hs2 (by simp [ha]) hrem2 (by rw [hmod]; omega)
  rw [hmod] at h3
  refine ⟨intVal cfg.endian (intBytes cfg.endian 4 ti.idx ++ a), ?_⟩
  simp only [traverseTop, hc, if_true, pipe_eq, traverse, Out.bind_eq]
  simp only [withTypeIdx', Out.bind_eq] at h1
  cases hw : withTypeIdx cfg e.ti s with
  | ok s1 =>
    rw [hw] at h1
    simp only [Out.bind_ok, Out.ok.injEq, Prod.mk.injEq, true_and] at h1
    subst h1
    simp only [Out.bind_ok, List.length_singleton]
    rw [h2]
    simp only [Out.bind_ok]
    rw [h3]
    rfl
  | _ => rw [hw] at h1; simp at h1

end Ckpt
