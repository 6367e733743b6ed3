import Verif.Spec.Universe
import Verif.Proofs.ElemLaws
/-!
Serializer registry invariant; `virtual_disabled` commutes with headers; laws of `serChain`.
-/

set_option autoImplicit false

namespace Ckpt

namespace SerReg

/-- Index of the first entry for `k` when there is one. -/
theorem idxOf_spec {r : SerReg} {c : Nat} {k : Kind} (h : ∃ en ∈ r c, en.kind = k) :
    ∃ en, (r c)[r.idxOf c k]? = some en ∧ en.kind = k := by
  obtain ⟨en, hen, hk⟩ := h
  have hlt : (r c).findIdx (·.kind == k) < (r c).length :=
    List.findIdx_lt_length_of_exists ⟨en, hen, by simp [hk]⟩
  have := List.findIdx_getElem (w := hlt)
  exact ⟨_, List.getElem?_eq_getElem hlt, by simpa using this⟩

theorem nodup_idx {l : List SerEntry} (h : (l.map (·.kind)).Nodup) {i j : Nat} {a b : SerEntry}
    (ha : l[i]? = some a) (hb : l[j]? = some b) (hk : a.kind = b.kind) : i = j := by
  have hi : i < l.length := by
    rcases Nat.lt_or_ge i l.length with h | h
    · exact h
    · rw [List.getElem?_eq_none h] at ha; cases ha
  have hj : j < l.length := by
    rcases Nat.lt_or_ge j l.length with h | h
    · exact h
    · rw [List.getElem?_eq_none h] at hb; cases hb
  apply (List.getElem?_inj (l := l.map (·.kind)) (i := i) (j := j) (by simpa using hi) h).1
  simp [ha, hb, hk]

theorem register_get (r : SerReg) (c : Nat) (k : Kind) (c' i : Nat) (en : SerEntry)
    (h : (r c')[i]? = some en) : ((r.register c k) c')[i]? = some en := by
  unfold register
  split
  · subst c'
    split
    · exact h
    · rw [List.getElem?_append_left]
      · exact h
      · rcases Nat.lt_or_ge i (r c).length with h' | h'
        · exact h'
        · rw [List.getElem?_eq_none h'] at h; cases h
  · exact h

theorem register_mem (r : SerReg) (c : Nat) (k : Kind) :
    ∃ en ∈ (r.register c k) c, en.kind = k := by
  unfold register
  simp only [if_true]
  split
  · rename_i h
    simpa using h
  · exact ⟨{ kind := k, base := none }, by simp, rfl⟩

theorem mem_register {r : SerReg} {c : Nat} {k : Kind} {c' : Nat} {en : SerEntry}
    (h : en ∈ (r.register c k) c') : en ∈ r c' ∨ en.base = none := by
  unfold register at h
  split at h
  · subst c'
    split at h
    · exact .inl h
    · rcases List.mem_append.1 h with h | h
      · exact .inl h
      · simp at h; subst h; exact .inr rfl
  · exact .inl h

theorem Inv.register {r : SerReg} {root : Nat → Nat} (h : r.Inv root) (c : Nat) (k : Kind) :
    (r.register c k).Inv root where
  nodup := by
    intro c'
    unfold SerReg.register
    split
    · split
      · exact h.nodup c
      · rename_i hn
        rw [List.map_append, List.nodup_append]
        refine ⟨h.nodup c, by simp, ?_⟩
        intro a ha b hb heq
        subst heq
        obtain ⟨en, hen, rfl⟩ := List.mem_map.1 ha
        simp at hb
        apply hn
        simp only [List.any_eq_true]
        exact ⟨en, hen, by simp [hb]⟩
    · exact h.nodup c'
  linked := by
    intro c' en hen i hi
    rcases mem_register hen with h' | h'
    · have := h.linked c' en h' i hi
      cases hg : (r (root c'))[i]? with
      | none => rw [hg] at this; cases this
      | some e' =>
        rw [register_get _ _ _ _ _ _ hg]
        rw [hg] at this
        exact this
    · rw [hi] at h'; cases h'

/-- Kinds are not changed by linking. -/
theorem link_kinds (r : SerReg) (d b : Nat) (k : Kind) (c : Nat) :
    ((r.link d b k) c).map (·.kind) = (r c).map (·.kind) := by
  unfold link
  split
  · subst c
    apply List.ext_getElem?
    intro i
    simp only [List.getElem?_map, List.getElem?_mapIdx]
    cases (r d)[i]? with
    | none => rfl
    | some en => simp only [Option.map_some]; split <;> rfl
  · rfl

theorem get_kind_of_map {l l' : List SerEntry} (h : l.map (·.kind) = l'.map (·.kind)) (i : Nat) :
    (l[i]?).map (·.kind) = (l'[i]?).map (·.kind) := by
  have := congrArg (fun x => x[i]?) h
  simpa using this

theorem idxOf_congr {r r' : SerReg} {c : Nat} (h : (r c).map (·.kind) = (r' c).map (·.kind))
    (k : Kind) : r.idxOf c k = r'.idxOf c k := by
  unfold idxOf
  have e : ∀ l : List SerEntry, l.findIdx (·.kind == k) = (l.map (·.kind)).findIdx (· == k) := by
    intro l; rw [List.findIdx_map]; rfl
  rw [e, e, h]

/-- Linking the entry for `k` of `d` to the entry for `k` of its root keeps the invariant. -/
theorem Inv.link {r : SerReg} {root : Nat → Nat} (h : r.Inv root) (d : Nat) (k : Kind)
    (hd : ∃ en ∈ r d, en.kind = k) (hb : ∃ en ∈ r (root d), en.kind = k) :
    (r.link d (root d) k).Inv root where
  nodup := by intro c; rw [link_kinds]; exact h.nodup c
  linked := by
    intro c en hen i hi
    rw [get_kind_of_map (link_kinds r d (root d) k (root c)) i]
    unfold SerReg.link at hen
    split at hen
    · subst c
      obtain ⟨j, hj⟩ := List.getElem?_of_mem hen
      rw [List.getElem?_mapIdx] at hj
      cases hg : (r d)[j]? with
      | none => rw [hg] at hj; cases hj
      | some e0 =>
        rw [hg] at hj
        simp only [Option.map_some, Option.some.injEq] at hj
        split at hj
        · rename_i hjj
          subst hj
          simp only [Option.some.injEq] at hi
          subst hi
          obtain ⟨e1, h1, h1k⟩ := idxOf_spec hd
          obtain ⟨e2, h2, h2k⟩ := idxOf_spec hb
          rw [h2]
          rw [← hjj, hg] at h1
          cases h1
          simp [h2k, h1k]
        · subst hj
          exact h.linked d e0 (List.mem_of_getElem? hg) i hi
    · exact h.linked c en hen i hi

theorem Inv.registerIt {r : SerReg} {root : Nat → Nat} (h : r.Inv root) (d : Nat) (k : Kind) :
    (r.registerIt d (root d) k).Inv root := by
  unfold SerReg.registerIt
  refine ((h.register d k).register (root d) k).link d k ?_ (register_mem _ _ _)
  obtain ⟨en, hen, hk⟩ := register_mem r d k
  obtain ⟨i, hi⟩ := List.getElem?_of_mem hen
  exact ⟨en, List.mem_of_getElem? (register_get _ _ _ _ _ _ hi), hk⟩

/-- After `registerIt` the class has an entry for `k` linked to the root's entry for `k`. -/
def HasLink (r : SerReg) (d b : Nat) (k : Kind) : Prop :=
  ∃ en ∈ r d, en.kind = k ∧ en.base = some (r.idxOf b k) ∧ ∃ en' ∈ r b, en'.kind = k

theorem registerIt_hasLink (r : SerReg) (d b : Nat) (k : Kind) :
    (r.registerIt d b k).HasLink d b k := by
  unfold SerReg.registerIt
  generalize hr' : (r.register d k).register b k = r'
  have hd : ∃ en ∈ r' d, en.kind = k := by
    obtain ⟨en, hen, hk⟩ := register_mem r d k
    obtain ⟨i, hi⟩ := List.getElem?_of_mem hen
    exact ⟨en, hr' ▸ List.mem_of_getElem? (register_get _ _ _ _ _ _ hi), hk⟩
  have hb : ∃ en ∈ r' b, en.kind = k := hr' ▸ register_mem _ _ _
  obtain ⟨e1, h1, h1k⟩ := idxOf_spec hd
  have hk : ∀ c, ((r'.link d b k) c).map (·.kind) = (r' c).map (·.kind) := link_kinds r' d b k
  have hmem : ({ e1 with base := some (r'.idxOf b k) } : SerEntry) ∈ (r'.link d b k) d := by
    unfold SerReg.link
    simp only [if_true]
    rw [List.mem_iff_getElem?]
    refine ⟨r'.idxOf d k, ?_⟩
    rw [List.getElem?_mapIdx, h1]
    simp
  refine ⟨_, hmem, h1k, ?_, ?_⟩
  · simp only
    rw [idxOf_congr (hk b)]
  · obtain ⟨e2, h2, h2k⟩ := hb
    have : k ∈ ((r'.link d b k) b).map (·.kind) := by
      rw [hk]; exact List.mem_map.2 ⟨e2, h2, h2k⟩
    obtain ⟨e3, h3, h3k⟩ := List.mem_map.1 this
    exact ⟨e3, h3, h3k⟩

theorem idxOf_eq_of_get {r : SerReg} {root : Nat → Nat} (h : r.Inv root) {c i : Nat} {en : SerEntry}
    {k : Kind} (hg : (r c)[i]? = some en) (hk : en.kind = k) : r.idxOf c k = i := by
  obtain ⟨e1, h1, h1k⟩ := idxOf_spec (r := r) (c := c) (k := k) ⟨en, List.mem_of_getElem? hg, hk⟩
  exact nodup_idx (h.nodup c) h1 hg (by rw [h1k, hk])

theorem HasLink.register {r : SerReg} {root : Nat → Nat} (hI : r.Inv root) {d b : Nat} {k : Kind}
    (h : r.HasLink d b k) (c : Nat) (k' : Kind) : (r.register c k').HasLink d b k := by
  obtain ⟨en, hen, hk, hbase, en', hen', hk'⟩ := h
  obtain ⟨i, hi⟩ := List.getElem?_of_mem hen
  obtain ⟨j, hj⟩ := List.getElem?_of_mem hen'
  refine ⟨en, List.mem_of_getElem? (register_get _ _ _ _ _ _ hi), hk, ?_, en',
    List.mem_of_getElem? (register_get _ _ _ _ _ _ hj), hk'⟩
  rw [hbase, idxOf_eq_of_get hI hj hk',
    idxOf_eq_of_get (hI.register c k') (register_get _ _ _ _ _ _ hj) hk']

theorem HasLink.link {r : SerReg} {d b : Nat} {k : Kind}
    (h : r.HasLink d b k) (k' : Kind) (hd : ∃ en ∈ r d, en.kind = k') :
    (r.link d b k').HasLink d b k := by
  obtain ⟨en, hen, hk, hbase, en', hen', hk'⟩ := h
  have hkk : ∀ c, ((r.link d b k') c).map (·.kind) = (r c).map (·.kind) := link_kinds r d b k'
  obtain ⟨i, hi⟩ := List.getElem?_of_mem hen
  have hroot : ∃ en' ∈ (r.link d b k') b, en'.kind = k := by
    have : k ∈ ((r.link d b k') b).map (·.kind) := by
      rw [hkk]; exact List.mem_map.2 ⟨en', hen', hk'⟩
    obtain ⟨e3, h3, h3k⟩ := List.mem_map.1 this
    exact ⟨e3, h3, h3k⟩
  have hidx : (r.link d b k').idxOf b k = r.idxOf b k := idxOf_congr (hkk b) k
  by_cases hii : i = r.idxOf d k'
  · refine ⟨{ en with base := some (r.idxOf b k') }, ?_, hk, ?_, hroot⟩
    · unfold SerReg.link
      simp only [if_true]
      rw [List.mem_iff_getElem?]
      refine ⟨i, ?_⟩
      rw [List.getElem?_mapIdx, hi]
      simp [hii]
    · simp only
      obtain ⟨e1, h1, h1k⟩ := idxOf_spec hd
      rw [← hii, hi] at h1
      cases h1
      rw [hidx, ← hk, h1k]
  · refine ⟨en, ?_, hk, by rw [hbase, hidx], hroot⟩
    unfold SerReg.link
    simp only [if_true]
    rw [List.mem_iff_getElem?]
    refine ⟨i, ?_⟩
    rw [List.getElem?_mapIdx, hi]
    simp [hii]

theorem HasLink.registerIt {r : SerReg} {root : Nat → Nat} (hI : r.Inv root) {d : Nat} {k : Kind}
    (h : r.HasLink d (root d) k) (k' : Kind) : (r.registerIt d (root d) k').HasLink d (root d) k := by
  unfold SerReg.registerIt
  refine ((h.register hI d k').register (hI.register d k') (root d) k').link k' ?_
  obtain ⟨en, hen, hk⟩ := register_mem r d k'
  obtain ⟨i, hi⟩ := List.getElem?_of_mem hen
  exact ⟨en, List.mem_of_getElem? (register_get _ _ _ _ _ _ hi), hk⟩

theorem foldl_registerIt {root : Nat → Nat} (d : Nat) : ∀ (ks : List Kind) (r : SerReg), r.Inv root →
    (ks.foldl (fun r k => r.registerIt d (root d) k) r).Inv root ∧
    ∀ k, (k ∈ ks ∨ r.HasLink d (root d) k) →
      (ks.foldl (fun r k => r.registerIt d (root d) k) r).HasLink d (root d) k
  | [], r, h => ⟨h, fun k hk => by simpa using hk⟩
  | k' :: ks, r, h => by
    obtain ⟨h1, h2⟩ := foldl_registerIt d ks _ (h.registerIt d k')
    refine ⟨h1, fun k hk => ?_⟩
    rcases hk with hk | hk
    · rcases List.mem_cons.1 hk with rfl | hk
      · exact h2 _ (.inr (registerIt_hasLink r d (root d) _))
      · exact h2 _ (.inl hk)
    · exact h2 _ (.inr (hk.registerIt h k'))

theorem Inv.instantiate {r : SerReg} {root : Nat → Nat} (h : r.Inv root) (d : Nat) :
    (r.instantiate d (root d)).Inv root ∧
    ∀ k ∈ builtinKinds, (r.instantiate d (root d)).HasLink d (root d) k :=
  ⟨(foldl_registerIt d builtinKinds r h).1,
   fun k hk => (foldl_registerIt d builtinKinds r h).2 k (.inl hk)⟩

/-- Virtual dispatch of class `d` through a serializer of a built-in class `k` runs the entry for
`k`, whatever the registries contained before. -/
theorem lookup_eq {r : SerReg} {root : Nat → Nat} (h : r.Inv root) (nd : Bool) (d : Nat) {k : Kind}
    (hk : k ∈ builtinKinds) : r.lookup nd d (root d) k = .ok k := by
  obtain ⟨hI, hL⟩ := (h.register (root d) k).instantiate d
  unfold lookup
  generalize (r.register (root d) k).instantiate d (root d) = r' at hI hL ⊢
  obtain ⟨en, hen, hek, hbase, hr⟩ := hL k hk
  simp only
  obtain ⟨e2, h2, h2k⟩ := idxOf_spec hr
  split
  · unfold getObjIdx
    have hlt : r'.idxOf (root d) k < (r' (root d)).length := by
      rcases Nat.lt_or_ge (r'.idxOf (root d) k) (r' (root d)).length with h | h
      · exact h
      · rw [List.getElem?_eq_none h] at h2; cases h2
    simp only [hlt, Out.assertThat, decide_true, Bool.true_or, if_true, Out.bind_eq, Out.bind_ok, h2, h2k]
  · unfold getBaseIdx
    split
    · rename_i e' he'
      have hb := List.find?_some he'
      have hm := List.mem_of_find?_eq_some he'
      simp only [beq_iff_eq] at hb
      have := hI.linked d e' hm _ hb
      rw [h2] at this
      simp [h2k] at this
      rw [← this]
    · rename_i hnone
      have := List.find?_eq_none.1 hnone en hen
      simp [hbase] at this

end SerReg

/-! ### The flag -/

/-- Apply a function to the serializer in a result. -/
def Out.mapSer {B : Type} (f : Ser → Ser) (o : Out (B × Ser)) : Out (B × Ser) :=
  o.bind fun p => .ok (p.1, f p.2)

theorem contiguousBytes_setVdis (s : Ser) (b : Bool) (size num : Nat) (data : Bytes) :
    (s.setVdis b).contiguousBytes size num data =
      (s.contiguousBytes size num data).bind fun p => .ok (p.1, p.2.setVdis b) := by
  obtain ⟨core, kind, vdis⟩ := s
  cases core <;> simp only [Ser.setVdis, Ser.contiguousBytes, Out.bind_ok] <;>
    (repeat' split) <;> simp_all

theorem dispatchByte_setVdis (n : Nat) (s : Ser) (b : Bool) (xs : List Bytes) :
    dispatchByte n (s.setVdis b) xs = (dispatchByte n s xs).bind fun p => .ok (p.1, p.2.setVdis b) := by
  simp only [dispatchByte, contiguousBytes_setVdis, Out.bind_eq, Out.bind_assoc, Out.bind_ok]

theorem rawInt_setVdis (cfg : Cfg) (n : Nat) (s : Ser) (b : Bool) (v : Nat) :
    rawInt cfg n (s.setVdis b) v = (rawInt cfg n s v).bind fun p => .ok (p.1, p.2.setVdis b) := by
  simp only [rawInt, dispatchInt, dispatchByte_setVdis, Out.bind_eq, Out.bind_assoc, Out.bind_ok]
  congr 1
  funext p
  split <;> simp_all

theorem mode_setVdis (s : Ser) (b : Bool) : (s.setVdis b).mode = s.mode := rfl

theorem withTypeIdx_setVdis (cfg : Cfg) (ti : TI) (s : Ser) (b : Bool) :
    withTypeIdx cfg ti (s.setVdis b) = (withTypeIdx cfg ti s).bind fun s => .ok (s.setVdis b) := by
  have hp : (s.setVdis b).isPacking = s.isPacking := rfl
  have hs : (s.setVdis b).isSizing = s.isSizing := rfl
  have hu : (s.setVdis b).isUnpacking = s.isUnpacking := rfl
  simp only [withTypeIdx, hp, hs, hu, rawInt_setVdis, Out.bind_eq]
  split
  · simp [Out.bind_assoc]
  · split
    · simp only [Out.bind_assoc, Out.bind_ok]
      congr 1
      funext p
      split <;> simp_all
    · simp

theorem setVdis_setVdis (s : Ser) (a b : Bool) : (s.setVdis a).setVdis b = s.setVdis b := rfl

theorem setVdis_self {s : Ser} {b : Bool} (h : s.vdis = b) : s.setVdis b = s := by
  subst h; rfl

theorem withTypeIdx_vdis {cfg : Cfg} {ti : TI} {s s' : Ser} (h : withTypeIdx cfg ti s = .ok s') :
    s'.vdis = s.vdis := by
  have := withTypeIdx_setVdis cfg ti s s.vdis
  rw [setVdis_self rfl, h] at this
  simp at this
  rw [this]
  rfl

/-- A part that switches virtual dispatch back on behaves as if it had never been off. -/
theorem pipe_part {P : Type} (cfg : Cfg) (ti : TI) (h : Handler P) (d : P) {s : Ser}
    (hs : s.vdis = false) (p : P) :
    pipe cfg (partElem ti (fun s ps => h (s.setVdis false) ps) d) (s.setVdis true) p =
      pipe cfg (partElem ti h d) s p := by
  unfold pipe traverse partElem
  simp only [withTypeIdx_setVdis, Out.bind_eq, Out.bind_assoc, Out.bind_ok, setVdis_setVdis,
    setVdis_self hs]
  split
  · congr 1
    cases hw : withTypeIdx cfg ti s with
    | ok s1 =>
      have h1 : s1.vdis = false := by rw [withTypeIdx_vdis hw, hs]
      simp only [Out.bind_ok, setVdis_self h1]
    | _ => rfl
  · rfl

section
variable {K : Scope} {cfg : Cfg} {P : Type} {reg : SerReg} {root : Nat}

theorem serChain_eq (f : Nat → Ser → P → Out (P × Ser)) (ti : Nat → TI) (d : P)
    {k : Nat} {ks : List Nat} {p : P} {ps : List P} {s : Ser} (hv : s.vdis = false)
    (hl : reg.lookup cfg.ndebug k root s.kind = .ok s.kind) :
    serChain cfg reg root
        (fun k => partElem (ti k) (fun s ps => dispatchEach (f k) (s.setVdis false) ps) d)
        (k :: ks) s (p :: ps) =
      (pipe cfg (partElem (ti k) (dispatchEach (f k)) d) s p) >>= fun r =>
        serChain cfg reg root
          (fun k => partElem (ti k) (fun s ps => dispatchEach (f k) (s.setVdis false) ps) d)
          ks r.2 ps >>= fun q => .ok (r.1 :: q.1, q.2) := by
  simp only [serChain, hl, Out.bind_eq, Out.bind_ok, ne_eq, not_true_eq_false, if_false]
  rw [pipe_part cfg (ti k) (dispatchEach (f k)) d hv p]

end

end Ckpt
