import Verif.Proofs.SharedTop
import Verif.Props.Kokkos
/-!
# The documented way to serialize shared pointers (C62)
-/

set_option autoImplicit false

namespace Ckpt

variable {R : RelMode} {cfg : Cfg} {env : Env} {t : Ty}

theorem shared_P (hv : env.Valid R (· ∈ builtinKinds) cfg) {vs : List Val}
    (hx : ∀ v ∈ vs, WT R env (.uptr t) (.ptr (some v))) : ∃ n0, ∀ n ≥ n0, ∀ v ∈ vs, (codec R cfg env n t).P v ∧
      (∀ vi, env.virt cfg t = some vi → vi.dynIdx v < 2 ^ 32) ∧
      PtrPrior (elem cfg env n t) (codec R cfg env n t) (env.virt cfg t) (some v) none := by
  obtain ⟨n0, h0⟩ := eventually_list (xs := vs) (Q := fun v n => (codec R cfg env n (.uptr t)).P (.ptr (some v)))
    (fun v hm => codec_P (hx v hm))
  refine ⟨n0, fun n hn v hm => ?_⟩
  have hP := h0 (n + 1) (by omega) v hm
  have hpr : (codec R cfg env (n + 1) (.uptr t)).prior (.ptr (some v)) (.ptr none) :=
    codec_prior hv.toUsable (n + 1) (.uptr t) _ _ hP .ptrNull (by intro c h; cases h)
  obtain ⟨h1, h2, h3⟩ := hP v rfl
  clear h2
  refine ⟨h1, fun vi hvi => ?_, hpr⟩
  cases t <;> simp only [Env.virt] at hvi <;> try cases hvi
  rename_i c
  split at hvi
  · rename_i hvt
    cases hvi
    cases v <;> try (simp [Env.dynIdx]; done)
    rename_i d ps
    obtain ⟨hreg, _⟩ := h3 c d ps rfl rfl hvt
    simp only [Env.dynIdx, ObjReg.idxOf]
    have := List.idxOf_lt_length_iff.2 hreg
    have := hv.regSize (env.root c)
    omega
  · cases hvi

theorem dynIdx_same {v u : Val} (h : env.isVirt t = true → SameClass t v u) (vi : Virt Val)
    (hvi : env.virt cfg t = some vi) : vi.dynIdx u = vi.dynIdx v := by
  cases t <;> simp only [Env.virt] at hvi <;> try cases hvi
  rename_i c
  split at hvi
  · rename_i hvt
    cases hvi
    obtain ⟨d, ps, qs, rfl, rfl⟩ := h hvt c rfl
    rfl
  · cases hvi

/-- C62: a class that serializes its shared pointers as documented is written and read back over any target whose own
pointers are null: every pointer gets a new object that only it owns, equal to the original's, and everything else in
memory stays as it was. -/
theorem C62_shared_roundtrip (hv : env.Valid R (· ∈ builtinKinds) cfg) {ti : TI} (hti : ti.Valid)
    {x : SHeap Val × List SPtr} {vs : List Val} (hx : SharedWT R env t x vs) :
    RoundTrips cfg (fun n => sharedElem cfg ti (elem cfg env n t) (env.virt cfg t)) x (fun y => ∀ a ∈ y.2, a = none)
      (fun y w => ∃ zs, List.Forall₂ (Rel R env t) vs zs ∧ y.1.Gains zs w.1 w.2) := by
  obtain ⟨n0, h0⟩ := shared_P hv hx.values
  exact roundTrips_of (K := (· ∈ builtinKinds)) (fun _ h => h) (n0 := n0)
    (C := fun y => sharedCodec cfg (elem cfg env n0 t) (codec R cfg env n0 t) (env.virt cfg t) x y vs)
    (fun hnm => sharedElem_le (elem_le cfg env hnm t))
    (fun y => sharedLaw hv.cfgOk hti (law hv n0 t) x y vs)
    (fun _ => ⟨rfl, hx.holds, hx.count, h0 n0 (Nat.le_refl _)⟩) (fun y hy => ⟨rfl, hy⟩)
    (fun y w ⟨zs, h1, h2⟩ => ⟨zs, h1.imp fun v z h => codec_rel _ _ _ _ h, h2⟩)

/-- C62: whether two pointers had the same object is lost: afterwards any two have different ones. -/
theorem C62_sharing_lost (hv : env.Valid R (· ∈ builtinKinds) cfg) {ti : TI} (hti : ti.Valid)
    {x : SHeap Val × List SPtr} {vs : List Val} (hx : SharedWT R env t x vs) :
    RoundTrips cfg (fun n => sharedElem cfg ti (elem cfg env n t) (env.virt cfg t)) x (fun y => ∀ a ∈ y.2, a = none)
      (fun _ w => w.2.length = x.2.length ∧
        w.2.Pairwise fun a a' => ∃ b o b' o', a = some (b, o) ∧ a' = some (b', o') ∧ b ≠ b' ∧ o ≠ o') := by
  have hw : ∀ y w : SHeap Val × List SPtr, (∃ zs, List.Forall₂ (Rel R env t) vs zs ∧ y.1.Gains zs w.1 w.2) →
      w.2.length = x.2.length ∧
        w.2.Pairwise fun a a' => ∃ b o b' o', a = some (b, o) ∧ a' = some (b', o') ∧ b ≠ b' ∧ o ≠ o' := by
    rintro y w ⟨zs, h1, _, _, h2⟩
    rw [h2]
    refine ⟨by simp [← h1.length_eq, hx.holds.length_eq], ?_⟩
    rw [List.pairwise_map]
    exact List.pairwise_lt_range.imp fun {i j} h => ⟨_, _, _, _, rfl, rfl, by omega, by omega⟩
  obtain ⟨bs, h1, h2, h3, h4⟩ := C62_shared_roundtrip hv hti hx
  refine ⟨bs, h1, h2, h3, fun y rest hy => ?_⟩
  obtain ⟨⟨w, a, b⟩, ⟨w', a', b'⟩⟩ := h4 y rest hy
  exact ⟨⟨w, hw y w a, b⟩, ⟨w', hw y w' a', b'⟩⟩

/-- C62: a null pointer dereferences null already when the size is computed. -/
theorem C62_null (hv : env.Valid R (· ∈ builtinKinds) cfg) {ti : TI} (hti : ti.Valid)
    {h : SHeap Val} {as bs : List SPtr} {vs : List Val} (hx : SharedWT R env t (h, as) vs)
    (hn : (as ++ none :: bs).length < 2 ^ 64) :
    Yields (fun n => getSize cfg (sharedElem cfg ti (elem cfg env n t) (env.virt cfg t)) (h, as ++ none :: bs))
      (.ub .nullDeref) ∧
    (∀ o, Yields (fun n => serializeToStream cfg (sharedElem cfg ti (elem cfg env n t) (env.virt cfg t))
      (h, as ++ none :: bs) o) (.ub .nullDeref)) ∧
    ∀ u, Yields (fun n => serialize cfg (sharedElem cfg ti (elem cfg env n t) (env.virt cfg t)) u (h, as ++ none :: bs))
      (.ub .nullDeref) := by
  obtain ⟨n0, h0⟩ := shared_P hv hx.values
  have key : ∀ n ≥ n0, getSize cfg (sharedElem cfg ti (elem cfg env n t) (env.virt cfg t)) (h, as ++ none :: bs) =
      .ub .nullDeref := fun n hn' =>
    getSize_null (K := Scope.quiet (· ∈ builtinKinds)) (by simp [Scope.quiet, builtinKinds]) hv.cfgOk hti (law hv n t)
      hx.holds hn fun v hm => ⟨(h0 n hn' v hm).1, (h0 n hn' v hm).2.1⟩
  refine ⟨⟨n0, key⟩, fun o => ⟨n0, fun n hn' => ?_⟩, fun u => ⟨n0, fun n hn' => ?_⟩⟩
  · simp only [serializeToStream, key n hn', Out.bind_eq]
    rfl
  · simp only [serialize, key n hn', Out.bind_eq]
    rfl

/-- C62: reading over a pointer that is the only owner of an object destroys the object and then uses it. -/
theorem C62_in_place_destroys (hv : env.Valid R (· ∈ builtinKinds) cfg) {ti : TI} (hti : ti.Valid)
    {x : SHeap Val × List SPtr} {v : Val} {vs : List Val} (hx : SharedWT R env t x (v :: vs)) {bs : Bytes}
    (hs : Yields (fun n => serializeToStream cfg (sharedElem cfg ti (elem cfg env n t) (env.virt cfg t)) x { data := [] })
      (.ok (x, { data := bs })))
    {h : SHeap Val} {b o : Nat} {u : Val} (hu : h.Owned b o 1 u) (hd : env.isVirt t = true → SameClass t v u)
    {as : List SPtr} (has : as.length < x.2.length) (rest : Bytes) :
    Yields (fun n => deserializeInPlace cfg (sharedElem cfg ti (elem cfg env n t) (env.virt cfg t)) (bs ++ rest)
      (h, some (b, o) :: as)) (.ub .deadObject) ∧
    Yields (fun n => deserializeInPlaceFromStream cfg (sharedElem cfg ti (elem cfg env n t) (env.virt cfg t)) (bs ++ rest)
      (h, some (b, o) :: as)) (.ub .deadObject) := by
  obtain ⟨n0, h0⟩ := shared_P hv hx.values
  have hE : ∀ e, ¬ (Scope.quiet (· ∈ builtinKinds)).errs e := fun _ h => h
  have hP : (sharedCodec cfg (elem cfg env n0 t) (codec R cfg env n0 t) (env.virt cfg t) x x (v :: vs)).P x :=
    ⟨rfl, hx.holds, hx.count, h0 n0 (Nat.le_refl _)⟩
  have hL := sharedLaw (K := Scope.quiet (· ∈ builtinKinds)) (virt := env.virt cfg t) hv.cfgOk hti (law hv n0 t) x x (v :: vs)
  have hs' := Yields.at (f := fun n => serializeToStream cfg (sharedElem cfg ti (elem cfg env n t) (env.virt cfg t)) x
      { data := [] }) (fun hnm => toStream_le (sharedElem_le (elem_le cfg env hnm t)) _ _) n0
    (toStream_law (K := Scope.quiet (· ∈ builtinKinds)) (fun _ h => h) hL hP ⟨[], none⟩ (by simp)) (by simp)
  have hbs := hs.unique hs'
  simp only [Out.ok.injEq, Prod.mk.injEq, true_and, OStream.mk.injEq, List.nil_append, and_true] at hbs
  obtain ⟨r, hr⟩ := sharedTop_starts (cfg := cfg) (e := elem cfg env n0 t) (virt := env.virt cfg t) ti
    (codec R cfg env n0 t) x x v vs
  have hl : (v :: vs).length = x.2.length := hx.holds.length_eq.symm
  have hend : Ends (Scope.quiet (· ∈ builtinKinds))
      (fun s => traverseTop cfg (sharedElem cfg ti (elem cfg env n0 t) (env.virt cfg t)) s (h, some (b, o) :: as)) _
      (.ub .deadObject) :=
    top_ends (cfg := cfg) (e := sharedElem cfg ti (elem cfg env n0 t) (env.virt cfg t)) hE (by simp [Fin.Plain]) hti
      (each_ends (vec_ends_sole hE hv.cfgOk (v := v) (y := u) (e := elem cfg env n0 t) (n := (v :: vs).length) hx.count
        (by omega) (h0 n0 (Nat.le_refl _) v (.head _)).2.1 (dynIdx_same hd) hu.1 hu.2))
  have hbs' : bs ++ rest = (intBytes cfg.endian 4 (sharedElem cfg ti (elem cfg env n0 t) (env.virt cfg t)).ti.idx ++
      (sizeNode cfg cfg.check (v :: vs).length ++ virtEnc cfg cfg.check (env.virt cfg t) v)) ++ (r ++ rest) := by
    rw [hbs, show (sharedElem cfg ti (elem cfg env n0 t) (env.virt cfg t)).ti = ti from rfl, hr]
    simp
  constructor
  · have hr : Ser.Reader (Scope.quiet (· ∈ builtinKinds)) { core := .unpacker (bs ++ rest) 0 0, kind := .unpacker } :=
      ⟨rfl, by simp [Scope.quiet, builtinKinds], by simp⟩
    have he := hend _ hr (r ++ rest) (by simp only [Ser.remaining, List.drop_zero]; exact hbs')
    refine Yields.at (fun hnm => inPlace_le (sharedElem_le (elem_le cfg env hnm t)) _ _) n0 ?_ (by simp)
    simp only [deserializeInPlace, he, Out.bind_eq]
    rfl
  · have hr : Ser.Reader (Scope.quiet (· ∈ builtinKinds))
        { core := .streamUnpacker (bs ++ rest) 0, kind := .streamUnpacker } :=
      ⟨rfl, by simp [Scope.quiet, builtinKinds], trivial⟩
    have he := hend _ hr (r ++ rest) (by simp only [Ser.remaining]; exact hbs')
    refine Yields.at (fun hnm => inStream_le (sharedElem_le (elem_le cfg env hnm t)) _ _) n0 ?_ (by simp)
    simp only [deserializeInPlaceFromStream, he, Out.bind_eq]
    rfl

/-- C62: reading over one of several owners of an object sets the object, but leaves it with two unrelated groups of
owners: once all of them are destroyed, it has been destroyed twice. -/
theorem C62_in_place_owned_twice (hv : env.Valid R (· ∈ builtinKinds) cfg) {ti : TI} (hti : ti.Valid)
    {x : SHeap Val × List SPtr} {v : Val} (hx : SharedWT R env t x [v]) {b o n : Nat} {u : Val}
    (hu : Clean R cfg env t u) (hd : SameClass t v u) :
    RoundTrips cfg (fun n => sharedElem cfg ti (elem cfg env n t) (env.virt cfg t)) x
      (fun y => y.2 = [some (b, o)] ∧ y.1.Owned b o (n + 2) u)
      (fun _ w => ∃ b' z, b' ≠ b ∧ w.2 = [some (b', o)] ∧ Rel R env t v z ∧ w.1.Owned b o (n + 1) z ∧ w.1.Owned b' o 1 z ∧
        w.1.releaseAll (w.2 ++ List.replicate (n + 1) (some (b, o))) = .ub .deadObject) := by
  obtain ⟨n0, h0⟩ := shared_P hv hx.values
  obtain ⟨hP, hdyn, _⟩ := h0 n0 (Nat.le_refl _) v (.head _)
  have key : RoundTrips cfg (fun n => sharedElem cfg ti (elem cfg env n t) (env.virt cfg t)) x
      (fun y => y.2 = [some (b, o)] ∧ y.1.Owned b o (n + 2) u)
      (fun y w => (overCodec cfg (elem cfg env n0 t) (codec R cfg env n0 t) (env.virt cfg t) x y v).rel x w) :=
    roundTrips_of (K := (· ∈ builtinKinds)) (fun _ h => h) (n0 := n0)
      (C := fun y => overCodec cfg (elem cfg env n0 t) (codec R cfg env n0 t) (env.virt cfg t) x y v)
      (fun hnm => sharedElem_le (elem_le cfg env hnm t))
      (fun y => overLaw hv.cfgOk hti (law hv n0 t) x y v)
      (fun _ => ⟨rfl, hx.holds, hP, hdyn⟩)
      (fun y ⟨hy1, hy2, hy3⟩ => ⟨rfl, b, o, n, u, hy1, hy2, hy3, codec_prior hv.toUsable n0 t _ _ hP hu (fun c h => by
        obtain ⟨d, ps, qs, rfl, rfl⟩ := hd c h
        exact rfl), dynIdx_same fun _ => hd⟩)
      (fun _ _ h => h)
  have hw : ∀ y w : SHeap Val × List SPtr, y.2 = [some (b, o)] ∧ y.1.Owned b o (n + 2) u →
      (overCodec cfg (elem cfg env n0 t) (codec R cfg env n0 t) (env.virt cfg t) x y v).rel x w →
      ∃ b' z, b' ≠ b ∧ w.2 = [some (b', o)] ∧ Rel R env t v z ∧ w.1.Owned b o (n + 1) z ∧ w.1.Owned b' o 1 z ∧
        w.1.releaseAll (w.2 ++ List.replicate (n + 1) (some (b, o))) = .ub .deadObject := by
    rintro y w ⟨hy1, hy2, hy3⟩ ⟨b1, o1, n1, z, e1, e2, hz, rfl⟩
    rw [hy1] at e1
    cases e1
    rw [hy2] at e2
    cases e2
    have hb : b < y.1.blocks.length := (List.getElem?_eq_some_iff.1 hy2).1
    have ho : o < y.1.objs.length := (List.getElem?_eq_some_iff.1 hy3).1
    have o1 : SHeap.Owned (⟨y.1.objs.set o (some z), y.1.blocks.set b (o, n + 1) ++ [(o, 1)]⟩ : SHeap Val) b o (n + 1) z :=
      ⟨by simp [List.getElem?_append_left, hb], by simp [ho]⟩
    have o2 : SHeap.Owned (⟨y.1.objs.set o (some z), y.1.blocks.set b (o, n + 1) ++ [(o, 1)]⟩ : SHeap Val)
        y.1.blocks.length o 1 z := ⟨by simp, by simp [ho]⟩
    exact ⟨_, z, by omega, rfl, codec_rel _ _ _ _ hz, o1, o2, releaseAll_twice (by omega) o1.1 o2.1 o2.2⟩
  obtain ⟨bs, h1, h2, h3, h4⟩ := key
  refine ⟨bs, h1, h2, h3, fun y rest hy => ?_⟩
  obtain ⟨⟨w, a, b⟩, ⟨w', a', b'⟩⟩ := h4 y rest hy
  exact ⟨⟨w, hw y w hy a, b⟩, ⟨w', hw y w' hy a', b'⟩⟩

/-! ### Two pointers to one circle -/

namespace Demo

/-- A circle with two owners. -/
def shared : SHeap Val × List SPtr := (⟨[some circle], [(0, 2)]⟩, [some (0, 0), some (0, 0)])

theorem shared_wt {R : RelMode} : SharedWT R Demo.env (.cls 1) shared [circle, circle] :=
  ⟨.cons ⟨0, 0, rfl, rfl⟩ (.cons ⟨0, 0, rfl, rfl⟩ .nil), by decide, fun v hm => by
    simp only [List.mem_cons, List.not_mem_nil, or_false] at hm
    rcases hm with rfl | rfl <;> exact circlePtr_wt⟩

end Demo

example : SharedWT .contents Demo.env (.cls 1) Demo.shared [Demo.circle, Demo.circle] ∧
    Demo.env.Valid .contents (· ∈ builtinKinds) (Demo.cfg true false) ∧ (Demo.env.ti .str).Valid ∧
    Demo.env.isVirt (.cls 1) = true :=
  ⟨Demo.shared_wt, Demo.valid_contents, Demo.ti_valid _, rfl⟩

example : (SHeap.mk [some Demo.circle] [(0, 1)]).Owned 0 0 1 Demo.circle ∧ SameClass (.cls 1) Demo.circle Demo.circle ∧
    ([] : List SPtr).length < Demo.shared.2.length :=
  ⟨⟨rfl, rfl⟩, fun _ _ => ⟨_, _, _, rfl, rfl⟩, by decide⟩

example : SharedWT .contents Demo.env Demo.int (⟨[some (.raw [1, 0, 0, 0])], [(0, 1)]⟩, [some (0, 0)]) [.raw [1, 0, 0, 0]] ∧
    Clean .contents (Demo.cfg true false) Demo.env Demo.int (.raw [2, 0, 0, 0]) ∧
    (SHeap.mk [some (Val.raw [2, 0, 0, 0])] [(0, 2)]).Owned 0 0 2 (.raw [2, 0, 0, 0]) ∧
    SameClass Demo.int (.raw [1, 0, 0, 0]) (.raw [2, 0, 0, 0]) := by
  refine ⟨⟨.cons ⟨0, 0, rfl, rfl⟩ .nil, by decide, fun v hm => ?_⟩, .prim rfl, ⟨rfl, rfl⟩, fun c h => by cases h⟩
  cases List.mem_singleton.1 hm
  exact .ptr (fun _ => trivial) (fun _ _ _ h => by cases h) (.prim rfl)

end Ckpt
