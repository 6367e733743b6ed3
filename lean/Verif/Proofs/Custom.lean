import Verif.Spec.Custom
import Verif.Proofs.UniverseLaw
import Verif.Proofs.CodecRel
/-!
# Traversals with a user-defined dispatcher
-/

set_option autoImplicit false

namespace Ckpt

/-- A user-defined traverser that has been shown `seen`. -/
def Tr (seen : Bytes) : Ser := { core := .traverser seen, kind := .custom }

/-- The computation shows the traverser `bs` and returns `b`. -/
def Sees {B : Type} (m : Ser → Out (B × Ser)) (bs : Bytes) (b : B) : Prop :=
  ∀ seen, m (Tr seen) = .ok (b, Tr (seen ++ bs))

/-- Any serializer. -/
def Scope.all : Scope := .quiet fun _ => True

theorem Sees.ofWr {B : Type} {cfg : Cfg} {m : Ser → Out (B × Ser)} {bs : Bool → Bytes} {b : B}
    (h : Wr Scope.all cfg m bs b) : Sees m (bs false) b := by
  intro seen
  have hw : (Tr seen).Writer Scope.all := ⟨rfl, trivial, rfl⟩
  rw [h _ hw]
  have hh : (Tr seen).headers = false := rfl
  rw [hh, Bool.and_false]
  rfl

section
variable {cfg : Cfg} {T : Type} {e : Elem T}

theorem Sees.traverse {ti : TI} {h : Handler T} {xs ys : List T} {bs : Bytes}
    (hs : Sees (fun s => h s xs) bs ys) : Sees (fun s => Ckpt.traverse cfg ti h s xs) bs ys := by
  intro seen
  have h1 : withTypeIdx cfg ti (Tr seen) = .ok (Tr seen) := rfl
  have h2 : withMemUsed cfg ti (Tr (seen ++ bs)) xs.length = .ok (Tr (seen ++ bs)) := rfl
  have h3 := hs seen
  simp only at h3
  cases hc : cfg.check <;> simp [Ckpt.traverse, hc, h1, h2, h3, catchDepth]

theorem Sees.pipe {x : T} {bs : Bytes} (hs : Sees (fun s => e.apply s [x]) bs [x]) :
    Sees (fun s => Ckpt.pipe cfg e s x) bs x := by
  intro seen
  have := Sees.traverse (cfg := cfg) (ti := e.ti) hs seen
  simp only at this
  simp [Ckpt.pipe, this]

theorem Sees.pipeEach {b : T → Bytes} : ∀ {xs : List T},
    (∀ x ∈ xs, Sees (fun s => e.apply s [x]) (b x) [x]) →
    Sees (fun s => Ckpt.pipeEach cfg e s xs) (xs.flatMap b) xs
  | [], _ => fun seen => by simp [Ckpt.pipeEach]
  | x :: xs, h => fun seen => by
    have h1 := Sees.pipe (cfg := cfg) (h x (by simp)) seen
    have h2 := Sees.pipeEach (xs := xs) (fun y hy => h y (by simp [hy])) (seen ++ b x)
    simp only at h1 h2
    simp [Ckpt.pipeEach, h1, h2]

theorem Sees.queueElems {b : T → Bytes} : ∀ {xs : List T},
    (∀ x ∈ xs, Sees (fun s => e.apply s [x]) (b x) [x]) → ∀ (seen : Bytes),
    serializeQueueElems cfg e (Tr seen) xs = .ok (Tr (seen ++ xs.flatMap b))
  | [], _ => fun seen => by simp [serializeQueueElems]
  | x :: xs, h => fun seen => by
    have h1 := Sees.pipe (cfg := cfg) (h x (by simp)) seen
    have h2 := Sees.queueElems (xs := xs) (fun y hy => h y (by simp [hy])) (seen ++ b x)
    simp only at h1
    simp [serializeQueueElems, h1, h2]

theorem Sees.array {xs : List T} {bs : Bytes} (h : xs ≠ [] → Sees (fun s => e.apply s xs) bs xs)
    (h0 : xs = [] → bs = []) : Sees (fun s => Ckpt.serializeArray cfg e s xs) bs xs := by
  intro seen
  by_cases hx : xs = []
  · subst hx; simp [serializeArray, h0 rfl]
  · have := Sees.traverse (cfg := cfg) (ti := e.ti) (h hx) seen
    simp only at this
    simp [serializeArray, this, List.length_pos_iff, hx]

theorem Sees.each {f : Ser → T → Out (T × Ser)} {b : T → Bytes} : ∀ {xs : List T},
    (∀ x ∈ xs, Sees (fun s => f s x) (b x) x) → Sees (fun s => dispatchEach f s xs) (xs.flatMap b) xs
  | [], _ => fun seen => by simp [dispatchEach]
  | x :: xs, h => fun seen => by
    have h1 := h x (by simp) seen
    have h2 := Sees.each (xs := xs) (fun y hy => h y (by simp [hy])) (seen ++ b x)
    simp only at h1 h2
    simp [dispatchEach, h1, h2]

theorem Sees.size (hc : cfg.Valid) {n : Nat} (h : n < 2 ^ 64) (seen : Bytes) :
    pipeSize cfg (Tr seen) n = .ok (n, Tr (seen ++ sizeBytes cfg n)) :=
  Sees.ofWr (pipeSize_wr (K := Scope.all) hc h) seen

theorem Sees.members {b : Nat → Bytes} : ∀ {es : List (Elem T)} {xs : List T},
    xs.length = es.length →
    (∀ (i : Nat) e x, es[i]? = some e → xs[i]? = some x → Sees (fun s => e.apply s [x]) (b i) [x]) →
    ∀ (seen : Bytes), serMembers cfg es (Tr seen) xs =
      .ok (xs, Tr (seen ++ (List.range es.length).flatMap b))
  | [], [], _, _ => fun seen => by simp [serMembers]
  | e :: es, x :: xs, hl, h => fun seen => by
    have h1 := Sees.pipe (cfg := cfg) (h 0 e x rfl rfl) seen
    have h2 := Sees.members (b := fun i => b (i + 1)) (es := es) (xs := xs) (by simpa using hl)
      (fun i e' y he hy => h (i + 1) e' y (by simpa using he) (by simpa using hy)) (seen ++ b 0)
    simp only at h1
    simp [serMembers, h1, h2, List.range_succ_eq_map, List.flatMap_map]
  | [], _ :: _, hl, _ => by simp at hl
  | _ :: _, [], hl, _ => by simp at hl

theorem Sees.visit {b : Nat → Bytes} {es : List (Elem T)} {xs : List T} (hl : xs.length = es.length)
    (h : ∀ (i : Nat) e x, es[i]? = some e → xs[i]? = some x → Sees (fun s => e.apply s [x]) (b i) [x]) :
    ∀ {is : List Nat}, (∀ i ∈ is, i < es.length) → ∀ (seen : Bytes),
    visitMembers cfg es is (Tr seen) xs = .ok (xs, Tr (seen ++ is.flatMap b))
  | [], _ => fun seen => by simp [visitMembers]
  | i :: is, hi => fun seen => by
    have hlt := hi i (by simp)
    have he : es[i]? = some es[i] := List.getElem?_eq_getElem hlt
    have hx : xs[i]? = some (xs[i]'(by omega)) := List.getElem?_eq_getElem (by omega)
    have h1 := Sees.pipe (cfg := cfg) (h i _ _ he hx) seen
    have h2 := Sees.visit hl h (is := is) (fun j hj => hi j (by simp [hj])) (seen ++ b i)
    simp only at h1
    have hset : xs.set i (xs[i]'(by omega)) = xs := by simp
    simp only [visitMembers, he, hx, h1, Out.bind_eq, Out.bind, hset, h2, List.flatMap_cons,
      List.append_assoc]

theorem Sees.entry : ∀ {es : List (Elem T)} {i k : Nat} {e : Elem T} {x : T} {bs : Bytes},
    es[i]? = some e → Sees (fun s => e.apply s [x]) bs [x] → ∀ (seen : Bytes),
    serializeEntry cfg es (Tr seen) (.holds (k + i) x) (k + i) k =
      .ok (.holds (k + i) x, Tr (seen ++ bs))
  | [], _, _, _, _, _, h, _ => by simp at h
  | e :: es, 0, k, e', x, bs, h, hs => fun seen => by
    obtain rfl : e = e' := by simpa using h
    have h1 := Sees.pipe (cfg := cfg) hs seen
    have hu : (Tr seen).isUnpacking = false := rfl
    simp only at h1
    simp [serializeEntry, hu, h1]
  | e :: es, i + 1, k, e', x, bs, h, hs => fun seen => by
    have h1 := Sees.entry (es := es) (i := i) (k := k + 1) (by simpa using h) hs seen
    have hne : ¬ k + (i + 1) = k := by omega
    have heq : k + 1 + i = k + (i + 1) := by omega
    rw [heq] at h1
    simp only [serializeEntry, hne, if_false, h1]

end

section
variable {cfg : Cfg} {env : Env} {act : Ty → Action}

theorem asks_eq (t : Ty) : asksDispatcher env t = env.ownFunction t := by
  cases t <;> simp [asksDispatcher, Env.ownFunction, Ty.onlyBytes, Env.isVirt, allByteCopied_eq]

theorem shown_prim {asked : Bool} {id size : Nat} {x : Val} {bs : Bytes}
    (h : Shown cfg env act asked (.prim id size) x bs) : x = .raw bs ∧ bs.length = size := by
  generalize ht : Ty.prim id size = t at h
  induction h <;> cases ht
  · rename_i h1 h2; simp [Env.ownFunction, Ty.onlyBytes] at h1
  · rename_i h1 h2 _ _; simp [Env.ownFunction, Ty.onlyBytes] at h1
  · rename_i h; exact h rfl
  · rename_i h; exact ⟨rfl, h⟩

theorem shown_variantBytes {asked : Bool} {ts : List Ty} {x : Val} {bs : Bytes} (hb : Ty.allOnlyBytes ts = true)
    (h : Shown cfg env act asked (.variant ts) x bs) : x = .raw bs ∧ bs.length = (env.ti (.variant ts)).sizeof := by
  generalize ht : Ty.variant ts = t at h
  induction h <;> cases ht
  · rename_i h1 h2; simp [Env.ownFunction, Ty.onlyBytes, hb] at h1
  · rename_i h1 h2 _ _; simp [Env.ownFunction, Ty.onlyBytes, hb] at h1
  · rename_i h; exact h rfl
  · rename_i h _; rw [hb] at h; cases h
  · rename_i h; exact ⟨rfl, h⟩

theorem shown_not_virt {asked : Bool} {t : Ty} {x : Val} {bs : Bytes}
    (h : Shown cfg env act asked t x bs) : env.isVirt t = false := by
  induction h with
  | @instead t x tell h1 h2 => cases t <;> simp_all [Env.ownFunction, Env.isVirt]
  | around _ _ _ ih => exact ih
  | direct _ _ ih => exact ih
  | obj h => exact h
  | _ => rfl

/-- For types that are asked about, `dispatchStep` is one object after the other, as far as the
dispatcher is concerned. -/
theorem with_asked {n : Nat} {t : Ty} (ha : env.ownFunction t = true) :
    dispatchWith cfg env act (n + 1) t =
      dispatchEach (runAction (act t) (dispatchStep cfg env (dispatchWith cfg env act n) t)) := by
  simp [dispatchWith, asks_eq, ha]

theorem with_not_asked {n : Nat} {t : Ty} (ha : env.ownFunction t = false) :
    dispatchWith cfg env act (n + 1) t = dispatchStep cfg env (dispatchWith cfg env act n) t := by
  simp [dispatchWith, asks_eq, ha]

theorem each_single {f : Ser → Val → Out (Val × Ser)} {x : Val} {bs : Bytes}
    (h : Sees (fun s => dispatchEach f s [x]) bs [x]) : Sees (fun s => f s x) bs x := by
  intro seen
  have := h seen
  simp only [dispatchEach, Out.bind_eq] at this
  rcases hf : f (Tr seen) x with ⟨y, s⟩ | _ | _ | _ | _ <;> rw [hf] at this <;> simp [Out.bind] at this
  show f (Tr seen) x = _
  rw [hf, this.1, this.2]

theorem Sees.raws (cfg : Cfg) {size : Nat} {xs : List Val} {b : Val → Bytes}
    (hb : ∀ x ∈ xs, x = .raw (b x) ∧ (b x).length = size) :
    Sees (fun s => onRaw (dispatchByte size) s xs) (xs.flatMap b) xs := by
  have hxs : xs = (xs.map b).map Val.raw := by
    rw [List.map_map]
    conv => lhs; rw [← List.map_id xs]
    exact List.map_congr_left fun x hx => (hb x hx).1
  have hw := (dispatchByte_wr (K := Scope.all) (cfg := cfg) (size := size) (xs := xs.map b)
    (by simpa using fun x hx => (hb x hx).2))
  have hs := Sees.ofWr hw
  intro seen
  have := hs seen
  simp only at this
  simp only
  conv => lhs; rw [hxs]
  rw [onRaw_raw, this]
  simp only [Out.bind_eq, Out.bind, List.flatMap]
  rw [← hxs]

/-- Whole arrays. -/
theorem Sees.handler {n : Nat} {t : Ty} {xs : List Val} {b : Val → Bytes}
    (hsh : ∀ x ∈ xs, Shown cfg env act true t x (b x)) (hne : xs ≠ [])
    (h : ∀ x ∈ xs, Sees (fun s => dispatchWith cfg env act (n + 1) t s [x]) (b x) [x]) :
    Sees (fun s => dispatchWith cfg env act (n + 1) t s xs) (xs.flatMap b) xs := by
  cases ha : env.ownFunction t with
  | true =>
    rw [with_asked ha] at h ⊢
    exact Sees.each fun x hx => each_single (h x hx)
  | false =>
    rw [with_not_asked ha] at h ⊢
    rw [← asks_eq] at ha
    cases t <;> simp [asksDispatcher, allByteCopied_eq] at ha
    case prim id size => exact Sees.raws cfg fun x hx => shown_prim (hsh x hx)
    case variant ts =>
      rw [dispatchStep_variantBytes ha]
      exact Sees.raws cfg fun x hx => shown_variantBytes ha (hsh x hx)
    case enm id pid size =>
      simp only [dispatchStep] at h ⊢
      exact Sees.each fun x hx => each_single (h x hx)
    case cls c =>
      obtain ⟨x, hx⟩ := List.exists_mem_of_ne_nil _ hne
      have := shown_not_virt (hsh x hx)
      simp [Env.isVirt, ha] at this

/-- An object handed to the traverser, given what its own function shows. -/
theorem Sees.around {n : Nat} {t : Ty} {x : Val} {bs : Bytes} {before after : Val → Bytes}
    (ha : env.ownFunction t = true) (hact : act t = .around before after)
    (h : Sees (fun s => dispatchStep cfg env (dispatchWith cfg env act n) t s [x]) bs [x]) :
    Sees (fun s => dispatchWith cfg env act (n + 1) t s [x]) (before x ++ bs ++ after x) [x] := by
  intro seen
  have h1 := h (seen ++ before x)
  simp only at h1
  have ht : ∀ s0 bs, (Tr s0).tell bs = Tr (s0 ++ bs) := fun _ _ => rfl
  simp [with_asked ha, dispatchEach, runAction, hact, single, ht, h1]

theorem Sees.instead {n : Nat} {t : Ty} {x : Val} {tell : Val → Bytes}
    (ha : env.ownFunction t = true) (hact : act t = .instead tell) :
    Sees (fun s => dispatchWith cfg env act (n + 1) t s [x]) (tell x) [x] := by
  intro seen
  have ht : ∀ s0 bs, (Tr s0).tell bs = Tr (s0 ++ bs) := fun _ _ => rfl
  simp [with_asked ha, dispatchEach, runAction, hact, ht]

/-- One object in `dispatchEach`. -/
theorem Sees.one {f : Ser → Val → Out (Val × Ser)} {x : Val} {bs : Bytes}
    (h : Sees (fun s => f s x) bs x) : Sees (fun s => dispatchEach f s [x]) bs [x] := by
  intro seen
  have := h seen
  simp only at this
  simp [dispatchEach, this]

theorem Tr.unpacking (seen : Bytes) : (Tr seen).isUnpacking = false := rfl
theorem Tr.footprinting (seen : Bytes) : (Tr seen).isFootprinting = false := rfl
theorem Tr.addBytes (seen : Bytes) (n : Nat) : (Tr seen).addBytes n = Tr seen := rfl

theorem eventually_get2 {α β : Type} {Q : Nat → α → β → Nat → Prop} {xs : List α} {ys : List β}
    (h : ∀ i x y, xs[i]? = some x → ys[i]? = some y → ∃ n0, ∀ n ≥ n0, Q i x y n) :
    ∃ n0, ∀ n ≥ n0, ∀ i x y, xs[i]? = some x → ys[i]? = some y → Q i x y n := by
  obtain ⟨n0, h0⟩ := eventually_get (xs := xs) (Q := fun i x n => ∀ y, ys[i]? = some y → Q i x y n) (by
    intro i x hx
    cases hy : ys[i]? with
    | none => exact ⟨0, fun n _ y h => by simp at h⟩
    | some y =>
      obtain ⟨n0, h0⟩ := h i x y hx hy
      exact ⟨n0, fun n hn y' h' => by cases h'; exact h0 n hn⟩)
  exact ⟨n0, fun n hn i x y hx hy => h0 n hn i x hx y hy⟩

theorem bools_shown : ∀ (bs : List Bool),
    bs.flatMap (boolNode cfg false) = bs.map (fun b => if b then (1 : UInt8) else 0)
  | [] => rfl
  | b :: bs => by simp [boolNode, node, ← bools_shown bs]

theorem shown_sees (hc : cfg.Valid) (hti : ∀ t, (env.ti t).Valid)
    (ho : ∀ n, (cfg.argOrder n).Perm (List.range n)) {asked : Bool} {t : Ty} {x : Val}
    {bs : Bytes} (h : Shown cfg env act asked t x bs) :
    ∃ n0, ∀ n ≥ n0,
      match asked with
      | true => Sees (fun s => dispatchWith cfg env act n t s [x]) bs [x]
      | false => Sees (fun s => dispatchStep cfg env (dispatchWith cfg env act n) t s [x]) bs [x] := by
  have under : ∀ (pid size : Nat) (bs : Bytes), bs.length = size →
      Sees (fun s => (dispatchEach fun s v =>
        match v with
        | .raw bs => do
          let (bs, s) ← serUnderlying cfg (primElem env pid size) s bs
          .ok (.raw bs, s)
        | _ => .ub .typeConfusion) s [Val.raw bs]) bs [Val.raw bs] := by
    intro pid size bs hl
    refine Sees.one fun seen => ?_
    have L : Law Scope.all cfg (primElem env pid size).ti (primElem env pid size).apply (byteCodec size) :=
      byteLaw (hti _)
    have := Sees.ofWr (under_wr L (x := bs) hl) seen
    simp [this, nodeEnc, node, byteCodec]
  induction h with
  | instead ha hact =>
    exact ⟨1, fun n hn => by
      obtain ⟨m, rfl⟩ := Nat.exists_eq_add_of_le' hn
      exact Sees.instead ha hact⟩
  | around ha hact _ ih =>
    obtain ⟨n0, h0⟩ := ih
    exact ⟨n0 + 1, fun n hn => by
      obtain ⟨m, rfl⟩ := Nat.exists_eq_add_of_le' (Nat.le_of_add_left_le hn)
      exact Sees.around ha hact (h0 m (by omega))⟩
  | direct ha _ ih =>
    obtain ⟨n0, h0⟩ := ih
    refine ⟨n0 + 1, fun n hn => ?_⟩
    obtain ⟨m, rfl⟩ := Nat.exists_eq_add_of_le' (Nat.le_of_add_left_le hn)
    have := h0 m (by omega)
    rwa [← with_not_asked ha] at this
  | @prim id size bs hl =>
    refine ⟨0, fun n _ => ?_⟩
    have hs := Sees.ofWr (dispatchByte_wr (K := Scope.all) (cfg := cfg) (size := size) (xs := [bs])
      (by simpa using hl))
    intro seen
    have h1 := hs seen
    have h2 := onRaw_raw (dispatchByte size) (Tr seen) [bs]
    simp only [List.map_cons, List.map_nil] at h1 h2
    simp only [dispatchStep]
    rw [h2, h1]
    simp
  | enm hl => exact ⟨0, fun n _ => under _ _ _ hl⟩
  | chrono hl => exact ⟨0, fun n _ => under _ _ _ hl⟩
  | @str x hl =>
    refine ⟨0, fun n _ => ?_⟩
    simp only [dispatchStep]
    refine Sees.one fun seen => ?_
    have := Sees.ofWr (string_wr (K := Scope.all) hc (sz := (env.ti .str).sizeof) hl) seen
    simp only [this, Out.bind_eq, Out.bind, strEnc, sizeNode, node, sizeBytes]
    cases hx : x.chars <;> simp
  | @vec t cap xs b hl hcap hsh ih =>
    obtain ⟨n0, h0⟩ := eventually_list ih
    refine ⟨n0 + 1, fun n hn => ?_⟩
    simp only [dispatchStep]
    refine Sees.one fun seen => ?_
    obtain ⟨m, rfl⟩ := Nat.exists_eq_add_of_le' (Nat.le_of_add_left_le hn)
    have h1 := Sees.ofWr (vecMeta_wr (K := Scope.all) hc (v := ⟨cap, xs⟩) hl hcap) seen
    have h2 := Sees.array (cfg := cfg) (e := env.elemOf (dispatchWith cfg env act (m + 1) t) t)
      (bs := xs.flatMap b) (fun hne => Sees.handler hsh hne (h0 _ (by omega))) (by rintro rfl; rfl)
      (seen ++ (sizeBytes cfg cap ++ sizeBytes cfg xs.length))
    simp only at h2
    simp only [vecMeta, Out.bind_eq] at h1
    rcases hm : serializeVectorMeta cfg (Tr seen) (⟨cap, xs⟩ : Vec Val) with ⟨k, v, s⟩ | _ | _ | _ | _ <;>
      rw [hm] at h1 <;> simp [Out.bind] at h1
    obtain ⟨⟨rfl, rfl⟩, rfl⟩ := h1
    have hz : ∀ k, sizeNode cfg false k = sizeBytes cfg k := fun _ => rfl
    simp [serVector, Tr.footprinting, hm, Tr.unpacking, hz, h2]
  | @vecBool cap bs hl hcap =>
    refine ⟨0, fun n _ => ?_⟩
    simp only [dispatchStep]
    refine Sees.one fun seen => ?_
    have := Sees.ofWr (vbool_wr (K := Scope.all) hc (sz := (env.ti .vecBool).sizeof) (v := ⟨cap, bs⟩) hl hcap)
      seen
    have hf := bools_shown (cfg := cfg) bs
    simp only [this, Out.bind_eq, Out.bind, vboolEnc, hf, sizeNode, node, sizeBytes]
    simp
  | @seq k t xs b hl hsh ih =>
    obtain ⟨n0, h0⟩ := eventually_list ih
    refine ⟨n0, fun n hn => ?_⟩
    simp only [dispatchStep]
    refine Sees.one fun seen => ?_
    have h1 := Sees.size hc hl seen
    have h2 := Sees.pipeEach (cfg := cfg) (e := env.elemOf (dispatchWith cfg env act n t) t) (b := b)
      (fun x hx => h0 n hn x hx) (seen ++ sizeBytes cfg xs.length)
    simp only at h2
    simp [serList, serializeContainerSize, Tr.footprinting, h1, Tr.unpacking, h2]
  | @queue t xs b hl hsh ih =>
    obtain ⟨n0, h0⟩ := eventually_list ih
    refine ⟨n0, fun n hn => ?_⟩
    simp only [dispatchStep]
    refine Sees.one fun seen => ?_
    have h1 := Sees.size hc hl seen
    have h2 := Sees.queueElems (cfg := cfg) (e := env.elemOf (dispatchWith cfg env act n t) t) (b := b)
      (fun x hx => h0 n hn x hx) (seen ++ sizeBytes cfg xs.length)
    simp [serQueue, serializeContainerSize, Tr.footprinting, h1, Tr.unpacking, h2]
  | @oset a cmp t xs b hl hsh ih =>
    obtain ⟨n0, h0⟩ := eventually_list ih
    refine ⟨n0, fun n hn => ?_⟩
    simp only [dispatchStep]
    refine Sees.one fun seen => ?_
    have h1 := Sees.size hc hl seen
    have h2 := Sees.pipeEach (cfg := cfg) (e := env.elemOf (dispatchWith cfg env act n t) t) (b := b)
      (fun x hx => h0 n hn x hx) (seen ++ sizeBytes cfg xs.length)
    simp only at h2
    simp [serMapLike, serializeContainerSize, Tr.footprinting, h1, Tr.unpacking, h2]
  | @uset a cmp t xs b hl hsh ih =>
    obtain ⟨n0, h0⟩ := eventually_list ih
    refine ⟨n0, fun n hn => ?_⟩
    simp only [dispatchStep]
    refine Sees.one fun seen => ?_
    have h1 := Sees.size hc hl seen
    have h2 := Sees.pipeEach (cfg := cfg) (e := env.elemOf (dispatchWith cfg env act n t) t) (b := b)
      (fun x hx => h0 n hn x hx) (seen ++ sizeBytes cfg xs.length)
    simp only at h2
    simp [serMapLike, serializeContainerSize, Tr.footprinting, h1, Tr.unpacking, h2]
  | @pair t u x y bs cs _ _ ih1 ih2 =>
    obtain ⟨n1, h1⟩ := ih1
    obtain ⟨n2, h2⟩ := ih2
    refine ⟨max n1 n2, fun n hn => ?_⟩
    simp only [dispatchStep]
    refine Sees.one fun seen => ?_
    have h1 := Sees.pipe (cfg := cfg) (e := env.elemOf (dispatchWith cfg env act n t) t)
      (h1 n (by omega)) seen
    have h2 := Sees.pipe (cfg := cfg) (e := env.elemOf (dispatchWith cfg env act n u) u)
      (h2 n (by omega)) (seen ++ bs)
    simp only at h1 h2
    simp [serPair, Tr.addBytes, h1, h2]
  | @tuple ts xs b hl hsh ih =>
    obtain ⟨n0, h0⟩ := eventually_get2 ih
    refine ⟨n0, fun n hn => ?_⟩
    simp only [dispatchStep]
    refine Sees.one fun seen => ?_
    have hi : ∀ i ∈ cfg.argOrder ts.length, i < ts.length := fun i hi => by
      simpa using ((ho ts.length).mem_iff).1 hi
    have h1 := Sees.visit (cfg := cfg) (b := b) (xs := xs)
      (es := ts.map fun t => env.elemOf (dispatchWith cfg env act n t) t) (by simpa using hl)
      (by
        intro i e x he hx
        rw [List.getElem?_map] at he
        obtain ⟨t, ht, rfl⟩ := Option.map_eq_some_iff.1 he
        exact h0 n hn i t x ht hx) (is := cfg.argOrder ts.length) (by simpa using hi) seen
    simp [serTuple, h1]
  | @optNone t =>
    refine ⟨0, fun n _ => ?_⟩
    simp only [dispatchStep]
    refine Sees.one fun seen => ?_
    have h1 := Sees.ofWr (rawBool_wr (K := Scope.all) hc (b := false)) seen
    have hz : boolNode cfg false false = [0] := rfl
    simp only [Bool.toNat_false, hz] at h1
    simp [serOptional, Tr.footprinting, Tr.unpacking, h1]
  | @optSome t x bs _ ih =>
    obtain ⟨n0, h0⟩ := ih
    refine ⟨n0, fun n hn => ?_⟩
    simp only [dispatchStep]
    refine Sees.one fun seen => ?_
    have h1 := Sees.ofWr (rawBool_wr (K := Scope.all) hc (b := true)) seen
    have hz : boolNode cfg false true = [1] := rfl
    have h2 := Sees.pipe (cfg := cfg) (e := env.elemOf (dispatchWith cfg env act n t) t)
      (h0 n hn) (seen ++ [1])
    simp only [Bool.toNat_true, hz] at h1 h2
    simp [serOptional, Tr.footprinting, Tr.unpacking, h1, h2]
  | @variantBytes ts bs hb hl =>
    refine ⟨0, fun n _ => ?_⟩
    simp only [dispatchStep_variantBytes hb]
    have := Sees.raws cfg (xs := [.raw bs]) (b := fun _ => bs) (size := (env.ti (.variant ts)).sizeof)
      (by simpa using hl)
    simpa using this
  | @variant ts i t x bs hb ht hi _ ih =>
    obtain ⟨n0, h0⟩ := ih
    refine ⟨n0, fun n hn => ?_⟩
    simp only [dispatchStep_variant hb, dispatchVariant]
    refine Sees.one fun seen => ?_
    have h1 := Sees.size hc hi seen
    have h2 := Sees.entry (cfg := cfg) (k := 0) (es := ts.map fun t => env.elemOf (dispatchWith cfg env act n t) t)
      (i := i) (e := env.elemOf (dispatchWith cfg env act n t) t) (by simp [ht]) (h0 n hn)
      (seen ++ sizeBytes cfg i)
    simp only [Nat.zero_add] at h2
    simp [serVariant, Variant.index, h1, h2]
  | @ptrNull t =>
    refine ⟨0, fun n _ => ?_⟩
    simp only [dispatchStep]
    refine Sees.one fun seen => ?_
    have h1 := Sees.ofWr (pipeBool_wr (K := Scope.all) hc (b := true)) seen
    have hz : boolNode cfg false true = [1] := rfl
    simp only [hz] at h1
    simp [serUniquePtr, Tr.footprinting, h1]
  | @ptr t x bs hn _ ih =>
    obtain ⟨n0, h0⟩ := ih
    refine ⟨n0, fun n hge => ?_⟩
    simp only [dispatchStep]
    refine Sees.one fun seen => ?_
    have h1 := Sees.ofWr (pipeBool_wr (K := Scope.all) hc (b := false)) seen
    have hz : boolNode cfg false false = [0] := rfl
    have h2 := Sees.pipe (cfg := cfg) (e := env.elemOf (dispatchWith cfg env act n t) t)
      (h0 n hge) (seen ++ [0])
    simp only [hz] at h1 h2
    have hvt : env.virt cfg t = none := by
      cases t <;> simp_all [Env.virt, Env.isVirt]
    simp [serUniquePtr, Tr.footprinting, h1, h2, hvt, reconstructPointedTo]
  | @arr k t xs b hl hsh ih =>
    obtain ⟨n0, h0⟩ := eventually_list ih
    refine ⟨n0 + 1, fun n hn => ?_⟩
    simp only [dispatchStep]
    refine Sees.one fun seen => ?_
    obtain ⟨m, rfl⟩ := Nat.exists_eq_add_of_le' (Nat.le_of_add_left_le hn)
    have h2 := Sees.array (cfg := cfg) (e := env.elemOf (dispatchWith cfg env act (m + 1) t) t)
      (bs := xs.flatMap b) (fun hne => Sees.handler hsh hne (h0 _ (by omega))) (by rintro rfl; rfl)
      seen
    simp only at h2
    simp [serArray, h2, hl]
  | @obj c p b hvt hb hl hsh ih =>
    obtain ⟨n0, h0⟩ := eventually_get2 ih
    refine ⟨n0, fun n hn => ?_⟩
    simp only [dispatchStep, hvt, Bool.false_eq_true, if_false]
    refine Sees.one fun seen => ?_
    have h1 := Sees.members (cfg := cfg) (b := b) (xs := p)
      (es := (env.cls c).fields.map fun t => env.elemOf (dispatchWith cfg env act n t) t) (by simpa using hl)
      (by
        intro i e x he hx
        rw [List.getElem?_map] at he
        obtain ⟨t, ht, rfl⟩ := Option.map_eq_some_iff.1 he
        exact h0 n hn i t x ht hx) seen
    have hch : env.chain c = [c] := by simp [Env.chain, hb]
    have hvis : (env.cls c).visited (Tr seen) = (env.cls c).fields := rfl
    simp only [List.length_map] at h1
    simp [onPart, hch, hvis, h1]

/-- A whole traversal. -/
theorem Sees.top {T : Type} {e : Elem T} {x : T} {bs : Bytes} (h : Sees (fun s => e.apply s [x]) bs [x]) :
    traverseCustom cfg e x = .ok (bs, x) := by
  have h1 := Sees.pipe (cfg := cfg) h []
  have ht : ∀ s : Bytes, withTypeIdx cfg e.ti (Tr s) = .ok (Tr s) := fun _ => rfl
  have hm : ∀ s : Bytes, withMemUsed cfg e.ti (Tr s) 1 = .ok (Tr s) := fun _ => rfl
  have e0 : ({ core := .traverser [], kind := .custom } : Ser) = Tr [] := rfl
  have hw : ∀ s : Bytes, (Tr s).written = s := fun _ => rfl
  simp only [List.nil_append] at h1
  cases hck : cfg.check <;> simp [traverseCustom, traverseTop, e0, ht, hm, h1, hw, hck]

/-! ## Every object is shown as something -/

theorem shown_asked {t : Ty} {x : Val} (h : ∃ bs, Shown cfg env act false t x bs) :
    ∃ bs, Shown cfg env act true t x bs := by
  obtain ⟨bs, h⟩ := h
  cases ha : env.ownFunction t with
  | false => exact ⟨_, .direct ha h⟩
  | true =>
    cases hact : act t with
    | instead tell => exact ⟨_, .instead ha hact⟩
    | around before after => exact ⟨_, .around ha hact h⟩

theorem choose_list {t : Ty} {xs : List Val} (h : ∀ x ∈ xs, ∃ bs, Shown cfg env act true t x bs) :
    ∃ b : Val → Bytes, ∀ x ∈ xs, Shown cfg env act true t x (b x) := by
  classical
  exact ⟨fun x => if hx : x ∈ xs then (h x hx).choose else [],
    fun x hx => by simp only [hx, dif_pos]; exact (h x hx).choose_spec⟩

theorem choose_get {ts : List Ty} {xs : List Val}
    (h : ∀ (i : Nat) t x, ts[i]? = some t → xs[i]? = some x → ∃ bs, Shown cfg env act true t x bs) :
    ∃ b : Nat → Bytes, ∀ (i : Nat) t x, ts[i]? = some t → xs[i]? = some x →
      Shown cfg env act true t x (b i) := by
  have : ∀ i : Nat, ∃ bs, ∀ t x, ts[i]? = some t → xs[i]? = some x → Shown cfg env act true t x bs := by
    intro i
    cases ht : ts[i]? with
    | none => exact ⟨[], fun _ _ h => by cases h⟩
    | some t =>
      cases hx : xs[i]? with
      | none => exact ⟨[], fun _ _ _ h => by cases h⟩
      | some x =>
        obtain ⟨bs, hb⟩ := h i t x ht hx
        exact ⟨bs, fun t' x' h1 h2 => by cases h1; cases h2; exact hb⟩
  exact ⟨fun i => (this i).choose, fun i => (this i).choose_spec⟩

theorem shown_exists {R : RelMode} (hn : ∀ c, (env.cls c).virt = false)
    (hb : ∀ c, (env.cls c).bases = []) {t : Ty} {x : Val} (h : WT R env t x) :
    ∃ bs, Shown cfg env act false t x bs := by
  induction h with
  | prim h => exact ⟨_, .prim h⟩
  | enm h => exact ⟨_, .enm h⟩
  | chrono h => exact ⟨_, .chrono h⟩
  | str h => exact ⟨_, .str h⟩
  | vec h1 h2 _ _ _ ih =>
    obtain ⟨b, hb⟩ := choose_list fun x hx => shown_asked (ih x hx)
    exact ⟨_, .vec h1 h2 hb⟩
  | vecBool h1 h2 => exact ⟨_, .vecBool h1 h2⟩
  | seq h1 _ _ ih =>
    obtain ⟨b, hb⟩ := choose_list fun x hx => shown_asked (ih x hx)
    exact ⟨_, .seq h1 hb⟩
  | queue h1 _ _ ih =>
    obtain ⟨b, hb⟩ := choose_list fun x hx => shown_asked (ih x hx)
    exact ⟨_, .queue h1 hb⟩
  | oset h1 _ _ _ _ ih =>
    obtain ⟨b, hb⟩ := choose_list fun x hx => shown_asked (ih x hx)
    exact ⟨_, .oset h1 hb⟩
  | uset h1 _ _ _ _ _ ih =>
    obtain ⟨b, hb⟩ := choose_list fun x hx => shown_asked (ih x hx)
    exact ⟨_, .uset h1 hb⟩
  | pair _ _ _ _ ih1 ih2 =>
    obtain ⟨b1, h1⟩ := shown_asked ih1
    obtain ⟨b2, h2⟩ := shown_asked ih2
    exact ⟨_, .pair h1 h2⟩
  | tuple hl _ _ ih =>
    obtain ⟨b, hb⟩ := choose_get fun i t x ht hx => shown_asked (ih i t x ht hx)
    exact ⟨_, .tuple hl hb⟩
  | optNone => exact ⟨_, .optNone⟩
  | optSome _ _ ih => obtain ⟨_, h⟩ := shown_asked ih; exact ⟨_, .optSome h⟩
  | variant hb h1 h2 _ _ ih => obtain ⟨_, h⟩ := shown_asked ih; exact ⟨_, .variant hb h1 h2 h⟩
  | variantBytes h h' => exact ⟨_, .variantBytes h h'⟩
  | ptrNull => exact ⟨_, .ptrNull⟩
  | @ptr t x _ _ _ ih =>
    obtain ⟨_, h⟩ := shown_asked ih
    exact ⟨_, .ptr (shown_not_virt h) h⟩
  | arr hl _ _ _ ih =>
    obtain ⟨b, hb⟩ := choose_list fun x hx => shown_asked (ih x hx)
    exact ⟨_, .arr hl hb⟩
  | @obj c d ps h1 h2 h3 h4 _ _ ih =>
    obtain rfl := h2 (hn c)
    have hch : env.chain d = [d] := by simp [Env.chain, hb]
    rw [hch] at h3
    match ps, h3 with
    | [p], _ =>
      obtain ⟨b, hb'⟩ := choose_get fun i t x ht hx => shown_asked (ih 0 d p (by simp [hch]) rfl i t x ht hx)
      exact ⟨_, .obj (hn d) (hb d) (h4 0 d p (by simp [hch]) rfl) hb'⟩

/-! ## The library's own dispatcher -/

theorem tell_nil (s : Ser) : s.tell [] = s := by
  obtain ⟨core, k, v⟩ := s
  cases core <;> simp [Ser.tell]

theorem each_basic (f : Ser → Val → Out (Val × Ser)) (s : Ser) (xs : List Val) :
    dispatchEach (runAction (.around (fun _ => []) (fun _ => [])) (dispatchEach f)) s xs =
      dispatchEach f s xs := by
  have : runAction (.around (fun _ => []) (fun _ => [])) (dispatchEach f) = f := by
    funext s v
    simp only [runAction, single, dispatchEach, tell_nil, Out.bind_eq]
    rcases f s v with ⟨y, s⟩ | _ | _ | _ | _ <;> rfl
  rw [this]

theorem step_each (h : Ty → Handler Val) {t : Ty} (ha : env.ownFunction t = true) :
    ∃ f, dispatchStep cfg env h t = dispatchEach f := by
  rw [← asks_eq] at ha
  cases t <;> simp only [asksDispatcher, Bool.not_eq_true', Bool.false_eq_true] at ha <;>
    simp only [dispatchStep, ha, Bool.false_eq_true, if_false] <;> exact ⟨_, rfl⟩

theorem with_noAction : ∀ (n : Nat) (t : Ty), dispatchWith cfg env noAction n t = dispatch cfg env n t
  | 0, _ => rfl
  | n + 1, t => by
    have ih : dispatchWith cfg env noAction n = dispatch cfg env n := funext (with_noAction n)
    cases ha : env.ownFunction t with
    | false => rw [with_not_asked ha, ih]; rfl
    | true =>
      rw [with_asked ha, ih]
      obtain ⟨f, hf⟩ := step_each (cfg := cfg) (dispatch cfg env n) ha
      funext s xs
      simp only [dispatch, hf, noAction]
      exact each_basic f s xs

end

end Ckpt
