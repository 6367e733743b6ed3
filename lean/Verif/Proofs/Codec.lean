import Verif.Proofs.Step
import Verif.Spec.Universe
import Verif.Proofs.ContainerLaws
import Verif.Proofs.Virtual
/-!
The codec of every type of the universe, by recursion on the nesting bound.  Internal counterpart of
`WT`, `Rel` and `Clean`.
-/

set_option autoImplicit false

namespace Ckpt

/-- A codec restricted to objects held by value. -/
def Codec.byVal (c : Codec Val) (t : Ty) : Codec Val :=
  { c with P := fun v => c.P v ∧ ByVal t v }

/-- The codec of a chain of parts (classes root first). -/
def chainEnc (cfg : Cfg) (w : Bool) (ti : Nat → TI) (enc : Nat → List Val → Bytes) :
    List Nat → List (List Val) → Bytes
  | k :: ks, p :: ps => node cfg w (ti k) 1 (enc k p) ++ chainEnc cfg w ti enc ks ps
  | _, _ => []

def chainFp (fp : Nat → List Val → Nat) : List Nat → List (List Val) → Nat
  | k :: ks, p :: ps => fp k p + chainFp fp ks ps
  | _, _ => 0

/-- Codec of the part of an object that belongs to one class: `ps` are the members it writes, `us` the
members it reads. -/
def partCodec (E : Ty → Elem Val) (C : Ty → Codec Val) (cfg : Cfg) (ti : TI) (ps us : List Ty) :
    Codec (List Val) where
  P p := All2 (fun t x => (C t).P x) ps p
  enc w p := membersEnc cfg w E C ps p
  prior p q := (us = ps → All3 (fun t x y => (C t).prior x y) ps p q) ∧
    (us ≠ ps → All2 (fun u y => ∀ x, (C u).P x → (C u).prior x y) us q)
  rel p q := us = ps ∧ All3 (fun t x y => (C t).rel x y) ps p q
  fp p := membersFp C ps p
  multi n := us ≠ ps → ti.sizeof * n < 2 ^ 31

/-- Codec that accepts nothing. -/
def Codec.none : Codec Val :=
  { P := fun _ => False, enc := fun _ _ => [], prior := fun _ _ => False, rel := fun _ _ => False,
    fp := fun _ => 0, multi := fun _ => True }

def underCodec (ti : TI) (cfg : Cfg) (size : Nat) : Codec Val :=
  { P := fun v => match v with | .raw bs => bs.length = size | _ => False
    enc := fun w v => match v with | .raw bs => nodeEnc cfg w ti (byteCodec size) bs | _ => []
    prior := fun _ y => match y with | .raw bs => bs.length = size | _ => False
    rel := fun x y => match x, y with | .raw a, .raw b => b = a | _, _ => False
    fp := fun _ => size
    multi := fun _ => True }

/-- Copying the representation of a value. -/
def rawCodec (size : Nat) : Codec Val :=
  { P := fun v => match v with | .raw bs => bs.length = size | _ => False
    enc := fun _ v => match v with | .raw bs => bs | _ => []
    prior := fun _ y => match y with | .raw bs => bs.length = size | _ => False
    rel := fun x y => match x, y with | .raw a, .raw b => b = a | _, _ => False
    fp := fun _ => size
    multi := fun _ => True }

/-- A variant that is not copied bytewise. -/
def variantCodec (cfg : Cfg) (el : Ty → Elem Val) (cv : Ty → Codec Val) (ts : List Ty) : Codec Val :=
  { P := fun v => match v with
      | .variant i x => i < 2 ^ 64 ∧ ∃ t, ts[i]? = some t ∧ (cv t).P x
      | _ => False
    enc := fun w v => match v with | .variant i x => variantEnc cfg w el cv ts i x | _ => []
    prior := fun _ y => match y with | .variant .. => True | .valueless => True | _ => False
    rel := fun x y => match x, y with
      | .variant i x, .variant j y => j = i ∧ ∃ t, ts[i]? = some t ∧ (cv t).rel x y
      | _, _ => False
    fp := fun v => match v with
      | .variant i x => 8 + match ts[i]? with | some t => (cv t).fp x | .none => 0
      | _ => 0
    multi := fun _ => True }

def codec (R : RelMode) (cfg : Cfg) (env : Env) : Nat → Ty → Codec Val
  | 0, _ => Codec.none
  | n + 1, t =>
    let cv (t : Ty) : Codec Val := (codec R cfg env n t).byVal t
    let el (t : Ty) : Elem Val := elem cfg env n t
    match t with
    | .prim _ size => rawCodec size
    | .enm _ pid size => underCodec (env.ti (.prim pid size)) cfg size
    | .chrono _ pid size => underCodec (env.ti (.prim pid size)) cfg size
    | .str =>
      { P := fun v => match v with | .str x => x.chars.length < 2 ^ 64 | _ => False
        enc := fun w v => match v with | .str x => strEnc cfg w x.chars | _ => []
        prior := fun _ y => match y with | .str _ => True | _ => False
        rel := fun x y => match x, y with | .str a, .str b => a.chars = b.chars | _, _ => False
        fp := fun v => match v with | .str x => (env.ti .str).sizeof + x.cap | _ => 0
        multi := fun _ => True }
    | .vec t =>
      { P := fun v => match v with | .vec c xs => VecOk (cv t) ⟨c, xs⟩ | _ => False
        enc := fun w v => match v with | .vec c xs => vecEnc cfg w (env.ti t) (cv t) ⟨c, xs⟩ | _ => []
        prior := fun x y => match x, y with
          | .vec c xs, .vec c' ys => VecPrior (el t) (cv t) ⟨c, xs⟩ ⟨c', ys⟩ ∧
              R.cap c (if c ≤ c' then c' else cfg.grow c)
          | _, _ => False
        rel := fun x y => match x, y with
          | .vec c xs, .vec c' ys => List.Forall₂ (cv t).rel xs ys ∧ R.cap c c'
          | _, _ => False
        fp := fun v => match v with
          | .vec c xs => (env.ti (.vec t)).sizeof + ((xs.map (cv t).fp).sum +
              (env.ti t).sizeof * (c - xs.length))
          | _ => 0
        multi := fun _ => True }
    | .vecBool =>
      { P := fun v => match v with | .vbool c bs => bs.length ≤ c ∧ c < 2 ^ 64 | _ => False
        enc := fun w v => match v with | .vbool c bs => vboolEnc cfg w ⟨c, bs⟩ | _ => []
        prior := fun x y => match x, y with
          | .vbool c _, .vbool c' _ => R.cap c (if c ≤ c' then c' else cfg.grow c)
          | _, _ => False
        rel := fun x y => match x, y with
          | .vbool c a, .vbool c' b => b = a ∧ R.cap c c'
          | _, _ => False
        fp := fun _ => (env.ti .vecBool).sizeof
        multi := fun _ => True }
    | .seq k t =>
      { P := fun v => match v with | .coll xs => SeqOk (cv t) xs | _ => False
        enc := fun w v => match v with | .coll xs => seqEnc cfg w (env.ti t) (cv t) xs | _ => []
        prior := fun x y => match x, y with
          | .coll xs, .coll ys => SeqPrior (el t) (cv t) xs ys
          | _, _ => False
        rel := fun x y => match x, y with
          | .coll xs, .coll ys => List.Forall₂ (cv t).rel xs ys
          | _, _ => False
        fp := fun v => match v with
          | .coll xs => (env.ti (.seq k t)).sizeof + (xs.map (cv t).fp).sum
          | _ => 0
        multi := fun _ => True }
    | .queue t =>
      { P := fun v => match v with | .coll xs => SeqOk (cv t) xs | _ => False
        enc := fun w v => match v with | .coll xs => seqEnc cfg w (env.ti t) (cv t) xs | _ => []
        prior := fun _ y => match y with | .coll ys => ys = [] | _ => False
        rel := fun x y => match x, y with
          | .coll xs, .coll ys => List.Forall₂ (cv t).rel xs ys
          | _, _ => False
        fp := fun v => match v with
          | .coll xs => (env.ti (.queue t)).sizeof + (env.ti t).sizeof * xs.length
          | _ => 0
        multi := fun _ => True }
    | .oset a cmp t =>
      { P := fun v => match v with
          | .coll xs => SeqOk (cv t) xs ∧ env.LtRespects R cmp t ∧ env.Sorted a cmp xs
          | _ => False
        enc := fun w v => match v with | .coll xs => seqEnc cfg w (env.ti t) (cv t) xs | _ => []
        prior := fun _ y => match y with | .coll ys => ys = [] | _ => False
        rel := fun x y => match x, y with
          | .coll xs, .coll ys => List.Forall₂ (cv t).rel xs ys
          | _, _ => False
        fp := fun v => match v with
          | .coll xs => (env.ti (.oset a cmp t)).sizeof + (xs.map (cv t).fp).sum
          | _ => 0
        multi := fun _ => True }
    | .uset a eq t =>
      { P := fun v => match v with
          | .coll xs => SeqOk (cv t) xs ∧ env.EqRespects R eq t ∧
              (a.repeats = false → xs.Pairwise (fun x y => env.eq eq x y = false)) ∧
              (R.anyOrder ∨ xs.length ≤ 1)
          | _ => False
        enc := fun w v => match v with | .coll xs => seqEnc cfg w (env.ti t) (cv t) xs | _ => []
        prior := fun _ y => match y with | .coll ys => ys = [] | _ => False
        rel := fun x y => match x, y with
          | .coll xs, .coll ys => ∃ zs, List.Forall₂ (cv t).rel xs zs ∧ zs.Perm ys ∧
              (R.anyOrder ∨ zs = ys)
          | _, _ => False
        fp := fun v => match v with
          | .coll xs => (env.ti (.uset a eq t)).sizeof + (xs.map (cv t).fp).sum
          | _ => 0
        multi := fun _ => True }
    | .pair a b =>
      { P := fun v => match v with | .coll [x, y] => (cv a).P x ∧ (cv b).P y | _ => False
        enc := fun w v => match v with
          | .coll [x, y] => nodeEnc cfg w (env.ti a) (cv a) x ++ nodeEnc cfg w (env.ti b) (cv b) y
          | _ => []
        prior := fun u v => match u, v with
          | .coll [x, y], .coll [x', y'] => (cv a).prior x x' ∧ (cv b).prior y y'
          | _, _ => False
        rel := fun u v => match u, v with
          | .coll [x, y], .coll [x', y'] => (cv a).rel x x' ∧ (cv b).rel y y'
          | _, _ => False
        fp := fun v => match v with
          | .coll [x, y] => (env.ti (.pair a b)).sizeof + ((cv a).fp x + (cv b).fp y)
          | _ => 0
        multi := fun _ => True }
    | .tuple ts =>
      { P := fun v => match v with | .coll xs => All2 (fun t x => (cv t).P x) ts xs | _ => False
        enc := fun w v => match v with | .coll xs => tupleEnc cfg w el cv ts xs | _ => []
        prior := fun x y => match x, y with
          | .coll xs, .coll ys => All3 (fun t x y => (cv t).prior x y) ts xs ys
          | _, _ => False
        rel := fun x y => match x, y with
          | .coll xs, .coll ys => All3 (fun t x y => (cv t).rel x y) ts xs ys
          | _, _ => False
        fp := fun v => match v with
          | .coll xs => ((cfg.argOrder ts.length).map (memberFp cv ts xs)).sum
          | _ => 0
        multi := fun _ => True }
    | .opt t =>
      { P := fun v => match v with | .opt x => ∀ a, x = some a → (cv t).P a | _ => False
        enc := fun w v => match v with | .opt x => optEnc cfg w (env.ti t) (cv t) x | _ => []
        prior := fun _ y => match y with | .opt _ => True | _ => False
        rel := fun x y => match x, y with
          | .opt x, .opt z => (x = .none ∧ z = .none) ∨ ∃ a b, x = some a ∧ z = some b ∧ (cv t).rel a b
          | _, _ => False
        fp := fun v => match v with
          | .opt x => (env.ti (.opt t)).sizeof + match x with | some _ => (env.ti t).sizeof | .none => 0
          | _ => 0
        multi := fun _ => True }
    | .variant ts =>
      if Ty.allOnlyBytes ts then rawCodec (env.ti (.variant ts)).sizeof else variantCodec cfg el cv ts
    | .uptr t =>
      let ct := codec R cfg env n t
      let vi := env.virt cfg t
      { P := fun v => match v with
          | .ptr x => ∀ a, x = some a → ct.P a ∧ (env.isVirt t = false → ByVal t a) ∧
              (∀ c d ps, t = .cls c → a = .obj d ps → (env.cls c).virt = true →
                d ∈ env.objReg (env.root c) ∧ (env.cls d).abstract = false)
          | _ => False
        enc := fun w v => match v with
          | .ptr x => uptrEnc cfg w (env.ti t) ct (vi.map (·.dynIdx)) x
          | _ => []
        prior := fun x y => match x, y with
          | .ptr x, .ptr y => PtrPrior (el t) ct vi x y
          | _, _ => False
        rel := fun x y => match x, y with
          | .ptr x, .ptr z => (x = .none ∧ z = .none) ∨ ∃ a b, x = some a ∧ z = some b ∧ ct.rel a b
          | _, _ => False
        fp := fun v => match v with
          | .ptr x => (env.ti (.uptr t)).sizeof + match x with | .none => 0 | some a => ct.fp a
          | _ => 0
        multi := fun _ => True }
    | .arr k t =>
      { P := fun v => match v with
          | .coll xs => xs.length = k ∧ (∀ x ∈ xs, (cv t).P x) ∧ (cv t).multi xs.length
          | _ => False
        enc := fun w v => match v with | .coll xs => arrEnc cfg w (env.ti t) (cv t) xs | _ => []
        prior := fun x y => match x, y with
          | .coll xs, .coll ys => List.Forall₂ (cv t).prior xs ys
          | _, _ => False
        rel := fun x y => match x, y with
          | .coll xs, .coll ys => ys.length = k ∧ List.Forall₂ (cv t).rel xs ys
          | _, _ => False
        fp := fun v => match v with | .coll xs => (xs.map (cv t).fp).sum | _ => 0
        multi := fun _ => True }
    | .cls c =>
      { P := fun v => match v with
          | .obj d ps => c ∈ env.chain d ∧ ((env.cls c).virt = false → d = c) ∧
              All2 (fun k p => All2 (fun t x => (cv t).P x) (env.cls k).fields p) (env.chain d) ps
          | _ => False
        enc := fun w v => match v with
          | .obj d ps =>
            if (env.cls c).virt then
              chainEnc cfg w (fun k => env.ti (.cls k))
                (fun k p => membersEnc cfg w el cv (env.cls k).fields p) (env.chain d) ps
            else ps.flatMap fun p => membersEnc cfg w el cv (env.cls c).fields p
          | _ => []
        prior := fun x y => match x, y with
          | .obj d ps, .obj d' qs => d' = d ∧
              All3 (fun k p q => (partCodec el cv cfg (env.ti (.cls k)) (env.cls k).fields
                (env.cls k).rfields).prior p q) (env.chain d) ps qs
          | _, _ => False
        rel := fun x y => match x, y with
          | .obj d ps, .obj d' qs => d' = d ∧
              All3 (fun k p q => (partCodec el cv cfg (env.ti (.cls k)) (env.cls k).fields
                (env.cls k).rfields).rel p q) (env.chain d) ps qs
          | _, _ => False
        fp := fun v => match v with
          | .obj d ps => chainFp (fun k p => membersFp cv (env.cls k).fields p) (env.chain d) ps
          | _ => 0
        multi := env.ArrOk (.cls c) }

theorem codec_variantBytes {R : RelMode} {cfg : Cfg} {env : Env} {ts : List Ty} (h : Ty.allOnlyBytes ts = true)
    (n : Nat) : codec R cfg env (n + 1) (.variant ts) = rawCodec (env.ti (.variant ts)).sizeof := by
  simp only [codec, h, if_true]

theorem codec_variant {R : RelMode} {cfg : Cfg} {env : Env} {ts : List Ty} (h : Ty.allOnlyBytes ts = false)
    (n : Nat) : codec R cfg env (n + 1) (.variant ts) =
      variantCodec cfg (elem cfg env n) (fun t => (codec R cfg env n t).byVal t) ts := by
  simp only [codec, h, Bool.false_eq_true, if_false]

theorem codec_variant_multi {R : RelMode} {cfg : Cfg} {env : Env} {ts : List Ty} (n k : Nat) :
    (codec R cfg env (n + 1) (.variant ts)).multi k := by
  simp only [codec]; split <;> trivial

end Ckpt
