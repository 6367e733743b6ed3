import Verif.Spec.Universe
/-!
# Specification: programs that read each other's checkpoints
-/

set_option autoImplicit false

namespace Ckpt

/-- What counts of the type information in the data: the index and the size, not the name. -/
def TI.Same (a b : TI) : Prop := b.idx = a.idx ∧ b.sizeof = a.sizeof

/-- The program `env'` in build `cfg'` uses the same format for type `t` as the program `env` in build
`cfg`.  Nothing is said about allocators, comparators, hash functions, constructors, serializer
registries or the unpacking side of classes, and without error checking nothing about the indices of
types other than `t`. -/
structure SameFormat (cfg cfg' : Cfg) (env env' : Env) (t : Ty) : Prop where
  check : cfg'.check = cfg.check
  endian : cfg'.endian = cfg.endian
  argOrder : cfg'.argOrder = cfg.argOrder
  /-- classes write the same members and have the same bases. -/
  fields : ∀ c, (env'.cls c).fields = (env.cls c).fields
  bases : ∀ c, (env'.cls c).bases = (env.cls c).bases
  virt : ∀ c, (env'.cls c).virt = (env.cls c).virt
  /-- the classes the first program has registered have the same index in the second. -/
  dynIdx : ∀ r d, d ∈ env.objReg r → (env'.objReg r).idxOf d = (env.objReg r).idxOf d
  top : (env.ti t).Same (env'.ti t)
  inner : cfg.check = true → ∀ u, (env.ti u).Same (env'.ti u)
  tiSize : cfg.check = true → cfg.tiSize.Same cfg'.tiSize
  tiBool : cfg.check = true → cfg.tiBool.Same cfg'.tiBool
  tiChar : cfg.check = true → cfg.tiChar.Same cfg'.tiChar
  tiInt : cfg.check = true → cfg.tiInt.Same cfg'.tiInt

end Ckpt
