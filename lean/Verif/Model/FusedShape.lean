import Verif.Go.Fma
import Verif.Model.Shape
/-!
# The shapes with fused multiply-adds

`TExpr` adds `math.Cos` and `math.Sin` to the arithmetic expressions of `Verif.Go.Fma`. The model of package `shape` is polymorphic in the scalar type, so
`Sphere.Construct` and the other constructions, run with `TExpr F64` for the scalars, give for every coordinate the expression the Go code evaluates.
`TEv e v` says that `v` is a value the program may compute for it. No simplification is made beyond those of `Verif.Model.Shape`.
-/
namespace Verif.Shape
open Verif

/-- arithmetic expressions with cosine and sine -/
inductive TExpr (F : Type) where
  | leaf (x : F)
  | add (a b : TExpr F)
  | sub (a b : TExpr F)
  | mul (a b : TExpr F)
  | div (a b : TExpr F)
  | cos (a : TExpr F)
  | sin (a : TExpr F)

namespace TExpr
variable {F : Type}

instance : _root_.Add (TExpr F) := ⟨add⟩
instance : _root_.Sub (TExpr F) := ⟨sub⟩
instance : Mul (TExpr F) := ⟨mul⟩
instance : Div (TExpr F) := ⟨div⟩
instance {n : Nat} [OfNat F n] : OfNat (TExpr F) n := ⟨leaf (OfNat.ofNat n)⟩
instance [GoOfInt F] : GoOfInt (TExpr F) := ⟨fun n => leaf (GoOfInt.ofInt n)⟩
instance [GoTrig F] : GoTrig (TExpr F) := ⟨cos, sin, fun q => leaf (GoTrig.piMul q)⟩

/-- the value with every operation done by itself -/
def eval [_root_.Add F] [_root_.Sub F] [Mul F] [Div F] [GoTrig F] : TExpr F → F
  | leaf x => x
  | add a b => a.eval + b.eval
  | sub a b => a.eval - b.eval
  | mul a b => a.eval * b.eval
  | div a b => a.eval / b.eval
  | cos a => GoTrig.cos a.eval
  | sin a => GoTrig.sin a.eval

end TExpr

/-- `v` is a value the program may compute for the expression -/
inductive TEv [GoTrig F64] : TExpr F64 → F64 → Prop where
  | leaf (x) : TEv (.leaf x) x
  | add {a b x y} : TEv a x → TEv b y → TEv (.add a b) (x + y)
  | sub {a b x y} : TEv a x → TEv b y → TEv (.sub a b) (x - y)
  | mul {a b x y} : TEv a x → TEv b y → TEv (.mul a b) (x * y)
  | div {a b x y} : TEv a x → TEv b y → TEv (.div a b) (x / y)
  | cos {a x} : TEv a x → TEv (.cos a) (GoTrig.cos x)
  | sin {a x} : TEv a x → TEv (.sin a) (GoTrig.sin x)
  /-- `a*b + c` -/
  | mulAdd {a b c x y z} : TEv a x → TEv b y → TEv c z → TEv (.add (.mul a b) c) (F64.fma x y z)
  /-- `c + a*b` -/
  | addMul {a b c x y z} : TEv a x → TEv b y → TEv c z → TEv (.add c (.mul a b)) (F64.fma x y z)
  /-- `a*b - c` -/
  | mulSub {a b c x y z} : TEv a x → TEv b y → TEv c z → TEv (.sub (.mul a b) c) (F64.fma x y (-z))
  /-- `c - a*b` -/
  | subMul {a b c x y z} : TEv a x → TEv b y → TEv c z → TEv (.sub c (.mul a b)) (F64.fma (-x) y z)

/-- everything is fused that can be, the right product first -/
def TExpr.fuse [GoTrig F64] : TExpr F64 → F64
  | leaf x => x
  | add c (mul a b) => F64.fma a.fuse b.fuse c.fuse
  | add (mul a b) c => F64.fma a.fuse b.fuse c.fuse
  | add a b => a.fuse + b.fuse
  | sub c (mul a b) => F64.fma (-a.fuse) b.fuse c.fuse
  | sub (mul a b) c => F64.fma a.fuse b.fuse (-c.fuse)
  | sub a b => a.fuse - b.fuse
  | mul a b => a.fuse * b.fuse
  | div a b => a.fuse / b.fuse
  | cos a => GoTrig.cos a.fuse
  | sin a => GoTrig.sin a.fuse

end Verif.Shape
