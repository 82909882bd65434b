import Mathlib.Algebra.Order.Field.Basic
import Mathlib.Algebra.Order.Floor.Ring
import Mathlib.Analysis.Real.Sqrt
/-!
# Scalar operations beyond the field operations

Model definitions are polymorphic in the scalar type. `math.Sqrt` and `math.Abs` are provided through
these two classes, so that the same definition can be used in exact arithmetic and at binary64.
-/
namespace Verif

class GoSqrt (F : Type u) where
  sqrt : F → F

class GoAbs (F : Type u) where
  abs : F → F

/-- `float64(i)` for a Go `int`. -/
class GoOfInt (F : Type u) where
  ofInt : Int → F

/-- Conversion of an untyped Go constant expression (evaluated exactly by the compiler) to `float64`. -/
class GoConst (F : Type u) where
  const : ℚ → F

/-- `math.Min` / `math.Max` -/
class GoMinMax (F : Type u) where
  min : F → F → F
  max : F → F → F

/-- the conversion `int(x)` of a `float64`: truncation towards zero -/
class GoTrunc (F : Type u) where
  trunc : F → Int

/-- the comparison `x < math.Inf(1)`; always true in exact arithmetic -/
class GoTop (F : Type u) where
  ltTop : F → Bool

instance instGoTopField {K : Type u} [Field K] : GoTop K := ⟨fun _ => true⟩

@[simp] theorem goTop_field {K : Type u} [Field K] (x : K) : GoTop.ltTop x = true := rfl

noncomputable instance : GoSqrt ℝ := ⟨Real.sqrt⟩

instance instGoAbsField {K : Type u} [Field K] [LinearOrder K] : GoAbs K := ⟨fun x => |x|⟩

instance instGoOfIntField {K : Type u} [Field K] : GoOfInt K := ⟨fun i => (i : K)⟩

instance instGoConstField {K : Type u} [Field K] : GoConst K := ⟨fun q => (q : K)⟩

@[simp] theorem goConst_field {K : Type u} [Field K] (q : ℚ) : (GoConst.const q : K) = (q : K) := rfl
instance instGoMinMaxField {K : Type u} [Field K] [LinearOrder K] : GoMinMax K := ⟨Min.min, Max.max⟩

instance instGoTruncField {K : Type u} [Field K] [LinearOrder K] [FloorRing K] : GoTrunc K :=
  ⟨fun x => if 0 ≤ x then ⌊x⌋ else ⌈x⌉⟩

@[simp] theorem goMin_field {K : Type u} [Field K] [LinearOrder K] (x y : K) : GoMinMax.min x y = Min.min x y := rfl
@[simp] theorem goMax_field {K : Type u} [Field K] [LinearOrder K] (x y : K) : GoMinMax.max x y = Max.max x y := rfl
@[simp] theorem goSqrt_real (x : ℝ) : GoSqrt.sqrt x = Real.sqrt x := rfl
@[simp] theorem goAbs_field {K : Type u} [Field K] [LinearOrder K] (x : K) : GoAbs.abs x = |x| := rfl
@[simp] theorem goOfInt_field {K : Type u} [Field K] (i : Int) : (GoOfInt.ofInt i : K) = (i : K) := rfl

end Verif
