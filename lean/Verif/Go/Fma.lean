import Verif.Go.F64
/-!
# Fused multiply-add

The Go specification allows an implementation to combine a product with a following addition or subtraction into one operation with a single rounding,
also across statements; the compilers for arm64, ppc64, riscv64 and s390x do so. Which products are fused is up to the compiler. `Ev e v` says that `v`
is a value the program may compute for the expression `e`: every `a*b + c`, `c + a*b`, `a*b - c` and `c - a*b` in `e` may or may not be fused. Repeated
subexpressions (variables of the Go code used twice) may even be evaluated differently at every use, so the relation allows more than one compiler does.
-/
namespace Verif

namespace F64

/-- `math.FMA`: `x*y + z` with one rounding -/
def fma (x y z : F64) : F64 :=
  if x.Finite ∧ y.Finite ∧ z.Finite then
    let q := x.toQ * y.toQ + z.toQ
    -- an exact zero is negative only if both terms are negative zeros
    if q = 0 then zero (decide (x.toQ * y.toQ = 0) && (x.sign != y.sign) && z.sign) else round (decide (q < 0)) q
  else if x.Finite ∧ y.Finite then z
  else add (mul x y) z

end F64

/-- arithmetic expressions -/
inductive Expr (F : Type) where
  | leaf (x : F)
  | add (a b : Expr F)
  | sub (a b : Expr F)
  | mul (a b : Expr F)
  | div (a b : Expr F)
  | abs (a : Expr F)

namespace Expr
variable {F : Type}

/-- the value with every operation done by itself -/
def eval [Add F] [Sub F] [Mul F] [Div F] [GoAbs F] : Expr F → F
  | leaf x => x
  | add a b => a.eval + b.eval
  | sub a b => a.eval - b.eval
  | mul a b => a.eval * b.eval
  | div a b => a.eval / b.eval
  | abs a => GoAbs.abs a.eval

instance : Add (Expr F) := ⟨add⟩
instance : Sub (Expr F) := ⟨sub⟩
instance : Mul (Expr F) := ⟨mul⟩
instance : Div (Expr F) := ⟨div⟩
instance : GoAbs (Expr F) := ⟨abs⟩
instance {n : Nat} [OfNat F n] : OfNat (Expr F) n := ⟨leaf (OfNat.ofNat n)⟩
instance [GoConst F] : GoConst (Expr F) := ⟨fun q => leaf (GoConst.const q)⟩

end Expr

/-- `v` is a value the program may compute for the expression -/
inductive Ev : Expr F64 → F64 → Prop where
  | leaf (x) : Ev (.leaf x) x
  | add {a b x y} : Ev a x → Ev b y → Ev (a + b) (x + y)
  | sub {a b x y} : Ev a x → Ev b y → Ev (a - b) (x - y)
  | mul {a b x y} : Ev a x → Ev b y → Ev (a * b) (x * y)
  | div {a b x y} : Ev a x → Ev b y → Ev (a / b) (x / y)
  | abs {a x} : Ev a x → Ev (GoAbs.abs a) (GoAbs.abs x)
  /-- `a*b + c` -/
  | mulAdd {a b c x y z} : Ev a x → Ev b y → Ev c z → Ev (a * b + c) (F64.fma x y z)
  /-- `c + a*b` -/
  | addMul {a b c x y z} : Ev a x → Ev b y → Ev c z → Ev (c + a * b) (F64.fma x y z)
  /-- `a*b - c` -/
  | mulSub {a b c x y z} : Ev a x → Ev b y → Ev c z → Ev (a * b - c) (F64.fma x y (-z))
  /-- `c - a*b` -/
  | subMul {a b c x y z} : Ev a x → Ev b y → Ev c z → Ev (c - a * b) (F64.fma (-x) y z)

/-- not fusing anything is allowed -/
theorem Ev.eval (e : Expr F64) : Ev e e.eval := by
  induction e with
  | leaf x => exact .leaf x
  | add a b ha hb => exact .add ha hb
  | sub a b ha hb => exact .sub ha hb
  | mul a b ha hb => exact .mul ha hb
  | div a b ha hb => exact .div ha hb
  | abs a ha => exact .abs ha

/-- everything is fused that can be: the right product first, as the Go compiler does for `x + y*z` -/
def Expr.fuse : Expr F64 → F64
  | leaf x => x
  | add c (mul a b) => F64.fma a.fuse b.fuse c.fuse
  | add (mul a b) c => F64.fma a.fuse b.fuse c.fuse
  | add a b => a.fuse + b.fuse
  | sub c (mul a b) => F64.fma (-a.fuse) b.fuse c.fuse
  | sub (mul a b) c => F64.fma a.fuse b.fuse (-c.fuse)
  | sub a b => a.fuse - b.fuse
  | mul a b => a.fuse * b.fuse
  | div a b => a.fuse / b.fuse
  | abs a => GoAbs.abs a.fuse

theorem Ev.fuse (e : Expr F64) : Ev e e.fuse := by
  induction e using Expr.fuse.induct with
  | case1 x => exact .leaf x
  | case2 c a b ih1 ih2 ih3 => exact .addMul ih1 ih2 ih3
  | case3 a b c h ih1 ih2 ih3 => rw [Expr.fuse]; exact .mulAdd ih1 ih2 ih3; exact h
  | case4 a b h1 h2 ih1 ih2 => rw [Expr.fuse]; exact .add ih1 ih2; exact h1; exact h2
  | case5 c a b ih1 ih2 ih3 => exact .subMul ih1 ih2 ih3
  | case6 a b c h ih1 ih2 ih3 => rw [Expr.fuse]; exact .mulSub ih1 ih2 ih3; exact h
  | case7 a b h1 h2 ih1 ih2 => rw [Expr.fuse]; exact .sub ih1 ih2; exact h1; exact h2
  | case8 a b ih1 ih2 => exact .mul ih1 ih2
  | case9 a b ih1 ih2 => exact .div ih1 ih2
  | case10 a ih => exact .abs ih

end Verif
