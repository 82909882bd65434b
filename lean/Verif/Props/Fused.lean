import Verif.Proofs.FusedGrid
import Verif.Props.DelaunatorGrid
import Verif.Props.HashSize
import Verif.Props.FusedSphere
import Verif.Props.DelaunayUnique
/-!
# C100: fused multiply-adds

What stays true when the compiler fuses products with sums (Go/Fma.lean, Model/Fused.lean). `Ev e v` says that `v` is a value the Go specification allows
for the expression `e`. The formulas of the code are the definitions of the model at the scalar type of expressions.
-/
namespace Verif.Props
open Verif Verif.F64 Verif.Proofs Verif.Tri2 Verif.Spec

/-! ## Values and sizes of expressions -/

/-- the exact value -/
def valE : Expr F64 → ℚ
  | .leaf x => x.toQ
  | .add a b => valE a + valE b
  | .sub a b => valE a - valE b
  | .mul a b => valE a * valE b
  | .div a b => valE a / valE b
  | .abs a => |valE a|

/-- the size: the value with `max |x| t` for every number `x` and a plus for every minus -/
def sizE (t : ℚ) : Expr F64 → ℚ
  | .leaf x => max |x.toQ| t
  | .add a b => sizE t a + sizE t b
  | .sub a b => sizE t a + sizE t b
  | .mul a b => sizE t a * sizE t b
  | .div a b => sizE t a / sizE t b
  | .abs a => sizE t a

/-- the number of roundings that may add up -/
def cntE : Expr F64 → ℕ
  | .leaf _ => 0
  | .add a b => max (cntE a) (cntE b) + 1
  | .sub a b => max (cntE a) (cntE b) + 1
  | .mul a b => cntE a + cntE b + 1
  | .div a b => cntE a + cntE b + 1
  | .abs a => cntE a

/-- only sums, differences and products -/
def PolyE : Expr F64 → Prop
  | .leaf _ => True
  | .add a b => PolyE a ∧ PolyE b
  | .sub a b => PolyE a ∧ PolyE b
  | .mul a b => PolyE a ∧ PolyE b
  | .div _ _ => False
  | .abs _ => False

/-- all numbers in the expression have the property -/
def LeavesE (P : F64 → Prop) : Expr F64 → Prop
  | .leaf x => P x
  | .add a b => LeavesE P a ∧ LeavesE P b
  | .sub a b => LeavesE P a ∧ LeavesE P b
  | .mul a b => LeavesE P a ∧ LeavesE P b
  | .div a b => LeavesE P a ∧ LeavesE P b
  | .abs a => LeavesE P a

/-- all subexpressions have the property -/
def EachE (P : Expr F64 → Prop) : Expr F64 → Prop
  | .leaf x => P (.leaf x)
  | .add a b => P (.add a b) ∧ EachE P a ∧ EachE P b
  | .sub a b => P (.sub a b) ∧ EachE P a ∧ EachE P b
  | .mul a b => P (.mul a b) ∧ EachE P a ∧ EachE P b
  | .div a b => P (.div a b) ∧ EachE P a ∧ EachE P b
  | .abs a => P (.abs a) ∧ EachE P a

/-! ## The operation -/

/-- C100: a fused multiply-add of finite numbers is the exact result rounded once, unless that overflows -/
theorem C100_fma {x y z : F64} (hx : x.Finite) (hy : y.Finite) (hz : z.Finite) (h : |rnd (x.toQ * y.toQ + z.toQ)| < 2 ^ 1024) :
    (fma x y z).Finite ∧ (fma x y z).toQ = rnd (x.toQ * y.toQ + z.toQ) := fma_fin hx hy hz h

/-! ## Whole numbers -/

theorem all_of {e : Expr F64} (hp : PolyE e) (hi : LeavesE (fun x => x.Finite ∧ ∃ n : ℤ, x.toQ = n) e) (hs : EachE (fun e => sizE 0 e < 2 ^ 53) e) :
    ∃ (n : ℤ) (b : ℕ), All e n b ∧ valE e = n ∧ sizE 0 e = b := by
  induction e with
  | leaf x =>
    obtain ⟨f, n, hn⟩ := hi
    refine ⟨n, n.natAbs, .leaf ⟨f, hn, ?_⟩, hn, ?_⟩
    · rw [Int.abs_eq_natAbs]
    · have h0 : sizE 0 (.leaf x) = |x.toQ| := max_eq_left (abs_nonneg _)
      rw [h0, hn, ← Int.cast_abs, Int.abs_eq_natAbs, Int.cast_natCast]
  | add a b iha ihb =>
    obtain ⟨n, p, A, h1, h2⟩ := iha hp.1 hi.1 hs.2.1
    obtain ⟨m, q, B, h3, h4⟩ := ihb hp.2 hi.2 hs.2.2
    have hlt : sizE 0 a + sizE 0 b < 2 ^ 53 := hs.1
    rw [h2, h4] at hlt
    exact ⟨n + m, p + q, .add A B (by exact_mod_cast hlt), by rw [valE, h1, h3]; push_cast; rfl, by rw [sizE, h2, h4]; push_cast; rfl⟩
  | sub a b iha ihb =>
    obtain ⟨n, p, A, h1, h2⟩ := iha hp.1 hi.1 hs.2.1
    obtain ⟨m, q, B, h3, h4⟩ := ihb hp.2 hi.2 hs.2.2
    have hlt : sizE 0 a + sizE 0 b < 2 ^ 53 := hs.1
    rw [h2, h4] at hlt
    exact ⟨n - m, p + q, .sub A B (by exact_mod_cast hlt), by rw [valE, h1, h3]; push_cast; rfl, by rw [sizE, h2, h4]; push_cast; rfl⟩
  | mul a b iha ihb =>
    obtain ⟨n, p, A, h1, h2⟩ := iha hp.1 hi.1 hs.2.1
    obtain ⟨m, q, B, h3, h4⟩ := ihb hp.2 hi.2 hs.2.2
    have hlt : sizE 0 a * sizE 0 b < 2 ^ 53 := hs.1
    rw [h2, h4] at hlt
    exact ⟨n * m, p * q, .mul A B (by exact_mod_cast hlt), by rw [valE, h1, h3]; push_cast; rfl, by rw [sizE, h2, h4]; push_cast; rfl⟩
  | div a b iha ihb => exact hp.elim
  | abs a iha => exact hp.elim

/-- C100: on whole numbers, with all intermediate sizes below `2^53`, every way of fusing gives the exact value -/
theorem C100_exact {e : Expr F64} {v : F64} (hp : PolyE e) (hi : LeavesE (fun x => x.Finite ∧ ∃ n : ℤ, x.toQ = n) e)
    (hs : EachE (fun e => sizE 0 e < 2 ^ 53) e) (h : Ev e v) : v.Finite ∧ v.toQ = valE e := by
  obtain ⟨n, b, A, h1, _⟩ := all_of hp hi hs
  have := A.ex h
  exact ⟨this.fin, by rw [this.val, h1]⟩

/-! ## Error bounds -/

theorem uro_zpow : uro = 2 ^ (-53 : ℤ) := by unfold uro; norm_num

theorem rnd_err_max (x : ℚ) : |rnd x - x| ≤ uro * max |x| (2 ^ (-1022 : ℤ)) := by
  by_cases h : (2:ℚ) ^ (-1022 : ℤ) ≤ |x|
  · rw [max_eq_left h]
    exact rnd_uro (z := -1022) (by norm_num) (fun _ => h)
  · rw [not_le] at h
    rw [max_eq_right h.le]
    rcases eq_or_ne x 0 with rfl | h0
    · rw [rnd_zero, sub_zero, abs_zero]
      have := uro_pos
      positivity
    have e : expo x = -1074 := by
      unfold expo
      apply max_eq_right
      have : Int.log 2 |x| < -1022 := by
        rw [← Int.lt_zpow_iff_log_lt (by norm_num) (abs_pos.mpr h0)]
        exact_mod_cast h
      omega
    have := rnd_err (K := ℚ) x
    rw [e, Rat.cast_id] at this
    refine this.trans (le_of_eq ?_)
    rw [uro_zpow, ← zpow_add₀ (by norm_num), div_eq_mul_inv, ← zpow_neg_one, ← zpow_add₀ (by norm_num)]
    norm_num

theorem powu_mono {k l : ℕ} (h : k ≤ l) : (1 + uro) ^ k ≤ (1 + uro) ^ l := pow_le_pow_right₀ (by linarith [uro_pos]) h

/-- one rounding more -/
theorem size_round {w X P : ℚ} {k : ℕ} (h : |w - X| ≤ ((1 + uro) ^ k - 1) * P) (hX : |X| ≤ P) (h1 : 2 ^ (-1022 : ℤ) ≤ P) (h2 : P ≤ 2 ^ 1000) (hk : (1 + uro) ^ k ≤ 2) :
    |rnd w| < 2 ^ 1024 ∧ |rnd w - X| ≤ ((1 + uro) ^ (k + 1) - 1) * P := by
  have hu := uro_pos
  have hP : 0 < P := (zpow_pos (by norm_num) _).trans_le h1
  have hk1 := one_le_powu k
  have hw : |w| ≤ (1 + uro) ^ k * P := by
    have := abs_sub_abs_le_abs_sub w X
    linarith
  constructor
  · have hb : rnd ((2:ℚ) ^ 1001) = 2 ^ 1001 := by
      have := rnd_id (K := ℚ) (q := 2 ^ 1001) ⟨1, 1001, by norm_num, by norm_num, by rw [Int.cast_one, one_mul]; exact (zpow_natCast 2 1001).symm⟩
      simpa using this
    have hw2 : |w| ≤ 2 ^ 1001 := by
      refine hw.trans ?_
      rw [pow_succ, mul_comm]
      exact mul_le_mul h2 hk (by linarith) (by positivity)
    exact (rnd_abs_le hb hw2).trans_lt (pow_lt_pow_right₀ (by norm_num) (by norm_num))
  · have hr := rnd_err_max w
    have hm : max |w| (2 ^ (-1022 : ℤ)) ≤ (1 + uro) ^ k * P := by
      refine max_le hw (h1.trans ?_)
      have := mul_le_mul_of_nonneg_right hk1 hP.le
      linarith
    have h3 := mul_le_mul_of_nonneg_left hm hu.le
    have t := abs_sub_le (rnd w) w X
    have e : ((1 + uro) ^ (k + 1) - 1) * P = uro * ((1 + uro) ^ k * P) + ((1 + uro) ^ k - 1) * P := by rw [pow_succ]; ring
    rw [e]; linarith

/-- the product of two approximations, not rounded -/
theorem size_mul {v w X Y P Q : ℚ} {k l : ℕ} (hv : |v - X| ≤ ((1 + uro) ^ k - 1) * P) (hw : |w - Y| ≤ ((1 + uro) ^ l - 1) * Q) (hX : |X| ≤ P) (hY : |Y| ≤ Q) :
    |v * w - X * Y| ≤ ((1 + uro) ^ (k + l) - 1) * (P * Q) := by
  have hP := (abs_nonneg X).trans hX
  have hQ := (abs_nonneg Y).trans hY
  have e : v * w - X * Y = (v - X) * (w - Y) + (v - X) * Y + X * (w - Y) := by ring
  have p1 : 0 ≤ (1 + uro) ^ k - 1 := by linarith [one_le_powu k]
  have p2 : 0 ≤ (1 + uro) ^ l - 1 := by linarith [one_le_powu l]
  have b1 : |(v - X) * (w - Y)| ≤ (((1 + uro) ^ k - 1) * P) * (((1 + uro) ^ l - 1) * Q) := by
    rw [abs_mul]; exact mul_le_mul hv hw (abs_nonneg _) (mul_nonneg p1 hP)
  have b2 : |(v - X) * Y| ≤ (((1 + uro) ^ k - 1) * P) * Q := by
    rw [abs_mul]; exact mul_le_mul hv hY (abs_nonneg _) (mul_nonneg p1 hP)
  have b3 : |X * (w - Y)| ≤ P * (((1 + uro) ^ l - 1) * Q) := by
    rw [abs_mul]; exact mul_le_mul hX hw (abs_nonneg _) hP
  rw [e]
  refine (abs_add_three _ _ _).trans ((add_le_add (add_le_add b1 b2) b3).trans (le_of_eq ?_))
  rw [pow_add]; ring

/-- the sum of two approximations, not rounded -/
theorem size_add {v w X Y P Q : ℚ} {k l m : ℕ} (hv : |v - X| ≤ ((1 + uro) ^ k - 1) * P) (hw : |w - Y| ≤ ((1 + uro) ^ l - 1) * Q) (hP : 0 ≤ P) (hQ : 0 ≤ Q)
    (hk : k ≤ m) (hl : l ≤ m) : |v + w - (X + Y)| ≤ ((1 + uro) ^ m - 1) * (P + Q) := by
  have h1 := mul_le_mul_of_nonneg_right (sub_le_sub_right (powu_mono hk) 1) hP
  have h2 := mul_le_mul_of_nonneg_right (sub_le_sub_right (powu_mono hl) 1) hQ
  have e : v + w - (X + Y) = (v - X) + (w - Y) := by ring
  rw [e]
  refine (abs_add_le _ _).trans ?_
  rw [mul_add]; linarith

theorem abs_valE {t : ℚ} {e : Expr F64} (hp : PolyE e) : |valE e| ≤ sizE t e := by
  induction e with
  | leaf x => exact le_max_left _ _
  | add a b iha ihb => exact (abs_add_le _ _).trans (add_le_add (iha hp.1) (ihb hp.2))
  | sub a b iha ihb => exact (abs_sub _ _).trans (add_le_add (iha hp.1) (ihb hp.2))
  | mul a b iha ihb =>
    have h1 := iha hp.1
    have h2 := ihb hp.2
    rw [valE, abs_mul]; exact mul_le_mul h1 h2 (abs_nonneg _) ((abs_nonneg _).trans h1)
  | div a b iha ihb => exact hp.elim
  | abs a iha => exact hp.elim

theorem sizE_nonneg {t : ℚ} {e : Expr F64} (hp : PolyE e) : 0 ≤ sizE t e := (abs_nonneg _).trans (abs_valE hp)

theorem powu_two_of {k : ℕ} (hk : (k:ℚ) * uro ≤ 1 / 2) : (1 + uro) ^ k ≤ 2 := by
  have hu := uro_pos
  have hq : uro / (1 + uro) ≤ uro := by
    rw [div_le_iff₀ (by linarith)]
    have := mul_pos hu hu
    linarith
  have h1 : uro ≤ 1 := by unfold uro; norm_num
  have h := one_add_mul_le_pow (R := ℚ) (a := -(uro / (1 + uro))) (by linarith) k
  have e : 1 + -(uro / (1 + uro)) = (1 + uro)⁻¹ := by
    apply eq_inv_of_mul_eq_one_left
    rw [add_mul, neg_mul, div_mul_cancel₀ _ (by linarith)]; ring
  rw [e, inv_pow] at h
  have h3 := mul_le_mul_of_nonneg_left hq (Nat.cast_nonneg (α := ℚ) k)
  have h2 : (1:ℚ) / 2 ≤ ((1 + uro) ^ k)⁻¹ := by linarith
  have hp : (0:ℚ) < (1 + uro) ^ k := by positivity
  rw [le_inv_comm₀ (by norm_num) hp] at h2
  linarith

theorem powu_two {k : ℕ} (hk : k ≤ 1000) : (1 + uro) ^ k ≤ 2 := by
  apply powu_two_of
  have h1 : (k:ℚ) ≤ 1000 := by exact_mod_cast hk
  have h2 : uro ≤ 1 / 2000 := by unfold uro; norm_num
  have := mul_le_mul h1 h2 uro_pos.le (by norm_num)
  linarith

theorem error_aux {t : ℚ} {R : ℚ → Prop} {N : ℕ}
    (step : ∀ {w X P : ℚ} {k : ℕ}, |w - X| ≤ ((1 + uro) ^ k - 1) * P → |X| ≤ P → R P → k ≤ N → |rnd w| < 2 ^ 1024 ∧ |rnd w - X| ≤ ((1 + uro) ^ (k + 1) - 1) * P)
    {e : Expr F64} {v : F64} (h : Ev e v) : PolyE e → LeavesE F64.Finite e → EachE (fun e => R (sizE t e)) e → cntE e ≤ N →
    v.Finite ∧ |v.toQ - valE e| ≤ ((1 + uro) ^ cntE e - 1) * sizE t e := by
  induction h with
  | leaf x =>
    intro _ hl _ _
    refine ⟨hl, ?_⟩
    simp [valE, cntE]
  | @add a b x y _ _ ih1 ih2 =>
    intro hp hl hr hc
    have hc' : max (cntE a) (cntE b) + 1 ≤ N := hc
    obtain ⟨f1, e1⟩ := ih1 hp.1 hl.1 hr.2.1 (by omega)
    obtain ⟨f2, e2⟩ := ih2 hp.2 hl.2 hr.2.2 (by omega)
    have s := size_add e1 e2 (sizE_nonneg hp.1) (sizE_nonneg hp.2) (le_max_left (cntE a) (cntE b)) (le_max_right _ _)
    have q1 : |valE a + valE b| ≤ sizE t a + sizE t b := abs_valE (t := t) (e := a + b) hp
    have q2 : R (sizE t a + sizE t b) := hr.1
    obtain ⟨r1, r2⟩ := step s q1 q2 (by omega)
    obtain ⟨f, e⟩ := add_fin f1 f2 r1
    exact ⟨f, by rw [e]; exact r2⟩
  | @sub a b x y _ _ ih1 ih2 =>
    intro hp hl hr hc
    have hc' : max (cntE a) (cntE b) + 1 ≤ N := hc
    obtain ⟨f1, e1⟩ := ih1 hp.1 hl.1 hr.2.1 (by omega)
    obtain ⟨f2, e2⟩ := ih2 hp.2 hl.2 hr.2.2 (by omega)
    have e2' : |-y.toQ - -valE b| ≤ ((1 + uro) ^ cntE b - 1) * sizE t b := by rw [← neg_add', abs_neg, ← sub_eq_add_neg]; exact e2
    have s := size_add e1 e2' (sizE_nonneg hp.1) (sizE_nonneg hp.2) (le_max_left (cntE a) (cntE b)) (le_max_right _ _)
    rw [← sub_eq_add_neg, ← sub_eq_add_neg] at s
    have q1 : |valE a - valE b| ≤ sizE t a + sizE t b := abs_valE (t := t) (e := a - b) hp
    have q2 : R (sizE t a + sizE t b) := hr.1
    obtain ⟨r1, r2⟩ := step s q1 q2 (by omega)
    obtain ⟨f, e⟩ := sub_fin f1 f2 r1
    exact ⟨f, by rw [e]; exact r2⟩
  | @mul a b x y _ _ ih1 ih2 =>
    intro hp hl hr hc
    have hc' : cntE a + cntE b + 1 ≤ N := hc
    obtain ⟨f1, e1⟩ := ih1 hp.1 hl.1 hr.2.1 (by omega)
    obtain ⟨f2, e2⟩ := ih2 hp.2 hl.2 hr.2.2 (by omega)
    have s := size_mul e1 e2 (abs_valE hp.1) (abs_valE hp.2)
    have q1 : |valE a * valE b| ≤ sizE t a * sizE t b := abs_valE (t := t) (e := a * b) hp
    have q2 : R (sizE t a * sizE t b) := hr.1
    obtain ⟨r1, r2⟩ := step s q1 q2 (by omega)
    obtain ⟨f, e⟩ := mul_fin f1 f2 r1
    exact ⟨f, by rw [e]; exact r2⟩
  | div _ _ _ _ => intro hp; exact hp.elim
  | abs _ _ => intro hp; exact hp.elim
  | @mulAdd a b c x y z _ _ _ ih1 ih2 ih3 =>
    intro hp hl hr hc
    have hc' : max (cntE a + cntE b + 1) (cntE c) + 1 ≤ N := hc
    obtain ⟨f1, e1⟩ := ih1 hp.1.1 hl.1.1 hr.2.1.2.1 (by omega)
    obtain ⟨f2, e2⟩ := ih2 hp.1.2 hl.1.2 hr.2.1.2.2 (by omega)
    obtain ⟨f3, e3⟩ := ih3 hp.2 hl.2 hr.2.2 (by omega)
    have s := size_mul e1 e2 (abs_valE hp.1.1) (abs_valE hp.1.2)
    have s := size_add (m := max (cntE a + cntE b + 1) (cntE c)) s e3 (sizE_nonneg (e := a * b) hp.1) (sizE_nonneg hp.2) (by omega) (by omega)
    have q1 : |valE a * valE b + valE c| ≤ sizE t a * sizE t b + sizE t c := abs_valE (t := t) (e := a * b + c) hp
    have q2 : R (sizE t a * sizE t b + sizE t c) := hr.1
    obtain ⟨r1, r2⟩ := step s q1 q2 (by omega)
    obtain ⟨f, e⟩ := fma_fin f1 f2 f3 r1
    exact ⟨f, by rw [e]; exact r2⟩
  | @addMul a b c x y z _ _ _ ih1 ih2 ih3 =>
    intro hp hl hr hc
    have hc' : max (cntE c) (cntE a + cntE b + 1) + 1 ≤ N := hc
    obtain ⟨f1, e1⟩ := ih1 hp.2.1 hl.2.1 hr.2.2.2.1 (by omega)
    obtain ⟨f2, e2⟩ := ih2 hp.2.2 hl.2.2 hr.2.2.2.2 (by omega)
    obtain ⟨f3, e3⟩ := ih3 hp.1 hl.1 hr.2.1 (by omega)
    have s := size_mul e1 e2 (abs_valE hp.2.1) (abs_valE hp.2.2)
    have s := size_add (m := max (cntE c) (cntE a + cntE b + 1)) e3 s (sizE_nonneg hp.1) (sizE_nonneg (e := a * b) hp.2) (by omega) (by omega)
    rw [add_comm z.toQ] at s
    have q1 : |valE c + valE a * valE b| ≤ sizE t c + sizE t a * sizE t b := abs_valE (t := t) (e := c + a * b) hp
    have q2 : R (sizE t c + sizE t a * sizE t b) := hr.1
    obtain ⟨r1, r2⟩ := step s q1 q2 (by omega)
    obtain ⟨f, e⟩ := fma_fin f1 f2 f3 r1
    exact ⟨f, by rw [e]; exact r2⟩
  | @mulSub a b c x y z _ _ _ ih1 ih2 ih3 =>
    intro hp hl hr hc
    have hc' : max (cntE a + cntE b + 1) (cntE c) + 1 ≤ N := hc
    obtain ⟨f1, e1⟩ := ih1 hp.1.1 hl.1.1 hr.2.1.2.1 (by omega)
    obtain ⟨f2, e2⟩ := ih2 hp.1.2 hl.1.2 hr.2.1.2.2 (by omega)
    obtain ⟨f3, e3⟩ := ih3 hp.2 hl.2 hr.2.2 (by omega)
    obtain ⟨g3, n3⟩ := neg_fin f3
    have e3' : |(-z).toQ - -valE c| ≤ ((1 + uro) ^ cntE c - 1) * sizE t c := by rw [n3, ← neg_add', abs_neg, ← sub_eq_add_neg]; exact e3
    have s := size_mul e1 e2 (abs_valE hp.1.1) (abs_valE hp.1.2)
    have s := size_add (m := max (cntE a + cntE b + 1) (cntE c)) s e3' (sizE_nonneg (e := a * b) hp.1) (sizE_nonneg hp.2) (by omega) (by omega)
    rw [← sub_eq_add_neg (valE a * valE b)] at s
    have q1 : |valE a * valE b - valE c| ≤ sizE t a * sizE t b + sizE t c := abs_valE (t := t) (e := a * b - c) hp
    have q2 : R (sizE t a * sizE t b + sizE t c) := hr.1
    obtain ⟨r1, r2⟩ := step s q1 q2 (by omega)
    obtain ⟨f, e⟩ := fma_fin f1 f2 g3 r1
    exact ⟨f, by rw [e]; exact r2⟩
  | @subMul a b c x y z _ _ _ ih1 ih2 ih3 =>
    intro hp hl hr hc
    have hc' : max (cntE c) (cntE a + cntE b + 1) + 1 ≤ N := hc
    obtain ⟨f1, e1⟩ := ih1 hp.2.1 hl.2.1 hr.2.2.2.1 (by omega)
    obtain ⟨f2, e2⟩ := ih2 hp.2.2 hl.2.2 hr.2.2.2.2 (by omega)
    obtain ⟨f3, e3⟩ := ih3 hp.1 hl.1 hr.2.1 (by omega)
    obtain ⟨g1, n1⟩ := neg_fin f1
    have s := size_mul e1 e2 (abs_valE hp.2.1) (abs_valE hp.2.2)
    have s' : |(-x).toQ * y.toQ - -(valE a * valE b)| ≤ ((1 + uro) ^ (cntE a + cntE b) - 1) * (sizE t a * sizE t b) := by
      rw [n1, neg_mul, ← neg_add', abs_neg, ← sub_eq_add_neg]; exact s
    have s := size_add (m := max (cntE c) (cntE a + cntE b + 1)) e3 s' (sizE_nonneg hp.1) (sizE_nonneg (e := a * b) hp.2) (by omega) (by omega)
    rw [add_comm z.toQ, ← sub_eq_add_neg] at s
    have q1 : |valE c - valE a * valE b| ≤ sizE t c + sizE t a * sizE t b := abs_valE (t := t) (e := c - a * b) hp
    have q2 : R (sizE t c + sizE t a * sizE t b) := hr.1
    obtain ⟨r1, r2⟩ := step s q1 q2 (by omega)
    obtain ⟨f, e⟩ := fma_fin g1 f2 f3 r1
    exact ⟨f, by rw [e]; exact r2⟩

/-- C100: every way of fusing stays within `(1 + 2^-53)^k - 1` times the size of the expression of the exact value, where `k` counts the roundings without
fusing: fusing is never worse than this bound for the plain evaluation. `t` is any number that keeps the sizes away from underflow. -/
theorem C100_error (t : ℚ) {e : Expr F64} {v : F64} (hp : PolyE e) (hl : LeavesE F64.Finite e)
    (hr : EachE (fun e => (2:ℚ) ^ (-1022 : ℤ) ≤ sizE t e ∧ sizE t e ≤ 2 ^ 1000) e) (hc : cntE e ≤ 1000) (h : Ev e v) :
    v.Finite ∧ |v.toQ - valE e| ≤ ((1 + uro) ^ cntE e - 1) * sizE t e :=
  error_aux (R := fun P => (2:ℚ) ^ (-1022 : ℤ) ≤ P ∧ P ≤ 2 ^ 1000) (fun h1 h2 h3 h4 => size_round h1 h2 h3.1 h3.2 (powu_two h4)) h hp hl hr hc

/-- coefficient and degree of the size, for homogeneous polynomials in numbers of the same size -/
def homE : Expr F64 → Option (ℕ × ℕ)
  | .leaf _ => some (1, 1)
  | .add a b => match homE a, homE b with
    | some (c, d), some (c', d') => if d = d' then some (c + c', d) else none
    | _, _ => none
  | .sub a b => match homE a, homE b with
    | some (c, d), some (c', d') => if d = d' then some (c + c', d) else none
    | _, _ => none
  | .mul a b => match homE a, homE b with
    | some (c, d), some (c', d') => some (c * c', d + d')
    | _, _ => none
  | .div _ _ => none
  | .abs _ => none

theorem homE_pos {e : Expr F64} : ∀ {c d : ℕ}, homE e = some (c, d) → 1 ≤ c ∧ 1 ≤ d := by
  induction e with
  | leaf x =>
    intro c d h
    simp only [homE, Option.some.injEq, Prod.mk.injEq] at h
    omega
  | add a b iha ihb | sub a b iha ihb =>
    intro c d h
    rw [homE] at h
    cases ha : homE a with
    | none => simp [ha] at h
    | some p =>
      cases hb : homE b with
      | none => simp [ha, hb] at h
      | some q =>
        simp only [ha, hb] at h
        split_ifs at h
        simp only [Option.some.injEq, Prod.mk.injEq] at h
        have := iha ha
        have := ihb hb
        omega
  | mul a b iha ihb =>
    intro c d h
    rw [homE] at h
    cases ha : homE a with
    | none => simp [ha] at h
    | some p =>
      cases hb : homE b with
      | none => simp [ha, hb] at h
      | some q =>
        simp only [ha, hb, Option.some.injEq, Prod.mk.injEq] at h
        have h1 := iha ha
        have h2 := ihb hb
        have := Nat.mul_pos h1.1 h2.1
        omega
  | div a b => intro c d h; simp [homE] at h
  | abs a => intro c d h; simp [homE] at h

theorem powu_lin {k : ℕ} (hk : k ≤ 100) : (1 + uro) ^ k - 1 ≤ ((k:ℚ) + 1) * uro := by
  have hu := uro_pos
  have key : ∀ k : ℕ, k ≤ 100 → (1 + uro) ^ k - 1 ≤ (k:ℚ) * uro + (k:ℚ) * (200 * uro * uro) := by
    intro k
    induction k with
    | zero => intro _; simp
    | succ k ih =>
      intro h
      have i := ih (by omega)
      have hk : (k:ℚ) ≤ 100 := by exact_mod_cast (by omega : k ≤ 100)
      have hk0 : (0:ℚ) ≤ k := by positivity
      have e : (1 + uro) ^ (k + 1) - 1 = ((1 + uro) ^ k - 1) + uro * ((1 + uro) ^ k - 1) + uro := by rw [pow_succ]; ring
      have h1 := mul_le_mul_of_nonneg_left i hu.le
      have h2 : uro * ((k:ℚ) * uro + k * (200 * uro * uro)) ≤ 200 * uro * uro := by
        have a : (k:ℚ) * uro ≤ 100 * uro := mul_le_mul_of_nonneg_right hk hu.le
        have b : (k:ℚ) * (200 * uro * uro) ≤ 100 * (200 * uro * uro) := mul_le_mul_of_nonneg_right hk (by positivity)
        have c : 100 * (200 * uro * uro) ≤ 100 * uro := by
          have : 200 * uro ≤ 1 := by unfold uro; norm_num
          have := mul_le_mul_of_nonneg_right this hu.le
          linarith
        have := mul_le_mul_of_nonneg_left (add_le_add a (b.trans c)) hu.le
        linarith
      rw [e]; push_cast
      linarith
  have h := key k hk
  have h2 : (k:ℚ) * (200 * uro * uro) ≤ uro := by
    have hk' : (k:ℚ) ≤ 100 := by exact_mod_cast hk
    have a : (k:ℚ) * (200 * uro * uro) ≤ 100 * (200 * uro * uro) := mul_le_mul_of_nonneg_right hk' (by positivity)
    have : 20000 * uro ≤ 1 := by unfold uro; norm_num
    have := mul_le_mul_of_nonneg_right this hu.le
    linarith
  linarith

theorem homE_data {M : ℚ} {C D : ℕ} {R : ℚ → Prop} (hR : ∀ c d : ℕ, 1 ≤ c → c ≤ C → 1 ≤ d → d ≤ D → R (c * M ^ d)) {e : Expr F64} :
    ∀ {c d : ℕ}, homE e = some (c, d) → c ≤ C → d ≤ D → LeavesE (fun x => |x.toQ| ≤ M) e →
      PolyE e ∧ sizE M e = c * M ^ d ∧ 1 ≤ c ∧ 1 ≤ d ∧ EachE (fun e => R (sizE M e)) e := by
  induction e with
  | leaf x =>
    intro c d h hc hd hl
    simp only [homE, Option.some.injEq, Prod.mk.injEq] at h
    obtain ⟨rfl, rfl⟩ := h
    have e1 : sizE M (.leaf x) = ((1:ℕ):ℚ) * M ^ 1 := by
      rw [Nat.cast_one, one_mul, pow_one]; exact max_eq_right hl
    refine ⟨trivial, e1, le_refl _, le_refl _, ?_⟩
    show R (sizE M (.leaf x))
    rw [e1]; exact hR 1 1 (le_refl _) hc (le_refl _) hd
  | add a b iha ihb =>
    intro c d h hc hd hl
    rw [homE] at h
    cases ha : homE a with
    | none => simp [ha] at h
    | some p =>
      obtain ⟨c1, d1⟩ := p
      cases hb : homE b with
      | none => simp [ha, hb] at h
      | some q =>
        obtain ⟨c2, d2⟩ := q
        simp only [ha, hb] at h
        split_ifs at h with hdd
        subst hdd
        simp only [Option.some.injEq, Prod.mk.injEq] at h
        obtain ⟨rfl, rfl⟩ := h
        obtain ⟨p1, s1, o1, o2, r1⟩ := iha ha (by omega) hd hl.1
        obtain ⟨p2, s2, o3, _, r2⟩ := ihb hb (by omega) hd hl.2
        have e1 : sizE M (.add a b) = ((c1 + c2 : ℕ):ℚ) * M ^ d1 := by rw [sizE, s1, s2]; push_cast; ring
        refine ⟨⟨p1, p2⟩, e1, by omega, o2, ?_, r1, r2⟩
        show R (sizE M (.add a b))
        rw [e1]; exact hR _ _ (by omega) hc o2 hd
  | sub a b iha ihb =>
    intro c d h hc hd hl
    rw [homE] at h
    cases ha : homE a with
    | none => simp [ha] at h
    | some p =>
      obtain ⟨c1, d1⟩ := p
      cases hb : homE b with
      | none => simp [ha, hb] at h
      | some q =>
        obtain ⟨c2, d2⟩ := q
        simp only [ha, hb] at h
        split_ifs at h with hdd
        subst hdd
        simp only [Option.some.injEq, Prod.mk.injEq] at h
        obtain ⟨rfl, rfl⟩ := h
        obtain ⟨p1, s1, o1, o2, r1⟩ := iha ha (by omega) hd hl.1
        obtain ⟨p2, s2, o3, _, r2⟩ := ihb hb (by omega) hd hl.2
        have e1 : sizE M (.sub a b) = ((c1 + c2 : ℕ):ℚ) * M ^ d1 := by rw [sizE, s1, s2]; push_cast; ring
        refine ⟨⟨p1, p2⟩, e1, by omega, o2, ?_, r1, r2⟩
        show R (sizE M (.sub a b))
        rw [e1]; exact hR _ _ (by omega) hc o2 hd
  | mul a b iha ihb =>
    intro c d h hc hd hl
    rw [homE] at h
    cases ha : homE a with
    | none => simp [ha] at h
    | some p =>
      obtain ⟨c1, d1⟩ := p
      cases hb : homE b with
      | none => simp [ha, hb] at h
      | some q =>
        obtain ⟨c2, d2⟩ := q
        simp only [ha, hb, Option.some.injEq, Prod.mk.injEq] at h
        obtain ⟨rfl, rfl⟩ := h
        have pos1 : 1 ≤ c1 := (homE_pos ha).1
        have pos2 : 1 ≤ c2 := (homE_pos hb).1
        obtain ⟨p1, s1, o1, o2, r1⟩ := iha ha (le_trans (Nat.le_mul_of_pos_right _ pos2) hc) (by omega) hl.1
        obtain ⟨p2, s2, o3, o4, r2⟩ := ihb hb (le_trans (Nat.le_mul_of_pos_left _ pos1) hc) (by omega) hl.2
        have e1 : sizE M (.mul a b) = ((c1 * c2 : ℕ):ℚ) * M ^ (d1 + d2) := by rw [sizE, s1, s2, pow_add]; push_cast; ring
        refine ⟨⟨p1, p2⟩, e1, Nat.mul_pos o1 o3, by omega, ?_, r1, r2⟩
        show R (sizE M (.mul a b))
        rw [e1]; exact hR _ _ (Nat.mul_pos o1 o3) hc (by omega) hd
  | div a b => intro c d h; simp [homE] at h
  | abs a => intro c d h; simp [homE] at h

theorem leaves_imp {P Q : F64 → Prop} (h : ∀ x, P x → Q x) {e : Expr F64} : LeavesE P e → LeavesE Q e := by
  induction e with
  | leaf x => exact h x
  | add a b iha ihb | sub a b iha ihb | mul a b iha ihb | div a b iha ihb => exact fun hp => ⟨iha hp.1, ihb hp.2⟩
  | abs a iha => exact iha

/-- C100: the formulas of the code: for finite coordinates of absolute value at most `M`, every way of fusing is within `(k + 1) 2^-53` times the size
`c M^d` of the exact value -/
theorem C100_bound {M : ℚ} (hM : (2:ℚ) ^ (-200 : ℤ) ≤ M) (hM' : M ≤ 2 ^ 190) {e : Expr F64} {c d k : ℕ} (he : homE e = some (c, d)) (hc : c ≤ 2 ^ 20) (hd : d ≤ 5)
    (hk : cntE e = k) (hk' : k ≤ 100) (hl : LeavesE (fun x => x.Finite ∧ |x.toQ| ≤ M) e) {v : F64} (h : Ev e v) :
    v.Finite ∧ |v.toQ - valE e| ≤ (k + 1) * uro * (c * M ^ d) := by
  subst hk
  have hM0 : 0 < M := (zpow_pos (by norm_num) _).trans_le hM
  obtain ⟨hp, hs, h1, _, hr⟩ := homE_data (M := M) (C := 2 ^ 20) (D := 5) (R := fun P => (2:ℚ) ^ (-1022 : ℤ) ≤ P ∧ P ≤ 2 ^ 1000) (by
    intro c d h1 h2 h3 h4
    have c1 : (1:ℚ) ≤ c := by exact_mod_cast h1
    have c2 : (c:ℚ) ≤ 2 ^ 20 := by exact_mod_cast h2
    constructor
    · have l1 : ((2:ℚ) ^ (-200 : ℤ)) ^ d ≤ M ^ d := pow_le_pow_left₀ (by positivity) hM d
      have l2 : (2:ℚ) ^ (-1022 : ℤ) ≤ ((2:ℚ) ^ (-200 : ℤ)) ^ d := by
        rw [← zpow_natCast, ← zpow_mul]
        exact zpow_le_zpow_right₀ (by norm_num) (by omega)
      have l3 : M ^ d ≤ c * M ^ d := le_mul_of_one_le_left (by positivity) c1
      exact l2.trans (l1.trans l3)
    · have l1 : M ^ d ≤ ((2:ℚ) ^ 190) ^ d := pow_le_pow_left₀ hM0.le hM' d
      have l2 : ((2:ℚ) ^ 190) ^ d ≤ 2 ^ 950 := by
        rw [← pow_mul]; exact pow_le_pow_right₀ (by norm_num) (by omega)
      calc (c:ℚ) * M ^ d ≤ 2 ^ 20 * 2 ^ 950 := mul_le_mul c2 (l1.trans l2) (by positivity) (by positivity)
        _ = 2 ^ 970 := by rw [← pow_add]
        _ ≤ 2 ^ 1000 := pow_le_pow_right₀ (by norm_num) (by norm_num)) he hc hd (leaves_imp (fun _ h => h.2) hl)
  obtain ⟨f, b⟩ := C100_error M hp (leaves_imp (fun _ h => h.1) hl) hr (by omega) h
  refine ⟨f, b.trans ?_⟩
  rw [hs]
  refine mul_le_mul_of_nonneg_right ?_ (by positivity)
  exact powu_lin hk'

/-- finite coordinates of absolute value at most `M` -/
def BoundedV (M : ℚ) (v : R3.Vector F64) : Prop := ∀ x ∈ [v.X, v.Y, v.Z], x.Finite ∧ |x.toQ| ≤ M

section
variable {M : ℚ} (hM : (2:ℚ) ^ (-200 : ℤ) ≤ M) (hM' : M ≤ 2 ^ 190) {a b c d e : R3.Vector F64} (ha : BoundedV M a) (hb : BoundedV M b) (hc : BoundedV M c)
  (hd : BoundedV M d) (he : BoundedV M e) {v : F64}
include hM hM' ha hb

/-- C100: `SquaredDistance`, however fused -/
theorem C100_squaredDistance (h : Ev (R3.SquaredDistance (lf a) (lf b)) v) :
    v.Finite ∧ |v.toQ - R3.SquaredDistance (exactV a) (exactV b)| ≤ 72 * uro * M ^ 2 := by
  have a1 := ha a.X (by simp); have a2 := ha a.Y (by simp); have a3 := ha a.Z (by simp)
  have b1 := hb b.X (by simp); have b2 := hb b.Y (by simp); have b3 := hb b.Z (by simp)
  have := C100_bound hM hM' (e := R3.SquaredDistance (lf a) (lf b)) (c := 12) (d := 2) (k := 5) rfl (by norm_num) (by norm_num) rfl (by norm_num)
    (by repeat' first | exact a1 | exact a2 | exact a3 | exact b1 | exact b2 | exact b3 | constructor) h
  exact ⟨this.1, this.2.trans (le_of_eq (by push_cast; ring))⟩

include hc

/-- C100: `area`, however fused -/
theorem C100_area (h : Ev (area (lf a) (lf b) (lf c)) v) : v.Finite ∧ |v.toQ - area (exactV a) (exactV b) (exactV c)| ≤ 40 * uro * M ^ 2 := by
  have a1 := ha a.X (by simp); have a2 := ha a.Y (by simp)
  have b1 := hb b.X (by simp); have b2 := hb b.Y (by simp)
  have c1 := hc c.X (by simp); have c2 := hc c.Y (by simp)
  have := C100_bound hM hM' (e := area (lf a) (lf b) (lf c)) (c := 8) (d := 2) (k := 4) rfl (by norm_num) (by norm_num) rfl (by norm_num)
    (by repeat' first | exact a1 | exact a2 | exact b1 | exact b2 | exact c1 | exact c2 | constructor) h
  exact ⟨this.1, this.2.trans (le_of_eq (by push_cast; ring))⟩

include hd

/-- C100: the determinant of `inCircle`, however fused -/
theorem C100_inCircle (h : Ev (inCircleDet (lf a) (lf b) (lf c) (lf d)) v) :
    v.Finite ∧ |v.toQ - inCircleDet (exactV a) (exactV b) (exactV c) (exactV d)| ≤ 2304 * uro * M ^ 4 := by
  have a1 := ha a.X (by simp); have a2 := ha a.Y (by simp)
  have b1 := hb b.X (by simp); have b2 := hb b.Y (by simp)
  have c1 := hc c.X (by simp); have c2 := hc c.Y (by simp)
  have d1 := hd d.X (by simp); have d2 := hd d.Y (by simp)
  have := C100_bound hM hM' (e := inCircleDet (lf a) (lf b) (lf c) (lf d)) (c := 192) (d := 4) (k := 11) rfl (by norm_num) (by norm_num) rfl (by norm_num)
    (by repeat' first | exact a1 | exact a2 | exact b1 | exact b2 | exact c1 | exact c2 | exact d1 | exact d2 | constructor) h
  exact ⟨this.1, this.2.trans (le_of_eq (by push_cast; ring))⟩

/-- C100: `orient3dfast`, however fused -/
theorem C100_orient3d (h : Ev (Predicates.orient3dfast (lf a) (lf b) (lf c) (lf d)) v) :
    v.Finite ∧ |v.toQ - Predicates.orient3dfast (exactV a) (exactV b) (exactV c) (exactV d)| ≤ 432 * uro * M ^ 3 := by
  have a1 := ha a.X (by simp); have a2 := ha a.Y (by simp); have a3 := ha a.Z (by simp)
  have b1 := hb b.X (by simp); have b2 := hb b.Y (by simp); have b3 := hb b.Z (by simp)
  have c1 := hc c.X (by simp); have c2 := hc c.Y (by simp); have c3 := hc c.Z (by simp)
  have d1 := hd d.X (by simp); have d2 := hd d.Y (by simp); have d3 := hd d.Z (by simp)
  have := C100_bound hM hM' (e := Predicates.orient3dfast (lf a) (lf b) (lf c) (lf d)) (c := 48) (d := 3) (k := 8) rfl (by norm_num) (by norm_num) rfl (by norm_num)
    (by repeat' first | exact a1 | exact a2 | exact a3 | exact b1 | exact b2 | exact b3 | exact c1 | exact c2 | exact c3 | exact d1 | exact d2 | exact d3 | constructor) h
  exact ⟨this.1, this.2.trans (le_of_eq (by push_cast; ring))⟩

include he

/-- C100: `InSphereFast`, however fused -/
theorem C100_inSphereFast (h : Ev (Predicates.InSphereFast (lf a) (lf b) (lf c) (lf d) (lf e)) v) :
    v.Finite ∧ |v.toQ - Predicates.InSphereFast (exactV a) (exactV b) (exactV c) (exactV d) (exactV e)| ≤ 39168 * uro * M ^ 5 := by
  have a1 := ha a.X (by simp); have a2 := ha a.Y (by simp); have a3 := ha a.Z (by simp)
  have b1 := hb b.X (by simp); have b2 := hb b.Y (by simp); have b3 := hb b.Z (by simp)
  have c1 := hc c.X (by simp); have c2 := hc c.Y (by simp); have c3 := hc c.Z (by simp)
  have d1 := hd d.X (by simp); have d2 := hd d.Y (by simp); have d3 := hd d.Z (by simp)
  have e1 := he e.X (by simp); have e2 := he e.Y (by simp); have e3 := he e.Z (by simp)
  let P : Expr F64 → Prop := LeavesE (fun x => x.Finite ∧ |x.toQ| ≤ M)
  have mul : ∀ {x y}, P x → P y → P (x * y) := fun h1 h2 => ⟨h1, h2⟩
  have add : ∀ {x y}, P x → P y → P (x + y) := fun h1 h2 => ⟨h1, h2⟩
  have sub : ∀ {x y}, P x → P y → P (x - y) := fun h1 h2 => ⟨h1, h2⟩
  have aex : P ((lf a).X - (lf e).X) := ⟨a1, e1⟩
  have bex : P ((lf b).X - (lf e).X) := ⟨b1, e1⟩
  have cex : P ((lf c).X - (lf e).X) := ⟨c1, e1⟩
  have dex : P ((lf d).X - (lf e).X) := ⟨d1, e1⟩
  have aey : P ((lf a).Y - (lf e).Y) := ⟨a2, e2⟩
  have bey : P ((lf b).Y - (lf e).Y) := ⟨b2, e2⟩
  have cey : P ((lf c).Y - (lf e).Y) := ⟨c2, e2⟩
  have dey : P ((lf d).Y - (lf e).Y) := ⟨d2, e2⟩
  have aez : P ((lf a).Z - (lf e).Z) := ⟨a3, e3⟩
  have bez : P ((lf b).Z - (lf e).Z) := ⟨b3, e3⟩
  have cez : P ((lf c).Z - (lf e).Z) := ⟨c3, e3⟩
  have dez : P ((lf d).Z - (lf e).Z) := ⟨d3, e3⟩
  have ab := sub (mul aex bey) (mul bex aey)
  have bc := sub (mul bex cey) (mul cex bey)
  have cd := sub (mul cex dey) (mul dex cey)
  have da := sub (mul dex aey) (mul aex dey)
  have ac := sub (mul aex cey) (mul cex aey)
  have bd := sub (mul bex dey) (mul dex bey)
  have abc := add (sub (mul aez bc) (mul bez ac)) (mul cez ab)
  have bcd := add (sub (mul bez cd) (mul cez bd)) (mul dez bc)
  have cda := add (add (mul cez da) (mul dez ac)) (mul aez cd)
  have dab := add (add (mul dez ab) (mul aez bd)) (mul bez da)
  have al := add (add (mul aex aex) (mul aey aey)) (mul aez aez)
  have bl := add (add (mul bex bex) (mul bey bey)) (mul bez bez)
  have cl := add (add (mul cex cex) (mul cey cey)) (mul cez cez)
  have dl := add (add (mul dex dex) (mul dey dey)) (mul dez dez)
  have all := add (sub (mul cl dab) (mul dl abc)) (sub (mul al bcd) (mul bl cda))
  have h1 : homE (Predicates.InSphereFast (lf a) (lf b) (lf c) (lf d) (lf e)) = some (2304, 5) := rfl
  have h2 : cntE (Predicates.InSphereFast (lf a) (lf b) (lf c) (lf d) (lf e)) = 16 := by with_unfolding_all rfl
  have h3 : LeavesE (fun x => x.Finite ∧ |x.toQ| ≤ M) (Predicates.InSphereFast (lf a) (lf b) (lf c) (lf d) (lf e)) := all
  have := C100_bound hM hM' h1 (by norm_num) (by norm_num) h2 (by norm_num) h3 h
  exact ⟨this.1, this.2.trans (le_of_eq (by push_cast; ring))⟩

end

/-- so the tests of the code give the right answer, however fused, when the exact value exceeds the bound -/
theorem C100_tests {v : F64} {X E : ℚ} (hv : v.Finite) (h : |v.toQ - X| ≤ E) : (E < X → (0:F64) < v ∧ ¬ v < 0) ∧ (X < -E → v < 0 ∧ ¬ (0:F64) ≤ v) := by
  have z : (0:F64).Finite := trivial
  have z' : (0:F64).toQ = 0 := rfl
  obtain ⟨h1, h2⟩ := abs_le.mp h
  refine ⟨fun hx => ⟨?_, ?_⟩, fun hx => ⟨?_, ?_⟩⟩
  · rw [lt_fin z hv, z']; linarith
  · rw [lt_fin hv z, z']; linarith
  · rw [lt_fin hv z, z']; linarith
  · rw [le_fin z hv, z']; linarith

/-! ## Triangulation of small integer coordinates -/

section
variable {A : Arith} (hA : Fused A) (srt : R3.Vector F64 → List ℤ → List ℤ) (hsrt : ∀ c l, (srt c l).Perm l) (hashSize : ℕ → ℕ) (fuel : ℕ)
  (Vs : List (R3.Vector F64)) (hg : SmallInts Vs) (hn : 2 ≤ Vs.length) (hash : 0 < hashSize Vs.length) (hash' : hashSize Vs.length < 2 ^ 53)
  (hf : 6 * Vs.length < fuel)
include hA hsrt hg hn hash hash' hf

/-- C100: whatever is fused, there is an error exactly if the points are on one line, otherwise a triangulation; no panic -/
theorem C100_outcome : (¬ NotCollinear (Vs.map exactV) ∧ TriangulateA A srt hashSize fuel Vs = .ok .noTriangulation) ∨
    (NotCollinear (Vs.map exactV) ∧ ∃ hull ts hs, TriangulateA A srt hashSize fuel Vs = .ok (.triangulation hull ts hs)) := by
  rcases (fused_faithful hA).run srt hsrt hashSize hg.grid hn hash hash' hf with ⟨h, e⟩ | ⟨h, hull, ts, hs, e, _⟩
  · exact Or.inl ⟨(collinear_iff _).mp h, e⟩
  · exact Or.inr ⟨not_not.mp fun hc => h ((collinear_iff _).mpr hc), hull, ts, hs, e⟩

variable {hull : List (R3.Vector F64)} {ts hs : List ℤ} (h : TriangulateA A srt hashSize fuel Vs = .ok (.triangulation hull ts hs))
include h

theorem fused_final : Consistent (Vs.map exactV) (hull.map exactV) ts hs ∧
    Final (Vs.map exactV) (hull.map exactV) ts hs (A.Sorts srt Vs) (fun a b => R3.SquaredDistance a b < (1 / 2^52 : ℚ)) := by
  rcases (fused_faithful hA).run srt hsrt hashSize hg.grid hn hash hash' hf with ⟨_, e⟩ | ⟨_, hull', ts', hs', e, h1, h2⟩
  · rw [h] at e; cases e
  · rw [h] at e
    simp only [Res.ok.injEq, TriOut.triangulation.injEq] at e
    obtain ⟨rfl, rfl, rfl⟩ := e
    exact ⟨h1, h2⟩

/-- C100: whatever is fused, the tables are consistent, and the triangles are those of a Delaunay triangulation -/
theorem C100_delaunay : Consistent (Vs.map exactV) (hull.map exactV) ts hs ∧ Delaunay (Vs.map exactV) ts :=
  have := fused_final hA srt hsrt hashSize fuel Vs hg hn hash hash' hf h
  ⟨this.1, this.2.delaunay⟩

/-- C100: whatever is fused, the triangles fill the hull and do not overlap, and the hull is convex and contains all vertices -/
theorem C100_fills : (∀ v, IsVertex (Vs.map exactV) ts v → Spec.Inside (hull.map exactV) v) ∧
    (∀ x, Spec.Inside (hull.map exactV) x → ∃ k a b c, Corners (Vs.map exactV) ts k a b c ∧ InTri a b c x) ∧
    ∀ (x : R3.Vector ℚ) {j k : ℕ} {a b c a' b' c' : R3.Vector ℚ}, Corners (Vs.map exactV) ts j a b c → Corners (Vs.map exactV) ts k a' b' c' →
      (orient a b x < 0 ∧ orient b c x < 0 ∧ orient c a x < 0) → (orient a' b' x < 0 ∧ orient b' c' x < 0 ∧ orient c' a' x < 0) → j = k :=
  have := (fused_final hA srt hsrt hashSize fuel Vs hg hn hash hash' hf h).2
  ⟨this.convex, this.fills, fun x _ _ _ _ _ _ _ _ hj hk sj sk => this.disjoint x hj hk sj sk⟩

variable (hs' : A.Sorts srt Vs)
include hs'

/-- C100: whatever is fused, every input point is at the position of a vertex of the triangulation -/
theorem C100_cover : ∀ p ∈ Vs, IsVertex (Vs.map exactV) ts (exactV p) := by
  intro p hp
  obtain ⟨v, hv, e⟩ := (fused_final hA srt hsrt hashSize fuel Vs hg hn hash hash' hf h).2.cover hs' (exactV p) (List.mem_map_of_mem hp)
  have hvm : v ∈ Vs.map exactV := by
    obtain ⟨i, _, hi⟩ := hv
    exact List.mem_of_getElem? hi
  rcases e with rfl | e
  · exact hv
  · rw [hg.grid.near _ (List.mem_map_of_mem hp) v hvm e]; exact hv

/-- C100: whatever is fused, the hull of the triangulation is the boundary polygon of the points -/
theorem C100_boundary : BoundaryPolygon (Vs.map exactV) (hull.map exactV) ∧ NotCollinear (Vs.map exactV) := by
  obtain ⟨h1, h2⟩ := fused_final hA srt hsrt hashSize fuel Vs hg hn hash hash' hf h
  exact h2.boundary hs' hg.grid.near h1.three

theorem fused_result : DelaunayResult (Vs.map exactV) (hull.map exactV) ts where
  delaunay := (C100_delaunay hA srt hsrt hashSize fuel Vs hg hn hash hash' hf h).2
  convex := (C100_fills hA srt hsrt hashSize fuel Vs hg hn hash hash' hf h).1
  fills := (C100_fills hA srt hsrt hashSize fuel Vs hg hn hash hash' hf h).2.1
  disjoint x := (C100_fills hA srt hsrt hashSize fuel Vs hg hn hash hash' hf h).2.2 x
  cover p hp := by
    obtain ⟨v, hv, rfl⟩ := List.mem_map.mp hp
    exact C100_cover hA srt hsrt hashSize fuel Vs hg hn hash hash' hf h hs' v hv

end

/-- C100: two compilers: on small integer coordinates the code gives the same hull, up to its starting point, on both, and the same triangles unless there
are four points on an empty circle -/
theorem C100_same {A B : Arith} (hA : Fused A) (hB : Fused B) (srtA srtB : R3.Vector F64 → List ℤ → List ℤ) (pA : ∀ c l, (srtA c l).Perm l)
    (pB : ∀ c l, (srtB c l).Perm l) (fuel : ℕ) (Vs : List (R3.Vector F64)) (sA : A.Sorts srtA Vs) (sB : B.Sorts srtB Vs) (hg : SmallInts Vs)
    (hn : 2 ≤ Vs.length) (hn' : Vs.length < 2 ^ 63) (hf : 6 * Vs.length < fuel) :
    (TriangulateA A srtA hashSize64 fuel Vs = .ok .noTriangulation ∧ TriangulateA B srtB hashSize64 fuel Vs = .ok .noTriangulation) ∨
    ∃ hull ts hs hull' ts' hs', TriangulateA A srtA hashSize64 fuel Vs = .ok (.triangulation hull ts hs) ∧
      TriangulateA B srtB hashSize64 fuel Vs = .ok (.triangulation hull' ts' hs') ∧ (hull.map exactV).IsRotated (hull'.map exactV) ∧
      (NoFourOnEmptyCircle (· ∈ Vs.map exactV) → ts.length = ts'.length ∧ ∀ a b c, HasTriangle (Vs.map exactV) ts a b c ↔ HasTriangle (Vs.map exactV) ts' a b c) := by
  obtain ⟨k1, k2⟩ := hash_ok hn hn'
  rcases C100_outcome hA srtA pA hashSize64 fuel Vs hg hn k1 k2 hf with ⟨c1, e1⟩ | ⟨c1, hull, ts, hs, e1⟩ <;>
    rcases C100_outcome hB srtB pB hashSize64 fuel Vs hg hn k1 k2 hf with ⟨c2, e2⟩ | ⟨c2, hull', ts', hs', e2⟩
  · exact Or.inl ⟨e1, e2⟩
  · exact absurd c2 c1
  · exact absurd c1 c2
  · refine Or.inr ⟨hull, ts, hs, hull', ts', hs', e1, e2, ?_, fun gen => result_iff (fused_result hA srtA pA hashSize64 fuel Vs hg hn k1 k2 hf e1 sA)
      (fused_result hB srtB pB hashSize64 fuel Vs hg hn k1 k2 hf e2 sB) (fun _ => Iff.rfl) gen⟩
    have b1 := (C100_boundary hA srtA pA hashSize64 fuel Vs hg hn k1 k2 hf e1 sA).1
    have b2 := (C100_boundary hB srtB pB hashSize64 fuel Vs hg hn k1 k2 hf e2 sB).1
    exact C73_unique c1 (separated_distinct (ints_separated hg.grid.ints hg.flat)) b1 b2

/-! ## Not for all points -/

/-- `n / 10`, on the diagonal -/
def tenth (n : ℚ) : R3.Vector F64 := ⟨GoConst.const (n / 10), GoConst.const (n / 10), 0⟩

/-- a sort that meets the contract -/
def sortA (A : Arith) (Vs : List (R3.Vector F64)) (c : R3.Vector F64) (l : List ℤ) : List ℤ :=
  l.insertionSort fun i j => A.idLess c (fpt Vs j) (fpt Vs i) = false

/-- C100: the claim without a bound on the coordinates is false: for the points (0.1, 0.1), (0.2, 0.2) and (0.3, 0.3) the plain arithmetic finds that they
are on a line; with fused multiply-adds the code returns a triangle -/
theorem C100_collinear_refuted : ∃ Vs : List (R3.Vector F64), FinitePlanar Vs ∧ ¬ NotCollinear (Vs.map exactV) ∧
    (∀ srt, TriangulateA .plain srt hashSize64 100 Vs = .ok .noTriangulation) ∧
    ∃ A hull ts hs, Fused A ∧ A.Sorts (sortA A Vs) Vs ∧ TriangulateA A (sortA A Vs) hashSize64 100 Vs = .ok (.triangulation hull ts hs) ∧ ts = [1, 2, 0] := by
  have hz : hashSize64 3 = 2 := size_small (by norm_num) (by norm_num) (by norm_num) (by norm_num)
  refine ⟨[tenth 1, tenth 2, tenth 3], by decide +kernel, ?_, ?_, .fuse, ?_⟩
  · rw [← collinear_iff]
    unfold Proofs.Collinear
    decide +kernel
  · intro srt
    unfold TriangulateA
    have : Arith.plain.seeds [tenth 1, tenth 2, tenth 3] = .ok none := by decide +kernel
    rw [this]; rfl
  · have hs : (match Arith.fuse.seeds [tenth 1, tenth 2, tenth 3] with
      | .ok (some (_, _, _, c)) => decide ((sortA .fuse [tenth 1, tenth 2, tenth 3] c (fids 3)).Perm (fids 3) ∧ (sortA .fuse [tenth 1, tenth 2, tenth 3] c (fids 3)).Pairwise
          fun a b => Arith.fuse.idLess c (fpt [tenth 1, tenth 2, tenth 3] b) (fpt [tenth 1, tenth 2, tenth 3] a) = false)
      | _ => false) = true := by decide +kernel
    have hr : (match TriangulateA .fuse (sortA .fuse [tenth 1, tenth 2, tenth 3]) (fun _ => 2) 100 [tenth 1, tenth 2, tenth 3] with
      | .ok (.triangulation _ ts _) => decide (ts = [1, 2, 0])
      | _ => false) = true := by decide +kernel
    have e : TriangulateA .fuse (sortA .fuse [tenth 1, tenth 2, tenth 3]) hashSize64 100 [tenth 1, tenth 2, tenth 3] =
        TriangulateA .fuse (sortA .fuse [tenth 1, tenth 2, tenth 3]) (fun _ => 2) 100 [tenth 1, tenth 2, tenth 3] := by
      unfold TriangulateA
      have : hashSize64 [tenth 1, tenth 2, tenth 3].length = 2 := hz
      dsimp only
      rw [this]
    rw [e]
    cases h : TriangulateA .fuse (sortA .fuse [tenth 1, tenth 2, tenth 3]) (fun _ => 2) 100 [tenth 1, tenth 2, tenth 3] with
    | panic => rw [h] at hr; exact absurd hr (by simp)
    | fuel => rw [h] at hr; exact absurd hr (by simp)
    | ok r =>
      rw [h] at hr
      cases r with
      | noTriangulation => exact absurd hr (by simp)
      | triangulation hull ts hs' =>
        refine ⟨hull, ts, hs', fuse_fused, ?_, rfl, of_decide_eq_true hr⟩
        intro i0 i1 i2 c hc
        rw [hc] at hs
        exact of_decide_eq_true hs

theorem diff_wide {x y : F64} (hx : x.Finite) (hy : y.Finite) (bx : |x.toQ| ≤ 2 ^ 190) (by' : |y.toQ| ≤ 2 ^ 190) :
    (x - y).Finite ∧ (x - y).toQ = rnd (x.toQ - y.toQ) ∧ |(x - y).toQ| ≤ 2 ^ 191 := by
  have hb : rnd ((2:ℚ) ^ 191) = 2 ^ 191 := by
    have := rnd_id (K := ℚ) (q := 2 ^ 191) ⟨1, 191, by norm_num, by norm_num, by rw [Int.cast_one, one_mul]; exact (zpow_natCast 2 191).symm⟩
    simpa using this
  have hr := rnd_abs_le hb (x := x.toQ - y.toQ) ((abs_sub _ _).trans (by rw [pow_succ]; linarith))
  obtain ⟨f, e⟩ := sub_fin hx hy (hr.trans_lt (pow_lt_pow_right₀ (by norm_num) (by norm_num)))
  exact ⟨f, e, by rw [e]; exact hr⟩

theorem prod_wide {x y : F64} (hx : |x.toQ| ≤ 2 ^ 191) (hy : |y.toQ| ≤ 2 ^ 191) : |rnd (x.toQ * y.toQ)| < 2 ^ 1024 := by
  have hb : rnd ((2:ℚ) ^ 382) = 2 ^ 382 := by
    have := rnd_id (K := ℚ) (q := 2 ^ 382) ⟨1, 382, by norm_num, by norm_num, by rw [Int.cast_one, one_mul]; exact (zpow_natCast 2 382).symm⟩
    simpa using this
  refine (rnd_abs_le hb (x := x.toQ * y.toQ) ?_).trans_lt (pow_lt_pow_right₀ (by norm_num) (by norm_num))
  rw [abs_mul]
  calc |x.toQ| * |y.toQ| ≤ 2 ^ 191 * 2 ^ 191 := mul_le_mul hx hy (abs_nonneg _) (by positivity)
    _ = 2 ^ 382 := by rw [← pow_add]

/-- C100: the double area of the triangle `a b a` is zero in plain arithmetic, but not with a fused multiply-add -/
theorem C100_degenerate_refuted : (∀ a b : R3.Vector F64, BoundedV (2 ^ 190) a → BoundedV (2 ^ 190) b → (area a b a).toQ = 0) ∧
    ∃ a b : R3.Vector F64, BoundedV (2 ^ 190) a ∧ BoundedV (2 ^ 190) b ∧ ∃ v, Ev (area (lf a) (lf b) (lf a)) v ∧ v < 0 := by
  refine ⟨?_, ?_⟩
  · intro a b ha hb
    obtain ⟨ax, al⟩ := ha a.X (by simp)
    obtain ⟨ay, al'⟩ := ha a.Y (by simp)
    obtain ⟨bx, bl⟩ := hb b.X (by simp)
    obtain ⟨by', bl'⟩ := hb b.Y (by simp)
    obtain ⟨f1, d1, s1⟩ := diff_wide by' ay bl' al'
    obtain ⟨f2, d2, s2⟩ := diff_wide ax bx al bl
    obtain ⟨f3, d3, s3⟩ := diff_wide bx ax bl al
    obtain ⟨f4, d4, s4⟩ := diff_wide ay by' al' bl'
    have e : (b.X - a.X).toQ * (a.Y - b.Y).toQ = (b.Y - a.Y).toQ * (a.X - b.X).toQ := by
      rw [d1, d2, d3, d4, ← neg_sub b.Y.toQ, ← neg_sub a.X.toQ, rnd_neg, rnd_neg]; ring
    obtain ⟨g1, m1⟩ := mul_fin f1 f2 (prod_wide s1 s2)
    obtain ⟨g2, m2⟩ := mul_fin f3 f4 (prod_wide s3 s4)
    have hz : ((b.Y - a.Y) * (a.X - b.X)).toQ - ((b.X - a.X) * (a.Y - b.Y)).toQ = 0 := by rw [m1, m2, e, sub_self]
    have := (sub_fin g1 g2 (by rw [hz, rnd_zero]; norm_num)).2
    rw [hz, rnd_zero] at this
    exact this
  · refine ⟨⟨0, 0, 0⟩, tenth 1, ?_, ?_, _, Ev.fuse _, by decide +kernel⟩
    · unfold BoundedV; decide +kernel
    · unfold BoundedV; decide +kernel

/-! ## The hypotheses hold -/

/-- the sort meets the contract for the fully fused arithmetic on the six points of C74, and this arithmetic is not the plain one -/
example : SmallInts gridPts ∧ Fused .fuse ∧ Arith.fuse.Sorts (sortA .fuse gridPts) gridPts ∧ (∀ c l, (sortA .fuse gridPts c l).Perm l) ∧
    Arith.fuse.areaLt ⟨0, 0, 0⟩ (tenth 1) ⟨0, 0, 0⟩ ≠ Arith.plain.areaLt ⟨0, 0, 0⟩ (tenth 1) ⟨0, 0, 0⟩ := by
  refine ⟨gridPts_small, fuse_fused, ?_, fun _ _ => List.perm_insertionSort _ _, by decide +kernel⟩
  have hs : (match Arith.fuse.seeds gridPts with
    | .ok (some (_, _, _, c)) => decide ((sortA .fuse gridPts c (fids 6)).Perm (fids 6) ∧ (sortA .fuse gridPts c (fids 6)).Pairwise
        fun a b => Arith.fuse.idLess c (fpt gridPts b) (fpt gridPts a) = false)
    | _ => false) = true := by decide +kernel
  intro i0 i1 i2 c hc
  rw [hc] at hs
  exact of_decide_eq_true hs

/-- the bounds hold for (0.1, 0.1, 0), (0.2, 0.2, 0) and (0.3, 0.3, 0) -/
example : ∀ v, Ev (area (lf (tenth 1)) (lf (tenth 2)) (lf (tenth 3))) v → v.Finite ∧ |v.toQ| ≤ 40 * uro := by
  intro v hv
  have b : ∀ n ∈ ([1, 2, 3] : List ℚ), BoundedV 1 (tenth n) := by unfold BoundedV; decide +kernel
  have := C100_area (M := 1) (zpow_le_one_of_nonpos₀ (by norm_num) (by norm_num)) (one_le_pow₀ (by norm_num)) (b 1 (by simp)) (b 2 (by simp)) (b 3 (by simp)) hv
  have e : area (exactV (tenth 1)) (exactV (tenth 2)) (exactV (tenth 3)) = 0 := by decide +kernel
  rw [e, sub_zero, one_pow, mul_one] at this
  exact this

end Verif.Props
