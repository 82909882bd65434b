import Verif.Props.LineFloat
import Verif.Props.Shape
import Mathlib.Analysis.SpecialFunctions.Trigonometric.Bounds
import Mathlib.Analysis.Real.Pi.Bounds
/-!
# Rounding errors of the shape vertices at binary64

`Nr v X e`: the float `v` is finite and within `e` of the real number `X`.
-/
namespace Verif.Proofs
open Verif Verif.F64 Verif.Shape Verif.Props

structure Nr (v : F64) (X e : ℝ) : Prop where
  fin : v.Finite
  err : |(v.toQ : ℝ) - X| ≤ e

theorem Nr.mono {v : F64} {X e f : ℝ} (h : Nr v X e) (hf : e ≤ f) : Nr v X f := ⟨h.fin, h.err.trans hf⟩

theorem Nr.exact {v : F64} (h : v.Finite) : Nr v v.toQ 0 := ⟨h, by simp⟩

theorem Nr.abs_le {v : F64} {X e A : ℝ} (h : Nr v X e) (hA : |X| ≤ A) : |(v.toQ : ℝ)| ≤ A + e := by
  have e1 : (v.toQ : ℝ) = X + (v.toQ - X) := by ring
  rw [e1]
  exact (abs_add_le _ _).trans (add_le_add hA h.err)

theorem tau_tiny : ((tau : ℚ) : ℝ) ≤ 1 / 2 ^ 250 := by
  have : tau ≤ 1 / 2 ^ 250 := by
    unfold tau
    exact one_div_le_one_div_of_le (by positivity) (pow_le_pow_right₀ (by norm_num) (by norm_num))
  have := (Rat.cast_le (K := ℝ)).mpr this
  push_cast at this
  exact this

theorem tau_scale {S : ℝ} (hS : 1 / 2 ^ 100 ≤ S) : ((tau : ℚ) : ℝ) ≤ 1 / 2 ^ 60 * (ur * S) := by
  have h : (1:ℝ) / 2 ^ 153 ≤ ur * S := by
    unfold ur
    calc (1:ℝ) / 2 ^ 153 ≤ 1 / 2 ^ 53 * (1 / 2 ^ 100) := by norm_num
      _ ≤ _ := mul_le_mul_of_nonneg_left hS (by norm_num)
  have a := tau_tiny
  have b : (1:ℝ) / 2 ^ 250 ≤ 1 / 2 ^ 60 * (1 / 2 ^ 153) := by norm_num
  linarith

theorem Nr.mul {v w : F64} {X Y e f A B : ℝ} (h : Nr v X e) (h' : Nr w Y f) (hA : |X| ≤ A) (hB : |Y| ≤ B)
    (hs : (A + e) * (B + f) ≤ 2 ^ 190) :
    Nr (v * w) (X * Y) (A * f + B * e + e * f + (ur * ((A + e) * (B + f)) + (tau : ℚ))) := by
  have e0 : 0 ≤ e := (abs_nonneg _).trans h.err
  have f0 : 0 ≤ f := (abs_nonneg _).trans h'.err
  have A0 : 0 ≤ A := (abs_nonneg _).trans hA
  have B0 : 0 ≤ B := (abs_nonneg _).trans hB
  have hp : |((v.toQ * w.toQ : ℚ) : ℝ)| ≤ (A + e) * (B + f) := by
    push_cast
    rw [abs_mul]
    exact mul_le_mul (h.abs_le hA) (h'.abs_le hB) (abs_nonneg _) (by linarith)
  obtain ⟨f1, f2⟩ := mul_fin h.fin h'.fin (rnd_small_real (hp.trans hs))
  refine ⟨f1, ?_⟩
  rw [f2]
  have r := rnd_err_real (v.toQ * w.toQ)
  have r2 : ur * |((v.toQ * w.toQ : ℚ) : ℝ)| ≤ ur * ((A + e) * (B + f)) := mul_le_mul_of_nonneg_left hp ur_pos.le
  have d : |((v.toQ * w.toQ : ℚ) : ℝ) - X * Y| ≤ A * f + B * e + e * f := by
    push_cast
    have e1 : (v.toQ : ℝ) * w.toQ - X * Y = X * (w.toQ - Y) + (v.toQ - X) * Y + (v.toQ - X) * (w.toQ - Y) := by ring
    rw [e1]
    refine (abs_add_le _ _).trans (add_le_add ((abs_add_le _ _).trans (add_le_add ?_ ?_)) ?_)
    · rw [abs_mul]; exact mul_le_mul hA h'.err (abs_nonneg _) A0
    · rw [abs_mul, mul_comm]; exact mul_le_mul hB h.err (abs_nonneg _) B0
    · rw [abs_mul]; exact mul_le_mul h.err h'.err (abs_nonneg _) e0
  have e2 : ((rnd (v.toQ * w.toQ) : ℚ) : ℝ) - X * Y =
      (((rnd (v.toQ * w.toQ) : ℚ) : ℝ) - ((v.toQ * w.toQ : ℚ) : ℝ)) + (((v.toQ * w.toQ : ℚ) : ℝ) - X * Y) := by ring
  rw [e2]
  refine (abs_add_le _ _).trans ?_
  linarith

theorem Nr.add {v w : F64} {X Y e f A B : ℝ} (h : Nr v X e) (h' : Nr w Y f) (hA : |X| ≤ A) (hB : |Y| ≤ B)
    (hs : (A + e) + (B + f) ≤ 2 ^ 190) :
    Nr (v + w) (X + Y) (e + f + (ur * ((A + e) + (B + f)) + (tau : ℚ))) := by
  have hp : |((v.toQ + w.toQ : ℚ) : ℝ)| ≤ (A + e) + (B + f) := by
    push_cast
    exact (abs_add_le _ _).trans (add_le_add (h.abs_le hA) (h'.abs_le hB))
  obtain ⟨f1, f2⟩ := add_fin h.fin h'.fin (rnd_small_real (hp.trans hs))
  refine ⟨f1, ?_⟩
  rw [f2]
  have r := rnd_err_real (v.toQ + w.toQ)
  have r2 : ur * |((v.toQ + w.toQ : ℚ) : ℝ)| ≤ ur * ((A + e) + (B + f)) := mul_le_mul_of_nonneg_left hp ur_pos.le
  have d : |((v.toQ + w.toQ : ℚ) : ℝ) - (X + Y)| ≤ e + f := by
    push_cast
    have e1 : (v.toQ : ℝ) + w.toQ - (X + Y) = (v.toQ - X) + (w.toQ - Y) := by ring
    rw [e1]
    exact (abs_add_le _ _).trans (add_le_add h.err h'.err)
  have e2 : ((rnd (v.toQ + w.toQ) : ℚ) : ℝ) - (X + Y) =
      (((rnd (v.toQ + w.toQ) : ℚ) : ℝ) - ((v.toQ + w.toQ : ℚ) : ℝ)) + (((v.toQ + w.toQ : ℚ) : ℝ) - (X + Y)) := by ring
  rw [e2]
  refine (abs_add_le _ _).trans ?_
  linarith

theorem Nr.neg {v : F64} {X e : ℝ} (h : Nr v X e) : Nr (-v) (-X) e := by
  obtain ⟨f1, f2⟩ := neg_fin h.fin
  refine ⟨f1, ?_⟩
  rw [f2]; push_cast
  rw [show -(v.toQ : ℝ) - -X = -(v.toQ - X) by ring, abs_neg]; exact h.err

theorem Nr.sub {v w : F64} {X Y e f A B : ℝ} (h : Nr v X e) (h' : Nr w Y f) (hA : |X| ≤ A) (hB : |Y| ≤ B)
    (hs : (A + e) + (B + f) ≤ 2 ^ 190) :
    Nr (v - w) (X - Y) (e + f + (ur * ((A + e) + (B + f)) + (tau : ℚ))) := by
  have hp : |((v.toQ - w.toQ : ℚ) : ℝ)| ≤ (A + e) + (B + f) := by
    push_cast
    exact (abs_sub _ _).trans (add_le_add (h.abs_le hA) (h'.abs_le hB))
  obtain ⟨f1, f2⟩ := sub_fin h.fin h'.fin (rnd_small_real (hp.trans hs))
  refine ⟨f1, ?_⟩
  rw [f2]
  have r := rnd_err_real (v.toQ - w.toQ)
  have r2 : ur * |((v.toQ - w.toQ : ℚ) : ℝ)| ≤ ur * ((A + e) + (B + f)) := mul_le_mul_of_nonneg_left hp ur_pos.le
  have d : |((v.toQ - w.toQ : ℚ) : ℝ) - (X - Y)| ≤ e + f := by
    push_cast
    have e1 : (v.toQ : ℝ) - w.toQ - (X - Y) = (v.toQ - X) - (w.toQ - Y) := by ring
    rw [e1]
    exact (abs_sub _ _).trans (add_le_add h.err h'.err)
  have e2 : ((rnd (v.toQ - w.toQ) : ℚ) : ℝ) - (X - Y) =
      (((rnd (v.toQ - w.toQ) : ℚ) : ℝ) - ((v.toQ - w.toQ : ℚ) : ℝ)) + (((v.toQ - w.toQ : ℚ) : ℝ) - (X - Y)) := by ring
  rw [e2]
  refine (abs_add_le _ _).trans ?_
  linarith

/-- division by an exact value -/
theorem Nr.div {v w : F64} {X e A : ℝ} (h : Nr v X e) (hw : w.Finite) (h0 : w.toQ ≠ 0) (hA : |X| ≤ A)
    (hs : (A + e) / |(w.toQ : ℝ)| ≤ 2 ^ 190) :
    Nr (v / w) (X / w.toQ) (e / |(w.toQ : ℝ)| + (ur * ((A + e) / |(w.toQ : ℝ)|) + (tau : ℚ))) := by
  have w0 : (0:ℝ) < |(w.toQ : ℝ)| := abs_pos.mpr (by exact_mod_cast h0)
  have hp : |((v.toQ / w.toQ : ℚ) : ℝ)| ≤ (A + e) / |(w.toQ : ℝ)| := by
    push_cast
    rw [abs_div]
    exact div_le_div_of_nonneg_right (h.abs_le hA) w0.le
  obtain ⟨f1, f2⟩ := div_fin h.fin hw h0 (rnd_small_real (hp.trans hs))
  refine ⟨f1, ?_⟩
  rw [f2]
  have r := rnd_err_real (v.toQ / w.toQ)
  have r2 : ur * |((v.toQ / w.toQ : ℚ) : ℝ)| ≤ ur * ((A + e) / |(w.toQ : ℝ)|) := mul_le_mul_of_nonneg_left hp ur_pos.le
  have d : |((v.toQ / w.toQ : ℚ) : ℝ) - X / w.toQ| ≤ e / |(w.toQ : ℝ)| := by
    push_cast
    rw [← sub_div, abs_div]
    exact div_le_div_of_nonneg_right h.err w0.le
  have e2 : ((rnd (v.toQ / w.toQ) : ℚ) : ℝ) - X / w.toQ =
      (((rnd (v.toQ / w.toQ) : ℚ) : ℝ) - ((v.toQ / w.toQ : ℚ) : ℝ)) + (((v.toQ / w.toQ : ℚ) : ℝ) - X / w.toQ) := by ring
  rw [e2]
  refine (abs_add_le _ _).trans ?_
  linarith

/-! ## Angles -/

/-- an implementation of `math.Cos` and `math.Sin` with absolute error at most `δ` for arguments up to 8; the constant
multiples of `math.Pi` are rounded by the compiler -/
structure TrigAcc [GoTrig F64] (δ : ℝ) : Prop where
  pi : ∀ q : ℚ, (GoTrig.piMul q : F64) = F64.round false ((q : ℝ) * Real.pi)
  cos : ∀ x : F64, x.Finite → |x.toQ| ≤ 8 → (GoTrig.cos x).Finite ∧ |((GoTrig.cos x).toQ : ℝ) - Real.cos x.toQ| ≤ δ
  sin : ∀ x : F64, x.Finite → |x.toQ| ≤ 8 → (GoTrig.sin x).Finite ∧ |((GoTrig.sin x).toQ : ℝ) - Real.sin x.toQ| ≤ δ

theorem TrigAcc.nonneg [GoTrig F64] {δ : ℝ} (h : TrigAcc δ) : 0 ≤ δ :=
  (abs_nonneg _).trans (h.cos (.zero false) trivial (by show |(0:ℚ)| ≤ 8; norm_num)).2

theorem ur_val : ur = 1 / 2 ^ 53 := rfl

/-- rounding a real number of moderate size -/
theorem round_moderate {x : ℝ} (h1 : 1 ≤ x) (h2 : x ≤ 8) (s : Bool) : Nr (F64.round s x) x (ur * x) := by
  have hx : |x| = x := abs_of_pos (by linarith)
  have hr := rnd_rel (K := ℝ) (x := x) (by
    rw [hx]
    have : (2:ℝ) ^ (-1022 : ℤ) ≤ 1 := zpow_le_one_of_nonpos₀ (by norm_num) (by norm_num)
    linarith)
  rw [hx, show (2:ℝ) ^ (-53 : ℤ) = ur by unfold ur; rw [zpow_neg, one_div]; rfl] at hr
  have hb : |rnd x| < 2 ^ 1024 := by
    have h3 : |((rnd x : ℚ) : ℝ)| ≤ 16 := by
      have e : ((rnd x : ℚ) : ℝ) = ((rnd x : ℚ) - x) + x := by ring
      rw [e]
      refine (abs_add_le _ _).trans ?_
      rw [hx]
      have : ur ≤ 1 := ur_le.trans (by norm_num)
      have : ur * x ≤ 1 * 8 := mul_le_mul this h2 (by linarith) (by norm_num)
      linarith
    have h4 : |rnd x| ≤ 16 := by exact_mod_cast h3
    exact lt_of_le_of_lt (h4.trans (by norm_num : (16:ℚ) ≤ 2 ^ 4)) (pow_lt_pow_right₀ (by norm_num) (by norm_num))
  obtain ⟨f1, f2⟩ := round_fin (s := s) hb
  exact ⟨f1, by rw [f2]; exact hr⟩

variable [GoTrig F64] {δ : ℝ}

theorem pi_half (h : TrigAcc δ) : Nr (GoTrig.piMul (1/2) : F64) (Real.pi / 2) (ur * (Real.pi / 2)) := by
  rw [h.pi]
  have e : (((1/2 : ℚ) : ℝ) * Real.pi) = Real.pi / 2 := by push_cast; ring
  rw [e]
  exact round_moderate (by linarith [Real.pi_gt_three]) (by linarith [Real.pi_lt_d2]) _

/-- `float64(j) * (q * math.Pi / float64(n))` for `j ≤ n` -/
theorem angle_near (h : TrigAcc δ) (q : ℚ) (q1 : 1 ≤ q) (q2 : q ≤ 2) (n j : ℕ) (hn : 1 ≤ n) (hn2 : n ≤ 2 ^ 52) (hj : j ≤ n) :
    Nr (GoOfInt.ofInt (j : ℤ) * (GoTrig.piMul q / GoOfInt.ofInt (n : ℤ)) : F64) (j * (q * Real.pi / n)) (21 * ur) ∧
    0 ≤ (j:ℝ) * (q * Real.pi / n) ∧ (j:ℝ) * (q * Real.pi / n) ≤ q * Real.pi := by
  have p1 := Real.pi_gt_three
  have p2 := Real.pi_lt_d2
  have u0 := ur_pos
  have u1 := ur_le
  have q1' : (1:ℝ) ≤ q := by exact_mod_cast q1
  have q2' : (q:ℝ) ≤ 2 := by exact_mod_cast q2
  have P1 : 1 ≤ (q:ℝ) * Real.pi := by nlinarith
  have P2 : (q:ℝ) * Real.pi ≤ 63 / 10 := by nlinarith
  have hP : Nr (GoTrig.piMul q : F64) (q * Real.pi) (ur * (q * Real.pi)) := by
    rw [h.pi]; exact round_moderate P1 (by linarith) _
  obtain ⟨n1, n2⟩ := ofInt_exact (n := (n : ℤ)) (by rw [abs_of_nonneg (by positivity)]; exact_mod_cast hn2.trans (by norm_num))
  obtain ⟨j1, j2⟩ := ofInt_exact (n := (j : ℤ)) (by rw [abs_of_nonneg (by positivity)]; exact_mod_cast (hj.trans hn2).trans (by norm_num))
  have n0 : (0:ℝ) < n := by exact_mod_cast hn
  have n3 : (n:ℝ) ≤ 2 ^ 52 := by exact_mod_cast hn2
  have hjn : (j:ℝ) ≤ n := by exact_mod_cast hj
  have j0 : (0:ℝ) ≤ j := by positivity
  have ncast : (((GoOfInt.ofInt (n : ℤ) : F64).toQ : ℚ) : ℝ) = n := by rw [n2]; push_cast; rfl
  generalize hP' : (q:ℝ) * Real.pi = P at *
  have s1 := hP.div n1 (by rw [n2]; exact_mod_cast (by omega : n ≠ 0)) (A := P) (by rw [abs_of_pos (by linarith)]) (by
    rw [ncast, abs_of_pos n0, div_le_iff₀ n0]
    have : ur * P ≤ 1 * P := mul_le_mul_of_nonneg_right (u1.trans (by norm_num)) (by linarith)
    have n1' : (1:ℝ) ≤ n := by exact_mod_cast hn
    have : (2:ℝ) ^ 190 * 1 ≤ 2 ^ 190 * n := mul_le_mul_of_nonneg_left n1' (by norm_num)
    have : (20:ℝ) ≤ 2 ^ 190 := by norm_num
    linarith)
  rw [ncast, abs_of_pos n0] at s1
  -- absolute error of the step
  have hS : ((tau : ℚ) : ℝ) ≤ 1 / 100 * (ur * (P / n)) := by
    have a : (1:ℝ) / 2 ^ 100 ≤ P / n := by
      rw [le_div_iff₀ n0]
      calc (1:ℝ) / 2 ^ 100 * n ≤ 1 / 2 ^ 100 * 2 ^ 52 := mul_le_mul_of_nonneg_left n3 (by positivity)
        _ ≤ 1 := by norm_num
        _ ≤ P := P1
    have := tau_scale a
    have b : 0 ≤ ur * (P / n) := by positivity
    have c : (1:ℝ) / 2 ^ 60 * (ur * (P / n)) ≤ 1 / 100 * (ur * (P / n)) := mul_le_mul_of_nonneg_right (by norm_num) b
    linarith
  have Pn : 0 < P / n := by positivity
  have s2 : Nr (GoTrig.piMul q / GoOfInt.ofInt (n : ℤ) : F64) (P / n) (21 / 10 * (ur * (P / n))) := by
    refine s1.mono ?_
    have e1 : ur * P / n = ur * (P / n) := by ring
    have e2 : ur * ((P + ur * P) / n) = ur * (P / n) + ur * (ur * (P / n)) := by ring
    rw [e1, e2]
    have : ur * (ur * (P / n)) ≤ 1 / 2 ^ 50 * (ur * (P / n)) := mul_le_mul_of_nonneg_right u1 (by positivity)
    have : (1:ℝ) / 2 ^ 50 * (ur * (P / n)) ≤ 1 / 100 * (ur * (P / n)) := mul_le_mul_of_nonneg_right (by norm_num) (by positivity)
    linarith
  have jq : (((GoOfInt.ofInt (j : ℤ) : F64).toQ : ℚ) : ℝ) = j := by rw [j2]; push_cast; rfl
  have hth : (j:ℝ) * (P / n) ≤ P := by
    rw [← mul_div_assoc, div_le_iff₀ n0, mul_comm]
    exact mul_le_mul_of_nonneg_left hjn (by linarith)
  have hjS : (j:ℝ) * (ur * (P / n)) ≤ ur * P := by
    have e : (j:ℝ) * (ur * (P / n)) = ur * (j * (P / n)) := by ring
    rw [e]; exact mul_le_mul_of_nonneg_left hth u0.le
  have hE := Nr.exact j1
  rw [jq] at hE
  have s3 := hE.mul s2 (A := (j:ℝ)) (B := P / n) (by rw [abs_of_nonneg j0]) (by rw [abs_of_pos Pn]) (by
    have e : ((j:ℝ) + 0) * (P / n + 21 / 10 * (ur * (P / n))) = j * (P / n) + 21 / 10 * (j * (ur * (P / n))) := by ring
    rw [e]
    have : ur * P ≤ 1 * P := mul_le_mul_of_nonneg_right (u1.trans (by norm_num)) (by linarith)
    have : (100:ℝ) ≤ 2 ^ 190 := by norm_num
    linarith)
  refine ⟨s3.mono ?_, by positivity, hth⟩
  have e1 : (j:ℝ) * (21 / 10 * (ur * (P / n))) + P / n * 0 + 0 * (21 / 10 * (ur * (P / n))) +
      (ur * (((j:ℝ) + 0) * (P / n + 21 / 10 * (ur * (P / n)))) + ((tau : ℚ) : ℝ)) =
      21 / 10 * (j * (ur * (P / n))) + j * (ur * (P / n)) + 21 / 10 * (ur * (j * (ur * (P / n)))) + ((tau : ℚ) : ℝ) := by ring
  rw [e1]
  have a1 : ur * ((j:ℝ) * (ur * (P / n))) ≤ 1 / 2 ^ 50 * (ur * P) := mul_le_mul u1 hjS (by positivity) (by norm_num)
  have a2 : ur * P ≤ 63 / 10 * ur := by rw [mul_comm]; exact mul_le_mul_of_nonneg_right P2 u0.le
  have a3 : ((tau : ℚ) : ℝ) ≤ 1 / 100 * ur := by
    have := tau_scale (S := 1) (by norm_num)
    have b : (1:ℝ) / 2 ^ 60 * (ur * 1) ≤ 1 / 100 * ur := by
      rw [mul_one]; exact mul_le_mul_of_nonneg_right (by norm_num) u0.le
    linarith
  have a4 : (1:ℝ) / 2 ^ 50 * (ur * P) ≤ 1 / 1000 * (ur * P) := mul_le_mul_of_nonneg_right (by norm_num) (by positivity)
  linarith

/-- `math.Pi/2 - float64(i) * (q * math.Pi / float64(n))` -/
theorem angle_down (h : TrigAcc δ) (q : ℚ) (q1 : 1 ≤ q) (q2 : q ≤ 2) (n i : ℕ) (hn : 1 ≤ n) (hn2 : n ≤ 2 ^ 52) (hi : i ≤ n) :
    Nr (GoTrig.piMul (1/2) - GoOfInt.ofInt (i : ℤ) * (GoTrig.piMul q / GoOfInt.ofInt (n : ℤ)) : F64)
      (Real.pi / 2 - i * (q * Real.pi / n)) (31 * ur) := by
  obtain ⟨a, b, c⟩ := angle_near h q q1 q2 n i hn hn2 hi
  have p1 := Real.pi_gt_three
  have p2 := Real.pi_lt_d2
  have u0 := ur_pos
  have u1 := ur_le
  have q2' : (q:ℝ) ≤ 2 := by exact_mod_cast q2
  have P2 : (q:ℝ) * Real.pi ≤ 63 / 10 := by nlinarith
  have hp : ur * (Real.pi / 2) ≤ 16 / 10 * ur := by rw [mul_comm]; exact mul_le_mul_of_nonneg_right (by linarith) u0.le
  have s := ((pi_half h).mono hp).sub a (A := 16 / 10) (B := 63 / 10) (by rw [abs_of_pos (by linarith)]; linarith)
    (by rw [abs_of_nonneg b]; linarith) (by
      have : (100:ℝ) ≤ 2 ^ 190 := by norm_num
      have : (1:ℝ) / 2 ^ 50 ≤ 1 := by norm_num
      linarith)
  refine s.mono ?_
  have a3 : ((tau : ℚ) : ℝ) ≤ 1 / 100 * ur := by
    have := tau_scale (S := 1) (by norm_num)
    have b : (1:ℝ) / 2 ^ 60 * (ur * 1) ≤ 1 / 100 * ur := by
      rw [mul_one]; exact mul_le_mul_of_nonneg_right (by norm_num) u0.le
    linarith
  have a5 : ur * (16 / 10 + 16 / 10 * ur + (63 / 10 + 21 * ur)) ≤ 8 * ur := by
    have : ur * ur ≤ 1 / 2 ^ 50 * ur := mul_le_mul_of_nonneg_right u1 u0.le
    have : (1:ℝ) / 2 ^ 50 * ur ≤ 1 / 1000 * ur := mul_le_mul_of_nonneg_right (by norm_num) u0.le
    have e : ur * (16 / 10 + 16 / 10 * ur + (63 / 10 + 21 * ur)) = 79 / 10 * ur + 226 / 10 * (ur * ur) := by ring
    rw [e]; linarith
  linarith

/-- cosine and sine of a rounded angle -/
theorem trig_near (h : TrigAcc δ) {a : F64} {θ : ℝ} (ha : Nr a θ (31 * ur)) (h1 : |θ| ≤ 79 / 10) :
    Nr (GoTrig.cos a) (Real.cos θ) (31 * ur + δ) ∧ Nr (GoTrig.sin a) (Real.sin θ) (31 * ur + δ) := by
  have u1 := ur_le
  have hb : |a.toQ| ≤ 8 := by
    have := ha.abs_le h1
    have h2 : |(a.toQ : ℝ)| ≤ 8 := by
      have : (31:ℝ) * (1 / 2 ^ 50) ≤ 1 / 10 := by norm_num
      linarith
    exact_mod_cast h2
  obtain ⟨c1, c2⟩ := h.cos a ha.fin hb
  obtain ⟨s1, s2⟩ := h.sin a ha.fin hb
  refine ⟨⟨c1, ?_⟩, ⟨s1, ?_⟩⟩
  · have := (Real.abs_cos_sub_cos_le (a.toQ : ℝ) θ).trans ha.err
    have := abs_sub_le ((GoTrig.cos a : F64).toQ : ℝ) (Real.cos (a.toQ : ℝ)) (Real.cos θ)
    linarith
  · have := (Real.abs_sin_sub_sin_le (a.toQ : ℝ) θ).trans ha.err
    have := abs_sub_le ((GoTrig.sin a : F64).toQ : ℝ) (Real.sin (a.toQ : ℝ)) (Real.sin θ)
    linarith

end Verif.Proofs
