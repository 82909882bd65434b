import Verif.Model.FusedShape
import Verif.Props.ShapeFloat
import Verif.Proofs.Fused
/-!
# C122: the vertices of the shapes, however the multiply-adds are fused

`AllNear e X ε` says that every value the program may compute for the expression `e` is finite and within `ε` of the real number `X`.
-/
namespace Verif.Props
set_option linter.unusedSectionVars false
open Verif Verif.F64 Verif.Proofs Verif.R3 Verif.Shape

variable [GoTrig F64] {δ : ℝ}

/-- every value the program may compute for `e` is finite and within `ε` of `X` -/
def AllNear (e : TExpr F64) (X ε : ℝ) : Prop := ∀ v, TEv e v → v.Finite ∧ |(v.toQ : ℝ) - X| ≤ ε

/-! ## The plain program, and the program that fuses all it can, are among those considered -/

/-- not fusing anything is allowed -/
theorem C122_eval (e : TExpr F64) : TEv e e.eval := by
  induction e with
  | leaf x => exact .leaf x
  | add a b ha hb => exact .add ha hb
  | sub a b ha hb => exact .sub ha hb
  | mul a b ha hb => exact .mul ha hb
  | div a b ha hb => exact .div ha hb
  | cos a ha => exact .cos ha
  | sin a ha => exact .sin ha

/-- fusing everything is allowed -/
theorem C122_fuse (e : TExpr F64) : TEv e e.fuse := by
  induction e using TExpr.fuse.induct with
  | case1 x => exact .leaf x
  | case2 c a b ih1 ih2 ih3 => exact .addMul ih1 ih2 ih3
  | case3 a b c h ih1 ih2 ih3 => rw [TExpr.fuse]; exact .mulAdd ih1 ih2 ih3; exact h
  | case4 a b h1 h2 ih1 ih2 => rw [TExpr.fuse]; exact .add ih1 ih2; exact h1; exact h2
  | case5 c a b ih1 ih2 ih3 => exact .subMul ih1 ih2 ih3
  | case6 a b c h ih1 ih2 ih3 => rw [TExpr.fuse]; exact .mulSub ih1 ih2 ih3; exact h
  | case7 a b h1 h2 ih1 ih2 => rw [TExpr.fuse]; exact .sub ih1 ih2; exact h1; exact h2
  | case8 a b ih1 ih2 => exact .mul ih1 ih2
  | case9 a b ih1 ih2 => exact .div ih1 ih2
  | case10 a ih => exact .cos ih
  | case11 a ih => exact .sin ih

/-! ## Errors -/

def NrE (e : TExpr F64) (X ε : ℝ) : Prop := ∀ v, TEv e v → Nr v X ε

theorem NrE.within {e : TExpr F64} {X ε : ℝ} (h : NrE e X ε) : AllNear e X ε := fun v hv => ⟨(h v hv).fin, (h v hv).err⟩

theorem NrE.mono {e : TExpr F64} {X ε f : ℝ} (h : NrE e X ε) (hf : ε ≤ f) : NrE e X f := fun v hv => (h v hv).mono hf

theorem tmul_inv {a b : TExpr F64} {v : F64} (h : TEv (a * b) v) : ∃ x y, TEv a x ∧ TEv b y ∧ v = x * y := by
  change TEv (.mul a b) v at h
  cases h with | mul h1 h2 => exact ⟨_, _, h1, h2, rfl⟩

theorem tleaf_inv {x v : F64} (h : TEv (.leaf x) v) : v = x := by cases h; rfl

theorem tdiv_inv {a b : TExpr F64} {v : F64} (h : TEv (a / b) v) : ∃ x y, TEv a x ∧ TEv b y ∧ v = x / y := by
  change TEv (.div a b) v at h
  cases h with | div h1 h2 => exact ⟨_, _, h1, h2, rfl⟩

theorem NrE.scale_mul {v w : TExpr F64} {X Y R a ε : ℝ} (h : NrE v X (R * a)) (hX : |X| ≤ R) (h' : NrE w Y ε) (hY : |Y| ≤ 1)
    (R1 : 1 / 2 ^ 100 ≤ R) (R2 : R ≤ 2 ^ 101) (a0 : 0 ≤ a) (a1 : a ≤ 1 / 2 ^ 10) (ε1 : ε ≤ 1 / 2 ^ 10) :
    NrE (v * w) (X * Y) (R * (a + ε + a * ε + 2 * ur)) := by
  intro u hu
  obtain ⟨x, y, hx, hy, rfl⟩ := tmul_inv hu
  exact Props.scale_mul (h x hx) hX (h' y hy) hY R1 R2 a0 a1 ε1

theorem NrE.rad_mul {r : F64} {w : TExpr F64} {Y ε : ℝ} (hr : RadOk r) (h' : NrE w Y ε) (hY : |Y| ≤ 1) (ε1 : ε ≤ 1 / 2 ^ 19) :
    NrE (.leaf r * w) (r.toQ * Y) (|(r.toQ : ℝ)| * (ε + 2 * ur)) ∧ |(r.toQ : ℝ) * Y| ≤ |(r.toQ : ℝ)| := by
  refine ⟨fun u hu => ?_, ?_⟩
  · obtain ⟨x, y, hx, hy, rfl⟩ := tmul_inv hu
    rw [tleaf_inv hx]
    exact (Props.rad_mul hr (h' y hy) hY ε1).1
  · rw [abs_mul]
    exact mul_le_of_le_one_right (abs_nonneg _) hY

theorem NrE.scale_inv {v : TExpr F64} {r : F64} {X S a : ℝ} (h : NrE v X (S * a)) (hX : |X| ≤ S) (hr : r.Finite)
    (r1 : (1:ℝ) / 2 ^ 80 ≤ |(r.toQ : ℝ)|) (r2 : |(r.toQ : ℝ)| ≤ 2 ^ 80) (hS : |(r.toQ : ℝ)| ≤ S) (S2 : S ≤ 2 ^ 81) (a0 : 0 ≤ a)
    (a1 : a ≤ 1 / 2 ^ 10) : NrE (v * (1 / .leaf r)) (X * (1 / r.toQ)) (S / |(r.toQ : ℝ)| * (a + 4 * ur)) := by
  intro u hu
  obtain ⟨x, y, hx, hy, rfl⟩ := tmul_inv hu
  obtain ⟨o, q, ho, hq, rfl⟩ := tdiv_inv hy
  rw [tleaf_inv hq, tleaf_inv (x := 1) ho]
  exact Props.scale_inv (h x hx) hX hr r1 r2 hS S2 a0 a1

theorem NrE.trig (h : TrigAcc δ) {a : TExpr F64} {θ : ℝ} (ha : NrE a θ (31 * ur)) (h1 : |θ| ≤ 79 / 10) :
    NrE (GoTrig.cos a) (Real.cos θ) (31 * ur + δ) ∧ NrE (GoTrig.sin a) (Real.sin θ) (31 * ur + δ) := by
  refine ⟨fun v hv => ?_, fun v hv => ?_⟩
  · change TEv (.cos a) v at hv
    cases hv with | cos hx => exact (trig_near h (ha _ hx) h1).1
  · change TEv (.sin a) v at hv
    cases hv with | sin hx => exact (trig_near h (ha _ hx) h1).2

/-- a fused multiply-add whose exact product is known approximately -/
theorem nr_fma {x y z : F64} {P Z e f A B : ℝ} (hx : x.Finite) (hy : y.Finite) (hp : |(x.toQ : ℝ) * y.toQ - P| ≤ e) (hz : Nr z Z f)
    (hA : |P| ≤ A) (hB : |Z| ≤ B) (hs : (A + e) + (B + f) ≤ 2 ^ 190) :
    Nr (fma x y z) (P + Z) (e + f + (ur * ((A + e) + (B + f)) + (tau : ℚ))) := by
  have hpa : |(x.toQ : ℝ) * y.toQ| ≤ A + e := by
    have := abs_add_le P ((x.toQ : ℝ) * y.toQ - P)
    rw [add_sub_cancel] at this
    linarith
  have hq : |((x.toQ * y.toQ + z.toQ : ℚ) : ℝ)| ≤ (A + e) + (B + f) := by
    push_cast
    exact (abs_add_le _ _).trans (add_le_add hpa (hz.abs_le hB))
  obtain ⟨f1, f2⟩ := fma_fin hx hy hz.fin (rnd_small_real (hq.trans hs))
  refine ⟨f1, ?_⟩
  rw [f2]
  have r := rnd_err_real (x.toQ * y.toQ + z.toQ)
  have r2 : ur * |((x.toQ * y.toQ + z.toQ : ℚ) : ℝ)| ≤ ur * ((A + e) + (B + f)) := mul_le_mul_of_nonneg_left hq ur_pos.le
  have d : |((x.toQ * y.toQ + z.toQ : ℚ) : ℝ) - (P + Z)| ≤ e + f := by
    push_cast
    have e1 : (x.toQ : ℝ) * y.toQ + z.toQ - (P + Z) = ((x.toQ : ℝ) * y.toQ - P) + (z.toQ - Z) := by ring
    rw [e1]
    exact (abs_add_le _ _).trans (add_le_add hp hz.err)
  have e2 : ((rnd (x.toQ * y.toQ + z.toQ) : ℚ) : ℝ) - (P + Z) =
      (((rnd (x.toQ * y.toQ + z.toQ) : ℚ) : ℝ) - ((x.toQ * y.toQ + z.toQ : ℚ) : ℝ)) +
        (((x.toQ * y.toQ + z.toQ : ℚ) : ℝ) - (P + Z)) := by ring
  rw [e2]
  refine (abs_add_le _ _).trans ?_
  linarith

/-- `q * math.Pi / float64(n)` -/
theorem step_near (h : TrigAcc δ) (q : ℚ) (q1 : 1 ≤ q) (q2 : q ≤ 2) (n : ℕ) (hn : 1 ≤ n) (hn2 : n ≤ 2 ^ 52) :
    Nr (GoTrig.piMul q / GoOfInt.ofInt (n : ℤ) : F64) (q * Real.pi / n) (21 / 10 * (ur * (q * Real.pi / n))) := by
  have p1 := Real.pi_gt_three
  have p2 := Real.pi_lt_d2
  have u0 := ur_pos
  have u1 := ur_le
  have q1' : (1:ℝ) ≤ q := by exact_mod_cast q1
  have q2' : (q:ℝ) ≤ 2 := by exact_mod_cast q2
  have P1 : 1 ≤ (q:ℝ) * Real.pi := by nlinarith
  have P2 : (q:ℝ) * Real.pi ≤ 63 / 10 := by nlinarith
  have hP : Nr (GoTrig.piMul q : F64) (q * Real.pi) (ur * (q * Real.pi)) := by
    rw [h.pi]; exact round_moderate P1 (by linarith) _
  obtain ⟨n1, n2⟩ := ofInt_exact (n := (n : ℤ)) (by rw [abs_of_nonneg (by positivity)]; exact_mod_cast hn2.trans (by norm_num))
  have n0 : (0:ℝ) < n := by exact_mod_cast hn
  have n3 : (n:ℝ) ≤ 2 ^ 52 := by exact_mod_cast hn2
  have ncast : (((GoOfInt.ofInt (n : ℤ) : F64).toQ : ℚ) : ℝ) = n := by rw [n2]; push_cast; rfl
  generalize hP' : (q:ℝ) * Real.pi = P at *
  have s1 := hP.div n1 (by rw [n2]; exact_mod_cast (by omega : n ≠ 0)) (A := P) (by rw [abs_of_pos (by linarith)]) (by
    rw [ncast, abs_of_pos n0, div_le_iff₀ n0]
    have : ur * P ≤ 1 * P := mul_le_mul_of_nonneg_right (u1.trans (by norm_num)) (by linarith)
    have n1' : (1:ℝ) ≤ n := by exact_mod_cast hn
    have : (2:ℝ) ^ 190 * 1 ≤ 2 ^ 190 * n := mul_le_mul_of_nonneg_left n1' (by norm_num)
    have : (20:ℝ) ≤ 2 ^ 190 := by norm_num
    linarith)
  rw [ncast, abs_of_pos n0] at s1
  have hS : ((tau : ℚ) : ℝ) ≤ 1 / 100 * (ur * (P / n)) := by
    have a : (1:ℝ) / 2 ^ 100 ≤ P / n := by
      rw [le_div_iff₀ n0]
      calc (1:ℝ) / 2 ^ 100 * n ≤ 1 / 2 ^ 100 * 2 ^ 52 := mul_le_mul_of_nonneg_left n3 (by positivity)
        _ ≤ 1 := by norm_num
        _ ≤ P := P1
    have := tau_scale a
    have b : 0 ≤ ur * (P / n) := by positivity
    have c : (1:ℝ) / 2 ^ 60 * (ur * (P / n)) ≤ 1 / 100 * (ur * (P / n)) := mul_le_mul_of_nonneg_right (by norm_num) b
    linarith
  refine s1.mono ?_
  have e1 : ur * P / n = ur * (P / n) := by ring
  have e2 : ur * ((P + ur * P) / n) = ur * (P / n) + ur * (ur * (P / n)) := by ring
  rw [e1, e2]
  have : ur * (ur * (P / n)) ≤ 1 / 2 ^ 50 * (ur * (P / n)) := mul_le_mul_of_nonneg_right u1 (by positivity)
  have : (1:ℝ) / 2 ^ 50 * (ur * (P / n)) ≤ 1 / 100 * (ur * (P / n)) := mul_le_mul_of_nonneg_right (by norm_num) (by positivity)
  linarith

/-- `math.Pi/2 - float64(i) * (q * math.Pi / float64(n))` with the product fused -/
theorem angle_down_fma (h : TrigAcc δ) (q : ℚ) (q1 : 1 ≤ q) (q2 : q ≤ 2) (n i : ℕ) (hn : 1 ≤ n) (hn2 : n ≤ 2 ^ 52) (hi : i ≤ n) :
    Nr (fma (-(GoOfInt.ofInt (i : ℤ))) (GoTrig.piMul q / GoOfInt.ofInt (n : ℤ)) (GoTrig.piMul (1/2)) : F64)
      (Real.pi / 2 - i * (q * Real.pi / n)) (31 * ur) := by
  obtain ⟨_, b, c⟩ := angle_near h q q1 q2 n i hn hn2 hi
  have s2 := step_near h q q1 q2 n hn hn2
  have p1 := Real.pi_gt_three
  have p2 := Real.pi_lt_d2
  have u0 := ur_pos
  have u1 := ur_le
  have q2' : (q:ℝ) ≤ 2 := by exact_mod_cast q2
  have P2 : (q:ℝ) * Real.pi ≤ 63 / 10 := by nlinarith
  have hp : ur * (Real.pi / 2) ≤ 16 / 10 * ur := by rw [mul_comm]; exact mul_le_mul_of_nonneg_right (by linarith) u0.le
  obtain ⟨j1, j2⟩ := ofInt_exact (n := (i : ℤ)) (by rw [abs_of_nonneg (by positivity)]; exact_mod_cast (hi.trans hn2).trans (by norm_num))
  obtain ⟨k1, k2⟩ := neg_fin j1
  have jq : (((-(GoOfInt.ofInt (i : ℤ)) : F64).toQ : ℚ) : ℝ) = -i := by rw [k2, j2]; push_cast; rfl
  have hpr : |(((-(GoOfInt.ofInt (i : ℤ)) : F64).toQ : ℚ) : ℝ) * ((GoTrig.piMul q / GoOfInt.ofInt (n : ℤ) : F64).toQ : ℝ) -
      -(i * (q * Real.pi / n))| ≤ 21 * ur := by
    rw [jq]
    have e : -(i:ℝ) * ((GoTrig.piMul q / GoOfInt.ofInt (n : ℤ) : F64).toQ : ℝ) - -(i * (q * Real.pi / n)) =
      -(i * (((GoTrig.piMul q / GoOfInt.ofInt (n : ℤ) : F64).toQ : ℝ) - q * Real.pi / n)) := by ring
    rw [e, abs_neg, abs_mul, abs_of_nonneg (by positivity : (0:ℝ) ≤ i)]
    have m := mul_le_mul_of_nonneg_left s2.err (by positivity : (0:ℝ) ≤ i)
    have e2 : (i:ℝ) * (21 / 10 * (ur * (q * Real.pi / n))) = 21 / 10 * (ur * (i * (q * Real.pi / n))) := by ring
    rw [e2] at m
    have m2 := mul_le_mul_of_nonneg_left (c.trans P2) u0.le
    linarith
  have s := nr_fma k1 s2.fin hpr ((pi_half h).mono hp) (A := 63 / 10) (B := 16 / 10) (by rw [abs_neg, abs_of_nonneg b]; linarith)
    (by rw [abs_of_pos (by linarith)]; linarith) (by
      have : (100:ℝ) ≤ 2 ^ 190 := by norm_num
      have : (1:ℝ) / 2 ^ 50 ≤ 1 := by norm_num
      linarith)
  rw [show -((i:ℝ) * (q * Real.pi / n)) + Real.pi / 2 = Real.pi / 2 - i * (q * Real.pi / n) by ring] at s
  refine s.mono ?_
  have a3 : ((tau : ℚ) : ℝ) ≤ 1 / 100 * ur := by
    have := tau_scale (S := 1) (by norm_num)
    have b : (1:ℝ) / 2 ^ 60 * (ur * 1) ≤ 1 / 100 * ur := by
      rw [mul_one]; exact mul_le_mul_of_nonneg_right (by norm_num) u0.le
    linarith
  have a5 : ur * (63 / 10 + 21 * ur + (16 / 10 + 16 / 10 * ur)) ≤ 8 * ur := by
    have : ur * ur ≤ 1 / 2 ^ 50 * ur := mul_le_mul_of_nonneg_right u1 u0.le
    have : (1:ℝ) / 2 ^ 50 * ur ≤ 1 / 1000 * ur := mul_le_mul_of_nonneg_right (by norm_num) u0.le
    have e : ur * (63 / 10 + 21 * ur + (16 / 10 + 16 / 10 * ur)) = 79 / 10 * ur + 226 / 10 * (ur * ur) := by ring
    rw [e]; linarith
  linarith

/-- the angle from the pole, fused or not -/
theorem angle_downE (h : TrigAcc δ) (q : ℚ) (q1 : 1 ≤ q) (q2 : q ≤ 2) (n i : ℕ) (hn : 1 ≤ n) (hn2 : n ≤ 2 ^ 52) (hi : i ≤ n) :
    NrE (GoTrig.piMul (1/2) - GoOfInt.ofInt (i : ℤ) * (GoTrig.piMul q / GoOfInt.ofInt (n : ℤ)))
      (Real.pi / 2 - i * (q * Real.pi / n)) (31 * ur) := by
  intro v hv
  change TEv (.sub (.leaf _) (.mul (.leaf _) (.div (.leaf _) (.leaf _)))) v at hv
  cases hv with
  | sub h1 h2 =>
    obtain ⟨x, y, hx, hy, rfl⟩ := tmul_inv h2
    obtain ⟨o, p, ho, hp, rfl⟩ := tdiv_inv hy
    rw [tleaf_inv h1, tleaf_inv hx, tleaf_inv ho, tleaf_inv hp]
    exact angle_down h q q1 q2 n i hn hn2 hi
  | subMul hx hy hz =>
    obtain ⟨o, p, ho, hp, rfl⟩ := tdiv_inv hy
    rw [tleaf_inv hz, tleaf_inv hx, tleaf_inv ho, tleaf_inv hp]
    exact angle_down_fma h q q1 q2 n i hn hn2 hi

/-- the angle of a sector: there is nothing to fuse -/
theorem angle_nearE (h : TrigAcc δ) (q : ℚ) (q1 : 1 ≤ q) (q2 : q ≤ 2) (n j : ℕ) (hn : 1 ≤ n) (hn2 : n ≤ 2 ^ 52) (hj : j ≤ n) :
    NrE (GoOfInt.ofInt (j : ℤ) * (GoTrig.piMul q / GoOfInt.ofInt (n : ℤ))) (j * (q * Real.pi / n)) (21 * ur) := by
  intro v hv
  obtain ⟨x, y, hx, hy, rfl⟩ := tmul_inv hv
  obtain ⟨o, p, ho, hp, rfl⟩ := tdiv_inv hy
  rw [tleaf_inv hx, tleaf_inv ho, tleaf_inv hp]
  exact (angle_near h q q1 q2 n j hn hn2 hj).1

/-- a product with an exact factor before rounding -/
theorem exact_mul {a w : F64} {Y ε : ℝ} (hw : Nr w Y ε) : |(a.toQ : ℝ) * w.toQ - a.toQ * Y| ≤ |(a.toQ : ℝ)| * ε := by
  rw [← mul_sub, abs_mul]
  exact mul_le_mul_of_nonneg_left hw.err (abs_nonneg _)

/-- major radius plus tube radius times a cosine, fused -/
theorem torus_xy_fma {R t w : F64} {Y : ℝ} (hR : RadOk R) (ht : RadOk t) (hw : Nr w Y (31 * ur + δ)) (hY : |Y| ≤ 1) (d0 : 0 ≤ δ)
    (ε1 : 31 * ur + δ ≤ 1 / 2 ^ 19) :
    Nr (fma t w R) (R.toQ + t.toQ * Y) ((|(R.toQ : ℝ)| + |(t.toQ : ℝ)|) * (31 * ur + δ + 4 * ur)) := by
  have u0 := ur_pos
  obtain ⟨r1, r2⟩ := hR.real
  obtain ⟨t1, t2⟩ := ht.real
  have q0 : 0 < |(R.toQ : ℝ)| := lt_of_lt_of_le (by positivity) r1
  have t0 : 0 < |(t.toQ : ℝ)| := lt_of_lt_of_le (by positivity) t1
  have wb := (rad_mul ht hw hY ε1).2
  have hm := exact_mul (a := t) hw
  generalize hS : |(R.toQ : ℝ)| + |(t.toQ : ℝ)| = S at *
  have S1 : (1:ℝ) / 2 ^ 100 ≤ S := by
    have : (1:ℝ) / 2 ^ 100 ≤ 1 / 2 ^ 80 := by norm_num
    linarith
  have S2 : S ≤ 2 ^ 81 := by
    have : (2:ℝ) ^ 80 + 2 ^ 80 = 2 ^ 81 := by norm_num
    linarith
  have a0 : 0 ≤ 31 * ur + δ := by linarith
  have a1 : 31 * ur + δ ≤ 1 / 2 ^ 10 := by norm_num at *; linarith
  have tb : |(t.toQ : ℝ)| * (31 * ur + δ) ≤ |(t.toQ : ℝ)| * (1 / 2 ^ 10) := mul_le_mul_of_nonneg_left a1 t0.le
  have xy0 := nr_fma ht.1 hw.fin hm (Nr.exact hR.1) wb le_rfl (by
    have : (2:ℝ) ^ 81 + 2 ^ 81 ≤ 2 ^ 190 := by norm_num
    have : |(t.toQ : ℝ)| * (1 / 2 ^ 10) ≤ |(t.toQ : ℝ)| * 1 := mul_le_mul_of_nonneg_left (by norm_num) t0.le
    linarith)
  rw [add_comm ((t.toQ : ℝ) * Y)] at xy0
  refine xy0.mono ?_
  have t3 := tau_scale S1
  have c2 : (1:ℝ) / 2 ^ 60 * (ur * S) ≤ 1 / 10 * (ur * S) := mul_le_mul_of_nonneg_right (by norm_num) (by positivity)
  have c3 : |(t.toQ : ℝ)| * (31 * ur + δ) ≤ S * (31 * ur + δ) := mul_le_mul_of_nonneg_right (by linarith) a0
  have c4 : ur * (|(t.toQ : ℝ)| + |(t.toQ : ℝ)| * (31 * ur + δ) + (|(R.toQ : ℝ)| + 0)) ≤ ur * (11 / 10 * S) := by
    apply mul_le_mul_of_nonneg_left _ u0.le
    have : |(t.toQ : ℝ)| * (1 / 2 ^ 10) ≤ |(t.toQ : ℝ)| * (1 / 10) := mul_le_mul_of_nonneg_left (by norm_num) t0.le
    linarith
  have e : S * (31 * ur + δ + 4 * ur) = S * (31 * ur + δ) + 4 * (ur * S) := by ring
  have : 0 ≤ ur * S := by positivity
  rw [e]
  linarith

theorem torus_xyE {R t : F64} {w : TExpr F64} {Y : ℝ} (hR : RadOk R) (ht : RadOk t) (hw : NrE w Y (31 * ur + δ)) (hY : |Y| ≤ 1) (d0 : 0 ≤ δ)
    (ε1 : 31 * ur + δ ≤ 1 / 2 ^ 19) :
    NrE (.leaf R + .leaf t * w) (R.toQ + t.toQ * Y) ((|(R.toQ : ℝ)| + |(t.toQ : ℝ)|) * (31 * ur + δ + 4 * ur)) := by
  intro v hv
  change TEv (.add (.leaf _) (.mul (.leaf _) w)) v at hv
  cases hv with
  | add h1 h2 =>
    obtain ⟨x, y, hx, hy, rfl⟩ := tmul_inv h2
    rw [tleaf_inv h1, tleaf_inv hx]
    exact torus_xy hR ht (hw y hy) hY d0 ε1
  | addMul hx hy hz =>
    rw [tleaf_inv hz, tleaf_inv hx]
    exact torus_xy_fma hR ht (hw _ hy) hY d0 ε1

/-- radius times cosine or sine, plus a coordinate of the center, fused -/
theorem center_add_fma {a w c : F64} {Y : ℝ} (ha : RadOk a) (hw : Nr w Y (31 * ur + δ)) (hY : |Y| ≤ 1) (ε1 : 31 * ur + δ ≤ 1 / 2 ^ 19)
    (hc : c.Finite) (hc2 : |c.toQ| ≤ 2 ^ 80) :
    Nr (fma a w c) (a.toQ * Y + c.toQ) (|(a.toQ : ℝ)| * (35 * ur + δ) + ur * |(c.toQ : ℝ)|) := by
  obtain ⟨r1, r2⟩ := ha.real
  have q0 : 0 < |(a.toQ : ℝ)| := lt_of_lt_of_le (by positivity) r1
  have u0 := ur_pos
  have hu : ur ≤ 1 / 2 ^ 50 := ur_le
  have hc3 : |(c.toQ : ℝ)| ≤ 2 ^ 80 := by
    have := (Rat.cast_le (K := ℝ)).mpr hc2
    push_cast at this
    exact this
  have xb := (rad_mul ha hw hY ε1).2
  have b1 : 31 * ur + δ ≤ 1 / 10 := by norm_num at *; linarith
  have b2 : |(a.toQ : ℝ)| * (31 * ur + δ) ≤ |(a.toQ : ℝ)| * (1 / 10) := mul_le_mul_of_nonneg_left b1 q0.le
  have s := nr_fma ha.1 hw.fin (exact_mul (a := a) hw) (Nr.exact hc) xb le_rfl (by
    have : (2:ℝ) ^ 80 + 2 ^ 80 + 2 ^ 80 ≤ 2 ^ 190 := by norm_num
    linarith)
  refine s.mono ?_
  have t := tau_scale (S := |(a.toQ : ℝ)|) (le_trans (by norm_num) r1)
  have c1 : (1:ℝ) / 2 ^ 60 * (ur * |(a.toQ : ℝ)|) ≤ 1 / 10 * (ur * |(a.toQ : ℝ)|) := mul_le_mul_of_nonneg_right (by norm_num) (by positivity)
  have c2 := mul_le_mul_of_nonneg_left b2 u0.le
  have e1 : |(a.toQ : ℝ)| * (35 * ur + δ) = |(a.toQ : ℝ)| * (31 * ur + δ) + 4 * (ur * |(a.toQ : ℝ)|) := by ring
  rw [e1]
  have e2 : ur * (|(a.toQ : ℝ)| + |(a.toQ : ℝ)| * (31 * ur + δ) + (|(c.toQ : ℝ)| + 0)) =
    ur * |(a.toQ : ℝ)| + ur * (|(a.toQ : ℝ)| * (31 * ur + δ)) + ur * |(c.toQ : ℝ)| := by ring
  rw [e2]
  have : 0 ≤ ur * |(a.toQ : ℝ)| := by positivity
  linarith

theorem center_addE {a c : F64} {w : TExpr F64} {Y : ℝ} (ha : RadOk a) (hw : NrE w Y (31 * ur + δ)) (hY : |Y| ≤ 1)
    (ε1 : 31 * ur + δ ≤ 1 / 2 ^ 19) (hc : c.Finite) (hc2 : |c.toQ| ≤ 2 ^ 80) :
    NrE (.leaf a * w + .leaf c) (a.toQ * Y + c.toQ) (|(a.toQ : ℝ)| * (35 * ur + δ) + ur * |(c.toQ : ℝ)|) := by
  intro v hv
  change TEv (.add (.mul (.leaf _) w) (.leaf _)) v at hv
  cases hv with
  | add h1 h2 =>
    obtain ⟨x, y, hx, hy, rfl⟩ := tmul_inv h1
    rw [tleaf_inv h2, tleaf_inv hx]
    exact center_add ha (hw y hy) hY ε1 hc hc2
  | mulAdd hx hy hz =>
    rw [tleaf_inv hz, tleaf_inv hx]
    exact center_add_fma ha (hw _ hy) hY ε1 hc hc2

/-- C122 for the sphere: every vertex and normal, with the exact value it approximates -/
theorem C122_sphere (h : TrigAcc δ) (hδ : δ ≤ 1 / 2 ^ 20) (c : R3.Vector (TExpr F64)) (r : F64) (hr : RadOk r) (sc st : ℕ)
    (hsc : 1 ≤ sc) (hsc2 : sc ≤ 2 ^ 52) (hst2 : st ≤ 2 ^ 52) :
    ∃ m, Sphere.Construct ⟨c, TExpr.leaf r, sc, st⟩ = .ok m ∧ m.Indices = gridIndices sc st ∧
      m.Vertices.length = st * (sc+1) ∧ m.Normals.length = st * (sc+1) ∧
      ∀ i j, i < st → j ≤ sc → ∃ v n, m.Vertices[i * (sc+1) + j]? = some v ∧ m.Normals[i * (sc+1) + j]? = some n ∧
        AllNear v.X (r.toQ * Real.cos (Real.pi/2 - i * (Real.pi / st)) * Real.cos (j * (2 * Real.pi / sc))) (|(r.toQ : ℝ)| * (70 * ur + 3 * δ)) ∧
        AllNear v.Y (r.toQ * Real.cos (Real.pi/2 - i * (Real.pi / st)) * Real.sin (j * (2 * Real.pi / sc))) (|(r.toQ : ℝ)| * (70 * ur + 3 * δ)) ∧
        AllNear v.Z (r.toQ * Real.sin (Real.pi/2 - i * (Real.pi / st))) (|(r.toQ : ℝ)| * (33 * ur + δ)) ∧
        AllNear n.1 (Real.cos (Real.pi/2 - i * (Real.pi / st)) * Real.cos (j * (2 * Real.pi / sc))) (74 * ur + 3 * δ) ∧
        AllNear n.2.1 (Real.cos (Real.pi/2 - i * (Real.pi / st)) * Real.sin (j * (2 * Real.pi / sc))) (74 * ur + 3 * δ) ∧
        AllNear n.2.2 (Real.sin (Real.pi/2 - i * (Real.pi / st))) (37 * ur + δ) := by
  obtain ⟨m, e, hi, l1, l2, _, hm⟩ := gSphere_construct c (TExpr.leaf r) sc st hsc
  refine ⟨m, e, hi, l1, l2, fun i j hi hj => ?_⟩
  obtain ⟨m1, m2, _⟩ := hm i j hi hj
  refine ⟨_, _, m1, m2, ?_⟩
  have d0 := h.nonneg
  obtain ⟨ε0, ε1⟩ := eps_small h hδ
  have u0 := ur_pos
  have p1 := Real.pi_gt_three
  have p2 := Real.pi_lt_d2
  obtain ⟨r1, r2⟩ := hr.real
  have q0 : 0 < |(r.toQ : ℝ)| := lt_of_lt_of_le (by positivity) r1
  have rn : (r.toQ : ℝ) ≠ 0 := abs_pos.mp q0
  -- angles
  have st1 : 1 ≤ st := by omega
  have A := angle_downE h 1 le_rfl (by norm_num) st i st1 hst2 hi.le
  obtain ⟨_, A1, A2⟩ := angle_near h 1 le_rfl (by norm_num) st i st1 hst2 hi.le
  have B := angle_nearE h 2 (by norm_num) le_rfl sc j hsc hsc2 hj
  obtain ⟨_, B1, B2⟩ := angle_near h 2 (by norm_num) le_rfl sc j hsc hsc2 hj
  simp only [Rat.cast_one, Rat.cast_ofNat, one_mul] at A A1 A2 B B1 B2
  obtain ⟨ca, sa⟩ := NrE.trig h A (by rw [abs_le]; constructor <;> linarith)
  obtain ⟨cb, sb⟩ := NrE.trig h (B.mono (f := 31 * ur) (by linarith)) (by rw [abs_le]; constructor <;> linarith)
  generalize Real.pi/2 - (i:ℝ) * (Real.pi / st) = α at *
  generalize (j:ℝ) * (2 * Real.pi / sc) = β at *
  -- stack
  obtain ⟨xy, xyb⟩ := NrE.rad_mul hr ca (Real.abs_cos_le_one α) ε1
  obtain ⟨z, zb⟩ := NrE.rad_mul hr sa (Real.abs_sin_le_one α) ε1
  have a0 : 0 ≤ 31 * ur + δ + 2 * ur := by linarith
  have a1 : 31 * ur + δ + 2 * ur ≤ 1 / 2 ^ 10 := by
    have : ur ≤ 1 / 2 ^ 50 := ur_le
    norm_num at *; linarith
  have hK := ring_err (k := 2) rfl d0 ε1 (by norm_num)
  have x := (NrE.scale_mul xy xyb cb (Real.abs_cos_le_one β) (le_trans (by norm_num) r1) (r2.trans (by norm_num)) a0 a1 (ε1.trans (by norm_num))).mono
    (mul_le_mul_of_nonneg_left hK q0.le)
  have y := (NrE.scale_mul xy xyb sb (Real.abs_sin_le_one β) (le_trans (by norm_num) r1) (r2.trans (by norm_num)) a0 a1 (ε1.trans (by norm_num))).mono
    (mul_le_mul_of_nonneg_left hK q0.le)
  have xb : |(r.toQ : ℝ) * Real.cos α * Real.cos β| ≤ |(r.toQ : ℝ)| := by
    rw [abs_mul]; exact (mul_le_of_le_one_right (abs_nonneg _) (Real.abs_cos_le_one β)).trans xyb
  have yb : |(r.toQ : ℝ) * Real.cos α * Real.sin β| ≤ |(r.toQ : ℝ)| := by
    rw [abs_mul]; exact (mul_le_of_le_one_right (abs_nonneg _) (Real.abs_sin_le_one β)).trans xyb
  have b1 : 70 * ur + 3 * δ ≤ 1 / 2 ^ 10 := by
    have : ur ≤ 1 / 2 ^ 50 := ur_le
    norm_num at *; linarith
  have nx := NrE.scale_inv x xb hr.1 r1 r2 le_rfl (r2.trans (by norm_num)) (by positivity) b1
  have ny := NrE.scale_inv y yb hr.1 r1 r2 le_rfl (r2.trans (by norm_num)) (by positivity) b1
  have nz := NrE.scale_inv z zb hr.1 r1 r2 le_rfl (r2.trans (by norm_num)) a0 a1
  rw [div_self q0.ne', one_mul] at nx ny nz
  rw [show (r.toQ : ℝ) * Real.cos α * Real.cos β * (1 / r.toQ) = Real.cos α * Real.cos β by field_simp] at nx
  rw [show (r.toQ : ℝ) * Real.cos α * Real.sin β * (1 / r.toQ) = Real.cos α * Real.sin β by field_simp] at ny
  rw [show (r.toQ : ℝ) * Real.sin α * (1 / r.toQ) = Real.sin α by field_simp] at nz
  have ez : 31 * ur + δ + 2 * ur = 33 * ur + δ := by ring
  rw [ez] at z nz
  exact ⟨x.within, y.within, z.within, (nx.mono (by linarith)).within, (ny.mono (by linarith)).within, (nz.mono (by linarith)).within⟩

/-- C122 for the torus -/
theorem C122_torus (h : TrigAcc δ) (hδ : δ ≤ 1 / 2 ^ 20) (c : R3.Vector (TExpr F64)) (R t : F64) (hR : RadOk R) (ht : RadOk t) (sc st : ℕ)
    (hsc : 1 ≤ sc) (hsc2 : sc ≤ 2 ^ 52) (hst2 : st ≤ 2 ^ 52) :
    ∃ m, Torus.Construct ⟨c, TExpr.leaf R, TExpr.leaf t, sc, st⟩ = .ok m ∧ m.Indices = gridIndices sc st ∧
      m.Vertices.length = st * (sc+1) ∧ m.Normals.length = st * (sc+1) ∧
      ∀ i j, i < st → j ≤ sc → ∃ v n, m.Vertices[i * (sc+1) + j]? = some v ∧ m.Normals[i * (sc+1) + j]? = some n ∧
        AllNear v.X ((R.toQ + t.toQ * Real.cos (Real.pi/2 - i * (2 * Real.pi / st))) * Real.cos (j * (2 * Real.pi / sc)))
          ((|(R.toQ : ℝ)| + |(t.toQ : ℝ)|) * (70 * ur + 3 * δ)) ∧
        AllNear v.Y ((R.toQ + t.toQ * Real.cos (Real.pi/2 - i * (2 * Real.pi / st))) * Real.sin (j * (2 * Real.pi / sc)))
          ((|(R.toQ : ℝ)| + |(t.toQ : ℝ)|) * (70 * ur + 3 * δ)) ∧
        AllNear v.Z (t.toQ * Real.sin (Real.pi/2 - i * (2 * Real.pi / st))) (|(t.toQ : ℝ)| * (33 * ur + δ)) ∧
        AllNear n.1 ((R.toQ + t.toQ * Real.cos (Real.pi/2 - i * (2 * Real.pi / st))) * Real.cos (j * (2 * Real.pi / sc)) / R.toQ)
          ((|(R.toQ : ℝ)| + |(t.toQ : ℝ)|) / |(R.toQ : ℝ)| * (74 * ur + 3 * δ)) ∧
        AllNear n.2.1 ((R.toQ + t.toQ * Real.cos (Real.pi/2 - i * (2 * Real.pi / st))) * Real.sin (j * (2 * Real.pi / sc)) / R.toQ)
          ((|(R.toQ : ℝ)| + |(t.toQ : ℝ)|) / |(R.toQ : ℝ)| * (74 * ur + 3 * δ)) ∧
        AllNear n.2.2 (t.toQ * Real.sin (Real.pi/2 - i * (2 * Real.pi / st)) / R.toQ)
          ((|(R.toQ : ℝ)| + |(t.toQ : ℝ)|) / |(R.toQ : ℝ)| * (74 * ur + 3 * δ)) := by
  obtain ⟨m, e, hi, l1, l2, _, hm⟩ := gTorus_construct c (TExpr.leaf R) (TExpr.leaf t) sc st hsc
  refine ⟨m, e, hi, l1, l2, fun i j hi hj => ?_⟩
  obtain ⟨m1, m2, _⟩ := hm i j hi hj
  refine ⟨_, _, m1, m2, ?_⟩
  have d0 := h.nonneg
  obtain ⟨ε0, ε1⟩ := eps_small h hδ
  have u0 := ur_pos
  have p1 := Real.pi_gt_three
  have p2 := Real.pi_lt_d2
  obtain ⟨r1, r2⟩ := hR.real
  obtain ⟨t1, t2⟩ := ht.real
  have q0 : 0 < |(R.toQ : ℝ)| := lt_of_lt_of_le (by positivity) r1
  have t0 : 0 < |(t.toQ : ℝ)| := lt_of_lt_of_le (by positivity) t1
  -- angles
  have st1 : 1 ≤ st := by omega
  have A := angle_downE h 2 (by norm_num) le_rfl st i st1 hst2 hi.le
  obtain ⟨_, A1, A2⟩ := angle_near h 2 (by norm_num) le_rfl st i st1 hst2 hi.le
  have B := angle_nearE h 2 (by norm_num) le_rfl sc j hsc hsc2 hj
  obtain ⟨_, B1, B2⟩ := angle_near h 2 (by norm_num) le_rfl sc j hsc hsc2 hj
  simp only [Rat.cast_ofNat] at A A1 A2 B B1 B2
  obtain ⟨ca, sa⟩ := NrE.trig h A (by rw [abs_le]; constructor <;> linarith)
  obtain ⟨cb, sb⟩ := NrE.trig h (B.mono (f := 31 * ur) (by linarith)) (by rw [abs_le]; constructor <;> linarith)
  generalize Real.pi/2 - (i:ℝ) * (2 * Real.pi / st) = α at *
  generalize (j:ℝ) * (2 * Real.pi / sc) = β at *
  -- stack
  obtain ⟨w, wb⟩ := NrE.rad_mul ht ca (Real.abs_cos_le_one α) ε1
  obtain ⟨z, zb⟩ := NrE.rad_mul ht sa (Real.abs_sin_le_one α) ε1
  generalize hS : |(R.toQ : ℝ)| + |(t.toQ : ℝ)| = S at *
  have S1 : (1:ℝ) / 2 ^ 100 ≤ S := by
    have : (1:ℝ) / 2 ^ 100 ≤ 1 / 2 ^ 80 := by norm_num
    linarith
  have S2 : S ≤ 2 ^ 81 := by
    have : (2:ℝ) ^ 80 + 2 ^ 80 = 2 ^ 81 := by norm_num
    linarith
  have S0 : 0 < S := by linarith
  have hu : ur ≤ 1 / 2 ^ 50 := ur_le
  have a0 : 0 ≤ 31 * ur + δ + 2 * ur := by linarith
  have a1 : 31 * ur + δ + 2 * ur ≤ 1 / 2 ^ 10 := by norm_num at *; linarith
  have xy := torus_xyE hR ht ca (Real.abs_cos_le_one α) d0 ε1
  rw [hS] at xy
  have xyb : |(R.toQ : ℝ) + t.toQ * Real.cos α| ≤ S := (abs_add_le _ _).trans (by linarith)
  have a0' : 0 ≤ 31 * ur + δ + 4 * ur := by linarith
  have a1' : 31 * ur + δ + 4 * ur ≤ 1 / 2 ^ 10 := by norm_num at *; linarith
  have hK := ring_err (k := 4) rfl d0 ε1 (by norm_num)
  have x := (NrE.scale_mul xy xyb cb (Real.abs_cos_le_one β) S1 (S2.trans (by norm_num)) a0' a1' (ε1.trans (by norm_num))).mono
    (mul_le_mul_of_nonneg_left hK S0.le)
  have y := (NrE.scale_mul xy xyb sb (Real.abs_sin_le_one β) S1 (S2.trans (by norm_num)) a0' a1' (ε1.trans (by norm_num))).mono
    (mul_le_mul_of_nonneg_left hK S0.le)
  have xb : |((R.toQ : ℝ) + t.toQ * Real.cos α) * Real.cos β| ≤ S := by
    rw [abs_mul]; exact (mul_le_of_le_one_right (abs_nonneg _) (Real.abs_cos_le_one β)).trans xyb
  have yb : |((R.toQ : ℝ) + t.toQ * Real.cos α) * Real.sin β| ≤ S := by
    rw [abs_mul]; exact (mul_le_of_le_one_right (abs_nonneg _) (Real.abs_sin_le_one β)).trans xyb
  have b0 : 0 ≤ 70 * ur + 3 * δ := by positivity
  have b1 : 70 * ur + 3 * δ ≤ 1 / 2 ^ 10 := by norm_num at *; linarith
  have zS : NrE (.leaf t * GoTrig.sin (GoTrig.piMul (1/2) - GoOfInt.ofInt (i : ℤ) * (GoTrig.piMul 2 / GoOfInt.ofInt (st : ℤ))))
      (t.toQ * Real.sin α) (S * (70 * ur + 3 * δ)) := z.mono (mul_le_mul (by linarith) (by linarith) a0 S0.le)
  have nx := NrE.scale_inv x xb hR.1 r1 r2 (by linarith) S2 b0 b1
  have ny := NrE.scale_inv y yb hR.1 r1 r2 (by linarith) S2 b0 b1
  have nz := NrE.scale_inv zS (zb.trans (by linarith)) hR.1 r1 r2 (by linarith) S2 b0 b1
  rw [mul_one_div] at nx ny nz
  have ek : 70 * ur + 3 * δ + 4 * ur = 74 * ur + 3 * δ := by ring
  rw [ek] at nx ny nz
  have ez : 31 * ur + δ + 2 * ur = 33 * ur + δ := by ring
  rw [ez] at z
  exact ⟨x.within, y.within, z.within, nx.within, ny.within, nz.within⟩

/-- a vector of machine numbers as a vector of expressions -/
def leafV (c : R3.Vector F64) : R3.Vector (TExpr F64) := ⟨.leaf c.X, .leaf c.Y, .leaf c.Z⟩

/-- C122 for the ellipse -/
theorem C122_ellipse (h : TrigAcc δ) (hδ : δ ≤ 1 / 2 ^ 20) (c : R3.Vector F64) (hc : FinV c) (cx : |c.X.toQ| ≤ 2 ^ 80) (cy : |c.Y.toQ| ≤ 2 ^ 80)
    (a b : F64) (ha : RadOk a) (hb : RadOk b) (n : ℕ) (hn : n ≤ 2 ^ 52) :
    (Ellipse.Construct ⟨leafV c, .leaf a, .leaf b, n⟩).Vertices.length = n + 1 ∧
    (Ellipse.Construct ⟨leafV c, .leaf a, .leaf b, n⟩).Vertices[0]? = some (leafV c) ∧
    ∀ k, k < n → ∃ v, (Ellipse.Construct ⟨leafV c, .leaf a, .leaf b, n⟩).Vertices[k+1]? = some v ∧
      AllNear v.X (c.X.toQ + a.toQ * Real.sin (k * (2 * Real.pi / n))) (|(a.toQ : ℝ)| * (35 * ur + δ) + ur * |(c.X.toQ : ℝ)|) ∧
      AllNear v.Y (c.Y.toQ + b.toQ * Real.cos (k * (2 * Real.pi / n))) (|(b.toQ : ℝ)| * (35 * ur + δ) + ur * |(c.Y.toQ : ℝ)|) ∧
      AllNear v.Z c.Z.toQ 0 := by
  have hV : (Ellipse.Construct ⟨leafV c, .leaf a, .leaf b, n⟩).Vertices = leafV c :: (List.range n).map (fun k : ℕ =>
      (⟨.leaf a * GoTrig.cos (GoTrig.piMul (1/2) - GoOfInt.ofInt (k : ℤ) * (GoTrig.piMul 2 / GoOfInt.ofInt (n : ℤ))) + .leaf c.X,
        .leaf b * GoTrig.sin (GoTrig.piMul (1/2) - GoOfInt.ofInt (k : ℤ) * (GoTrig.piMul 2 / GoOfInt.ofInt (n : ℤ))) + .leaf c.Y,
        0 + .leaf c.Z⟩ : R3.Vector (TExpr F64))) := by
    show Ellipse.generateVertices ⟨leafV c, .leaf a, .leaf b, n⟩ = _
    unfold Ellipse.generateVertices
    dsimp only
    rw [loopTo_nat, List.map_map]
    rfl
  rw [hV]
  refine ⟨by simp, rfl, fun k hk => ?_⟩
  rw [List.getElem?_cons_succ, List.getElem?_map, List.getElem?_range hk]
  refine ⟨_, rfl, ?_⟩
  obtain ⟨ε0, ε1⟩ := eps_small h hδ
  have p1 := Real.pi_gt_three
  have p2 := Real.pi_lt_d2
  have A := angle_downE h 2 (by norm_num) le_rfl n k (by omega) hn hk.le
  obtain ⟨_, A1, A2⟩ := angle_near h 2 (by norm_num) le_rfl n k (by omega) hn hk.le
  simp only [Rat.cast_ofNat] at A A1 A2
  obtain ⟨ca, sa⟩ := NrE.trig h A (by rw [abs_le]; constructor <;> linarith)
  rw [Real.cos_pi_div_two_sub] at ca
  rw [Real.sin_pi_div_two_sub] at sa
  have x := center_addE ha ca (Real.abs_sin_le_one _) ε1 hc.1 cx
  have y := center_addE hb sa (Real.abs_cos_le_one _) ε1 hc.2.1 cy
  rw [add_comm] at x y
  refine ⟨x.within, y.within, fun v hv => ?_⟩
  have z : (0 + c.Z).Finite ∧ (0 + c.Z).toQ = c.Z.toQ := by
    have e : (0 : F64).toQ + c.Z.toQ = c.Z.toQ := by
      have : (0 : F64).toQ = 0 := rfl
      rw [this, zero_add]
    have hf := add_fin (x := (0 : F64)) trivial hc.2.2 (by
      rw [e, rnd_toQ]
      exact Verif.F64.IsBin64.lt (toQ_bin c.Z))
    rw [e, rnd_toQ] at hf
    exact hf
  change TEv (.add (.leaf 0) (.leaf c.Z)) v at hv
  cases hv with
  | add h1 h2 =>
    rw [tleaf_inv h1, tleaf_inv h2]
    exact ⟨z.1, by rw [z.2]; simp⟩

/-- C122 for the circle -/
theorem C122_circle (h : TrigAcc δ) (hδ : δ ≤ 1 / 2 ^ 20) (c : R3.Vector F64) (hc : FinV c) (cx : |c.X.toQ| ≤ 2 ^ 80) (cy : |c.Y.toQ| ≤ 2 ^ 80)
    (r : F64) (hr : RadOk r) (n : ℕ) (hn : n ≤ 2 ^ 52) :
    (Circle.Construct ⟨leafV c, .leaf r, n⟩).Vertices.length = n + 1 ∧
    (Circle.Construct ⟨leafV c, .leaf r, n⟩).Vertices[0]? = some (leafV c) ∧
    ∀ k, k < n → ∃ v, (Circle.Construct ⟨leafV c, .leaf r, n⟩).Vertices[k+1]? = some v ∧
      AllNear v.X (c.X.toQ + r.toQ * Real.sin (k * (2 * Real.pi / n))) (|(r.toQ : ℝ)| * (35 * ur + δ) + ur * |(c.X.toQ : ℝ)|) ∧
      AllNear v.Y (c.Y.toQ + r.toQ * Real.cos (k * (2 * Real.pi / n))) (|(r.toQ : ℝ)| * (35 * ur + δ) + ur * |(c.Y.toQ : ℝ)|) ∧
      AllNear v.Z c.Z.toQ 0 :=
  C122_ellipse h hδ c hc cx cy r r hr hr n hn

/-! ## The plain program is the plain evaluation of the expressions -/

/-- the vector with every operation done by itself -/
def plainV (v : R3.Vector (TExpr F64)) : R3.Vector F64 := ⟨v.X.eval, v.Y.eval, v.Z.eval⟩

/-- two lists over the same grid agree when their entries do -/
theorem grid_ext {α : Type} {l l' : List α} (st sc : ℕ) (h : l.length = st * (sc+1)) (h' : l'.length = st * (sc+1))
    (hv : ∀ i j, i < st → j ≤ sc → l[i * (sc+1) + j]? = l'[i * (sc+1) + j]?) : l = l' := by
  apply List.ext_getElem?
  intro k
  by_cases hk : k < st * (sc+1)
  · obtain ⟨i, j, hi, hj, rfl⟩ := grid_index st (sc+1) k hk
    exact hv i j hi (by omega)
  · rw [List.getElem?_eq_none (by omega), List.getElem?_eq_none (by omega)]

/-- C122: without fusing, the expressions of the sphere have the values of the plain program -/
theorem C122_plain_sphere (c : R3.Vector (TExpr F64)) (r : F64) (sc st : ℕ) (hsc : 1 ≤ sc) :
    ∃ m m', Sphere.Construct ⟨c, TExpr.leaf r, sc, st⟩ = .ok m ∧ Sphere.Construct ⟨plainV c, r, sc, st⟩ = .ok m' ∧
      m'.Indices = m.Indices ∧ m'.Vertices = m.Vertices.map plainV ∧ m'.Normals = m.Normals.map fun n => (n.1.eval, n.2.1.eval, n.2.2.eval) := by
  obtain ⟨m, e, hi, l1, l2, _, hm⟩ := gSphere_construct c (TExpr.leaf r) sc st hsc
  obtain ⟨m', e', hi', l1', l2', _, hm'⟩ := gSphere_construct (plainV c) r sc st hsc
  refine ⟨m, m', e, e', by rw [hi, hi'], ?_, ?_⟩
  · refine grid_ext st sc l1' (by rw [List.length_map, l1]) fun i j h1 h2 => ?_
    rw [List.getElem?_map, (hm i j h1 h2).1, (hm' i j h1 h2).1]; rfl
  · refine grid_ext st sc l2' (by rw [List.length_map, l2]) fun i j h1 h2 => ?_
    rw [List.getElem?_map, (hm i j h1 h2).2.1, (hm' i j h1 h2).2.1]; rfl

/-- C122: the same for the torus -/
theorem C122_plain_torus (c : R3.Vector (TExpr F64)) (R t : F64) (sc st : ℕ) (hsc : 1 ≤ sc) :
    ∃ m m', Torus.Construct ⟨c, TExpr.leaf R, TExpr.leaf t, sc, st⟩ = .ok m ∧ Torus.Construct ⟨plainV c, R, t, sc, st⟩ = .ok m' ∧
      m'.Indices = m.Indices ∧ m'.Vertices = m.Vertices.map plainV ∧ m'.Normals = m.Normals.map fun n => (n.1.eval, n.2.1.eval, n.2.2.eval) := by
  obtain ⟨m, e, hi, l1, l2, _, hm⟩ := gTorus_construct c (TExpr.leaf R) (TExpr.leaf t) sc st hsc
  obtain ⟨m', e', hi', l1', l2', _, hm'⟩ := gTorus_construct (plainV c) R t sc st hsc
  refine ⟨m, m', e, e', by rw [hi, hi'], ?_, ?_⟩
  · refine grid_ext st sc l1' (by rw [List.length_map, l1]) fun i j h1 h2 => ?_
    rw [List.getElem?_map, (hm i j h1 h2).1, (hm' i j h1 h2).1]; rfl
  · refine grid_ext st sc l2' (by rw [List.length_map, l2]) fun i j h1 h2 => ?_
    rw [List.getElem?_map, (hm i j h1 h2).2.1, (hm' i j h1 h2).2.1]; rfl

/-- C122: the same for the ellipse and the circle, for every number of sectors -/
theorem C122_plain_ellipse (c : R3.Vector F64) (a b : F64) (n : ℤ) :
    (Ellipse.Construct ⟨c, a, b, n⟩).Vertices = (Ellipse.Construct ⟨leafV c, .leaf a, .leaf b, n⟩).Vertices.map plainV ∧
    (Circle.Construct ⟨c, a, n⟩).Vertices = (Circle.Construct ⟨leafV c, .leaf a, n⟩).Vertices.map plainV := by
  constructor
  · show Ellipse.generateVertices _ = (Ellipse.generateVertices _).map plainV
    unfold Ellipse.generateVertices
    simp only [List.map_cons, List.map_map]
    rfl
  · show Circle.generateVertices _ = (Circle.generateVertices _).map plainV
    unfold Circle.generateVertices
    simp only [List.map_cons, List.map_map]
    rfl

/-! ## Consequences -/

/-- C122: however the operations are fused, the computed vertices of the sphere have nearly the distance `|r|` from the origin and the computed normals
have nearly unit length -/
theorem C122_sphere_distance (h : TrigAcc δ) (hδ : δ ≤ 1 / 2 ^ 20) (c : R3.Vector (TExpr F64)) (r : F64) (hr : RadOk r) (sc st : ℕ)
    (hsc : 1 ≤ sc) (hsc2 : sc ≤ 2 ^ 52) (hst2 : st ≤ 2 ^ 52) :
    ∃ m, Sphere.Construct ⟨c, TExpr.leaf r, sc, st⟩ = .ok m ∧
      (∀ v ∈ m.Vertices, ∀ x y z, TEv v.X x → TEv v.Y y → TEv v.Z z →
        abs (Real.sqrt ((x.toQ : ℝ) ^ 2 + (y.toQ : ℝ) ^ 2 + (z.toQ : ℝ) ^ 2) - |(r.toQ : ℝ)|) ≤ |(r.toQ : ℝ)| * (140 * ur + 6 * δ)) ∧
      ∀ n ∈ m.Normals, ∀ x y z, TEv n.1 x → TEv n.2.1 y → TEv n.2.2 z →
        |Real.sqrt ((x.toQ : ℝ) ^ 2 + (y.toQ : ℝ) ^ 2 + (z.toQ : ℝ) ^ 2) - 1| ≤ 148 * ur + 6 * δ := by
  obtain ⟨m, e, _, l1, l2, hm⟩ := C122_sphere h hδ c r hr sc st hsc hsc2 hst2
  have d0 := h.nonneg
  have u0 := ur_pos
  obtain ⟨r1, r2⟩ := hr.real
  have q0 : 0 < |(r.toQ : ℝ)| := lt_of_lt_of_le (by positivity) r1
  have b1 : 10 * (74 * ur + 3 * δ) ≤ 1 := by
    have : ur ≤ 1 / 2 ^ 50 := ur_le
    norm_num at *; linarith
  refine ⟨m, e, fun v hv vx vy vz ex ey ez => ?_, fun n hn nx ny nz ex ey ez => ?_⟩
  · obtain ⟨k, hk, rfl⟩ := List.mem_iff_getElem.mp hv
    obtain ⟨i, j, hi, hj, rfl⟩ := grid_index st (sc+1) k (by omega)
    obtain ⟨v, n, hv', _, x, y, z, _⟩ := hm i j hi (by omega)
    rw [List.getElem?_eq_getElem hk] at hv'
    injection hv' with hv'
    rw [hv'] at ex ey ez
    have z' := (z _ ez).2.trans (mul_le_mul_of_nonneg_left (show 33 * ur + δ ≤ 70 * ur + 3 * δ by linarith) q0.le)
    have := length_near (x _ ex).2 (y _ ey).2 z' q0.le (by rw [sphere_sq, sq_abs]) (by
      have := mul_le_mul_of_nonneg_left (show 10 * (70 * ur + 3 * δ) ≤ 1 by linarith) q0.le
      linarith)
    refine this.trans (le_of_eq ?_); ring
  · obtain ⟨k, hk, rfl⟩ := List.mem_iff_getElem.mp hn
    obtain ⟨i, j, hi, hj, rfl⟩ := grid_index st (sc+1) k (by omega)
    obtain ⟨v, n, _, hn', _, _, _, x, y, z⟩ := hm i j hi (by omega)
    rw [List.getElem?_eq_getElem hk] at hn'
    injection hn' with hn'
    rw [hn'] at ex ey ez
    have z' := (z _ ez).2.trans (show 37 * ur + δ ≤ 74 * ur + 3 * δ by linarith)
    have := length_near (x _ ex).2 (y _ ey).2 z' zero_le_one
      (by have := sphere_sq 1 (Real.pi/2 - i * (Real.pi / st)) (j * (2 * Real.pi / sc)); simpa using this) b1
    refine this.trans (le_of_eq ?_); ring

/-! ## Concrete cases -/

example (c : R3.Vector (TExpr F64)) : letI := roundedTrig
    ∃ m, Sphere.Construct ⟨c, TExpr.leaf (1 : F64), 300, 300⟩ = .ok m ∧ m.Vertices.length = 300 * 301 ∧
      ∀ v ∈ m.Vertices, |Real.sqrt ((v.X.fuse.toQ : ℝ) ^ 2 + (v.Y.fuse.toQ : ℝ) ^ 2 + (v.Z.fuse.toQ : ℝ) ^ 2) - 1| ≤ 146 * ur := by
  letI := roundedTrig
  obtain ⟨m, e, h, _⟩ := C122_sphere_distance roundedTrig_acc (ur_le.trans (by norm_num)) c 1 radOk_one 300 300 (by norm_num) (by norm_num) (by norm_num)
  obtain ⟨m', e', _, l, _⟩ := C122_sphere roundedTrig_acc (ur_le.trans (by norm_num)) c 1 radOk_one 300 300 (by norm_num) (by norm_num) (by norm_num)
  rw [e] at e'
  injection e' with e'
  subst e'
  refine ⟨m, e, l, fun v hv => ?_⟩
  have := h v hv _ _ _ (C122_fuse _) (C122_fuse _) (C122_fuse _)
  have e1 : ((1 : F64).toQ : ℝ) = 1 := by
    have : (1 : F64).toQ = 1 := rfl
    rw [this]; norm_num
  rw [e1, abs_one, one_mul] at this
  exact this.trans (by linarith)

/-- cosine and sine stubs for the next case only -/
def tenthTrig : GoTrig F64 := ⟨fun _ => GoConst.const (1/10), fun _ => GoConst.const (1/10), fun q => GoConst.const q⟩

/-- C122: fusing does change vertices: with a cosine of one tenth, radius one tenth and a center at the negative of the rounded product, the plain program
computes zero and the fused one does not -/
theorem C122_differs : letI := tenthTrig
    let w : F64 := GoConst.const (1/10)
    ∃ v, (Circle.Construct ⟨leafV ⟨-(w * w), 0, 0⟩, .leaf w, 1⟩).Vertices[1]? = some v ∧ v.X.eval.toQ = 0 ∧ v.X.fuse.toQ ≠ 0 := by
  refine ⟨_, rfl, ?_, ?_⟩ <;> decide +kernel

end Verif.Props
