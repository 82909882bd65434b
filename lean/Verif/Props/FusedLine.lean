import Verif.Model.FusedLine
import Verif.Proofs.Fused
import Verif.Props.LineFloat
/-!
# C124: lengths, normalisation and the intersection of a line and a plane, however fused
-/
namespace Verif.Props
set_option linter.unusedSectionVars false
open Verif Verif.F64 Verif.Proofs Verif.R3

/-- the ways to compute a scalar product -/
theorem dot_inv {n v : R3.Vector F64} {d : F64} (h : Ev (Dot (leafs n) (leafs v)) d) :
    ∃ s, (s = n.X * v.X + n.Y * v.Y ∨ s = fma n.X v.X (n.Y * v.Y) ∨ s = fma n.Y v.Y (n.X * v.X)) ∧ (d = s + n.Z * v.Z ∨ d = fma n.Z v.Z s) := by
  have prod : ∀ {x y z : F64}, Ev ((.leaf x : Expr F64) * .leaf y) z → z = x * y := by
    intro x y z h
    obtain ⟨a, b, ha, hb, rfl⟩ := h.mul_inv
    rw [ha.leaf_inv, hb.leaf_inv]
  have inner : ∀ {s}, Ev ((.leaf n.X : Expr F64) * .leaf v.X + .leaf n.Y * .leaf v.Y) s →
      (s = n.X * v.X + n.Y * v.Y ∨ s = fma n.X v.X (n.Y * v.Y) ∨ s = fma n.Y v.Y (n.X * v.X)) := by
    intro s h
    rcases h.add_inv with ⟨x, y, hx, hy, rfl⟩ | ⟨a1, a2, x, y, z, e, hx, hy, hz, rfl⟩ | ⟨a1, a2, x, y, z, e, hx, hy, hz, rfl⟩
    · left; rw [prod hx, prod hy]
    · right; left
      injection e with e1 e2
      subst e1 e2
      rw [hx.leaf_inv, hy.leaf_inv, prod hz]
    · right; right
      injection e with e1 e2
      subst e1 e2
      rw [hx.leaf_inv, hy.leaf_inv, prod hz]
  have h : Ev (((.leaf n.X : Expr F64) * .leaf v.X + .leaf n.Y * .leaf v.Y) + .leaf n.Z * .leaf v.Z) d := h
  rcases h.add_inv with ⟨x, y, hx, hy, rfl⟩ | ⟨a1, a2, x, y, z, e, hx, hy, hz, rfl⟩ | ⟨a1, a2, x, y, z, e, hx, hy, hz, rfl⟩
  · exact ⟨x, inner hx, Or.inl (by rw [prod hy])⟩
  · exact absurd e (by intro h; injection h)
  · injection e with e1 e2
    subst e1 e2
    exact ⟨z, inner hz, Or.inr (by rw [hx.leaf_inv, hy.leaf_inv])⟩

/-- the difference of two scalar products is not fused -/
theorem diff_inv {n v m w : R3.Vector F64} {d : F64} (h : Ev (Dot (leafs n) (leafs v) - Dot (leafs m) (leafs w)) d) :
    ∃ x y, Ev (Dot (leafs n) (leafs v)) x ∧ Ev (Dot (leafs m) (leafs w)) y ∧ d = x - y := by
  rcases h.sub_inv with h | ⟨a1, a2, x, y, z, e, _⟩ | ⟨a1, a2, x, y, z, e, _⟩
  · exact h
  · exact absurd e (by intro h; injection h)
  · exact absurd e (by intro h; injection h)

theorem App.fma_prod {x y z : F64} {N R Z l c : ℚ} (hx : x.Finite ∧ |x.toQ| ≤ N) (hy : y.Finite ∧ |y.toQ| ≤ R) (hNR : Scale (N * R)) (hz : App z Z (N * R) l c)
    (hl : l ≤ 2 ^ 20) (hc : c ≤ 2 ^ 20) : App (fma x y z) (x.toQ * y.toQ + Z) (N * R) (l + c + 3 / 2) (c + 1) := by
  have hX : |x.toQ * y.toQ + Z| ≤ (c + 1) * (N * R) := by
    refine (abs_add_le _ _).trans ?_
    rw [abs_mul]
    have := mul_le_mul hx.2 hy.2 (abs_nonneg _) ((abs_nonneg _).trans hx.2)
    have := hz.le
    linarith
  have he : |x.toQ * y.toQ + z.toQ - (x.toQ * y.toQ + Z)| ≤ l * (uro * (N * R)) := by
    rw [add_sub_add_left_eq_sub]; exact hz.err
  obtain ⟨r1, r2⟩ := app_round hNR (by linarith) (by linarith) he hX
  obtain ⟨f, e⟩ := fma_fin hx.1 hy.1 hz.fin r1
  refine ⟨f, ?_, hX⟩
  rw [e]
  refine r2.trans (le_of_eq ?_); ring

/-- a scalar product, however fused, has the error bound of the plain one -/
theorem dot_fused {N R : ℚ} (hN : Scale N) (hR : Scale R) (hNR : Scale (N * R)) {n v : R3.Vector F64} (hn : Bounded3 N n) (hv : Bounded3 R v) {d : F64}
    (h : Ev (Dot (leafs n) (leafs v)) d) : App d (dotQ n v) (N * R) 12 3 := by
  have m : ∀ {x y : F64}, (x.Finite ∧ |x.toQ| ≤ N) → (y.Finite ∧ |y.toQ| ≤ R) → App (x * y) (x.toQ * y.toQ) (N * R) 2 1 := by
    intro x y hx hy
    have a : App x x.toQ N 0 1 := ⟨hx.1, by simp, by simpa using hx.2⟩
    have b : App y y.toQ R 0 1 := ⟨hy.1, by simp, by simpa using hy.2⟩
    exact (a.mul b hN hR hNR (by norm_num) (by norm_num) (by norm_num) (by norm_num)).weaken hNR (by norm_num) (by norm_num)
  obtain ⟨s, hs, hd⟩ := dot_inv h
  have s1 : App s (n.X.toQ * v.X.toQ + n.Y.toQ * v.Y.toQ) (N * R) (13 / 2) 2 := by
    rcases hs with rfl | rfl | rfl
    · exact ((m hn.1 hv.1).add (m hn.2.1 hv.2.1) hNR (by norm_num) (by norm_num) (by norm_num) (by norm_num)).weaken hNR (by norm_num) (by norm_num)
    · exact (App.fma_prod hn.1 hv.1 hNR (m hn.2.1 hv.2.1) (by norm_num) (by norm_num)).weaken hNR (by norm_num) (by norm_num)
    · rw [add_comm]
      exact (App.fma_prod hn.2.1 hv.2.1 hNR (m hn.1 hv.1) (by norm_num) (by norm_num)).weaken hNR (by norm_num) (by norm_num)
  unfold dotQ
  rcases hd with rfl | rfl
  · exact (s1.add (m hn.2.2 hv.2.2) hNR (by norm_num) (by norm_num) (by norm_num) (by norm_num)).weaken hNR (by norm_num) (by norm_num)
  · rw [add_comm]
    exact (App.fma_prod hn.2.2 hv.2.2 hNR s1 (by norm_num) (by norm_num)).weaken hNR (by norm_num) (by norm_num)

/-- the sum of two float64 values or exact squares, rounded once -/
theorem rnd_sq_err {q : ℚ} (h : 0 ≤ q) : |rnd q - q| ≤ uro * q + tau := by
  have := rnd_abs_err q
  rw [abs_of_nonneg h] at this
  unfold tau
  exact this

/-- the sum of the squares, however fused -/
theorem norm2_fused {v : R3.Vector F64} (hf : FinV v) (h1 : 1 / 2 ^ 200 ≤ sqLen v) (h2 : sqLen v ≤ 2 ^ 199) {n : F64} (h : Ev (Dot (leafs v) (leafs v)) n) :
    n.Finite ∧ |(n.toQ : ℝ) - (sqLen v : ℝ)| ≤ 4 * ur * (sqLen v : ℝ) ∧ 0 < n.toQ := by
  obtain ⟨hx, hy, hz⟩ := hf
  have hu := uro_pos'
  have hu2 := uro_le50
  have t0 := tau_pos
  have x0 := mul_self_nonneg v.X.toQ
  have y0 := mul_self_nonneg v.Y.toQ
  have z0 := mul_self_nonneg v.Z.toQ
  have hS : sqLen v = v.X.toQ * v.X.toQ + v.Y.toQ * v.Y.toQ + v.Z.toQ * v.Z.toQ := by unfold sqLen; ring
  generalize sqLen v = S at *
  obtain ⟨fx, nx, ex⟩ := sq_round hx (by linarith)
  obtain ⟨fy, ny, ey⟩ := sq_round hy (by linarith)
  obtain ⟨fz, nz, ez⟩ := sq_round hz (by linarith)
  have hS0 : 0 < S := lt_of_lt_of_le (by positivity) h1
  have tS : tau ≤ 1 / 2 ^ 100 * S := by
    have h3 : tau ≤ 1 / 2 ^ 100 * (1 / 2 ^ 200) := by
      unfold tau
      rw [one_div_mul_one_div, ← pow_add]
      exact one_div_le_one_div_of_le (by positivity) (pow_le_pow_right₀ (by norm_num) (by norm_num))
    exact h3.trans (mul_le_mul_of_nonneg_left h1 (by positivity))
  have uS : uro * S ≤ 1 / 2 ^ 50 * S := mul_le_mul_of_nonneg_right hu2 hS0.le
  have uSt : 1 / 2 ^ 53 * S = uro * S := rfl
  have eS : uro * S = uro * (v.X.toQ * v.X.toQ) + uro * (v.Y.toQ * v.Y.toQ) + uro * (v.Z.toQ * v.Z.toQ) := by rw [hS]; ring
  have p1 : 0 ≤ uro * (v.X.toQ * v.X.toQ) := mul_nonneg hu.le x0
  have p2 : 0 ≤ uro * (v.Y.toQ * v.Y.toQ) := mul_nonneg hu.le y0
  have p3 : 0 ≤ uro * (v.Z.toQ * v.Z.toQ) := mul_nonneg hu.le z0
  have exact_sq : ∀ {q : ℚ}, 0 ≤ q → |q - q| ≤ uro * q + tau := fun hq => by
    rw [sub_self, abs_zero]; exact add_nonneg (mul_nonneg hu.le hq) t0.le
  have big : ∀ {q : ℚ}, 0 ≤ q → q ≤ 102 / 100 * S → |rnd q| < 2 ^ 1024 := fun h0 hq => rnd_small (by
    rw [abs_of_nonneg h0]; linarith [show (102:ℚ) / 100 * 2 ^ 199 ≤ 2 ^ 200 by norm_num])
  obtain ⟨s, hs, hd⟩ := dot_inv h
  have fst : ∃ a b, 0 ≤ a ∧ 0 ≤ b ∧ |a - v.X.toQ * v.X.toQ| ≤ uro * (v.X.toQ * v.X.toQ) + tau ∧ |b - v.Y.toQ * v.Y.toQ| ≤ uro * (v.Y.toQ * v.Y.toQ) + tau ∧
      s.Finite ∧ s.toQ = rnd (a + b) := by
    have ex' := abs_le.mp ex
    have ey' := abs_le.mp ey
    rcases hs with rfl | rfl | rfl
    · obtain ⟨f, e⟩ := add_fin fx fy (big (add_nonneg nx ny) (by linarith))
      exact ⟨_, _, nx, ny, ex, ey, f, e⟩
    · obtain ⟨f, e⟩ := fma_fin hx hx fy (big (add_nonneg x0 ny) (by linarith))
      exact ⟨_, _, x0, ny, exact_sq x0, ey, f, e⟩
    · obtain ⟨f, e⟩ := fma_fin hy hy fx (big (add_nonneg y0 nx) (by linarith))
      exact ⟨_, _, nx, y0, ex, exact_sq y0, f, by rw [e, add_comm]⟩
  obtain ⟨a, b, a0, b0, ea, eb, fs, es⟩ := fst
  have ea' := abs_le.mp ea
  have eb' := abs_le.mp eb
  have c1 : uro * (a + b) ≤ 101 / 100 * (uro * S) := by
    have := mul_le_mul_of_nonneg_left (show a + b ≤ 101 / 100 * S by linarith) hu.le
    linarith
  have ra := abs_le.mp (rnd_sq_err (add_nonneg a0 b0))
  rw [← es] at ra
  have ns : 0 ≤ s.toQ := es ▸ rnd_nonneg (add_nonneg a0 b0)
  have snd : ∃ c, 0 ≤ c ∧ |c - v.Z.toQ * v.Z.toQ| ≤ uro * (v.Z.toQ * v.Z.toQ) + tau ∧ n.Finite ∧ n.toQ = rnd (s.toQ + c) := by
    have ez' := abs_le.mp ez
    rcases hd with rfl | rfl
    · obtain ⟨f, e⟩ := add_fin fs fz (big (add_nonneg ns nz) (by linarith [ra.2]))
      exact ⟨_, nz, ez, f, e⟩
    · obtain ⟨f, e⟩ := fma_fin hz hz fs (big (add_nonneg z0 ns) (by linarith [ra.2]))
      exact ⟨_, z0, exact_sq z0, f, by rw [e, add_comm]⟩
  obtain ⟨c, c0, ec, fn, en⟩ := snd
  have ec' := abs_le.mp ec
  have c2 : uro * (s.toQ + c) ≤ 102 / 100 * (uro * S) := by
    have := mul_le_mul_of_nonneg_left (show s.toQ + c ≤ 102 / 100 * S by linarith [ra.2]) hu.le
    linarith
  have rb := abs_le.mp (rnd_sq_err (add_nonneg ns c0))
  rw [← en] at rb
  have err : |n.toQ - S| ≤ 4 * (uro * S) := abs_le.mpr ⟨by linarith [ra.1, rb.1], by linarith [ra.2, rb.2]⟩
  refine ⟨fn, ?_, ?_⟩
  · rw [← ur_cast, mul_assoc]
    exact_mod_cast err
  · linarith [(abs_le.mp err).1]

section
variable {v : R3.Vector F64} (hf : FinV v) (h1 : 1 / 2 ^ 200 ≤ sqLen v) (h2 : sqLen v ≤ 2 ^ 199)
include hf h1 h2

theorem norm_fused {n : F64} (h : NormEv v n) : n.Finite ∧ |(n.toQ : ℝ) - Real.sqrt (sqLen v)| ≤ 32 / 10 * ur * Real.sqrt (sqLen v) := by
  obtain ⟨n2, h, rfl⟩ := h
  obtain ⟨f, e, _⟩ := norm2_fused hf h1 h2 h
  obtain ⟨a, b⟩ := sqLen_real hf h1 h2
  obtain ⟨f', e'⟩ := sqrt_near f (by norm_num) a (b.trans (pow_le_pow_right₀ (by norm_num) (by norm_num))) e
  refine ⟨f', e'.trans ?_⟩
  have p : 0 ≤ ur * Real.sqrt (sqLen v) := mul_nonneg ur_pos.le (Real.sqrt_nonneg _)
  have e1 : (4 / (199 / 100) + 101 / 100) * ur * Real.sqrt (sqLen v) = (4 / (199 / 100) + 101 / 100) * (ur * Real.sqrt (sqLen v)) := by ring
  have e2 : 32 / 10 * ur * Real.sqrt (sqLen v) = 32 / 10 * (ur * Real.sqrt (sqLen v)) := by ring
  rw [e1, e2]
  exact mul_le_mul_of_nonneg_right (by norm_num) p

/-- C124: every length the program may compute is finite and within `4 / 2^53` of the exact length, relatively -/
theorem C124_norm {n : F64} (h : NormEv v n) : n.Finite ∧ |(n.toQ : ℝ) - Real.sqrt (sqLen v)| ≤ 4 / 2 ^ 53 * Real.sqrt (sqLen v) := by
  obtain ⟨f, e⟩ := norm_fused hf h1 h2 h
  refine ⟨f, e.trans (mul_le_mul_of_nonneg_right ?_ (Real.sqrt_nonneg _))⟩
  unfold ur; norm_num

/-- C124: every coordinate of every normalised vector the program may compute is within `6 / 2^53` of the exact coordinate, relatively, up to an underflow error of `2^-1000` -/
theorem C124_normalize {w : R3.Vector F64} (h : NormalizeEv v w) : FinV w ∧
    |(w.X.toQ : ℝ) - v.X.toQ / Real.sqrt (sqLen v)| ≤ 6 / 2 ^ 53 * (|(v.X.toQ : ℝ)| / Real.sqrt (sqLen v)) + ((1 / 2 ^ 1000 : ℚ) : ℝ) ∧
    |(w.Y.toQ : ℝ) - v.Y.toQ / Real.sqrt (sqLen v)| ≤ 6 / 2 ^ 53 * (|(v.Y.toQ : ℝ)| / Real.sqrt (sqLen v)) + ((1 / 2 ^ 1000 : ℚ) : ℝ) ∧
    |(w.Z.toQ : ℝ) - v.Z.toQ / Real.sqrt (sqLen v)| ≤ 6 / 2 ^ 53 * (|(v.Z.toQ : ℝ)| / Real.sqrt (sqLen v)) + ((1 / 2 ^ 1000 : ℚ) : ℝ) := by
  obtain ⟨n2, hn, rfl⟩ := h
  obtain ⟨f2, _, p⟩ := norm2_fused hf h1 h2 hn
  have hne : ¬ (n2 == (0 : F64)) = true := by
    rw [beq_fin (y := (0 : F64)) f2 trivial]
    exact ne_of_gt p
  rw [if_neg hne]
  obtain ⟨f, e⟩ := norm_fused hf h1 h2 ⟨n2, hn, rfl⟩
  obtain ⟨a, b⟩ := root_range hf h1 h2
  have comp : ∀ {x : F64}, x.Finite → x.toQ ^ 2 ≤ sqLen v → ((1 / GoSqrt.sqrt n2) * x).Finite ∧
      |(((1 / GoSqrt.sqrt n2) * x).toQ : ℝ) - x.toQ / Real.sqrt (sqLen v)| ≤ 6 / 2 ^ 53 * (|(x.toQ : ℝ)| / Real.sqrt (sqLen v)) + ((1 / 2 ^ 1000 : ℚ) : ℝ) := by
    intro x fx hx
    obtain ⟨fw, ew⟩ := scaled_near fx f a b (comp_le hf h1 h2 hx) e
    refine ⟨fw, ew.trans ?_⟩
    have p : 0 ≤ |(x.toQ : ℝ)| / Real.sqrt (sqLen v) := div_nonneg (abs_nonneg _) (Real.sqrt_nonneg _)
    have q : 55 / 10 * ur ≤ 6 / 2 ^ 53 := by unfold ur; norm_num
    refine add_le_add (mul_le_mul_of_nonneg_right q p) (le_of_eq ?_)
    unfold tau; rfl
  obtain ⟨fx, ex⟩ := comp hf.1 (sqX hf h1 h2)
  obtain ⟨fy, ey⟩ := comp hf.2.1 (sqY hf h1 h2)
  obtain ⟨fz, ez⟩ := comp hf.2.2 (sqZ hf h1 h2)
  exact ⟨⟨fx, fy, fz⟩, ex, ey, ez⟩

end

theorem unit_inv {v : R3.Vector F64} {a : F64} (h : Ev (GoAbs.abs ((leafs v).Norm2 - 1)) a) : ∃ n, Ev (Dot (leafs v) (leafs v)) n ∧ a = GoAbs.abs (n - 1) := by
  cases h with
  | abs h =>
    rcases h.sub_inv with ⟨x, y, hx, hy, rfl⟩ | ⟨a1, a2, x, y, z, e, _⟩ | ⟨a1, a2, x, y, z, e, _⟩
    · have : Ev (.leaf (1 : F64)) y := hy
      exact ⟨x, hx, by rw [this.leaf_inv]⟩
    · exact absurd e (by intro h; injection h)
    · exact absurd e (by intro h; injection h)

/-- C124: every vector `Normalize` may compute passes `IsUnit`, however that is fused -/
theorem C124_unit {v : R3.Vector F64} (hf : FinV v) (h1 : 1 / 2 ^ 200 ≤ sqLen v) (h2 : sqLen v ≤ 2 ^ 199) {w : R3.Vector F64} (hw : NormalizeEv v w) {b : Bool}
    (hb : IsUnitEv w b) : b = true := by
  obtain ⟨⟨fx, fy, fz⟩, ex, ey, ez⟩ := C124_normalize hf h1 h2 hw
  obtain ⟨a, ha, rfl⟩ := hb
  have e6 : (6:ℝ) / 2 ^ 53 = 6 * ur := by unfold ur; ring
  have etau : ((1 / 2 ^ 1000 : ℚ) : ℝ) = ((tau : ℚ) : ℝ) := by unfold tau; rfl
  rw [e6, etau] at ex ey ez
  obtain ⟨wx, wy, wz⟩ := w
  dsimp only at fx fy fz ex ey ez
  have hu := ur_pos
  have hu2 := ur_le
  obtain ⟨t0, t1⟩ := tau_real
  have hr : 0 < Real.sqrt (sqLen v) := lt_of_lt_of_le (by positivity) (root_range hf h1 h2).1
  have hrr : Real.sqrt (sqLen v) ^ 2 = sqLen v := Real.sq_sqrt (by exact_mod_cast (lt_of_lt_of_le (by positivity) h1).le)
  have hsum : (v.X.toQ / Real.sqrt (sqLen v)) ^ 2 + (v.Y.toQ / Real.sqrt (sqLen v)) ^ 2 + (v.Z.toQ / Real.sqrt (sqLen v)) ^ 2 = 1 := by
    rw [div_pow, div_pow, div_pow, ← add_div, ← add_div, div_eq_one_iff_eq (by positivity), hrr]
    unfold sqLen
    push_cast
    ring
  have cl : ∀ x : F64, x.toQ ^ 2 ≤ sqLen v → ∀ W : ℝ, |W - x.toQ / Real.sqrt (sqLen v)| ≤ 6 * ur * (|(x.toQ : ℝ)| / Real.sqrt (sqLen v)) + (tau : ℚ) →
      |W ^ 2 - (x.toQ / Real.sqrt (sqLen v)) ^ 2| ≤ 201 / 100 * (6 * ur) * (x.toQ / Real.sqrt (sqLen v)) ^ 2 + 3 * (tau : ℚ) := by
    intro x hx W h
    have e : |(x.toQ : ℝ)| / Real.sqrt (sqLen v) = |x.toQ / Real.sqrt (sqLen v)| := by rw [abs_div, abs_of_pos hr]
    rw [e] at h
    refine sq_close (by positivity) (by linarith) t0 (by linarith) ?_ h
    rw [← e, div_le_one hr]
    exact comp_le hf h1 h2 hx
  have cx := abs_le.mp (cl _ (sqX hf h1 h2) _ ex)
  have cy := abs_le.mp (cl _ (sqY hf h1 h2) _ ey)
  have cz := abs_le.mp (cl _ (sqZ hf h1 h2) _ ez)
  have hL : (sqLen ⟨wx, wy, wz⟩ : ℝ) = (wx.toQ : ℝ) ^ 2 + (wy.toQ : ℝ) ^ 2 + (wz.toQ : ℝ) ^ 2 := by unfold sqLen; push_cast; rfl
  generalize ((v.X.toQ : ℝ) / Real.sqrt (sqLen v)) ^ 2 = a at *
  generalize ((v.Y.toQ : ℝ) / Real.sqrt (sqLen v)) ^ 2 = b at *
  generalize ((v.Z.toQ : ℝ) / Real.sqrt (sqLen v)) ^ 2 = c at *
  have eabc : ur * a + ur * b + ur * c = ur := by linear_combination ur * hsum
  have tu : ((tau : ℚ) : ℝ) ≤ 1 / 1000 * ur := by
    refine t1.trans ?_
    unfold ur; norm_num
  have d1 : (sqLen ⟨wx, wy, wz⟩ : ℝ) ≤ 1 + 13 * ur := by rw [hL]; linarith [cx.2, cy.2, cz.2]
  have d2 : 1 - 13 * ur ≤ (sqLen ⟨wx, wy, wz⟩ : ℝ) := by rw [hL]; linarith [cx.1, cy.1, cz.1]
  have q1 : (1:ℚ) / 2 ^ 200 ≤ sqLen ⟨wx, wy, wz⟩ := by
    rw [← Rat.cast_le (K := ℝ)]
    push_cast
    linarith [show (1:ℝ) / 2 ^ 200 ≤ 1 / 2 by norm_num]
  have q2 : sqLen ⟨wx, wy, wz⟩ ≤ 2 ^ 199 := by
    rw [← Rat.cast_le (K := ℝ)]
    push_cast
    linarith [show (2:ℝ) ≤ 2 ^ 199 by norm_num]
  obtain ⟨n, hn, rfl⟩ := unit_inv ha
  obtain ⟨f, e, _⟩ := norm2_fused (v := ⟨wx, wy, wz⟩) ⟨fx, fy, fz⟩ q1 q2 hn
  have e3 : 4 * ur * (sqLen ⟨wx, wy, wz⟩ : ℝ) ≤ 4 * ur * 2 := mul_le_mul_of_nonneg_left (by linarith) (by positivity)
  have e4 := abs_le.mp e
  have g : |(n.toQ : ℝ) - 1| ≤ 24 * ur := abs_le.mpr ⟨by linarith [e4.1], by linarith [e4.2]⟩
  have gq : |n.toQ - 1| ≤ 24 * uro := by
    rw [← ur_cast] at g
    exact_mod_cast g
  rw [decide_eq_true_iff]
  have one : (1 : F64).toQ = 1 := rfl
  have hu3 := uro_le50
  obtain ⟨fs, vs⟩ := sub_fin (y := (1 : F64)) f trivial (rnd_small (by rw [one]; exact gq.trans (by linarith [show (1:ℚ) ≤ 2 ^ 200 by norm_num])))
  have rs := rnd_sub_rel n 1 trivial
  rw [← vs, one] at rs
  have rs2 : uro * |n.toQ - 1| ≤ 1 * |n.toQ - 1| := mul_le_mul_of_nonneg_right (by linarith) (abs_nonneg _)
  have bound : |(n - 1).toQ| ≤ 48 * uro := by
    have := abs_sub_abs_le_abs_sub (n - 1).toQ (n.toQ - 1)
    linarith
  obtain ⟨fa, va⟩ := abs_fin fs
  obtain ⟨fc, vc⟩ := unit_const
  rw [le_fin fa fc, va]
  refine bound.trans (le_trans ?_ vc)
  unfold uro; norm_num

/-- C124: every distance the program may compute is finite and within `5 / 2^53` of the exact distance, relatively -/
theorem C124_distance {p q : R3.Vector F64} (hp : FinV p) (hq : FinV q) (h1 : 1 / 2 ^ 190 ≤ sqDist p q) (h2 : sqDist p q ≤ 2 ^ 190) {r : F64} (h : DistanceEv p q r) :
    r.Finite ∧ |(r.toQ : ℝ) - Real.sqrt (sqDist p q)| ≤ 5 / 2 ^ 53 * Real.sqrt (sqDist p q) := by
  have hu := uro_pos'
  have hu2 := uro_le50
  have sx := sq_nonneg (p.X.toQ - q.X.toQ)
  have sy := sq_nonneg (p.Y.toQ - q.Y.toQ)
  have sz := sq_nonneg (p.Z.toQ - q.Z.toQ)
  have hD : sqDist p q = (p.X.toQ - q.X.toQ) ^ 2 + (p.Y.toQ - q.Y.toQ) ^ 2 + (p.Z.toQ - q.Z.toQ) ^ 2 := rfl
  obtain ⟨fx, ex⟩ := diff_near hp.1 hq.1 (by linarith)
  obtain ⟨fy, ey⟩ := diff_near hp.2.1 hq.2.1 (by linarith)
  obtain ⟨fz, ez⟩ := diff_near hp.2.2 hq.2.2 (by linarith)
  have ex := abs_le.mp ex
  have ey := abs_le.mp ey
  have ez := abs_le.mp ez
  have hL : sqLen (R3.Sub p q) = (p.X - q.X).toQ ^ 2 + (p.Y - q.Y).toQ ^ 2 + (p.Z - q.Z).toQ ^ 2 := rfl
  have hD0 : 0 < sqDist p q := lt_of_lt_of_le (by positivity) h1
  have eU : uro * sqDist p q = uro * (p.X.toQ - q.X.toQ) ^ 2 + uro * (p.Y.toQ - q.Y.toQ) ^ 2 + uro * (p.Z.toQ - q.Z.toQ) ^ 2 := by rw [hD]; ring
  have uD : uro * sqDist p q ≤ 1 / 2 ^ 50 * sqDist p q := mul_le_mul_of_nonneg_right hu2 hD0.le
  have l1 : sqLen (R3.Sub p q) ≤ sqDist p q + 201 / 100 * (uro * sqDist p q) := by rw [hL]; linarith [ex.2, ey.2, ez.2]
  have l2 : sqDist p q - 201 / 100 * (uro * sqDist p q) ≤ sqLen (R3.Sub p q) := by rw [hL]; linarith [ex.1, ey.1, ez.1]
  obtain ⟨n, hn, rfl⟩ := h
  obtain ⟨f, e, _⟩ := norm2_fused (v := R3.Sub p q) ⟨fx, fy, fz⟩
    (by
      have h3 : (1:ℚ) / 2 ^ 200 ≤ 1 / 2 * (1 / 2 ^ 190) := by norm_num
      linarith) (by linarith [show (2:ℚ) * 2 ^ 190 ≤ 2 ^ 199 by norm_num]) hn
  have e : |n.toQ - sqLen (R3.Sub p q)| ≤ 4 * uro * sqLen (R3.Sub p q) := by
    rw [← ur_cast] at e
    exact_mod_cast e
  have e := abs_le.mp e
  have uL : uro * sqLen (R3.Sub p q) ≤ uro * (101 / 100 * sqDist p q) := mul_le_mul_of_nonneg_left (by linarith) hu.le
  have g : |n.toQ - sqDist p q| ≤ 61 / 10 * uro * sqDist p q :=
    abs_le.mpr ⟨by linarith [e.1], by linarith [e.2]⟩
  have gr : |((n.toQ : ℚ) : ℝ) - (sqDist p q : ℝ)| ≤ 61 / 10 * ur * (sqDist p q : ℝ) := by
    have := (Rat.cast_le (K := ℝ)).mpr g
    push_cast at this
    rw [← ur_cast]
    exact this
  have r1 : (1:ℝ) / 2 ^ 200 ≤ (sqDist p q : ℝ) := by
    have := (Rat.cast_le (K := ℝ)).mpr h1
    push_cast at this
    exact le_trans (by norm_num) this
  have r2 : (sqDist p q : ℝ) ≤ 2 ^ 200 := by
    have := (Rat.cast_le (K := ℝ)).mpr h2
    push_cast at this
    exact this.trans (by norm_num)
  obtain ⟨f', e'⟩ := sqrt_near f (by norm_num) r1 r2 gr
  refine ⟨f', e'.trans (mul_le_mul_of_nonneg_right ?_ (Real.sqrt_nonneg _))⟩
  unfold ur; norm_num

/-- C124: the plain results of Norm, Normalize, Distance and IsUnit are among them -/
theorem C124_plain_norm (v w : R3.Vector F64) : NormEv v v.Norm ∧ NormalizeEv v (Normalize v) ∧ DistanceEv v w (Distance v w) ∧ IsUnitEv v v.IsUnit :=
  ⟨⟨_, Ev.eval _, rfl⟩, ⟨_, Ev.eval _, rfl⟩, ⟨_, Ev.eval _, rfl⟩, ⟨_, Ev.eval _, rfl⟩⟩

/-- points that are no dyadic fractions meet the hypotheses of the distance -/
example : FinV ⟨GoConst.const (1 / 10), GoConst.const (-7 / 3), GoConst.const (10 ^ 9)⟩ ∧ FinV ⟨GoConst.const (1 / 3), GoConst.const (2 / 7), 1⟩ ∧
    1 / 2 ^ 190 ≤ sqDist ⟨GoConst.const (1 / 10), GoConst.const (-7 / 3), GoConst.const (10 ^ 9)⟩ ⟨GoConst.const (1 / 3), GoConst.const (2 / 7), 1⟩ ∧
    sqDist ⟨GoConst.const (1 / 10), GoConst.const (-7 / 3), GoConst.const (10 ^ 9)⟩ ⟨GoConst.const (1 / 3), GoConst.const (2 / 7), 1⟩ ≤ 2 ^ 190 := by
  unfold FinV
  decide +kernel

/-- one coordinate of the point, fused -/
theorem coord_fused {s t w : F64} (hs : s.Finite) (ht : t.Finite) (hw : w.Finite) {T U M κ : ℝ} (m0 : 1 / 2 ^ 60 ≤ M) (m1 : M ≤ 2 ^ 60) (k1 : 1 ≤ κ) (k2 : κ ≤ 2 ^ 20)
    (hM : |(s.toQ : ℝ)| ≤ M) (hT : |(t.toQ : ℝ) - T| ≤ 232 * ur * (κ ^ 2 * M)) (hT' : |T| ≤ 6 * (κ * M)) (hU : |U| ≤ 1) (hwU : |(w.toQ : ℝ) - U| ≤ 61 / 10 * ur) :
    (fma t w s).Finite ∧ |((fma t w s).toQ : ℝ) - (s.toQ + T * U)| ≤ 300 * ur * (κ ^ 2 * M) := by
  have u0 := ur_pos
  have u1 := ur_le
  have M0 : 0 < M := lt_of_lt_of_le (by positivity) m0
  have k0 : 0 < κ := by linarith
  have kk : κ ≤ κ ^ 2 := by rw [sq]; exact le_mul_of_one_le_left k0.le k1
  have hkM : κ * M ≤ κ ^ 2 * M := mul_le_mul_of_nonneg_right kk M0.le
  have hMk : M ≤ κ * M := le_mul_of_one_le_left M0.le k1
  have P0 : 0 < κ ^ 2 * M := by positivity
  obtain ⟨t0, t1⟩ := tau_real
  -- underflow is negligible
  have htau : ((tau : ℚ) : ℝ) ≤ 1 / 10 * ur * (κ ^ 2 * M) := by
    have a : (1:ℝ) / 2 ^ 114 ≤ ur * M := by
      unfold ur
      calc (1:ℝ) / 2 ^ 114 ≤ 1 / 2 ^ 53 * (1 / 2 ^ 60) := by norm_num
        _ ≤ _ := mul_le_mul_of_nonneg_left m0 (by norm_num)
    have b : ((tau : ℚ) : ℝ) ≤ 1 / 2 ^ 124 := by
      have : tau ≤ 1 / 2 ^ 124 := by
        unfold tau
        exact one_div_le_one_div_of_le (by positivity) (pow_le_pow_right₀ (by norm_num) (by norm_num))
      have := (Rat.cast_le (K := ℝ)).mpr this
      push_cast at this
      exact this
    have c : ur * M ≤ ur * (κ ^ 2 * M) := mul_le_mul_of_nonneg_left (hMk.trans hkM) u0.le
    have d : (1:ℝ) / 2 ^ 124 ≤ 1 / 10 * (1 / 2 ^ 114) := by norm_num
    linarith
  have hu2 : ur * (κ ^ 2 * M) ≤ 1 / 10000 * (κ * M) := by
    have : ur * κ ≤ 1 / 2 ^ 50 * 2 ^ 20 := mul_le_mul u1 k2 k0.le (by norm_num)
    have h : ur * κ ≤ 1 / 10000 := this.trans (by norm_num)
    have e : ur * (κ ^ 2 * M) = ur * κ * (κ * M) := by ring
    rw [e]
    exact mul_le_mul_of_nonneg_right h (by positivity)
  have hw1 : |(w.toQ : ℝ)| ≤ 1001 / 1000 := by
    have e : (w.toQ : ℝ) = U + (w.toQ - U) := by ring
    rw [e]
    refine (abs_add_le _ _).trans ?_
    have : (1:ℝ) / 2 ^ 50 ≤ 1 / 10000 := by norm_num
    linarith
  -- the product before rounding
  have hprod : |(t.toQ : ℝ) * w.toQ - T * U| ≤ 2691 / 10 * ur * (κ ^ 2 * M) := by
    have e : (t.toQ : ℝ) * w.toQ - T * U = (t.toQ - T) * w.toQ + T * (w.toQ - U) := by ring
    rw [e]
    refine (abs_add_le _ _).trans ?_
    rw [abs_mul, abs_mul]
    have a := mul_le_mul hT hw1 (abs_nonneg _) (by positivity)
    have b := mul_le_mul hT' hwU (abs_nonneg _) (by positivity)
    have c : ur * (κ * M) ≤ ur * (κ ^ 2 * M) := mul_le_mul_of_nonneg_left hkM u0.le
    have d : 6 * (κ * M) * (61 / 10 * ur) = 366 / 10 * (ur * (κ * M)) := by ring
    have f : 232 * ur * (κ ^ 2 * M) * (1001 / 1000) = 232 * 1001 / 1000 * (ur * (κ ^ 2 * M)) := by ring
    rw [d] at b
    rw [f] at a
    have p : 0 ≤ ur * (κ ^ 2 * M) := by positivity
    linarith
  have hTU : |T * U| ≤ 6 * (κ * M) := by
    rw [abs_mul]
    have := mul_le_mul hT' hU (abs_nonneg _) (by positivity)
    linarith
  have hpS : |(t.toQ : ℝ) * w.toQ| ≤ 61 / 10 * (κ * M) := by
    have e : (t.toQ : ℝ) * w.toQ = T * U + (t.toQ * w.toQ - T * U) := by ring
    rw [e]
    refine (abs_add_le _ _).trans ?_
    linarith
  have hbig : κ * M ≤ 2 ^ 80 := by
    have := mul_le_mul k2 m1 M0.le (by norm_num)
    refine this.trans (by norm_num)
  have hsS : |(t.toQ : ℝ) * w.toQ + s.toQ| ≤ 72 / 10 * (κ * M) := by
    refine (abs_add_le _ _).trans ?_
    linarith
  obtain ⟨fa, ea⟩ := fma_fin ht hw hs (rnd_small_real (q := t.toQ * w.toQ + s.toQ) (by
    push_cast
    have : (72:ℝ) / 10 * 2 ^ 80 ≤ 2 ^ 190 := by norm_num
    linarith))
  refine ⟨fa, ?_⟩
  have ra := rnd_err_real (t.toQ * w.toQ + s.toQ)
  rw [← ea] at ra
  push_cast at ra
  have e : ((fma t w s).toQ : ℝ) - (s.toQ + T * U) = ((fma t w s).toQ - (t.toQ * w.toQ + s.toQ)) + (t.toQ * w.toQ - T * U) := by ring
  rw [e]
  refine (abs_add_le _ _).trans ?_
  have a : ur * |(t.toQ : ℝ) * w.toQ + s.toQ| ≤ ur * (72 / 10 * (κ * M)) := mul_le_mul_of_nonneg_left hsS u0.le
  have c : ur * (κ * M) ≤ ur * (κ ^ 2 * M) := mul_le_mul_of_nonneg_left hkM u0.le
  have p : 0 ≤ ur * (κ ^ 2 * M) := by positivity
  linarith

section
variable {l : Line F64} {p : Plane3D F64} {N M κ : ℚ}

/-- exact numerator of the parameter -/
noncomputable def exactQ (l : Line F64) (p : Plane3D F64) : ℝ := ((dotQ p.Normal p.point - dotQ p.Normal l.point : ℚ) : ℝ)

/-- exact denominator of the parameter -/
noncomputable def exactC (l : Line F64) (p : Plane3D F64) : ℝ := (dotQ p.Normal l.Direction : ℚ) / Real.sqrt (sqLen l.Direction)

/-- every direction the program may compute -/
theorem dir_fused (h : LineFit l p N M) {w : R3.Vector F64} (hw : NormalizeEv l.Direction w) : FinV w ∧
    (|l.Direction.X.toQ / Real.sqrt (sqLen l.Direction)| ≤ 1 ∧ |(w.X.toQ : ℝ) - l.Direction.X.toQ / Real.sqrt (sqLen l.Direction)| ≤ 61 / 10 * ur) ∧
    (|l.Direction.Y.toQ / Real.sqrt (sqLen l.Direction)| ≤ 1 ∧ |(w.Y.toQ : ℝ) - l.Direction.Y.toQ / Real.sqrt (sqLen l.Direction)| ≤ 61 / 10 * ur) ∧
    (|l.Direction.Z.toQ / Real.sqrt (sqLen l.Direction)| ≤ 1 ∧ |(w.Z.toQ : ℝ) - l.Direction.Z.toQ / Real.sqrt (sqLen l.Direction)| ≤ 61 / 10 * ur) := by
  have u0 := ur_pos
  have u1 := ur_le
  obtain ⟨t0, t1⟩ := tau_real
  obtain ⟨fw, ex, ey, ez⟩ := C124_normalize h.dfin h.dlow h.dhigh hw
  have hr : 0 < Real.sqrt (sqLen l.Direction) := lt_of_lt_of_le (by positivity) (root_range h.dfin h.dlow h.dhigh).1
  have hrr : Real.sqrt (sqLen l.Direction) ^ 2 = sqLen l.Direction := Real.sq_sqrt (by exact_mod_cast (lt_of_lt_of_le (by positivity) h.dlow).le)
  have cX := comp_le h.dfin h.dlow h.dhigh (sqX h.dfin h.dlow h.dhigh)
  have cY := comp_le h.dfin h.dlow h.dhigh (sqY h.dfin h.dlow h.dhigh)
  have cZ := comp_le h.dfin h.dlow h.dhigh (sqZ h.dfin h.dlow h.dhigh)
  have etau : ((1 / 2 ^ 1000 : ℚ) : ℝ) = ((tau : ℚ) : ℝ) := by unfold tau; rfl
  rw [etau] at ex ey ez
  generalize hR : Real.sqrt (sqLen l.Direction) = R at *
  have unit : ∀ {d : ℝ}, |d| ≤ R → |d / R| ≤ 1 := by
    intro d hd
    rw [abs_div, abs_of_pos hr, div_le_one hr]
    exact hd
  have near : ∀ {d v : ℝ}, |d| ≤ R → |v - d / R| ≤ 6 / 2 ^ 53 * (|d| / R) + ((tau : ℚ) : ℝ) → |v - d / R| ≤ 61 / 10 * ur := by
    intro d v hd hv
    refine hv.trans ?_
    have a := unit hd
    rw [abs_div, abs_of_pos hr] at a
    have b : (1:ℝ) / 2 ^ 100 ≤ 1 / 10 * ur := by unfold ur; norm_num
    have c : 6 / 2 ^ 53 * (|d| / R) ≤ 6 / 2 ^ 53 * 1 := mul_le_mul_of_nonneg_left a (by positivity)
    have d : (6:ℝ) / 2 ^ 53 = 6 * ur := by unfold ur; ring
    linarith
  have nx := near cX ex
  have ny := near cY ey
  have nz := near cZ ez
  exact ⟨fw, ⟨unit cX, nx⟩, ⟨unit cY, ny⟩, ⟨unit cZ, nz⟩⟩

/-- the parameter of the intersection, however computed -/
theorem param_fused (h : LineFit l p N M) (k1 : 1 ≤ κ) (k2 : κ ≤ 2 ^ 20) (hk : N ^ 2 * sqLen l.Direction ≤ κ ^ 2 * dotQ p.Normal l.Direction ^ 2)
    {w : R3.Vector F64} {num den : F64} (hw : NormalizeEv l.Direction w) (hden : Ev (Dot (leafs p.Normal) (leafs w)) den)
    (hnum : Ev (Dot (leafs p.Normal) (leafs p.point) - Dot (leafs p.Normal) (leafs l.point)) num) :
    den.Finite ∧ den.toQ ≠ 0 ∧ (num / den).Finite ∧ |((num / den).toQ : ℝ) - exactQ l p / exactC l p| ≤ 232 * ur * (κ ^ 2 * M) ∧
      |exactQ l p / exactC l p| ≤ 6 * (κ * M) ∧ (N : ℝ) ≤ κ * |exactC l p| := by
  have u0 := ur_pos
  have u1 := ur_le
  obtain ⟨t0, t1⟩ := tau_real
  obtain ⟨fw, ex, ey, ez⟩ := C124_normalize h.dfin h.dlow h.dhigh hw
  have hr : 0 < Real.sqrt (sqLen l.Direction) := lt_of_lt_of_le (by positivity) (root_range h.dfin h.dlow h.dhigh).1
  have hrr : Real.sqrt (sqLen l.Direction) ^ 2 = sqLen l.Direction := Real.sq_sqrt (by exact_mod_cast (lt_of_lt_of_le (by positivity) h.dlow).le)
  have cX := comp_le h.dfin h.dlow h.dhigh (sqX h.dfin h.dlow h.dhigh)
  have cY := comp_le h.dfin h.dlow h.dhigh (sqY h.dfin h.dlow h.dhigh)
  have cZ := comp_le h.dfin h.dlow h.dhigh (sqZ h.dfin h.dlow h.dhigh)
  have etau : ((1 / 2 ^ 1000 : ℚ) : ℝ) = ((tau : ℚ) : ℝ) := by unfold tau; rfl
  rw [etau] at ex ey ez
  generalize hR : Real.sqrt (sqLen l.Direction) = R at *
  have unit : ∀ {d : ℝ}, |d| ≤ R → |d / R| ≤ 1 := by
    intro d hd
    rw [abs_div, abs_of_pos hr, div_le_one hr]
    exact hd
  have near : ∀ {d v : ℝ}, |d| ≤ R → |v - d / R| ≤ 6 / 2 ^ 53 * (|d| / R) + ((tau : ℚ) : ℝ) → |v - d / R| ≤ 61 / 10 * ur := by
    intro d v hd hv
    refine hv.trans ?_
    have a := unit hd
    rw [abs_div, abs_of_pos hr] at a
    have b : (1:ℝ) / 2 ^ 100 ≤ 1 / 10 * ur := by unfold ur; norm_num
    have c : 6 / 2 ^ 53 * (|d| / R) ≤ 6 / 2 ^ 53 * 1 := mul_le_mul_of_nonneg_left a (by positivity)
    have d : (6:ℝ) / 2 ^ 53 = 6 * ur := by unfold ur; ring
    linarith
  have nx := near cX ex
  have ny := near cY ey
  have nz := near cZ ez
  have sw : ∀ {x : F64} {d : ℝ}, x.Finite → |d| ≤ R → |(x.toQ : ℝ) - d / R| ≤ 61 / 10 * ur → x.Finite ∧ |x.toQ| ≤ 9 / 8 := by
    intro x d fx hd hx
    refine ⟨fx, ?_⟩
    have a := unit hd
    have e : (x.toQ : ℝ) = d / R + (x.toQ - d / R) := by ring
    have b : |(x.toQ : ℝ)| ≤ 9 / 8 := by
      rw [e]
      refine (abs_add_le _ _).trans ?_
      have : (1:ℝ) / 2 ^ 50 ≤ 1 / 100 := by norm_num
      linarith
    have c : ((|x.toQ| : ℚ) : ℝ) ≤ ((9 / 8 : ℚ) : ℝ) := by push_cast; exact b
    exact Rat.cast_le.mp c
  have bw : Bounded3 (9 / 8) w := ⟨sw fw.1 cX nx, sw fw.2.1 cY ny, sw fw.2.2 cZ nz⟩
  -- the two scalar products
  have N0 : 0 < N := lt_of_lt_of_le (by positivity) h.nlow
  have M0 : 0 < M := lt_of_lt_of_le (by positivity) h.mlow
  have sN : Scale N := ⟨le_trans (by norm_num) h.nlow, h.nhigh.trans (by norm_num)⟩
  have sM : Scale M := ⟨le_trans (by norm_num) h.mlow, h.mhigh.trans (by norm_num)⟩
  have s1 : Scale (9 / 8) := ⟨by norm_num, by norm_num⟩
  have sN1 : Scale (N * (9 / 8)) := by
    have a := h.nlow
    have b := h.nhigh
    exact ⟨by linarith [show (1:ℚ) / 2 ^ 170 ≤ 1 / 2 ^ 60 by norm_num], by linarith [show (2:ℚ) * 2 ^ 60 ≤ 2 ^ 170 by norm_num]⟩
  have sNM : Scale (N * M) := by
    constructor
    · have := mul_le_mul h.nlow h.mlow (by positivity) N0.le
      exact le_trans (by norm_num) this
    · have := mul_le_mul h.nhigh h.mhigh M0.le (by positivity)
      exact this.trans (by norm_num)
  have aD := dot_fused sN s1 sN1 h.normal bw hden
  obtain ⟨d1, d2, hd1, hd2, rfl⟩ := diff_inv hnum
  have aQ := (dot_fused sN sM sNM h.normal h.base hd1).sub (dot_fused sN sM sNM h.normal h.start hd2) sNM (by norm_num) (by norm_num) (by norm_num) (by norm_num)
  have N0r : (0:ℝ) < N := by exact_mod_cast N0
  have M0r : (0:ℝ) < M := by exact_mod_cast M0
  have k1r : (1:ℝ) ≤ κ := by exact_mod_cast k1
  have k2r : (κ:ℝ) ≤ 2 ^ 20 := by exact_mod_cast k2
  have m0r : (1:ℝ) / 2 ^ 60 ≤ M := by
    have := (Rat.cast_le (K := ℝ)).mpr h.mlow
    push_cast at this; exact this
  have m1r : (M:ℝ) ≤ 2 ^ 60 := by exact_mod_cast h.mhigh
  have hnb : ∀ {x : F64}, (x.Finite ∧ |x.toQ| ≤ N) → |(x.toQ : ℝ)| ≤ N := fun hx => by exact_mod_cast hx.2
  have hmb : ∀ {x : F64}, (x.Finite ∧ |x.toQ| ≤ M) → |(x.toQ : ℝ)| ≤ M := fun hx => by exact_mod_cast hx.2
  have n1 := hnb h.normal.1
  have n2 := hnb h.normal.2.1
  have n3 := hnb h.normal.2.2
  set C : ℝ := exactC l p with hC'
  have hC : C = (dotQ p.Normal l.Direction : ℚ) / R := by rw [hC', exactC, hR]
  set Q : ℝ := exactQ l p with hQ'
  have hQ : Q = ((dotQ p.Normal p.point - dotQ p.Normal l.point : ℚ) : ℝ) := rfl
  have hCk : (N:ℝ) ≤ κ * |C| := by
    rw [hC, abs_div, abs_of_pos hr, ← mul_div_assoc, le_div_iff₀ hr]
    have e : ((N:ℝ) * R) ^ 2 ≤ (κ * |((dotQ p.Normal l.Direction : ℚ) : ℝ)|) ^ 2 := by
      rw [mul_pow, mul_pow, sq_abs, hrr]
      have := (Rat.cast_le (K := ℝ)).mpr hk
      push_cast at this
      exact this
    exact (pow_le_pow_iff_left₀ (by positivity) (by positivity) (by norm_num)).mp e
  have dD : |(den.toQ : ℝ) - C| ≤ 32 * ur * N := by
    have a : |(den.toQ : ℝ) - (dotQ p.Normal w : ℚ)| ≤ 12 * (ur * (N * (9 / 8))) := by
      have := (Rat.cast_le (K := ℝ)).mpr aD.err
      push_cast at this
      rw [ur_cast] at this
      exact this
    have b : ((dotQ p.Normal w : ℚ) : ℝ) - C = p.Normal.X.toQ * (w.X.toQ - l.Direction.X.toQ / R) + p.Normal.Y.toQ * (w.Y.toQ - l.Direction.Y.toQ / R) +
        p.Normal.Z.toQ * (w.Z.toQ - l.Direction.Z.toQ / R) := by
      rw [hC]; unfold dotQ; push_cast; ring
    have c : ∀ {x y : ℝ}, |x| ≤ N → |y| ≤ 61 / 10 * ur → |x * y| ≤ 61 / 10 * (ur * N) := by
      intro x y hx hy
      rw [abs_mul]
      have := mul_le_mul hx hy (abs_nonneg _) N0r.le
      linarith
    have d : |((dotQ p.Normal w : ℚ) : ℝ) - C| ≤ 183 / 10 * (ur * N) := by
      rw [b]
      refine (abs_add_le _ _).trans ?_
      have := abs_add_le ((p.Normal.X.toQ : ℝ) * (w.X.toQ - l.Direction.X.toQ / R)) (p.Normal.Y.toQ * (w.Y.toQ - l.Direction.Y.toQ / R))
      have := c n1 nx
      have := c n2 ny
      have := c n3 nz
      linarith
    have e : (den.toQ : ℝ) - C = (den.toQ - (dotQ p.Normal w : ℚ)) + ((dotQ p.Normal w : ℚ) - C) := by ring
    rw [e]
    refine (abs_add_le _ _).trans ?_
    have : 0 ≤ ur * N := by positivity
    linarith
  have dN : |((d1 - d2).toQ : ℝ) - Q| ≤ 31 * ur * (N * M) := by
    have := (Rat.cast_le (K := ℝ)).mpr aQ.err
    push_cast at this
    rw [ur_cast] at this
    rw [hQ]
    push_cast
    have p0 : 0 ≤ ur * ((N:ℝ) * M) := by positivity
    refine this.trans ?_
    linarith
  have bQ : |Q| ≤ 6 * (N * M) := by
    have := (Rat.cast_le (K := ℝ)).mpr aQ.le
    push_cast at this
    rw [hQ]
    push_cast
    refine this.trans (le_of_eq ?_); ring
  obtain ⟨dne, qerr, qle⟩ := quot_bound u0 u1 N0r M0r k1r k2r hCk dD dN bQ
  -- the float quotient
  have fD := aD.fin
  have fN := aQ.fin
  generalize d1 - d2 = num at *
  have dne' : den.toQ ≠ 0 := by exact_mod_cast dne
  have kk : (κ:ℝ) ≤ κ ^ 2 := by rw [sq]; exact le_mul_of_one_le_left (by linarith) k1r
  have hkM : (κ:ℝ) * M ≤ κ ^ 2 * M := mul_le_mul_of_nonneg_right kk M0r.le
  have hMk : (M:ℝ) ≤ κ * M := le_mul_of_one_le_left M0r.le k1r
  have P0 : 0 ≤ ur * ((κ:ℝ) ^ 2 * M) := by positivity
  have hu2 : ur * ((κ:ℝ) ^ 2 * M) ≤ 1 / 10000 * (κ * M) := by
    have : ur * κ ≤ 1 / 2 ^ 50 * 2 ^ 20 := mul_le_mul u1 k2r (by linarith) (by norm_num)
    have h : ur * κ ≤ 1 / 10000 := this.trans (by norm_num)
    have e : ur * ((κ:ℝ) ^ 2 * M) = ur * κ * (κ * M) := by ring
    rw [e]
    exact mul_le_mul_of_nonneg_right h (by positivity)
  have qS : |(num.toQ : ℝ) / den.toQ| ≤ 61 / 10 * (κ * M) := by
    have e : (num.toQ : ℝ) / den.toQ = Q / C + (num.toQ / den.toQ - Q / C) := by ring
    rw [e]
    refine (abs_add_le _ _).trans ?_
    linarith
  have hbig : (κ:ℝ) * M ≤ 2 ^ 80 := by
    have := mul_le_mul k2r m1r M0r.le (by norm_num)
    exact this.trans (by norm_num)
  obtain ⟨ft, et⟩ := div_fin fN fD dne' (rnd_small_real (q := num.toQ / den.toQ) (by
    push_cast
    have : (61:ℝ) / 10 * 2 ^ 80 ≤ 2 ^ 190 := by norm_num
    linarith))
  have rt := rnd_err_real (num.toQ / den.toQ)
  rw [← et] at rt
  push_cast at rt
  have tlow : ((tau : ℚ) : ℝ) ≤ 1 / 10 * ur * (κ ^ 2 * M) := by
    have a : (1:ℝ) / 2 ^ 114 ≤ ur * M := by
      unfold ur
      calc (1:ℝ) / 2 ^ 114 ≤ 1 / 2 ^ 53 * (1 / 2 ^ 60) := by norm_num
        _ ≤ _ := mul_le_mul_of_nonneg_left m0r (by norm_num)
    have b : ((tau : ℚ) : ℝ) ≤ 1 / 2 ^ 124 := by
      have : tau ≤ 1 / 2 ^ 124 := by
        unfold tau
        exact one_div_le_one_div_of_le (by positivity) (pow_le_pow_right₀ (by norm_num) (by norm_num))
      have := (Rat.cast_le (K := ℝ)).mpr this
      push_cast at this
      exact this
    have c : ur * M ≤ ur * (κ ^ 2 * M) := mul_le_mul_of_nonneg_left (hMk.trans hkM) u0.le
    have d : (1:ℝ) / 2 ^ 124 ≤ 1 / 10 * (1 / 2 ^ 114) := by norm_num
    linarith
  have terr : |((num / den).toQ : ℝ) - Q / C| ≤ 232 * ur * (κ ^ 2 * M) := by
    have e : ((num / den).toQ : ℝ) - Q / C = ((num / den).toQ - num.toQ / den.toQ) + (num.toQ / den.toQ - Q / C) := by ring
    rw [e]
    refine (abs_add_le _ _).trans ?_
    have a : ur * |(num.toQ : ℝ) / den.toQ| ≤ ur * (61 / 10 * (κ * M)) := mul_le_mul_of_nonneg_left qS u0.le
    have c : ur * ((κ:ℝ) * M) ≤ ur * (κ ^ 2 * M) := mul_le_mul_of_nonneg_left hkM u0.le
    linarith
  exact ⟨fD, dne', ft, terr, qle, hCk⟩

/-- one coordinate, however computed -/
theorem coordE {s t w r : F64} (h : Ev ((.leaf s : Expr F64) + .leaf t * .leaf w) r) : r = s + t * w ∨ r = fma t w s := by
  rcases h.add_inv with ⟨x, y, hx, hy, rfl⟩ | ⟨a1, a2, x, y, z, e, _⟩ | ⟨a1, a2, x, y, z, e, hx, hy, hz, rfl⟩
  · obtain ⟨a, b, ha, hb, rfl⟩ := hy.mul_inv
    left; rw [hx.leaf_inv, ha.leaf_inv, hb.leaf_inv]
  · exact absurd e (by intro h; injection h)
  · injection e with e1 e2
    subst e1 e2
    right; rw [hx.leaf_inv, hy.leaf_inv, hz.leaf_inv]

/-- C124: if the angle is not too small (as in C85), IntersectPlane does not panic however it is fused, and every point it may return is within `300 * 2^-53 * κ^2 * M` of
the point computed over the reals, which is the exact intersection by C05 -/
theorem C124_intersect (h : LineFit l p N M) (k1 : 1 ≤ κ) (k2 : κ ≤ 2 ^ 20) (hk : N ^ 2 * sqLen l.Direction ≤ κ ^ 2 * dotQ p.Normal l.Direction ^ 2) :
    ∃ x, (⟨realV l.point, realV l.Direction⟩ : Line ℝ).IntersectPlane ⟨realV p.Normal, realV p.point⟩ = .ok x ∧
      ∀ o, IntersectEv l p o → ∃ r, o = .ok r ∧
        FinV r ∧ |(r.X.toQ : ℝ) - x.X| ≤ 300 / 2 ^ 53 * (κ ^ 2 * M) ∧ |(r.Y.toQ : ℝ) - x.Y| ≤ 300 / 2 ^ 53 * (κ ^ 2 * M) ∧
        |(r.Z.toQ : ℝ) - x.Z| ≤ 300 / 2 ^ 53 * (κ ^ 2 * M) := by
  obtain ⟨_, x, _, hx, _⟩ := C85_intersect h k1 k2 hk
  have ne0 : ∀ {w c}, NormalizeEv l.Direction w → Ev (Dot (leafs p.Normal) (leafs w)) c → ¬ (c == (0 : F64)) = true := by
    intro w c hw hc
    obtain ⟨f, n, _⟩ := param_fused h k1 k2 hk hw hc (Ev.eval _)
    rw [beq_fin (y := (0 : F64)) f trivial]
    exact n
  refine ⟨x, hx, fun o ho => ?_⟩
  cases ho with
  | panic hw hc h0 => exact absurd h0 (ne0 hw hc)
  | @ok w c w' num den w'' r hw hc h0 hnum hw' hden hw'' hX hY hZ =>
    refine ⟨r, rfl, ?_⟩
    obtain ⟨fD, dne, ft, terr, qle, hCk⟩ := param_fused h k1 k2 hk hw' hden hnum
    obtain ⟨fw, ⟨ux, nx⟩, ⟨uy, ny⟩, ⟨uz, nz⟩⟩ := dir_fused h hw''
    have N0 : 0 < N := lt_of_lt_of_le (by positivity) h.nlow
    have N0r : (0:ℝ) < N := by exact_mod_cast N0
    have k1r : (1:ℝ) ≤ κ := by exact_mod_cast k1
    have k2r : (κ:ℝ) ≤ 2 ^ 20 := by exact_mod_cast k2
    have m0r : (1:ℝ) / 2 ^ 60 ≤ M := by
      have := (Rat.cast_le (K := ℝ)).mpr h.mlow
      push_cast at this; exact this
    have m1r : (M:ℝ) ≤ 2 ^ 60 := by exact_mod_cast h.mhigh
    have hmb : ∀ {x : F64}, (x.Finite ∧ |x.toQ| ≤ M) → |(x.toQ : ℝ)| ≤ M := fun hx => by exact_mod_cast hx.2
    have one : ∀ {s w r : F64} {U : ℝ}, (s.Finite ∧ |s.toQ| ≤ M) → w.Finite → |U| ≤ 1 → |(w.toQ : ℝ) - U| ≤ 61 / 10 * ur →
        Ev ((.leaf s : Expr F64) + .leaf (num / den) * .leaf w) r →
        r.Finite ∧ |(r.toQ : ℝ) - (s.toQ + exactQ l p / exactC l p * U)| ≤ 300 * ur * (κ ^ 2 * M) := by
      intro s w r U hs hw hU hwU hr
      rcases coordE hr with rfl | rfl
      · exact coord_bound hs.1 ft hw m0r m1r k1r k2r (hmb hs) terr qle hU hwU
      · exact coord_fused hs.1 ft hw m0r m1r k1r k2r (hmb hs) terr qle hU hwU
    obtain ⟨f1, e1⟩ := one h.start.1 fw.1 ux nx hX
    obtain ⟨f2, e2⟩ := one h.start.2.1 fw.2.1 uy ny hY
    obtain ⟨f3, e3⟩ := one h.start.2.2 fw.2.2 uz nz hZ
    have eu : (300:ℝ) / 2 ^ 53 = 300 * ur := by unfold ur; ring
    rw [eu]
    have hr : 0 < Real.sqrt (sqLen l.Direction) := lt_of_lt_of_le (by positivity) (root_range h.dfin h.dlow h.dhigh).1
    have hrr : Real.sqrt (sqLen l.Direction) ^ 2 = sqLen l.Direction := Real.sq_sqrt (by exact_mod_cast (lt_of_lt_of_le (by positivity) h.dlow).le)
    have hx2 : (⟨realV l.point, realV l.Direction⟩ : Line ℝ).IntersectPlane ⟨realV p.Normal, realV p.point⟩ =
        .ok ⟨l.point.X.toQ + exactQ l p / exactC l p * (l.Direction.X.toQ / Real.sqrt (sqLen l.Direction)), l.point.Y.toQ + exactQ l p / exactC l p * (l.Direction.Y.toQ / Real.sqrt (sqLen l.Direction)),
          l.point.Z.toQ + exactQ l p / exactC l p * (l.Direction.Z.toQ / Real.sqrt (sqLen l.Direction))⟩ := by
      have hC : exactC l p = (dotQ p.Normal l.Direction : ℚ) / Real.sqrt (sqLen l.Direction) := rfl
      have hQ : exactQ l p = ((dotQ p.Normal p.point - dotQ p.Normal l.point : ℚ) : ℝ) := rfl
      generalize exactC l p = C at *
      generalize exactQ l p = Q at *
      generalize hR : Real.sqrt (sqLen l.Direction) = R at *
      have hN2 : (realV l.Direction).Norm2 = (sqLen l.Direction : ℚ) := by
        simp only [R3.Vector.Norm2, Dot, realV, sqLen]; push_cast; ring
      have hd0 : realV l.Direction ≠ ⟨0, 0, 0⟩ := by
        intro h0
        rw [h0] at hN2
        simp only [R3.Vector.Norm2, Dot, mul_zero, add_zero] at hN2
        rw [← hN2] at hrr
        exact hr.ne' (pow_eq_zero_iff (by norm_num) |>.mp hrr)
      have hNz : Normalize (realV l.Direction) = ⟨l.Direction.X.toQ / R, l.Direction.Y.toQ / R, l.Direction.Z.toQ / R⟩ := by
        rw [normalize_of_ne hd0, hN2, hR]
        apply R3.Vector.ext <;> simp only [R3.Vector.Scaled, realV] <;> ring
      have hCne : C ≠ 0 := by
        intro h0
        rw [h0, abs_zero, mul_zero] at hCk
        linarith
      have hDC : Dot (realV p.Normal) (Normalize (realV l.Direction)) = C := by
        rw [hNz, hC]; simp only [Dot, realV, dotQ]; push_cast; ring
      have hDQ : Dot (realV p.Normal) (realV p.point) - Dot (realV p.Normal) (realV l.point) = Q := by
        rw [hQ]; simp only [Dot, realV, dotQ]; push_cast; ring
      unfold Line.IntersectPlane
      have hne : ¬ (C == (0 : ℝ)) = true := by simpa using hCne
      rw [hNz] at hDC
      simp only [hNz, hDC, hDQ, if_neg hne]
      rfl
    rw [hx] at hx2
    injection hx2 with hx2
    rw [hx2]
    exact ⟨⟨f1, f2, f3⟩, e1, e2, e3⟩

/-- C124: the outcome of the program without fusing is one of them -/
theorem C124_plain (l : Line F64) (p : Plane3D F64) : IntersectEv l p (l.IntersectPlane p) := by
  have hn : NormalizeEv l.Direction (Normalize l.Direction) := ⟨_, Ev.eval _, rfl⟩
  have hc := Ev.eval (Dot (leafs p.Normal) (leafs (Normalize l.Direction)))
  unfold Line.IntersectPlane
  by_cases h0 : (Dot p.Normal (Normalize l.Direction) == (0 : F64)) = true
  · rw [if_pos h0]
    exact .panic hn hc h0
  · rw [if_neg h0]
    exact .ok hn hc h0 (Ev.eval _) hn hc hn (Ev.eval _) (Ev.eval _) (Ev.eval _)

end

/-- C124: fusing decides whether a parallel line is noticed. Here the program without fusing panics, as it should, and the fused program returns a point more than 10^15 away -/
theorem C124_parallel_refuted : ∃ (l : Line F64) (p : Plane3D F64) (r : R3.Vector F64), LineFit l p 6 1 ∧ dotQ p.Normal l.Direction = 0 ∧
    l.IntersectPlane p = .panic ∧ IntersectEv l p .panic ∧ IntersectEv l p (.ok r) ∧ FinV r ∧ 10 ^ 15 < |r.X.toQ| := by
  have h2 : (⟨2, -1, -2⟩ : R3.Vector F64).Norm2 = GoConst.const 9 := by decide +kernel
  have hne : ¬ ((GoConst.const 9 : F64) == 0) = true := by decide +kernel
  have hn : Normalize (⟨2, -1, -2⟩ : R3.Vector F64) = ⟨(1 / 3) * 2, (1 / 3) * (-1), (1 / 3) * (-2)⟩ := by
    unfold Normalize
    simp only [h2, if_neg hne, sqrt_nine]
    rfl
  have hw : NormalizeEv ⟨2, -1, -2⟩ ⟨(1 / 3) * 2, (1 / 3) * (-1), (1 / 3) * (-2)⟩ := ⟨_, Ev.eval _, hn.symm⟩
  have hp : (⟨⟨0, 0, 0⟩, ⟨2, -1, -2⟩⟩ : Line F64).IntersectPlane ⟨⟨3, GoConst.const 6, 0⟩, ⟨1, 0, 0⟩⟩ = .panic := by
    unfold Line.IntersectPlane
    have h0 : (Dot (⟨3, GoConst.const 6, 0⟩ : R3.Vector F64) ⟨(1 / 3) * 2, (1 / 3) * (-1), (1 / 3) * (-2)⟩ == 0) = true := by decide +kernel
    simp only [hn, if_pos h0]
  refine ⟨⟨⟨0, 0, 0⟩, ⟨2, -1, -2⟩⟩, ⟨⟨3, GoConst.const 6, 0⟩, ⟨1, 0, 0⟩⟩, R3.Add ⟨0, 0, 0⟩ ((⟨(1 / 3) * 2, (1 / 3) * (-1), (1 / 3) * (-2)⟩ : R3.Vector F64).Scaled
    ((Dot ⟨3, GoConst.const 6, 0⟩ ⟨1, 0, 0⟩ - Dot ⟨3, GoConst.const 6, 0⟩ ⟨0, 0, 0⟩) / (Dot (leafs ⟨3, GoConst.const 6, 0⟩) (leafs ⟨(1 / 3) * 2, (1 / 3) * (-1), (1 / 3) * (-2)⟩)).fuse)), ?_,
    by decide +kernel, hp, hp ▸ C124_plain _ _, ?_, by decide +kernel, by decide +kernel⟩
  · constructor <;> decide +kernel
  · exact .ok hw (Ev.fuse _) (by decide +kernel) (Ev.eval _) hw (Ev.fuse _) hw (Ev.eval _) (Ev.eval _) (Ev.eval _)

/-- a line and a plane with decimal coordinates at a moderate angle meet the hypotheses -/
example : let l : Line F64 := ⟨⟨GoConst.const (1 / 10), GoConst.const (2 / 10), GoConst.const (3 / 10)⟩, ⟨GoConst.const (7 / 10), GoConst.const (1 / 10), 2⟩⟩
    let p : Plane3D F64 := ⟨⟨GoConst.const (1 / 3), GoConst.const (-1 / 10), 1⟩, ⟨GoConst.const (-9 / 10), 0, 1⟩⟩
    LineFit l p 1 1 ∧ 1 ^ 2 * sqLen l.Direction ≤ 2 ^ 2 * dotQ p.Normal l.Direction ^ 2 := by
  refine ⟨?_, by decide +kernel⟩
  constructor <;> decide +kernel

end Verif.Props
