import Verif.Proofs.SignRun
/-!
# Points of a grid that a rounded order of distances may put last

The points are integer, `|x|, |y| ≤ 512`. `b = (bx, bz)` is the vector between the first two corners of the seed triangle; the two are the closest
pair, so all other points that are close to the far centre of the seed circle are on one line with them, or far away.
-/
namespace Verif.Proofs
open Verif Verif.F64 Verif.Tri2 Verif.Props

/-- two different integer points on a line of direction `b` are at least `|b| / gcd b` apart -/
theorem line_step {bx bz dx dy : ℤ} (h : bx * dy - bz * dx = 0) (hd : dx ≠ 0 ∨ dy ≠ 0) :
    bx ^ 2 + bz ^ 2 ≤ (Int.gcd bx bz : ℤ) ^ 2 * (dx ^ 2 + dy ^ 2) := by
  rcases Nat.eq_zero_or_pos (Int.gcd bx bz) with h0 | hg
  · rw [Int.gcd_eq_zero_iff] at h0
    rw [h0.1, h0.2]; positivity
  · obtain ⟨b1, h1⟩ := Int.gcd_dvd_left bx bz
    obtain ⟨b2, h2⟩ := Int.gcd_dvd_right bx bz
    have hbez := Int.gcd_eq_gcd_ab bx bz
    set g : ℤ := (Int.gcd bx bz : ℤ) with hgd
    have hg' : g ≠ 0 := by rw [hgd]; exact_mod_cast hg.ne'
    set u := Int.gcdA bx bz
    set v := Int.gcdB bx bz
    have hc : b1 * u + b2 * v = 1 := by
      apply mul_left_cancel₀ hg'
      rw [mul_one]
      calc g * (b1 * u + b2 * v) = (g * b1) * u + (g * b2) * v := by ring
        _ = bx * u + bz * v := by rw [← h1, ← h2]
        _ = g := hbez.symm
    have hp : b1 * dy = b2 * dx := by
      apply mul_left_cancel₀ hg'
      calc g * (b1 * dy) = (g * b1) * dy := by ring
        _ = bx * dy := by rw [← h1]
        _ = bz * dx := by linarith
        _ = (g * b2) * dx := by rw [← h2]
        _ = g * (b2 * dx) := by ring
    set j := u * dx + v * dy
    have ex : dx = b1 * j := by
      calc dx = (b1 * u + b2 * v) * dx := by rw [hc, one_mul]
        _ = b1 * u * dx + v * (b2 * dx) := by ring
        _ = b1 * u * dx + v * (b1 * dy) := by rw [hp]
        _ = b1 * j := by ring
    have ey : dy = b2 * j := by
      calc dy = (b1 * u + b2 * v) * dy := by rw [hc, one_mul]
        _ = u * (b1 * dy) + b2 * v * dy := by ring
        _ = u * (b2 * dx) + b2 * v * dy := by rw [hp]
        _ = b2 * j := by ring
    have hj : j ≠ 0 := by
      intro h0
      rw [h0, mul_zero] at ex ey
      rcases hd with h | h
      · exact h ex
      · exact h ey
    have hj1 : 1 ≤ j ^ 2 := by
      have := Int.one_le_abs hj
      rw [← sq_abs]; nlinarith
    have e1 : bx ^ 2 + bz ^ 2 = g ^ 2 * (b1 ^ 2 + b2 ^ 2) := by
      calc bx ^ 2 + bz ^ 2 = (g * b1) ^ 2 + (g * b2) ^ 2 := by rw [← h1, ← h2]
        _ = _ := by ring
    have e2 : dx ^ 2 + dy ^ 2 = j ^ 2 * (b1 ^ 2 + b2 ^ 2) := by rw [ex, ey]; ring
    rw [e1, e2]
    apply mul_le_mul_of_nonneg_left _ (sq_nonneg _)
    nlinarith [sq_nonneg b1, sq_nonneg b2]

/-- the distance of a point `q = p + (dx, dy)` from `p`; `t` says how much farther it is from the line of direction `b` -/
theorem point_bound {bx bz dx dy yx yy t : ℤ} {k : ℚ} (ht : t = bx * dy - bz * dx) (hd : dx ≠ 0 ∨ dy ≠ 0) (hL : bx ^ 2 + bz ^ 2 ≤ 2 ^ 21)
    (hK : 2 ^ 15 ≤ |k|) (hg : |k| * (Int.gcd bx bz : ℤ) ≤ 2 ^ 21) (hx : |yx| ≤ 2 ^ 11) (hy : |yy| ≤ 2 ^ 11)
    (h2 : ((dx ^ 2 + dy ^ 2 + (dx * yx + dy * yy) : ℤ) : ℚ) - k * t ≤ |k| / 100) (hkt : |k| * |(t:ℚ)| ≤ 2 ^ 22) :
    31 / 10 * uro * ((bx ^ 2 + bz ^ 2 : ℤ) : ℚ) * |k| ^ 2 * (|k| - k * t) ≤ |k| * ((dx ^ 2 + dy ^ 2 : ℤ) : ℚ) := by
  obtain ⟨K, hKd⟩ : ∃ K, K = |k| := ⟨_, rfl⟩
  rw [← hKd] at hK hg h2 hkt ⊢
  have hK0 : 0 < K := by linarith [show (0:ℚ) < 2 ^ 15 by norm_num]
  have hu : uro = 1 / 2 ^ 53 := rfl
  obtain ⟨L, hLd⟩ : ∃ L : ℚ, L = ((bx ^ 2 + bz ^ 2 : ℤ) : ℚ) := ⟨_, rfl⟩
  obtain ⟨x, hxd⟩ : ∃ x : ℚ, x = ((dx ^ 2 + dy ^ 2 : ℤ) : ℚ) := ⟨_, rfl⟩
  have hL1 : L ≤ 2 ^ 21 := by rw [hLd]; exact_mod_cast hL
  have hL0 : 0 ≤ L := by rw [hLd]; exact_mod_cast (by positivity : (0:ℤ) ≤ bx ^ 2 + bz ^ 2)
  have hx0 : 0 ≤ x := by rw [hxd]; exact_mod_cast (by positivity : (0:ℤ) ≤ dx ^ 2 + dy ^ 2)
  rw [← hLd, ← hxd]
  have hkt' : |k * t| = K * |(t:ℚ)| := by rw [abs_mul, hKd]
  rcases eq_or_ne t 0 with h0 | h0
  · -- on a parallel of the line
    have := line_step (ht ▸ h0) hd
    have hl : L ≤ ((Int.gcd bx bz : ℤ) : ℚ) ^ 2 * x := by
      rw [hLd, hxd]; exact_mod_cast this
    rw [h0, Int.cast_zero, mul_zero, sub_zero]
    have hg0 : (0:ℚ) ≤ ((Int.gcd bx bz : ℤ) : ℚ) := by positivity
    generalize ((Int.gcd bx bz : ℤ) : ℚ) = g at *
    have h3 : (K * g) ^ 2 ≤ 2 ^ 42 := by
      calc (K * g) ^ 2 ≤ (2 ^ 21) ^ 2 := pow_le_pow_left₀ (mul_nonneg hK0.le hg0) hg 2
        _ = 2 ^ 42 := by norm_num
    have h4 : 31 / 10 * uro * L * K ^ 2 ≤ x := by
      calc 31 / 10 * uro * L * K ^ 2 ≤ 31 / 10 * uro * (g ^ 2 * x) * K ^ 2 := by
            have := uro_pos
            gcongr
        _ = (31 / 10 * uro * (K * g) ^ 2) * x := by ring
        _ ≤ 1 * x := by
            apply mul_le_mul_of_nonneg_right _ hx0
            calc 31 / 10 * uro * (K * g) ^ 2 ≤ 31 / 10 * uro * 2 ^ 42 := mul_le_mul_of_nonneg_left h3 (by rw [hu]; norm_num)
              _ ≤ 1 := by rw [hu]; norm_num
        _ = x := one_mul x
    calc 31 / 10 * uro * L * K ^ 2 * K ≤ x * K := mul_le_mul_of_nonneg_right h4 hK0.le
      _ = K * x := mul_comm _ _
  · have ht1 : (1:ℚ) ≤ |(t:ℚ)| := by exact_mod_cast Int.one_le_abs h0
    have hKt : K ≤ K * |(t:ℚ)| := by
      calc K = K * 1 := (mul_one _).symm
        _ ≤ _ := mul_le_mul_of_nonneg_left ht1 hK0.le
    have hα : 0 ≤ 31 / 10 * uro * L * K ^ 2 := by have := uro_pos; positivity
    rcases le_or_gt 0 (k * t) with hs | hs
    · rw [abs_of_nonneg hs] at hkt'
      have : 31 / 10 * uro * L * K ^ 2 * (K - k * t) ≤ 0 := mul_nonpos_of_nonneg_of_nonpos hα (by linarith)
      exact this.trans (mul_nonneg hK0.le hx0)
    · -- nearer to the centre by the distance from the line, so it must be far away
      rw [abs_of_neg hs] at hkt'
      have h5 : ((dx * yx + dy * yy : ℤ) : ℚ) ≤ - (99 / 100 * K) := by
        push_cast at h2 hxd ⊢
        rw [hxd] at hx0
        linarith
      have h6 : (99 / 100 * K) ^ 2 ≤ ((dx * yx + dy * yy : ℤ) : ℚ) ^ 2 := by
        rw [← neg_sq (((dx * yx + dy * yy : ℤ) : ℚ))]
        exact pow_le_pow_left₀ (by positivity) (by linarith) 2
      have h7 : (dx * yx + dy * yy) ^ 2 ≤ (dx ^ 2 + dy ^ 2) * (yx ^ 2 + yy ^ 2) := by nlinarith [sq_nonneg (dx * yy - dy * yx)]
      have h8 : yx ^ 2 + yy ^ 2 ≤ 2 ^ 23 := by
        have e1 : yx ^ 2 ≤ (2 ^ 11) ^ 2 := by rw [← sq_abs]; exact pow_le_pow_left₀ (abs_nonneg _) hx 2
        have e2 : yy ^ 2 ≤ (2 ^ 11) ^ 2 := by rw [← sq_abs]; exact pow_le_pow_left₀ (abs_nonneg _) hy 2
        norm_num at e1 e2 ⊢; linarith
      have h9 : (dx * yx + dy * yy) ^ 2 ≤ (dx ^ 2 + dy ^ 2) * 2 ^ 23 := h7.trans (mul_le_mul_of_nonneg_left h8 (by positivity))
      have h10 : (99 / 100 * K) ^ 2 ≤ x * 2 ^ 23 := by
        refine h6.trans ?_
        rw [hxd]; exact_mod_cast h9
      have h11 : 31 / 10 * uro * L * (K + 2 ^ 22) * 2 ^ 23 ≤ (99 / 100) ^ 2 * K := by
        calc 31 / 10 * uro * L * (K + 2 ^ 22) * 2 ^ 23 ≤ 31 / 10 * uro * 2 ^ 21 * (K + 2 ^ 22) * 2 ^ 23 := by
              have := uro_pos
              gcongr
          _ ≤ (99 / 100) ^ 2 * K := by rw [hu]; norm_num at hK ⊢; linarith
      have h12 : 31 / 10 * uro * L * K ^ 2 * (K + 2 ^ 22) * 2 ^ 23 ≤ K * x * 2 ^ 23 := by
        calc 31 / 10 * uro * L * K ^ 2 * (K + 2 ^ 22) * 2 ^ 23 = (31 / 10 * uro * L * (K + 2 ^ 22) * 2 ^ 23) * K ^ 2 := by ring
          _ ≤ ((99 / 100) ^ 2 * K) * K ^ 2 := mul_le_mul_of_nonneg_right h11 (sq_nonneg K)
          _ = K * (99 / 100 * K) ^ 2 := by ring
          _ ≤ K * (x * 2 ^ 23) := mul_le_mul_of_nonneg_left h10 hK0.le
          _ = K * x * 2 ^ 23 := by ring
      have h13 : 31 / 10 * uro * L * K ^ 2 * (K + 2 ^ 22) ≤ K * x := le_of_mul_le_mul_right h12 (by norm_num)
      refine le_trans ?_ h13
      exact mul_le_mul_of_nonneg_left (by linarith) hα

/-- the slack of the rounded order of distances -/
def slack (L k : ℚ) : ℚ := 3 * uro * L * |k| ^ 2 + 1 / 2 ^ 26

/-- three integer points around `p`, given by their differences from `p` and with weights `w`, cannot all be before `p` in the rounded order -/
theorem none_around {bx bz yx yy : ℤ} {k : ℚ} {dx dy w : Fin 3 → ℤ} (hL : bx ^ 2 + bz ^ 2 ≤ 2 ^ 21) (hb : bx ≠ 0 ∨ bz ≠ 0)
    (hg : |k| * (Int.gcd bx bz : ℤ) ≤ 2 ^ 21) (hx : |yx| ≤ 2 ^ 11) (hy : |yy| ≤ 2 ^ 11)
    (hd : ∀ i, dx i ≠ 0 ∨ dy i ≠ 0) (hw : ∀ i, 0 ≤ w i) (hW : 0 < w 0 + w 1 + w 2)
    (sx : w 0 * dx 0 + w 1 * dx 1 + w 2 * dx 2 = 0) (sy : w 0 * dy 0 + w 1 * dy 1 + w 2 * dy 2 = 0)
    (h1 : ((w 0 * (dx 0 ^ 2 + dy 0 ^ 2) + w 1 * (dx 1 ^ 2 + dy 1 ^ 2) + w 2 * (dx 2 ^ 2 + dy 2 ^ 2) : ℤ) : ℚ)
      ≤ ((w 0 + w 1 + w 2 : ℤ) : ℚ) * slack ((bx ^ 2 + bz ^ 2 : ℤ) : ℚ) k)
    (h2 : ∀ i, ((dx i ^ 2 + dy i ^ 2 + (dx i * yx + dy i * yy) : ℤ) : ℚ) - k * ((bx * dy i - bz * dx i : ℤ) : ℚ) ≤ 2 * slack ((bx ^ 2 + bz ^ 2 : ℤ) : ℚ) k)
    (hkt : ∀ i, |k| * |((bx * dy i - bz * dx i : ℤ) : ℚ)| ≤ 2 ^ 22) : False := by
  obtain ⟨K, hKd⟩ : ∃ K, K = |k| := ⟨_, rfl⟩
  obtain ⟨L, hLd⟩ : ∃ L : ℚ, L = ((bx ^ 2 + bz ^ 2 : ℤ) : ℚ) := ⟨_, rfl⟩
  have hu : uro = 1 / 2 ^ 53 := rfl
  have hL1 : L ≤ 2 ^ 21 := by rw [hLd]; exact_mod_cast hL
  have hL0 : 0 ≤ L := by rw [hLd]; exact_mod_cast (by positivity : (0:ℤ) ≤ bx ^ 2 + bz ^ 2)
  have hK0 : 0 ≤ K := by rw [hKd]; exact abs_nonneg _
  have one : ∀ i, 1 ≤ dx i ^ 2 + dy i ^ 2 := by
    intro i
    rcases hd i with h | h
    · have := Int.one_le_abs h
      have : 1 ≤ dx i ^ 2 := by rw [← sq_abs]; nlinarith
      nlinarith [sq_nonneg (dy i)]
    · have := Int.one_le_abs h
      have : 1 ≤ dy i ^ 2 := by rw [← sq_abs]; nlinarith
      nlinarith [sq_nonneg (dx i)]
  obtain ⟨W, hWd⟩ : ∃ W : ℚ, W = ((w 0 + w 1 + w 2 : ℤ) : ℚ) := ⟨_, rfl⟩
  have hW0 : 0 < W := by rw [hWd]; exact_mod_cast hW
  rw [← hLd, ← hWd] at h1
  have hδ : 1 ≤ slack L k := by
    have : W * 1 ≤ W * slack L k := by
      refine le_trans ?_ h1
      rw [mul_one, hWd]
      have e0 := mul_le_mul_of_nonneg_left (one 0) (hw 0)
      have e1 := mul_le_mul_of_nonneg_left (one 1) (hw 1)
      have e2 := mul_le_mul_of_nonneg_left (one 2) (hw 2)
      exact_mod_cast (by linarith : w 0 + w 1 + w 2 ≤ _)
    exact le_of_mul_le_mul_left this hW0
  unfold slack at hδ
  rw [← hKd] at hδ
  have hK : 2 ^ 15 ≤ K := by
    by_contra hlt
    rw [not_le] at hlt
    have h3 : K ^ 2 ≤ (2 ^ 15) ^ 2 := pow_le_pow_left₀ hK0 hlt.le 2
    have h4 : 3 * uro * L * K ^ 2 ≤ 3 * uro * 2 ^ 21 * (2 ^ 15) ^ 2 := by
      have := uro_pos
      gcongr
    rw [hu] at hδ h4
    norm_num at hδ h4
    linarith
  have hg1 : (1:ℚ) ≤ ((Int.gcd bx bz : ℤ) : ℚ) := by
    have : 0 < Int.gcd bx bz := by
      rw [Nat.pos_iff_ne_zero, Ne, Int.gcd_eq_zero_iff]
      tauto
    exact_mod_cast this
  have hKM : K ≤ 2 ^ 21 := by
    rw [← hKd] at hg
    have : K * 1 ≤ K * ((Int.gcd bx bz : ℤ) : ℚ) := mul_le_mul_of_nonneg_left hg1 hK0
    linarith
  have hsl : 2 * slack L k ≤ K / 100 := by
    unfold slack
    rw [← hKd]
    have h3 : L * K ^ 2 ≤ 2 ^ 42 * K := by
      calc L * K ^ 2 = (L * K) * K := by ring
        _ ≤ (2 ^ 21 * 2 ^ 21) * K := by gcongr
        _ = 2 ^ 42 * K := by norm_num
    have h4 : 3 * uro * L * K ^ 2 = 3 * uro * (L * K ^ 2) := by ring
    have h5 : 3 * uro * (L * K ^ 2) ≤ 3 * uro * (2 ^ 42 * K) := mul_le_mul_of_nonneg_left h3 (by rw [hu]; norm_num)
    rw [h4]
    rw [hu] at h5 ⊢
    norm_num at h5 hK ⊢
    linarith
  have P : ∀ i, 31 / 10 * uro * L * K ^ 2 * (K - k * ((bx * dy i - bz * dx i : ℤ) : ℚ)) ≤ K * ((dx i ^ 2 + dy i ^ 2 : ℤ) : ℚ) := by
    intro i
    have := point_bound (t := bx * dy i - bz * dx i) rfl (hd i) hL (by rw [← hKd]; exact hK) hg hx hy (by
      have := h2 i
      rw [← hLd] at this
      rw [← hKd]; exact this.trans hsl) (hkt i)
    rwa [← hKd, ← hLd] at this
  have Q : ∀ i, (w i : ℚ) * (31 / 10 * uro * L * K ^ 2 * (K - k * ((bx * dy i - bz * dx i : ℤ) : ℚ))) ≤ (w i : ℚ) * (K * ((dx i ^ 2 + dy i ^ 2 : ℤ) : ℚ)) :=
    fun i => mul_le_mul_of_nonneg_left (P i) (by exact_mod_cast hw i)
  have q0 := Q 0
  have q1 := Q 1
  have q2 := Q 2
  have hsum : (w 0 : ℚ) * ((bx * dy 0 - bz * dx 0 : ℤ) : ℚ) + (w 1 : ℚ) * ((bx * dy 1 - bz * dx 1 : ℤ) : ℚ) + (w 2 : ℚ) * ((bx * dy 2 - bz * dx 2 : ℤ) : ℚ) = 0 := by
    have : w 0 * (bx * dy 0 - bz * dx 0) + w 1 * (bx * dy 1 - bz * dx 1) + w 2 * (bx * dy 2 - bz * dx 2) = 0 := by
      calc _ = bx * (w 0 * dy 0 + w 1 * dy 1 + w 2 * dy 2) - bz * (w 0 * dx 0 + w 1 * dx 1 + w 2 * dx 2) := by ring
        _ = 0 := by rw [sx, sy]; ring
    exact_mod_cast this
  have key : 31 / 10 * uro * L * K ^ 2 * (K * W) ≤ K * (W * slack L k) := by
    refine le_trans (le_of_eq ?_) ((add_le_add (add_le_add q0 q1) q2).trans ?_)
    · rw [hWd]
      push_cast at hsum ⊢
      linear_combination (31 / 10 * uro * L * K ^ 2 * k) * hsum
    · refine le_trans (le_of_eq ?_) (mul_le_mul_of_nonneg_left h1 hK0)
      push_cast
      ring
  have hKpos : 0 < K := lt_of_lt_of_le (by norm_num) hK
  have key2 : 31 / 10 * uro * L * K ^ 2 ≤ slack L k := by
    have e1 : 31 / 10 * uro * L * K ^ 2 * (K * W) = (K * W) * (31 / 10 * uro * L * K ^ 2) := by ring
    have e2 : K * (W * slack L k) = (K * W) * slack L k := by ring
    rw [e1, e2] at key
    exact le_of_mul_le_mul_left key (mul_pos hKpos hW0)
  unfold slack at key2
  rw [← hKd] at key2
  rw [hu] at key2 hδ
  norm_num at key2 hδ
  linarith

end Verif.Proofs
