import Verif.Proofs.F64
/-!
# The mean of four binary64 numbers

Adding a number four times and dividing by four gives the number back, so the mean of four numbers stays between the least and
the greatest.
-/
namespace Verif.Proofs
open Verif Verif.F64

theorem roundEven_near {x : ℚ} {z : ℤ} (h : |x - z| ≤ 1 / 2) (h' : |x - z| < 1 / 2 ∨ z % 2 = 0) : roundEven x = z := by
  rw [abs_le] at h
  rw [abs_lt] at h'
  have hf : ⌊x⌋ = z ∨ ⌊x⌋ = z - 1 := by
    rcases le_or_gt (z:ℚ) x with g | g
    · left; rw [Int.floor_eq_iff]; constructor <;> linarith
    · right; rw [Int.floor_eq_iff]; push_cast; constructor <;> linarith
  unfold roundEven
  rcases hf with e | e
  · rw [e]
    split_ifs with h1 h2 h3
    · rfl
    · linarith
    · rfl
    · rcases h' with h' | h'
      · linarith
      · exact absurd h' h3
  · rw [e]
    push_cast
    split_ifs with h1 h2 h3
    · linarith
    · omega
    · rcases h' with h' | h'
      · exfalso
        apply h1; linarith
      · omega
    · omega

theorem expo_eq {x : ℚ} {e : ℤ} (h1 : 2 ^ (52 + e) ≤ x) (h2 : x < 2 ^ (53 + e)) (h3 : -1074 ≤ e) : expo x = e := by
  have p : 0 < x := (two_zpow_pos _).trans_le h1
  unfold expo
  rw [abs_of_pos p]
  have a : 52 + e ≤ Int.log 2 x := (Int.zpow_le_iff_le_log (by norm_num) p).mp (by exact_mod_cast h1)
  have b : Int.log 2 x < 53 + e := (Int.lt_zpow_iff_log_lt (by norm_num) p).mp (by exact_mod_cast h2)
  omega

/-- rounding `z * 2 ^ e` when `z` has at most `j` bits too many -/
theorem rnd_cut {z e : ℤ} (j : ℕ) (h1 : 2 ^ (52 + j) ≤ z) (h2 : z < 2 ^ (53 + j)) (h3 : -1074 ≤ e) {n : ℤ}
    (h4 : 2 * |z - n * 2 ^ j| ≤ 2 ^ j) (h5 : 2 * |z - n * 2 ^ j| < 2 ^ j ∨ n % 2 = 0) : rnd ((z:ℚ) * 2 ^ e) = n * 2 ^ j * 2 ^ e := by
  have hj : (0:ℚ) < 2 ^ j := by positivity
  have hE : expo ((z:ℚ) * 2 ^ e) = e + j := by
    refine expo_eq ?_ ?_ (by omega)
    · rw [show 52 + (e + (j:ℤ)) = ((52 + j : ℕ) : ℤ) + e by push_cast; ring, zpow_add₀ (by norm_num), zpow_natCast]
      exact mul_le_mul_of_nonneg_right (by exact_mod_cast h1) (two_zpow_pos _).le
    · rw [show 53 + (e + (j:ℤ)) = ((53 + j : ℕ) : ℤ) + e by push_cast; ring, zpow_add₀ (by norm_num), zpow_natCast]
      exact mul_lt_mul_of_pos_right (by exact_mod_cast h2) (two_zpow_pos _)
  have hd : (z:ℚ) * 2 ^ e / 2 ^ (e + (j:ℤ)) = z / 2 ^ j := by
    rw [zpow_add₀ (by norm_num), zpow_natCast]
    field_simp
  have hq : |(z:ℚ) / 2 ^ j - n| = |((z - n * 2 ^ j : ℤ) : ℚ)| / 2 ^ j := by
    rw [← abs_of_pos hj, ← abs_div, abs_of_pos hj]
    congr 1
    push_cast
    field_simp
  have hr : roundEven ((z:ℚ) / 2 ^ j) = n := by
    refine roundEven_near ?_ ?_
    · rw [hq, div_le_iff₀ hj]
      have : ((2 * |z - n * 2 ^ j| : ℤ) : ℚ) ≤ ((2 ^ j : ℤ) : ℚ) := by exact_mod_cast h4
      push_cast at this ⊢
      linarith
    · refine h5.imp (fun h5 => ?_) id
      rw [hq, div_lt_iff₀ hj]
      have : ((2 * |z - n * 2 ^ j| : ℤ) : ℚ) < ((2 ^ j : ℤ) : ℚ) := by exact_mod_cast h5
      push_cast at this ⊢
      linarith
  unfold rnd
  rw [hE, hd, hr, zpow_add₀ (by norm_num), zpow_natCast]
  ring

theorem bin_mul {n e : ℤ} (h : |n| < 2 ^ 53) (he : -1074 ≤ e) (j : ℕ) : rnd ((n:ℚ) * 2 ^ j * 2 ^ e) = n * 2 ^ j * 2 ^ e := by
  have := rnd_id (K := ℚ) (q := (n:ℚ) * 2 ^ j * 2 ^ e) ⟨n, e + j, h, by omega, by rw [zpow_add₀ (by norm_num), zpow_natCast]; ring⟩
  simpa using this

/-- adding a positive number of the format four times -/
theorem rnd_four_pos {n e : ℤ} (h0 : 0 < n) (h1 : n < 2 ^ 53) (he : -1074 ≤ e) :
    rnd (rnd (rnd ((n:ℚ) * 2 ^ e + n * 2 ^ e) + n * 2 ^ e) + n * 2 ^ e) = 4 * (n * 2 ^ e) := by
  have hb : |n| < 2 ^ 53 := by rw [abs_of_pos h0]; exact h1
  have s2 : rnd ((n:ℚ) * 2 ^ e + n * 2 ^ e) = n * 2 ^ 1 * 2 ^ e := by
    rw [show (n:ℚ) * 2 ^ e + n * 2 ^ e = n * 2 ^ 1 * 2 ^ e by ring, bin_mul hb he]
  have s4 : rnd ((n:ℚ) * 2 ^ 2 * 2 ^ e) = 4 * (n * 2 ^ e) := by rw [bin_mul hb he]; ring
  rw [s2, show (n:ℚ) * 2 ^ 1 * 2 ^ e + n * 2 ^ e = ((3 * n : ℤ) : ℚ) * 2 ^ e by push_cast; ring]
  -- the third sum
  rcases lt_or_ge (3 * n) (2 ^ 53) with c | c
  · have : rnd (((3 * n : ℤ) : ℚ) * 2 ^ e) = ((3 * n : ℤ) : ℚ) * 2 ^ e := by
      have := bin_mul (n := 3 * n) (by rw [abs_of_pos (by omega)]; exact c) he 0
      simpa using this
    rw [this, show ((3 * n : ℤ) : ℚ) * 2 ^ e + n * 2 ^ e = n * 2 ^ 2 * 2 ^ e by push_cast; ring, s4]
  · -- a correction by `d`
    have fin : ∀ d : ℤ, rnd (((3 * n : ℤ) : ℚ) * 2 ^ e) = ((3 * n + d : ℤ) : ℚ) * 2 ^ e →
        rnd (((4 * n + d : ℤ) : ℚ) * 2 ^ e) = 4 * (n * 2 ^ e) →
        rnd (rnd (((3 * n : ℤ) : ℚ) * 2 ^ e) + n * 2 ^ e) = 4 * (n * 2 ^ e) := by
      intro d h h'
      rw [h, ← h']
      congr 1
      push_cast; ring
    have r1 : ∀ d : ℤ, d = -1 ∨ d = 0 ∨ d = 1 → 2 ^ 54 ≤ 4 * n + d → rnd (((4 * n + d : ℤ) : ℚ) * 2 ^ e) = 4 * (n * 2 ^ e) := by
      intro d hd h
      rw [rnd_cut 2 (n := n) (by omega) (by omega) he (by rcases hd with rfl | rfl | rfl <;> norm_num [show ∀ a : ℤ, 4 * a + -1 - a * 4 = -1 from by intro a; ring, show ∀ a : ℤ, 4 * a + 1 - a * 4 = 1 from by intro a; ring, show ∀ a : ℤ, 4 * a - a * 4 = 0 from by intro a; ring])
        (Or.inl (by rcases hd with rfl | rfl | rfl <;> norm_num [show ∀ a : ℤ, 4 * a + -1 - a * 4 = -1 from by intro a; ring, show ∀ a : ℤ, 4 * a + 1 - a * 4 = 1 from by intro a; ring, show ∀ a : ℤ, 4 * a - a * 4 = 0 from by intro a; ring]))]
      ring
    have r0 : ∀ d : ℤ, d = -1 ∨ d = 0 ∨ d = 1 → 2 ^ 53 ≤ 4 * n + d → 4 * n + d < 2 ^ 54 → rnd (((4 * n + d : ℤ) : ℚ) * 2 ^ e) = 4 * (n * 2 ^ e) := by
      intro d hd h h'
      rw [rnd_cut 1 (n := 2 * n) (by omega) (by omega) he
        (by rcases hd with rfl | rfl | rfl <;> norm_num [show ∀ a : ℤ, 4 * a + -1 - 2 * a * 2 = -1 from by intro a; ring, show ∀ a : ℤ, 4 * a + 1 - 2 * a * 2 = 1 from by intro a; ring, show ∀ a : ℤ, 4 * a - 2 * a * 2 = 0 from by intro a; ring])
        (Or.inr (by omega))]
      push_cast; ring
    have rr : ∀ d : ℤ, d = -1 ∨ d = 0 ∨ d = 1 → 2 ^ 53 ≤ 4 * n + d → rnd (((4 * n + d : ℤ) : ℚ) * 2 ^ e) = 4 * (n * 2 ^ e) := by
      intro d hd h
      rcases lt_or_ge (4 * n + d) (2 ^ 54) with g | g
      · exact r0 d hd h g
      · exact r1 d hd g
    rcases lt_or_ge (3 * n) (2 ^ 54) with g | g
    · -- one bit too many
      rcases Int.emod_two_eq_zero_or_one n with m | m
      · refine fin 0 ?_ (rr 0 (by simp) (by omega))
        rw [rnd_cut 1 (n := 3 * n / 2) (by omega) (by omega) he (by rw [show 3 * n - 3 * n / 2 * 2 ^ 1 = 0 by omega]; norm_num)
          (Or.inl (by rw [show 3 * n - 3 * n / 2 * 2 ^ 1 = 0 by omega]; norm_num))]
        have : ((3 * n / 2 * 2 : ℤ) : ℚ) = ((3 * n : ℤ) : ℚ) := by congr 1; omega
        push_cast at this ⊢
        rw [← this]; ring
      · -- a tie
        rcases Int.emod_two_eq_zero_or_one (3 * n / 2) with k | k
        · refine fin (-1) ?_ (rr (-1) (by simp) (by omega))
          rw [rnd_cut 1 (n := 3 * n / 2) (by omega) (by omega) he (by rw [show 3 * n - 3 * n / 2 * 2 ^ 1 = 1 by omega]; norm_num) (Or.inr k)]
          have : ((3 * n / 2 * 2 : ℤ) : ℚ) = ((3 * n + -1 : ℤ) : ℚ) := by congr 1; omega
          rw [← this]; push_cast; ring
        · refine fin 1 ?_ (rr 1 (by simp) (by omega))
          rw [rnd_cut 1 (n := 3 * n / 2 + 1) (by omega) (by omega) he (by rw [show 3 * n - (3 * n / 2 + 1) * 2 ^ 1 = -1 by omega]; norm_num) (Or.inr (by omega))]
          have : (((3 * n / 2 + 1) * 2 : ℤ) : ℚ) = ((3 * n + 1 : ℤ) : ℚ) := by congr 1; omega
          rw [← this]; push_cast; ring
    · -- two bits too many
      have r2 : ∀ d : ℤ, d = -2 ∨ d = 2 → n % 2 = 0 → rnd (((4 * n + d : ℤ) : ℚ) * 2 ^ e) = 4 * (n * 2 ^ e) := by
        intro d hd h
        rw [rnd_cut 2 (n := n) (by omega) (by omega) he
          (by rcases hd with rfl | rfl <;> norm_num [show ∀ a : ℤ, 4 * a + -2 - a * 4 = -2 from by intro a; ring, show ∀ a : ℤ, 4 * a + 2 - a * 4 = 2 from by intro a; ring])
          (Or.inr h)]
        ring
      have m4 : 3 * n % 4 = 0 ∨ 3 * n % 4 = 1 ∨ 3 * n % 4 = 2 ∨ 3 * n % 4 = 3 := by omega
      rcases m4 with m | m | m | m
      · refine fin 0 ?_ (rr 0 (by simp) (by omega))
        rw [rnd_cut 2 (n := 3 * n / 4) (by omega) (by omega) he (by rw [show 3 * n - 3 * n / 4 * 2 ^ 2 = 0 by omega]; norm_num)
          (Or.inl (by rw [show 3 * n - 3 * n / 4 * 2 ^ 2 = 0 by omega]; norm_num))]
        have : ((3 * n / 4 * 4 : ℤ) : ℚ) = ((3 * n + 0 : ℤ) : ℚ) := by congr 1; omega
        rw [← this]; push_cast; ring
      · refine fin (-1) ?_ (rr (-1) (by simp) (by omega))
        rw [rnd_cut 2 (n := 3 * n / 4) (by omega) (by omega) he (by rw [show 3 * n - 3 * n / 4 * 2 ^ 2 = 1 by omega]; norm_num)
          (Or.inl (by rw [show 3 * n - 3 * n / 4 * 2 ^ 2 = 1 by omega]; norm_num))]
        have : ((3 * n / 4 * 4 : ℤ) : ℚ) = ((3 * n + -1 : ℤ) : ℚ) := by congr 1; omega
        rw [← this]; push_cast; ring
      · rcases Int.emod_two_eq_zero_or_one (3 * n / 4) with k | k
        · refine fin (-2) ?_ (r2 (-2) (by simp) (by omega))
          rw [rnd_cut 2 (n := 3 * n / 4) (by omega) (by omega) he (by rw [show 3 * n - 3 * n / 4 * 2 ^ 2 = 2 by omega]; norm_num) (Or.inr k)]
          have : ((3 * n / 4 * 4 : ℤ) : ℚ) = ((3 * n + -2 : ℤ) : ℚ) := by congr 1; omega
          rw [← this]; push_cast; ring
        · refine fin 2 ?_ (r2 2 (by simp) (by omega))
          rw [rnd_cut 2 (n := 3 * n / 4 + 1) (by omega) (by omega) he (by rw [show 3 * n - (3 * n / 4 + 1) * 2 ^ 2 = -2 by omega]; norm_num) (Or.inr (by omega))]
          have : (((3 * n / 4 + 1) * 4 : ℤ) : ℚ) = ((3 * n + 2 : ℤ) : ℚ) := by congr 1; omega
          rw [← this]; push_cast; ring
      · refine fin 1 ?_ (rr 1 (by simp) (by omega))
        rw [rnd_cut 2 (n := 3 * n / 4 + 1) (by omega) (by omega) he (by rw [show 3 * n - (3 * n / 4 + 1) * 2 ^ 2 = -1 by omega]; norm_num)
          (Or.inl (by rw [show 3 * n - (3 * n / 4 + 1) * 2 ^ 2 = -1 by omega]; norm_num))]
        have : (((3 * n / 4 + 1) * 4 : ℤ) : ℚ) = ((3 * n + 1 : ℤ) : ℚ) := by congr 1; omega
        rw [← this]; push_cast; ring

theorem rnd_four_times {q : ℚ} (h : IsBin q) : rnd (rnd (rnd (q + q) + q) + q) = 4 * q := by
  have pos : ∀ q : ℚ, IsBin q → 0 < q → rnd (rnd (rnd (q + q) + q) + q) = 4 * q := by
    intro q hq h0
    obtain ⟨n, e, hn, he, rfl⟩ := hq
    have : (0:ℚ) < n := by
      by_contra c
      exact absurd h0 (not_lt.mpr (mul_nonpos_of_nonpos_of_nonneg (not_lt.mp c) (two_zpow_pos e).le))
    exact rnd_four_pos (by exact_mod_cast this) (lt_of_abs_lt hn) he
  rcases lt_trichotomy 0 q with g | g | g
  · exact pos q h g
  · rw [← g]; simp [rnd_zero]
  · have hn : IsBin (-q) := by
      obtain ⟨m, e, a, b, rfl⟩ := h
      exact ⟨-m, e, by rwa [abs_neg], b, by push_cast; ring⟩
    have := pos (-q) hn (by linarith)
    rw [← neg_add, rnd_neg, ← neg_add, rnd_neg, ← neg_add, rnd_neg] at this
    linarith

end Verif.Proofs
