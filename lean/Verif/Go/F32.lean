import Verif.Go.F64
/-!
# IEEE-754 binary32 and the conversion `float32(x)`

The values of Go's `float32`, with the NaNs identified, and the conversion from `float64` (round to nearest, ties to even).
-/
namespace Verif

/-- exponent of the spacing of binary32 at `x` (without upper bound) -/
def expo32 (x : ℚ) : ℤ := max (Int.log 2 |x| - 23) (-149)

/-- the nearest binary32 number, with unbounded exponent upwards -/
def rnd32 (x : ℚ) : ℚ := (roundEven (x / 2 ^ expo32 x) : ℚ) * 2 ^ expo32 x

/-- the finite binary32 numbers -/
def IsBin32 (q : ℚ) : Prop := ∃ m e : ℤ, |m| < 2 ^ 24 ∧ -149 ≤ e ∧ e ≤ 104 ∧ q = m * 2 ^ e

/-- the same with an unbounded exponent upwards -/
def IsBinS (q : ℚ) : Prop := ∃ m e : ℤ, |m| < 2 ^ 24 ∧ -149 ≤ e ∧ q = m * 2 ^ e

theorem IsBin32.binS {q : ℚ} (h : IsBin32 q) : IsBinS q := by
  obtain ⟨m, e, h1, h2, _, h4⟩ := h
  exact ⟨m, e, h1, h2, h4⟩

theorem lt_zpow_expo32 (x : ℚ) : |x| < 2 ^ (expo32 x + 24) := by
  refine (Int.lt_zpow_succ_log_self (b := 2) (by norm_num) |x|).trans_le ?_
  push_cast
  refine zpow_le_zpow_right₀ (by norm_num) ?_
  unfold expo32; omega

/-- the result is in the format -/
theorem rnd32_bin (x : ℚ) : IsBinS (rnd32 x) := by
  have hb : |roundEven (x / 2 ^ expo32 x)| ≤ 2 ^ 24 := by
    have h1 := lt_zpow_expo32 x
    rw [zpow_add₀ (by norm_num), mul_comm] at h1
    have h2 : |x / 2 ^ expo32 x| ≤ ((2 ^ 24 : ℤ) : ℚ) := by
      rw [abs_div, abs_of_pos (a := (2:ℚ) ^ expo32 x) (two_zpow_pos (expo32 x)), div_le_iff₀ (two_zpow_pos _)]
      refine h1.le.trans (le_of_eq ?_)
      push_cast; norm_num
    rw [abs_le] at h2 ⊢
    refine ⟨le_roundEven ?_, roundEven_le h2.2⟩
    push_cast at h2 ⊢; exact h2.1
  rcases lt_or_eq_of_le hb with hb | hb
  · exact ⟨_, expo32 x, hb, by unfold expo32; omega, rfl⟩
  · have hs : roundEven (x / 2 ^ expo32 x) = 2 ^ 24 ∨ roundEven (x / 2 ^ expo32 x) = -2 ^ 24 := by
      rcases abs_choice (roundEven (x / 2 ^ expo32 x)) with h | h <;> omega
    have he : -149 ≤ expo32 x := by unfold expo32; omega
    have e1 : (2:ℚ) ^ (expo32 x + 1) = 2 ^ expo32 x * 2 := by rw [zpow_add₀ (by norm_num), zpow_one]
    rcases hs with h | h
    · refine ⟨2 ^ 23, expo32 x + 1, by norm_num, by omega, ?_⟩
      unfold rnd32; rw [h, e1]; push_cast; ring
    · refine ⟨-2 ^ 23, expo32 x + 1, by norm_num, by omega, ?_⟩
      unfold rnd32; rw [h, e1]; push_cast; ring

theorem IsBinS.bin32 {q : ℚ} (h : IsBinS q) (hq : |q| < 2 ^ 128) : IsBin32 q := by
  obtain ⟨m, e, h1, h2, rfl⟩ := h
  rcases eq_or_ne m 0 with rfl | hm
  · exact ⟨0, 0, by norm_num, by norm_num, by norm_num, by simp⟩
  rcases le_or_gt e 104 with he | he
  · exact ⟨m, e, h1, h2, he, rfl⟩
  · have e1 : (2:ℚ) ^ e = 2 ^ (e - 104).toNat * 2 ^ (104 : ℤ) := by
      rw [← zpow_natCast, Int.toNat_of_nonneg (by omega), ← zpow_add₀ (by norm_num)]; congr 1; omega
    refine ⟨m * 2 ^ (e - 104).toNat, 104, ?_, by norm_num, le_refl _, ?_⟩
    · have : |(m:ℚ) * 2 ^ (e - 104).toNat| * 2 ^ (104:ℤ) < 2 ^ 128 := by
        rw [e1, ← mul_assoc, abs_mul, abs_of_pos (a := (2:ℚ) ^ (104:ℤ)) (two_zpow_pos (104:ℤ))] at hq
        exact hq
      have e2 : (2:ℚ) ^ 128 = 2 ^ 24 * 2 ^ (104:ℤ) := by
        rw [show (2:ℚ) ^ (104:ℤ) = 2 ^ (104:ℕ) from zpow_natCast 2 104, ← pow_add]
      rw [e2] at this
      have := lt_of_mul_lt_mul_right this (two_zpow_pos _).le
      rw [show |(m:ℚ) * 2 ^ (e - 104).toNat| = ((|m * 2 ^ (e - 104).toNat| : ℤ) : ℚ) by push_cast; rfl] at this
      exact_mod_cast this
    · rw [e1]; push_cast; ring

/-- the values of `float32` -/
inductive F32 where
  | nan
  | inf (neg : Bool)
  | zero (neg : Bool)
  | fin (q : ℚ) (h : q ≠ 0 ∧ IsBin32 q)
  deriving DecidableEq

namespace F32

/-- the value of a finite number; 0 otherwise -/
def toQ : F32 → ℚ
  | fin q _ => q
  | _ => 0

/-- neither NaN nor infinite -/
def Finite : F32 → Prop
  | nan => False
  | inf _ => False
  | _ => True

instance : DecidablePred Finite := fun x => by cases x <;> unfold Finite <;> infer_instance

/-- the conversion `float32(x)` -/
def ofF64 : F64 → F32
  | .nan => nan
  | .inf s => inf s
  | .zero s => zero s
  | .fin x _ =>
    if h : |rnd32 x| < 2 ^ 128 then
      if h0 : rnd32 x = 0 then zero (decide (x < 0)) else fin (rnd32 x) ⟨h0, (rnd32_bin x).bin32 h⟩
    else inf (decide (x < 0))

end F32
end Verif
