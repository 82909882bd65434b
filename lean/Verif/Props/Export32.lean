import Verif.Go.F32
import Verif.Model.Shape
import Verif.Proofs.F64
/-!
# C91: what the conversion to float32 in the glTF export does to the positions
-/
namespace Verif.Props
open Verif Verif.Shape

/-! ## Rounding to the nearest binary32 number -/

theorem roundEven_nearest (y : ℚ) (n : ℤ) : |(roundEven y : ℚ) - y| ≤ |(n : ℚ) - y| := by
  have h1 := Int.floor_le y
  have h2 := Int.lt_floor_add_one y
  rcases le_or_gt n ⌊y⌋ with h | h
  · have hn : (n : ℚ) ≤ ⌊y⌋ := by exact_mod_cast h
    rw [abs_of_nonpos (a := (n:ℚ) - y) (by linarith)]
    rcases roundEven_cases y with ⟨e, he⟩ | ⟨e, he⟩ <;> rw [e, abs_le] <;> push_cast <;> constructor <;> linarith
  · have hn : (⌊y⌋ : ℚ) + 1 ≤ n := by exact_mod_cast h
    rw [abs_of_nonneg (a := (n:ℚ) - y) (by linarith)]
    rcases roundEven_cases y with ⟨e, he⟩ | ⟨e, he⟩ <;> rw [e, abs_le] <;> push_cast <;> constructor <;> linarith

/-- no multiple of the spacing is closer -/
theorem rnd32_grid (x : ℚ) (n : ℤ) : |rnd32 x - x| ≤ |(n : ℚ) * 2 ^ expo32 x - x| := by
  have hp := two_zpow_pos (K := ℚ) (expo32 x)
  have e : ∀ k : ℚ, |k * 2 ^ expo32 x - x| = |k - x / 2 ^ expo32 x| * 2 ^ expo32 x := by
    intro k
    rw [← abs_of_pos hp, ← abs_mul, abs_of_pos hp, sub_mul, div_mul_cancel₀ _ hp.ne']
  unfold rnd32
  rw [e, e]
  exact mul_le_mul_of_nonneg_right (roundEven_nearest _ n) hp.le

/-- no number of the format is closer -/
theorem rnd32_nearest (x : ℚ) {q : ℚ} (hq : IsBinS q) : |rnd32 x - x| ≤ |q - x| := by
  obtain ⟨m, e, h1, h2, rfl⟩ := hq
  rcases eq_or_ne x 0 with rfl | hx
  · have : rnd32 0 = 0 := by unfold rnd32; rw [zero_div, show (0:ℚ) = ((0:ℤ):ℚ) by simp, roundEven_int]; simp
    rw [this, sub_zero, abs_zero]; exact abs_nonneg _
  have hx0 : 0 < |x| := abs_pos.mpr hx
  rcases le_or_gt (expo32 x) e with he | he
  · have := rnd32_grid x (m * 2 ^ (e - expo32 x).toNat)
    rw [show (m : ℚ) * 2 ^ e = ((m * 2 ^ (e - expo32 x).toNat : ℤ) : ℚ) * 2 ^ expo32 x by
      rw [zpow_grid he]; push_cast; ring]
    exact this
  · have hlog : expo32 x = Int.log 2 |x| - 23 := by unfold expo32 at he ⊢; omega
    have hg : (2:ℚ) ^ (expo32 x + 23) ≤ |x| := by
      have := Int.zpow_log_le_self (b := 2) (by norm_num) hx0
      push_cast at this
      rwa [show Int.log 2 |x| = expo32 x + 23 by omega] at this
    have hm : |(m:ℚ) * 2 ^ e| < 2 ^ (expo32 x + 23) := by
      rw [abs_mul, abs_of_pos (two_zpow_pos (K := ℚ) e)]
      have a1 : |(m:ℚ)| < 2 ^ (24:ℤ) := by
        have : ((|m| : ℤ) : ℚ) < ((2 ^ 24 : ℤ) : ℚ) := by exact_mod_cast h1
        rw [Int.cast_abs] at this
        refine this.trans_le (le_of_eq (by norm_num))
      calc |(m:ℚ)| * 2 ^ e < 2 ^ (24:ℤ) * 2 ^ e := mul_lt_mul_of_pos_right a1 (two_zpow_pos e)
        _ = 2 ^ (24 + e) := (zpow_add₀ (by norm_num) _ _).symm
        _ ≤ 2 ^ (expo32 x + 23) := zpow_le_zpow_right₀ (by norm_num) (by omega)
    have hgrid : (2:ℚ) ^ (expo32 x + 23) = ((2 ^ 23 : ℤ) : ℚ) * 2 ^ expo32 x := by
      rw [zpow_add₀ (by norm_num), mul_comm]; norm_num
    obtain ⟨hm1, hm2⟩ := abs_lt.mp hm
    rcases le_total 0 x with hx | hx
    · rw [abs_of_nonneg hx] at hg
      have := rnd32_grid x (2 ^ 23)
      rw [← hgrid, abs_of_nonpos (a := (2:ℚ) ^ (expo32 x + 23) - x) (by linarith)] at this
      rw [abs_of_nonpos (a := (m:ℚ) * 2 ^ e - x) (by linarith)]
      linarith
    · rw [abs_of_nonpos hx] at hg
      have := rnd32_grid x (-2 ^ 23)
      rw [show (((-2 ^ 23 : ℤ)) : ℚ) * 2 ^ expo32 x = -2 ^ (expo32 x + 23) by rw [hgrid]; push_cast; ring,
        abs_of_nonneg (a := -(2:ℚ) ^ (expo32 x + 23) - x) (by linarith)] at this
      rw [abs_of_nonneg (a := (m:ℚ) * 2 ^ e - x) (by linarith)]
      linarith

theorem rnd32_id {q : ℚ} (h : IsBinS q) : rnd32 q = q := by
  have := rnd32_nearest q h
  rw [sub_self, abs_zero] at this
  linarith [abs_eq_zero.mp (le_antisymm this (abs_nonneg _))]

theorem rnd32_mono {x y : ℚ} (h : x ≤ y) : rnd32 x ≤ rnd32 y := by
  by_contra hc
  push Not at hc
  have h1 := rnd32_nearest x (rnd32_bin y)
  have h2 := rnd32_nearest y (rnd32_bin x)
  have e : x = y := by
    refine le_antisymm h ?_
    have a1 : (x - (rnd32 x + rnd32 y) / 2) * (rnd32 x - rnd32 y) ≥ 0 := by
      have := sq_le_sq.mpr h1; nlinarith
    have a2 : (y - (rnd32 x + rnd32 y) / 2) * (rnd32 x - rnd32 y) ≤ 0 := by
      have := sq_le_sq.mpr h2; nlinarith
    have hd : 0 < rnd32 x - rnd32 y := by linarith
    have b1 := nonneg_of_mul_nonneg_left a1 hd
    have b2 := nonpos_of_mul_nonpos_left a2 hd
    linarith
  subst e
  exact lt_irrefl _ hc

theorem rnd32_err (x : ℚ) : |rnd32 x - x| ≤ 2 ^ expo32 x / 2 := by
  have h := roundEven_err (x / 2 ^ expo32 x)
  have hp := two_zpow_pos (K := ℚ) (expo32 x)
  have e : rnd32 x - x = ((roundEven (x / 2 ^ expo32 x) : ℚ) - x / 2 ^ expo32 x) * 2 ^ expo32 x := by
    unfold rnd32; rw [sub_mul, div_mul_cancel₀ _ hp.ne']
  rw [e, abs_mul, abs_of_pos hp]
  calc _ ≤ 1/2 * 2 ^ expo32 x := mul_le_mul_of_nonneg_right h hp.le
    _ = _ := by ring

/-- relative error in the normal range, absolute error below it -/
theorem rnd32_rel (x : ℚ) : |rnd32 x - x| ≤ 2 ^ (-24 : ℤ) * max |x| (2 ^ (-126 : ℤ)) := by
  rcases eq_or_ne x 0 with rfl | hx
  · rw [rnd32_id ⟨0, 0, by norm_num, by norm_num, by simp⟩]; simp
  have h0 : 0 < |x| := abs_pos.mpr hx
  refine (rnd32_err x).trans ?_
  rcases le_or_gt (-149) (Int.log 2 |x| - 23) with h | h
  · have he : expo32 x = Int.log 2 |x| - 23 := by unfold expo32; omega
    have h2 := Int.zpow_log_le_self (b := 2) (by norm_num) h0
    push_cast at h2
    have e : (2:ℚ) ^ expo32 x / 2 = 2 ^ (-24:ℤ) * 2 ^ (Int.log 2 |x|) := by
      rw [← zpow_add₀ (by norm_num), he, div_eq_mul_inv, ← zpow_neg_one, ← zpow_add₀ (by norm_num)]
      congr 1; omega
    rw [e]
    exact mul_le_mul_of_nonneg_left (h2.trans (le_max_left _ _)) (two_zpow_pos _).le
  · have he : expo32 x = -149 := by unfold expo32; omega
    have e : (2:ℚ) ^ expo32 x / 2 = 2 ^ (-24:ℤ) * 2 ^ (-126:ℤ) := by
      rw [← zpow_add₀ (by norm_num), he, div_eq_mul_inv, ← zpow_neg_one, ← zpow_add₀ (by norm_num)]
      norm_num
    rw [e]
    exact mul_le_mul_of_nonneg_left (le_max_right _ _) (two_zpow_pos _).le

theorem rnd32_neg (x : ℚ) : rnd32 (-x) = -rnd32 x := by
  unfold rnd32 expo32
  rw [abs_neg, neg_div, roundEven_neg]; push_cast; ring

theorem rnd32_abs (x : ℚ) : rnd32 |x| = |rnd32 x| := by
  have h0 : rnd32 0 = 0 := rnd32_id ⟨0, 0, by norm_num, by norm_num, by simp⟩
  rcases le_total 0 x with h | h
  · have := rnd32_mono h
    rw [h0] at this
    rw [abs_of_nonneg h, abs_of_nonneg this]
  · have := rnd32_mono h
    rw [h0] at this
    rw [abs_of_nonpos h, rnd32_neg, abs_of_nonpos this]

/-- the numbers from which the rounded value overflows -/
def lim32 : ℚ := 2 ^ 128 - 2 ^ 103

theorem rnd32_lt_iff (x : ℚ) : |rnd32 x| < 2 ^ 128 ↔ |x| < lim32 := by
  rw [← rnd32_abs]
  have hx := abs_nonneg x
  generalize |x| = y at hx
  have hM : IsBinS (2 ^ 128 - 2 ^ 104) := ⟨2 ^ 24 - 1, 104, by norm_num, by norm_num, by norm_num⟩
  constructor
  · intro h
    by_contra hc
    push Not at hc
    have := rnd32_mono hc
    rw [show rnd32 lim32 = 2 ^ 128 by decide +kernel] at this
    linarith
  · intro h
    rcases le_or_gt y (2 ^ 128 - 2 ^ 104) with hy | hy
    · have := rnd32_mono hy
      rw [rnd32_id hM] at this
      refine this.trans_lt (by norm_num)
    · have h1 := rnd32_nearest y hM
      rw [abs_of_nonpos (a := (2 ^ 128 - 2 ^ 104 : ℚ) - y) (by linarith)] at h1
      unfold lim32 at h
      have h2 := (abs_le.mp h1).2
      have h3 : (2:ℚ) ^ 104 = 2 * 2 ^ 103 := by norm_num
      linarith

/-! ## The conversion -/

theorem ofF64_fin {x : F64} (hx : x.Finite) (h : |x.toQ| < lim32) :
    (F32.ofF64 x).Finite ∧ (F32.ofF64 x).toQ = rnd32 x.toQ := by
  have h0 : rnd32 0 = 0 := rnd32_id ⟨0, 0, by norm_num, by norm_num, by simp⟩
  cases x with
  | nan => exact absurd hx id
  | inf s => exact absurd hx id
  | zero s => exact ⟨trivial, h0.symm⟩
  | fin q hq =>
    have hlt : |rnd32 q| < 2 ^ 128 := (rnd32_lt_iff q).mpr h
    have e : F32.ofF64 (.fin q hq) = if h : |rnd32 q| < 2 ^ 128 then
      if h0 : rnd32 q = 0 then .zero (decide (q < 0)) else .fin (rnd32 q) ⟨h0, (rnd32_bin q).bin32 h⟩
      else .inf (decide (q < 0)) := rfl
    rw [e, dif_pos hlt]
    change _ ∧ _ = rnd32 q
    split_ifs with h1
    · exact ⟨trivial, h1.symm⟩
    · exact ⟨trivial, rfl⟩

/-- C91: a finite float64 below the overflow threshold becomes the nearest float32: finite, and no float32 is closer -/
theorem C91_nearest (x : F64) (hx : x.Finite) (h : |x.toQ| < 2 ^ 128 - 2 ^ 103) :
    (F32.ofF64 x).Finite ∧ IsBin32 (F32.ofF64 x).toQ ∧
    ∀ q, IsBin32 q → |(F32.ofF64 x).toQ - x.toQ| ≤ |q - x.toQ| := by
  obtain ⟨h1, h2⟩ := ofF64_fin hx h
  rw [h2]
  exact ⟨h1, (rnd32_bin _).bin32 ((rnd32_lt_iff _).mpr h), fun p hp => rnd32_nearest _ hp.binS⟩

/-- C91: the error is at most 2^-24 of the coordinate, or of the smallest normal number 2^-126 if that is larger -/
theorem C91_error (x : F64) (hx : x.Finite) (h : |x.toQ| < 2 ^ 128 - 2 ^ 103) :
    |(F32.ofF64 x).toQ - x.toQ| ≤ 2 ^ (-24 : ℤ) * max |x.toQ| (2 ^ (-126 : ℤ)) := by
  rw [(ofF64_fin hx h).2]; exact rnd32_rel _

/-- C91: a float64 that is a float32 number is exported exactly -/
theorem C91_exact (x : F64) (hx : x.Finite) (h : IsBin32 x.toQ) :
    (F32.ofF64 x).Finite ∧ (F32.ofF64 x).toQ = x.toQ := by
  have hr := rnd32_id h.binS
  have hlt : |rnd32 x.toQ| < 2 ^ 128 := by
    rw [hr]
    obtain ⟨m, e, h1, _, h3, h4⟩ := h
    rw [h4, abs_mul, abs_of_pos (two_zpow_pos (K := ℚ) e)]
    have a1 : |(m:ℚ)| < 2 ^ 24 := by
      have : ((|m| : ℤ) : ℚ) < ((2 ^ 24 : ℤ) : ℚ) := by exact_mod_cast h1
      rw [Int.cast_abs] at this
      refine this.trans_le (le_of_eq (by norm_num))
    calc |(m:ℚ)| * 2 ^ e < 2 ^ 24 * 2 ^ e := mul_lt_mul_of_pos_right a1 (two_zpow_pos e)
      _ ≤ 2 ^ 24 * 2 ^ (104:ℤ) := mul_le_mul_of_nonneg_left (zpow_le_zpow_right₀ (by norm_num) h3) (by norm_num)
      _ = 2 ^ 128 := by norm_num
  obtain ⟨h1, h2⟩ := ofF64_fin hx ((rnd32_lt_iff _).mp hlt)
  exact ⟨h1, h2.trans hr⟩

/-- C91: the order of coordinates is kept (but different numbers may become equal) -/
theorem C91_mono (x y : F64) (hx : x.Finite) (hy : y.Finite) (h1 : |x.toQ| < 2 ^ 128 - 2 ^ 103)
    (h2 : |y.toQ| < 2 ^ 128 - 2 ^ 103) (h : x.toQ ≤ y.toQ) : (F32.ofF64 x).toQ ≤ (F32.ofF64 y).toQ := by
  rw [(ofF64_fin hx h1).2, (ofF64_fin hy h2).2]; exact rnd32_mono h

/-- the numbers that are rounded to zero -/
theorem rnd32_zero_iff (x : ℚ) : rnd32 x = 0 ↔ |x| ≤ 2 ^ (-150 : ℤ) := by
  rw [← abs_eq_zero, ← rnd32_abs]
  have hx := abs_nonneg x
  generalize |x| = y at hx
  have z : IsBinS 0 := ⟨0, 0, by norm_num, by norm_num, by simp⟩
  have o : IsBinS (2 ^ (-149 : ℤ)) := ⟨1, -149, by norm_num, by norm_num, by simp⟩
  have e : (2:ℚ) ^ (-149 : ℤ) = 2 * 2 ^ (-150 : ℤ) := by norm_num
  constructor
  · intro h
    have h1 := rnd32_nearest y o
    rw [h, zero_sub, abs_neg, abs_of_nonneg hx] at h1
    rcases le_total y (2 ^ (-149 : ℤ)) with hy | hy
    · rw [abs_of_nonneg (by linarith)] at h1; linarith
    · have := rnd32_mono hy
      rw [rnd32_id o, h] at this
      exact absurd this (not_le.mpr (two_zpow_pos _))
  · intro h
    have h1 := rnd32_mono h
    rw [show rnd32 (2 ^ (-150 : ℤ)) = 0 by decide +kernel] at h1
    have h2 := rnd32_mono hx
    rw [rnd32_id z] at h2
    exact le_antisymm h1 h2

/-- C91: up to half the smallest positive float32 a zero of the sign of the number is written, above it a number of that sign; zeros keep their sign -/
theorem C91_underflow (x : F64) (hx : x.Finite) (hn : x.toQ ≠ 0) :
    (|x.toQ| ≤ 2 ^ (-150 : ℤ) → F32.ofF64 x = .zero (decide (x.toQ < 0))) ∧
    (2 ^ (-150 : ℤ) < |x.toQ| → |x.toQ| < 2 ^ 128 - 2 ^ 103 → (0 < (F32.ofF64 x).toQ ↔ 0 < x.toQ) ∧ ((F32.ofF64 x).toQ < 0 ↔ x.toQ < 0)) ∧
    ∀ s, F32.ofF64 (.zero s) = .zero s := by
  refine ⟨fun h => ?_, fun h h' => ?_, fun _ => rfl⟩
  · cases x with
    | nan => exact absurd hx id
    | inf s => exact absurd hx id
    | zero s => exact absurd rfl hn
    | fin q hq =>
      have hz : rnd32 q = 0 := (rnd32_zero_iff q).mpr h
      have e : F32.ofF64 (.fin q hq) = if h : |rnd32 q| < 2 ^ 128 then
        if h0 : rnd32 q = 0 then .zero (decide (q < 0)) else .fin (rnd32 q) ⟨h0, (rnd32_bin q).bin32 h⟩
        else .inf (decide (q < 0)) := rfl
      rw [e, dif_pos (by rw [hz]; norm_num), dif_pos hz]
      rfl
  · rw [(ofF64_fin hx h').2]
    have hz : rnd32 x.toQ ≠ 0 := fun h0 => absurd ((rnd32_zero_iff _).mp h0) (not_le.mpr h)
    have h0 : rnd32 0 = 0 := rnd32_id ⟨0, 0, by norm_num, by norm_num, by simp⟩
    rcases lt_or_gt_of_ne hn with hs | hs
    · have := rnd32_mono hs.le
      rw [h0] at this
      have := lt_of_le_of_ne this hz
      exact ⟨⟨fun a => absurd a (not_lt.mpr this.le), fun a => absurd a (not_lt.mpr hs.le)⟩, ⟨fun _ => hs, fun _ => this⟩⟩
    · have := rnd32_mono hs.le
      rw [h0] at this
      have := lt_of_le_of_ne this hz.symm
      exact ⟨⟨fun _ => hs, fun _ => this⟩, ⟨fun a => absurd a (not_lt.mpr this.le), fun a => absurd a (not_lt.mpr hs.le)⟩⟩

/-- C91: at the threshold and beyond it, infinity is written -/
theorem C91_overflow (x : F64) (hx : x.Finite) (h : 2 ^ 128 - 2 ^ 103 ≤ |x.toQ|) :
    F32.ofF64 x = .inf (decide (x.toQ < 0)) := by
  cases x with
  | nan => exact absurd hx id
  | inf s => exact absurd hx id
  | zero s => exfalso; change (2:ℚ) ^ 128 - 2 ^ 103 ≤ |(0:ℚ)| at h; norm_num at h
  | fin q hq =>
    have hlt : ¬ |rnd32 q| < 2 ^ 128 := fun hc => absurd ((rnd32_lt_iff q).mp hc) (not_lt.mpr h)
    have e : F32.ofF64 (.fin q hq) = if h : |rnd32 q| < 2 ^ 128 then
      if h0 : rnd32 q = 0 then .zero (decide (q < 0)) else .fin (rnd32 q) ⟨h0, (rnd32_bin q).bin32 h⟩
      else .inf (decide (q < 0)) := rfl
    rw [e, dif_neg hlt]; rfl

/-- a vector with finite coordinates at most `B` -/
def Within (B : ℚ) (v : R3.Vector F64) : Prop :=
  (v.X.Finite ∧ v.Y.Finite ∧ v.Z.Finite) ∧ |v.X.toQ| ≤ B ∧ |v.Y.toQ| ≤ B ∧ |v.Z.toQ| ≤ B

/-- C91 for a mesh: with coordinates at most `B`, 2^-126 ≤ B ≤ 2^127, every exported position is finite and each of its
coordinates within 2^-24 * B of the vertex with the same index, and the triangles refer to the same indices -/
theorem C91_mesh (mesh : Mesh F64) (B : ℚ) (hB : 2 ^ (-126 : ℤ) ≤ B) (hB' : B ≤ 2 ^ 127)
    (h : ∀ v ∈ mesh.Vertices, Within B v) :
    (exportBuffers F32.ofF64 mesh).positions.length = mesh.Vertices.length ∧
    (exportBuffers F32.ofF64 mesh).indices = mesh.Indices ∧
    ∀ (i : ℕ) (v : R3.Vector F64), mesh.Vertices[i]? = some v →
      ∃ x y z : F32, (exportBuffers F32.ofF64 mesh).positions[i]? = some (x, y, z) ∧ x.Finite ∧ y.Finite ∧ z.Finite ∧
        |x.toQ - v.X.toQ| ≤ 2 ^ (-24 : ℤ) * B ∧ |y.toQ - v.Y.toQ| ≤ 2 ^ (-24 : ℤ) * B ∧
        |z.toQ - v.Z.toQ| ≤ 2 ^ (-24 : ℤ) * B := by
  have key : ∀ x : F64, x.Finite → |x.toQ| ≤ B →
      (F32.ofF64 x).Finite ∧ |(F32.ofF64 x).toQ - x.toQ| ≤ 2 ^ (-24 : ℤ) * B := by
    intro x hx hb
    have hlt : |x.toQ| < 2 ^ 128 - 2 ^ 103 := (hb.trans hB').trans_lt (by norm_num)
    exact ⟨(ofF64_fin hx hlt).1, (C91_error x hx hlt).trans
      (mul_le_mul_of_nonneg_left (max_le hb hB) (two_zpow_pos _).le)⟩
  refine ⟨by simp [exportBuffers, transferModel], rfl, fun i v hv => ?_⟩
  obtain ⟨⟨f1, f2, f3⟩, b1, b2, b3⟩ := h v (List.mem_of_getElem? hv)
  refine ⟨F32.ofF64 v.X, F32.ofF64 v.Y, F32.ofF64 v.Z, ?_, (key _ f1 b1).1, (key _ f2 b2).1, (key _ f3 b3).1,
    (key _ f1 b1).2, (key _ f2 b2).2, (key _ f3 b3).2⟩
  simp [exportBuffers, transferModel, hv]

/-- the export is not injective: a triangle with three different corners and area 1/2 is exported with two equal corners -/
theorem C91_distinct_refuted : ∃ a b c : R3.Vector F64, Within (2 ^ 25) a ∧ Within (2 ^ 25) b ∧ Within (2 ^ 25) c ∧
    (b.X.toQ - a.X.toQ) * (c.Y.toQ - a.Y.toQ) - (b.Y.toQ - a.Y.toQ) * (c.X.toQ - a.X.toQ) = 1 ∧
    ∃ p q, (exportBuffers F32.ofF64 ⟨[a, b, c], [], [], [0, 1, 2]⟩).positions = [p, p, q] := by
  refine ⟨⟨GoOfInt.ofInt 16777216, 0, 0⟩, ⟨GoOfInt.ofInt 16777217, 0, 0⟩, ⟨GoOfInt.ofInt 16777216, 1, 0⟩, ?_, ?_, ?_, ?_,
    (.ofF64 (GoOfInt.ofInt 16777216), .ofF64 0, .ofF64 0), (.ofF64 (GoOfInt.ofInt 16777216), .ofF64 1, .ofF64 0), ?_⟩
  · unfold Within; decide +kernel
  · unfold Within; decide +kernel
  · unfold Within; decide +kernel
  · decide +kernel
  · decide +kernel

/-- the unit square with a corner at 1/10, which is not a float32 -/
example : ∀ v ∈ [(⟨GoConst.const (1/10), 1, 0⟩ : R3.Vector F64), ⟨1, 1, 0⟩, ⟨0, 1, 0⟩], Within 1 v := by
  intro v hv
  simp only [List.mem_cons, List.not_mem_nil, or_false] at hv
  rcases hv with rfl | rfl | rfl <;> (unfold Within; decide +kernel)

/-- `float32(0.1)` is 13421773 * 2^-27 -/
example : (F32.ofF64 (GoConst.const (1/10))).toQ = 13421773 / 2 ^ 27 := by decide +kernel

/-- the smallest float64 becomes zero, the largest infinity -/
example : F32.ofF64 (GoConst.const (1/2^1074)) = .zero false ∧ F32.ofF64 (GoConst.const (-(2^53-1)*2^971)) = .inf true := by
  decide +kernel

end Verif.Props
