import Mathlib.Data.Int.Log
import Mathlib.Tactic.Positivity
import Mathlib.Tactic.LinearCombination
import Mathlib.Data.Rat.Floor
import Verif.Go.Scalar
/-!
# IEEE-754 binary64

The values of Go's `float64`, with the NaNs identified. Arithmetic is round-to-nearest, ties to even, as on
amd64 (no fused multiply-add). `math.Sqrt` is the correctly rounded root.
-/
namespace Verif

section round
variable {K : Type} [Field K] [LinearOrder K] [IsStrictOrderedRing K] [FloorRing K]

/-- nearest integer, ties to even -/
def roundEven (x : K) : ℤ :=
  if x - ⌊x⌋ < 1/2 then ⌊x⌋
  else if 1/2 < x - ⌊x⌋ then ⌊x⌋ + 1
  else if ⌊x⌋ % 2 = 0 then ⌊x⌋ else ⌊x⌋ + 1

/-- exponent of the spacing of binary64 at `x` (without upper bound) -/
def expo (x : K) : ℤ := max (Int.log 2 |x| - 52) (-1074)

/-- the nearest binary64 number, with unbounded exponent upwards -/
def rnd (x : K) : ℚ := (roundEven (x / 2 ^ expo x) : ℚ) * 2 ^ expo x

theorem roundEven_cases (x : K) : roundEven x = ⌊x⌋ ∧ x - ⌊x⌋ ≤ 1/2 ∨ roundEven x = ⌊x⌋ + 1 ∧ 1/2 ≤ x - ⌊x⌋ := by
  unfold roundEven
  split_ifs with h1 h2 h3
  · exact Or.inl ⟨rfl, h1.le⟩
  · exact Or.inr ⟨rfl, h2.le⟩
  · exact Or.inl ⟨rfl, not_lt.mp h2⟩
  · exact Or.inr ⟨rfl, not_lt.mp h1⟩

theorem roundEven_err (x : K) : |(roundEven x : K) - x| ≤ 1/2 := by
  have h1 := Int.floor_le x
  have h2 := Int.lt_floor_add_one x
  rcases roundEven_cases x with ⟨e, h⟩ | ⟨e, h⟩
  · rw [e, abs_le]; constructor <;> linarith
  · rw [e, abs_le]; push_cast; constructor <;> linarith

theorem roundEven_int (n : ℤ) : roundEven (n : K) = n := by
  unfold roundEven
  rw [Int.floor_intCast, sub_self, if_pos (by norm_num)]

theorem roundEven_mono {x y : K} (h : x ≤ y) : roundEven x ≤ roundEven y := by
  have hf := Int.floor_mono h
  rcases lt_or_eq_of_le hf with hf | hf
  · rcases roundEven_cases x with ⟨e, _⟩ | ⟨e, _⟩ <;> rcases roundEven_cases y with ⟨e', _⟩ | ⟨e', _⟩ <;> omega
  · unfold roundEven
    rw [hf]
    have h1 : x - ⌊y⌋ ≤ y - ⌊y⌋ := by linarith
    split_ifs <;> first | omega | (exfalso; linarith)

theorem roundEven_le {x : K} {n : ℤ} (h : x ≤ n) : roundEven x ≤ n := by
  have := roundEven_mono h
  rwa [roundEven_int] at this

theorem le_roundEven {x : K} {n : ℤ} (h : (n:K) ≤ x) : n ≤ roundEven x := by
  have := roundEven_mono h
  rwa [roundEven_int] at this

theorem roundEven_neg (x : K) : roundEven (-x) = -roundEven x := by
  by_cases hx : x = ⌊x⌋
  · rw [hx, show -((⌊x⌋ : ℤ) : K) = ((-⌊x⌋ : ℤ) : K) by push_cast; rfl, roundEven_int, roundEven_int]
  · have h1 : (⌊x⌋ : K) < x := lt_of_le_of_ne (Int.floor_le x) (fun h => hx h.symm)
    have h2 := Int.lt_floor_add_one x
    have hf : ⌊-x⌋ = -⌊x⌋ - 1 := by
      rw [Int.floor_eq_iff]; push_cast; constructor <;> linarith
    unfold roundEven
    rw [hf]; push_cast
    split_ifs <;> first | omega | (exfalso; linarith)

theorem two_zpow_pos (e : ℤ) : (0:K) < 2 ^ e := zpow_pos (by norm_num) e

theorem rnd_cast (x : K) : ((rnd x : ℚ) : K) = (roundEven (x / 2 ^ expo x) : K) * 2 ^ expo x := by
  unfold rnd; push_cast; rfl

theorem expo_neg (x : K) : expo (-x) = expo x := by unfold expo; rw [abs_neg]

theorem rnd_neg (x : K) : rnd (-x) = -rnd x := by
  unfold rnd
  rw [expo_neg, neg_div, roundEven_neg]; push_cast; ring

theorem rnd_zero : rnd (0 : K) = 0 := by
  unfold rnd
  rw [zero_div, show (0:K) = ((0:ℤ):K) by simp, roundEven_int]; simp

/-- rounding does not cross a point of the grid -/
theorem rnd_le_grid {x : K} {n : ℤ} (h : x ≤ (n:K) * 2 ^ expo x) : ((rnd x : ℚ) : K) ≤ (n:K) * 2 ^ expo x := by
  rw [rnd_cast]
  refine mul_le_mul_of_nonneg_right ?_ (two_zpow_pos _).le
  exact_mod_cast roundEven_le (by rwa [div_le_iff₀ (two_zpow_pos _)])

theorem grid_le_rnd {x : K} {n : ℤ} (h : (n:K) * 2 ^ expo x ≤ x) : (n:K) * 2 ^ expo x ≤ ((rnd x : ℚ) : K) := by
  rw [rnd_cast]
  refine mul_le_mul_of_nonneg_right ?_ (two_zpow_pos _).le
  exact_mod_cast le_roundEven (by rwa [le_div_iff₀ (two_zpow_pos _)])

/-- a power of two with exponent at least `e` is a multiple of `2^e` -/
theorem zpow_grid {e k : ℤ} (h : e ≤ k) : (2:K) ^ k = (((2:ℤ) ^ (k - e).toNat : ℤ) : K) * 2 ^ e := by
  push_cast
  rw [← zpow_natCast, Int.toNat_of_nonneg (by omega), ← zpow_add₀ (by norm_num)]
  congr 1; omega

theorem rnd_le_zpow {x : K} {k : ℤ} (hk : expo x ≤ k) (h : x ≤ 2 ^ k) : ((rnd x : ℚ) : K) ≤ 2 ^ k := by
  rw [zpow_grid hk] at h ⊢
  exact rnd_le_grid h

theorem zpow_le_rnd {x : K} {k : ℤ} (hk : expo x ≤ k) (h : 2 ^ k ≤ x) : 2 ^ k ≤ ((rnd x : ℚ) : K) := by
  rw [zpow_grid hk] at h ⊢
  exact grid_le_rnd h

theorem rnd_nonneg {x : K} (h : 0 ≤ x) : 0 ≤ rnd x := by
  have : ((0:ℤ):K) * 2 ^ expo x ≤ ((rnd x : ℚ) : K) := grid_le_rnd (by simpa using h)
  simp at this
  exact_mod_cast this

theorem expo_mono {x y : K} (h0 : 0 < x) (h : x ≤ y) : expo x ≤ expo y := by
  unfold expo
  rw [abs_of_pos h0, abs_of_pos (h0.trans_le h)]
  have := Int.log_mono_right (b := 2) h0 h
  omega

theorem lt_zpow_expo (x : K) : |x| < 2 ^ (expo x + 53) := by
  refine (Int.lt_zpow_succ_log_self (b := 2) (by norm_num) |x|).trans_le ?_
  push_cast
  refine zpow_le_zpow_right₀ (by norm_num) ?_
  unfold expo; omega

theorem rnd_mono_pos {x y : K} (h0 : 0 < x) (h : x ≤ y) : ((rnd x : ℚ) : K) ≤ ((rnd y : ℚ) : K) := by
  rcases lt_or_eq_of_le (expo_mono h0 h) with he | he
  · -- a power of two lies between
    have h1 : expo y = Int.log 2 |y| - 52 := by unfold expo at he ⊢; omega
    have hy : 2 ^ (expo y + 52) ≤ y := by
      have h2 := Int.zpow_log_le_self (b := 2) (by norm_num) (h0.trans_le h)
      rw [abs_of_pos (h0.trans_le h)] at h1
      refine le_trans ?_ h2
      push_cast
      exact zpow_le_zpow_right₀ (by norm_num) (by omega)
    have hx : x ≤ 2 ^ (expo y + 52) := by
      have := lt_zpow_expo x
      rw [abs_of_pos h0] at this
      exact this.le.trans (zpow_le_zpow_right₀ (by norm_num) (by omega))
    exact (rnd_le_zpow (by omega) hx).trans (zpow_le_rnd (by omega) hy)
  · rw [rnd_cast, rnd_cast, he]
    refine mul_le_mul_of_nonneg_right ?_ (two_zpow_pos _).le
    exact_mod_cast roundEven_mono (div_le_div_of_nonneg_right h (two_zpow_pos _).le)

theorem rnd_mono {x y : K} (h : x ≤ y) : rnd x ≤ rnd y := by
  have key : ((rnd x : ℚ) : K) ≤ ((rnd y : ℚ) : K) := by
    rcases lt_trichotomy x 0 with hx | hx | hx
    · rcases lt_or_ge y 0 with hy | hy
      · have := rnd_mono_pos (x := -y) (y := -x) (by linarith) (by linarith)
        rw [rnd_neg, rnd_neg] at this; push_cast at this; linarith
      · have h1 := rnd_nonneg (x := -x) (by linarith)
        rw [rnd_neg] at h1
        have h2 := rnd_nonneg hy
        exact_mod_cast (by linarith : rnd x ≤ rnd y)
    · rw [hx, rnd_zero]
      exact_mod_cast rnd_nonneg (hx ▸ h)
    · exact rnd_mono_pos hx h
  exact_mod_cast key

theorem rnd_abs (x : K) : rnd |x| = |rnd x| := by
  rcases le_total 0 x with h | h
  · rw [abs_of_nonneg h, abs_of_nonneg (rnd_nonneg h)]
  · rw [abs_of_nonpos h, rnd_neg]
    have := rnd_nonneg (x := -x) (by linarith)
    rw [rnd_neg] at this
    rw [abs_of_nonpos (by linarith)]

theorem rnd_err (x : K) : |((rnd x : ℚ) : K) - x| ≤ 2 ^ expo x / 2 := by
  have h := roundEven_err (x / 2 ^ expo x)
  have hp := two_zpow_pos (K := K) (expo x)
  have e : ((rnd x : ℚ) : K) - x = ((roundEven (x / 2 ^ expo x) : K) - x / 2 ^ expo x) * 2 ^ expo x := by
    rw [rnd_cast, sub_mul, div_mul_cancel₀ _ hp.ne']
  rw [e, abs_mul, abs_of_pos hp]
  calc _ ≤ 1/2 * 2 ^ expo x := mul_le_mul_of_nonneg_right h hp.le
    _ = _ := by ring

/-- relative error in the normal range -/
theorem rnd_rel {x : K} (h : 2 ^ (-1022 : ℤ) ≤ |x|) : |((rnd x : ℚ) : K) - x| ≤ 2 ^ (-53 : ℤ) * |x| := by
  have h0 : 0 < |x| := (two_zpow_pos _).trans_le h
  have hl : -1022 ≤ Int.log 2 |x| := by
    by_contra hc
    have h2 := Int.lt_zpow_succ_log_self (b := 2) (by norm_num) |x|
    push_cast at h2
    have h3 : (2:K) ^ (Int.log 2 |x| + 1) ≤ 2 ^ (-1022 : ℤ) := zpow_le_zpow_right₀ (by norm_num) (by omega)
    linarith
  have he : expo x = Int.log 2 |x| - 52 := by unfold expo; omega
  have h2 := Int.zpow_log_le_self (b := 2) (by norm_num) h0
  push_cast at h2
  refine (rnd_err x).trans ?_
  have e : (2:K) ^ expo x / 2 = 2 ^ (-53:ℤ) * 2 ^ (Int.log 2 |x|) := by
    rw [← zpow_add₀ (by norm_num), he, div_eq_mul_inv, ← zpow_neg_one, ← zpow_add₀ (by norm_num)]
    congr 1; omega
  rw [e]
  exact mul_le_mul_of_nonneg_left h2 (two_zpow_pos _).le

/-- the finite binary64 numbers -/
def IsBin64 (q : ℚ) : Prop := ∃ m e : ℤ, |m| < 2 ^ 53 ∧ -1074 ≤ e ∧ e ≤ 971 ∧ q = m * 2 ^ e

/-- the same with an unbounded exponent upwards -/
def IsBin (q : ℚ) : Prop := ∃ m e : ℤ, |m| < 2 ^ 53 ∧ -1074 ≤ e ∧ q = m * 2 ^ e

theorem IsBin64.bin {q : ℚ} (h : IsBin64 q) : IsBin q := by
  obtain ⟨m, e, h1, h2, _, h4⟩ := h
  exact ⟨m, e, h1, h2, h4⟩

/-- numbers of the format are not changed -/
theorem rnd_id {q : ℚ} (h : IsBin q) : rnd ((q : ℚ) : K) = q := by
  obtain ⟨m, e, h1, h2, rfl⟩ := h
  rcases eq_or_ne m 0 with rfl | hm
  · simp [rnd_zero]
  have hx : ((((m:ℚ) * 2 ^ e : ℚ)) : K) = (m:K) * 2 ^ e := by push_cast; rfl
  rw [hx]
  have hpos : (0:K) < |(m:K) * 2 ^ e| := abs_pos.mpr (mul_ne_zero (by exact_mod_cast hm) (two_zpow_pos _).ne')
  have hlt : |(m:K) * 2 ^ e| < ((2:ℕ):K) ^ (e + 53) := by
    rw [abs_mul, abs_of_pos (a := (2:K) ^ e) (two_zpow_pos e)]; push_cast
    rw [zpow_add₀ (by norm_num), mul_comm]
    refine mul_lt_mul_of_pos_left ?_ (two_zpow_pos e)
    have : ((|m| : ℤ) : K) < ((2 ^ 53 : ℤ) : K) := by exact_mod_cast h1
    rw [Int.cast_abs] at this
    refine this.trans_le (le_of_eq ?_)
    norm_num
  have hl := (Int.lt_zpow_iff_log_lt (by norm_num) hpos).mp hlt
  have he : expo ((m:K) * 2 ^ e) ≤ e := by unfold expo; omega
  have hz : (m:K) * 2 ^ e / 2 ^ expo ((m:K) * 2 ^ e) = ((m * 2 ^ (e - expo ((m:K) * 2 ^ e)).toNat : ℤ) : K) := by
    generalize expo ((m:K) * 2 ^ e) = E at he
    rw [div_eq_iff (two_zpow_pos _).ne', zpow_grid he]; push_cast; ring
  unfold rnd
  rw [hz, roundEven_int, Int.cast_mul, mul_assoc]
  congr 1
  exact (zpow_grid (K := ℚ) he).symm

/-- the result is in the format -/
theorem rnd_bin (x : K) : IsBin (rnd x) := by
  have hb : |roundEven (x / 2 ^ expo x)| ≤ 2 ^ 53 := by
    have h1 := lt_zpow_expo x
    rw [zpow_add₀ (by norm_num), mul_comm] at h1
    have h2 : |x / 2 ^ expo x| ≤ ((2 ^ 53 : ℤ) : K) := by
      rw [abs_div, abs_of_pos (a := (2:K) ^ expo x) (two_zpow_pos (expo x)), div_le_iff₀ (two_zpow_pos _)]
      refine h1.le.trans (le_of_eq ?_)
      push_cast; norm_num
    rw [abs_le] at h2 ⊢
    refine ⟨le_roundEven ?_, roundEven_le h2.2⟩
    push_cast at h2 ⊢; exact h2.1
  rcases lt_or_eq_of_le hb with hb | hb
  · exact ⟨_, expo x, hb, by unfold expo; omega, rfl⟩
  · have hs : roundEven (x / 2 ^ expo x) = 2 ^ 53 ∨ roundEven (x / 2 ^ expo x) = -2 ^ 53 := by
      rcases abs_choice (roundEven (x / 2 ^ expo x)) with h | h <;> omega
    have he : -1074 ≤ expo x := by unfold expo; omega
    have e1 : (2:ℚ) ^ (expo x + 1) = 2 ^ expo x * 2 := by rw [zpow_add₀ (by norm_num), zpow_one]
    rcases hs with h | h
    · refine ⟨2 ^ 52, expo x + 1, by norm_num, by omega, ?_⟩
      unfold rnd; rw [h, e1]; push_cast; ring
    · refine ⟨-2 ^ 52, expo x + 1, by norm_num, by omega, ?_⟩
      unfold rnd; rw [h, e1]; push_cast; ring

theorem IsBin.bin64 {q : ℚ} (h : IsBin q) (hq : |q| < 2 ^ 1024) : IsBin64 q := by
  obtain ⟨m, e, h1, h2, rfl⟩ := h
  rcases eq_or_ne m 0 with rfl | hm
  · exact ⟨0, 0, by norm_num, by norm_num, by norm_num, by simp⟩
  rcases le_or_gt e 971 with he | he
  · exact ⟨m, e, h1, h2, he, rfl⟩
  · have e1 : (2:ℚ) ^ e = 2 ^ (e - 971).toNat * 2 ^ (971 : ℤ) := by
      rw [← zpow_natCast, Int.toNat_of_nonneg (by omega), ← zpow_add₀ (by norm_num)]; congr 1; omega
    refine ⟨m * 2 ^ (e - 971).toNat, 971, ?_, by norm_num, le_refl _, ?_⟩
    · have : |(m:ℚ) * 2 ^ (e - 971).toNat| * 2 ^ (971:ℤ) < 2 ^ 1024 := by
        rw [e1, ← mul_assoc, abs_mul, abs_of_pos (a := (2:ℚ) ^ (971:ℤ)) (two_zpow_pos (971:ℤ))] at hq
        exact hq
      have e2 : (2:ℚ) ^ 1024 = 2 ^ 53 * 2 ^ (971:ℤ) := by
        rw [show (2:ℚ) ^ (971:ℤ) = 2 ^ (971:ℕ) from zpow_natCast 2 971, ← pow_add]
      rw [e2] at this
      have := lt_of_mul_lt_mul_right this (two_zpow_pos _).le
      rw [show |(m:ℚ) * 2 ^ (e - 971).toNat| = ((|m * 2 ^ (e - 971).toNat| : ℤ) : ℚ) by push_cast; rfl] at this
      exact_mod_cast this
    · rw [e1]; push_cast; ring

end round

/-- the values of `float64` -/
inductive F64 where
  | nan
  | inf (neg : Bool)
  | zero (neg : Bool)
  | fin (q : ℚ) (h : q ≠ 0 ∧ IsBin64 q)
  deriving DecidableEq

namespace F64

/-- the value of a finite number; 0 otherwise -/
def toQ : F64 → ℚ
  | fin q _ => q
  | _ => 0

/-- neither NaN nor infinite -/
def Finite : F64 → Prop
  | nan => False
  | inf _ => False
  | _ => True

instance : DecidablePred Finite := fun x => by cases x <;> unfold Finite <;> infer_instance

/-- the sign bit -/
def sign : F64 → Bool
  | nan => false
  | inf s => s
  | zero s => s
  | fin q _ => decide (q < 0)

/-- round an exact result; `s` is the sign of a zero result -/
def round {K : Type} [Field K] [LinearOrder K] [IsStrictOrderedRing K] [FloorRing K] (s : Bool) (x : K) : F64 :=
  if h : |rnd x| < 2 ^ 1024 then
    if h0 : rnd x = 0 then zero s else fin (rnd x) ⟨h0, (rnd_bin x).bin64 h⟩
  else inf (decide (x < 0))

def neg : F64 → F64
  | nan => nan
  | inf s => inf !s
  | zero s => zero !s
  | fin q h => fin (-q) ⟨neg_ne_zero.mpr h.1, by
      obtain ⟨m, e, h1, h2, h3, h4⟩ := h.2
      exact ⟨-m, e, by rwa [abs_neg], h2, h3, by rw [h4]; push_cast; ring⟩⟩

/-- IEEE addition -/
def add : F64 → F64 → F64
  | nan, _ => nan
  | _, nan => nan
  | inf s, inf t => if s = t then inf s else nan
  | inf s, _ => inf s
  | _, inf t => inf t
  | zero s, zero t => zero (s && t)
  | x, y => round false (x.toQ + y.toQ)

/-- IEEE subtraction -/
def sub (x y : F64) : F64 := add x (neg y)

/-- IEEE multiplication -/
def mul (x y : F64) : F64 :=
  match x, y with
  | nan, _ => nan
  | _, nan => nan
  | inf s, inf t => inf (s != t)
  | inf _, zero _ => nan
  | zero _, inf _ => nan
  | inf s, y => inf (s != y.sign)
  | x, inf t => inf (x.sign != t)
  | x, y => round (x.sign != y.sign) (x.toQ * y.toQ)

/-- IEEE division -/
def div (x y : F64) : F64 :=
  match x, y with
  | nan, _ => nan
  | _, nan => nan
  | inf _, inf _ => nan
  | inf s, y => inf (s != y.sign)
  | x, inf t => zero (x.sign != t)
  | zero _, zero _ => nan
  | x, zero t => inf (x.sign != t)
  | x, y => round (x.sign != y.sign) (x.toQ / y.toQ)

/-- `x < y` -/
def lt (x y : F64) : Bool :=
  match x, y with
  | nan, _ => false
  | _, nan => false
  | inf s, inf t => s && !t
  | inf s, _ => s
  | _, inf t => !t
  | x, y => decide (x.toQ < y.toQ)

/-- `x == y` -/
def beq (x y : F64) : Bool :=
  match x, y with
  | nan, _ => false
  | _, nan => false
  | inf s, inf t => s == t
  | inf _, _ => false
  | _, inf _ => false
  | x, y => decide (x.toQ = y.toQ)

/-- `x <= y` -/
def le (x y : F64) : Bool := lt x y || beq x y

/-- `math.Abs` -/
def abs : F64 → F64
  | nan => nan
  | inf _ => inf false
  | zero _ => zero false
  | fin q h => if q < 0 then neg (fin q h) else fin q h

/-- `math.Sqrt` -/
noncomputable def sqrt : F64 → F64
  | nan => nan
  | inf s => if s then nan else inf false
  | zero s => zero s
  | fin q _ => if q < 0 then nan else round false (Real.sqrt q)

/-- `math.Max`: an infinite argument is looked at before NaN -/
def max (x y : F64) : F64 :=
  if x = inf false ∨ y = inf false then inf false
  else if x = nan ∨ y = nan then nan
  else match x, y with
    | zero s, zero t => zero (s && t)
    | x, y => if lt y x then x else y

/-- `math.Min` -/
def min (x y : F64) : F64 :=
  if x = inf true ∨ y = inf true then inf true
  else if x = nan ∨ y = nan then nan
  else match x, y with
    | zero s, zero t => zero (s || t)
    | x, y => if lt x y then x else y

/-- `int(x)` on amd64: out of range values and NaN give the least integer -/
def trunc (x : F64) : ℤ :=
  match x with
  | nan => -2 ^ 63
  | inf _ => -2 ^ 63
  | x =>
    let i := if 0 ≤ x.toQ then ⌊x.toQ⌋ else ⌈x.toQ⌉
    if -2 ^ 63 ≤ i ∧ i < 2 ^ 63 then i else -2 ^ 63

instance : Add F64 := ⟨add⟩
instance : Sub F64 := ⟨sub⟩
instance : Mul F64 := ⟨mul⟩
instance : Div F64 := ⟨div⟩
instance : Neg F64 := ⟨neg⟩
instance : LT F64 := ⟨fun x y => lt x y = true⟩
instance : LE F64 := ⟨fun x y => le x y = true⟩
instance : DecidableLT F64 := fun x y => inferInstanceAs (Decidable (lt x y = true))
instance : DecidableLE F64 := fun x y => inferInstanceAs (Decidable (le x y = true))
/-- Go's `==`; not the equality of Lean -/
instance (priority := high) : BEq F64 := ⟨beq⟩
instance : GoAbs F64 := ⟨abs⟩
noncomputable instance : GoSqrt F64 := ⟨sqrt⟩
instance : GoMinMax F64 := ⟨min, max⟩
instance : GoTrunc F64 := ⟨trunc⟩
instance : GoTop F64 := ⟨fun x => lt x (inf false)⟩
/-- a constant is rounded to nearest -/
instance : GoConst F64 := ⟨fun q => round false q⟩
instance : GoOfInt F64 := ⟨fun i => round false (i : ℚ)⟩
instance : OfNat F64 0 := ⟨zero false⟩
instance : OfNat F64 1 := ⟨fin 1 ⟨by norm_num, 1, 0, by norm_num, by norm_num, by norm_num, by norm_num⟩⟩
instance : OfNat F64 2 := ⟨fin 2 ⟨by norm_num, 2, 0, by norm_num, by norm_num, by norm_num, by norm_num⟩⟩
instance : OfNat F64 3 := ⟨fin 3 ⟨by norm_num, 3, 0, by norm_num, by norm_num, by norm_num, by norm_num⟩⟩
instance : OfNat F64 4 := ⟨fin 4 ⟨by norm_num, 4, 0, by norm_num, by norm_num, by norm_num, by norm_num⟩⟩

end F64
end Verif
