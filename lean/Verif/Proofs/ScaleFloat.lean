import Verif.Proofs.F64
import Verif.Proofs.GridFloat
import Verif.Proofs.GridRun
/-!
# Multiplying all numbers by a power of two

In the range of normal numbers, rounding commutes with multiplication by a power of two. `Sc k lo hi x x'`: `x'` is `2^k x`, both are multiples of `2^lo`
and at most `2^hi` in size.
-/
namespace Verif.Proofs
open Verif Verif.F64

/-- a multiple of `2^lo` -/
def Mult (lo : ℤ) (v : ℚ) : Prop := ∃ n : ℤ, v = n * 2 ^ lo

theorem Mult.ge {lo : ℤ} {v : ℚ} (h : Mult lo v) (h0 : v ≠ 0) : 2 ^ lo ≤ |v| := by
  obtain ⟨n, rfl⟩ := h
  have hn : n ≠ 0 := by rintro rfl; simp at h0
  have h1 : (1:ℚ) ≤ |(n:ℚ)| := by exact_mod_cast Int.one_le_abs hn
  rw [abs_mul, abs_of_pos (two_zpow_pos (K := ℚ) lo)]
  exact le_mul_of_one_le_left (two_zpow_pos _).le h1

theorem Mult.mono {lo lo' : ℤ} {v : ℚ} (h : Mult lo v) (hl : lo' ≤ lo) : Mult lo' v := by
  obtain ⟨n, rfl⟩ := h
  refine ⟨n * 2 ^ (lo - lo').toNat, ?_⟩
  rw [zpow_grid (K := ℚ) hl]; push_cast; ring

theorem Mult.add {lo : ℤ} {v w : ℚ} (h : Mult lo v) (h' : Mult lo w) : Mult lo (v + w) := by
  obtain ⟨n, rfl⟩ := h
  obtain ⟨m, rfl⟩ := h'
  exact ⟨n + m, by push_cast; ring⟩

theorem Mult.neg {lo : ℤ} {v : ℚ} (h : Mult lo v) : Mult lo (-v) := by
  obtain ⟨n, rfl⟩ := h
  exact ⟨-n, by push_cast; ring⟩

theorem Mult.abs {lo : ℤ} {v : ℚ} (h : Mult lo v) : Mult lo |v| := by
  rcases abs_choice v with e | e <;> rw [e]
  · exact h
  · exact h.neg

theorem Mult.mul {lo lo' : ℤ} {v w : ℚ} (h : Mult lo v) (h' : Mult lo' w) : Mult (lo + lo') (v * w) := by
  obtain ⟨n, rfl⟩ := h
  obtain ⟨m, rfl⟩ := h'
  exact ⟨n * m, by push_cast; rw [zpow_add₀ (by norm_num)]; ring⟩

theorem Mult.zero (lo : ℤ) : Mult lo 0 := ⟨0, by simp⟩

/-- rounding keeps multiples of a power of two -/
theorem Mult.rnd {lo : ℤ} {v : ℚ} (h : Mult lo v) : Mult lo (rnd v) := by
  rcases le_total lo (expo v) with he | he
  · exact Mult.mono ⟨roundEven (v / 2 ^ expo v), rfl⟩ he
  · have hv : Mult (expo v) v := h.mono he
    obtain ⟨n, hn⟩ := hv
    have : Verif.rnd v = v := by
      unfold Verif.rnd
      have hz : v / 2 ^ expo v = n := by
        rw [div_eq_iff (two_zpow_pos _).ne']; exact hn
      rw [hz, roundEven_int]; exact hn.symm
    rw [this]; exact h

theorem rnd_two_zpow {hi : ℤ} (h : -1022 ≤ hi) : rnd ((2:ℚ) ^ hi) = 2 ^ hi := by
  have := rnd_id (K := ℚ) (q := 2 ^ hi) ⟨1, hi, by norm_num, by omega, by simp⟩
  simpa using this

theorem log_scale (k : ℤ) {v : ℚ} (h : 0 < v) : Int.log 2 (2 ^ k * v) = Int.log 2 v + k := by
  have hp := two_zpow_pos (K := ℚ) k
  have h1 := Int.zpow_log_le_self (b := 2) (by norm_num) h
  have h2 := Int.lt_zpow_succ_log_self (b := 2) (by norm_num) v
  push_cast at h1 h2
  have hpos : 0 < 2 ^ k * v := mul_pos hp h
  apply le_antisymm
  · have : 2 ^ k * v < ((2:ℕ):ℚ) ^ (Int.log 2 v + k + 1) := by
      push_cast
      rw [show Int.log 2 v + k + 1 = k + (Int.log 2 v + 1) by ring, zpow_add₀ (by norm_num)]
      exact mul_lt_mul_of_pos_left h2 hp
    have := (Int.lt_zpow_iff_log_lt (by norm_num) hpos).mp this
    omega
  · have : ((2:ℕ):ℚ) ^ (Int.log 2 v + k) ≤ 2 ^ k * v := by
      push_cast
      rw [show Int.log 2 v + k = k + Int.log 2 v by ring, zpow_add₀ (by norm_num)]
      exact mul_le_mul_of_nonneg_left h1 hp.le
    exact (Int.zpow_le_iff_le_log (by norm_num) hpos).mp this

set_option exponentiation.threshold 2000 in
theorem log_ge {v : ℚ} (h : 2 ^ (-1022 : ℤ) ≤ v) : -1022 ≤ Int.log 2 v := by
  have hpos : 0 < v := (two_zpow_pos _).trans_le h
  exact (Int.zpow_le_iff_le_log (b := 2) (by norm_num) hpos).mp (by push_cast; exact h)

/-- rounding commutes with a power of two in the normal range -/
theorem rnd_scale (k : ℤ) {v : ℚ} (h1 : v ≠ 0 → 2 ^ (-1022 : ℤ) ≤ |v|) (h2 : v ≠ 0 → 2 ^ (-1022 : ℤ) ≤ |2 ^ k * v|) :
    rnd (2 ^ k * v) = 2 ^ k * rnd v := by
  rcases eq_or_ne v 0 with rfl | h0
  · rw [mul_zero, rnd_zero, mul_zero]
  have hp := two_zpow_pos (K := ℚ) k
  have e1 : |2 ^ k * v| = 2 ^ k * |v| := by rw [abs_mul, abs_of_pos hp]
  have h1 := log_ge (h1 h0)
  have h2 := log_ge (h2 h0)
  rw [e1, log_scale k (abs_pos.mpr h0)] at h2
  have e2 : expo (2 ^ k * v) = expo v + k := by
    unfold expo
    rw [e1, log_scale k (abs_pos.mpr h0)]
    omega
  unfold rnd
  rw [e2, zpow_add₀ (by norm_num) (expo v) k, show 2 ^ k * v / (2 ^ expo v * 2 ^ k) = v / 2 ^ expo v by
    rw [mul_comm ((2:ℚ) ^ expo v), mul_div_mul_left _ _ hp.ne']]
  ring

/-- `x'` is `2^k x`; both multiples of `2^lo`, at most `2^hi` in size -/
structure Sc (k lo hi : ℤ) (x x' : F64) : Prop where
  fin : x.Finite
  fin' : x'.Finite
  eq : x'.toQ = 2 ^ k * x.toQ
  mult : Mult lo x.toQ
  mult' : Mult lo x'.toQ
  le : |x.toQ| ≤ 2 ^ hi
  le' : |x'.toQ| ≤ 2 ^ hi

/-- ranges in which nothing overflows or becomes subnormal -/
def InRange (lo hi : ℤ) : Prop := -1022 ≤ lo ∧ -1022 ≤ hi ∧ hi ≤ 1023

theorem two1024 : (2:ℚ) ^ (1023:ℤ) < 2 ^ 1024 := by
  rw [show (2:ℚ) ^ (1023:ℤ) = 2 ^ (1023:ℕ) from zpow_natCast 2 1023]
  exact pow_lt_pow_right₀ (by norm_num) (by norm_num)

theorem rnd_bound {lo hi : ℤ} (hr : InRange lo hi) {v : ℚ} (h : |v| ≤ 2 ^ hi) : |rnd v| ≤ 2 ^ hi ∧ |rnd v| < 2 ^ 1024 := by
  have h1 := rnd_abs_le (rnd_two_zpow hr.2.1) h
  exact ⟨h1, lt_of_le_of_lt (h1.trans (zpow_le_zpow_right₀ (by norm_num) hr.2.2)) two1024⟩

theorem sc_round {k lo hi : ℤ} (hr : InRange lo hi) {v v' : ℚ} {x x' : F64} (e : v' = 2 ^ k * v) (m : Mult lo v) (m' : Mult lo v') (b : |v| ≤ 2 ^ hi)
    (b' : |v'| ≤ 2 ^ hi) (f : x.Finite ∧ x.toQ = rnd v) (f' : x'.Finite ∧ x'.toQ = rnd v') : Sc k lo hi x x' := by
  have hl : (2:ℚ) ^ (-1022:ℤ) ≤ 2 ^ lo := zpow_le_zpow_right₀ (by norm_num) hr.1
  refine ⟨f.1, f'.1, ?_, ?_, ?_, ?_, ?_⟩
  · rw [f.2, f'.2, e]
    exact rnd_scale k (fun h => hl.trans (m.ge h)) (fun h => by
      rw [← e]
      exact hl.trans (m'.ge (by rw [e]; exact mul_ne_zero (two_zpow_pos _).ne' h)))
  · rw [f.2]; exact m.rnd
  · rw [f'.2]; exact m'.rnd
  · rw [f.2]; exact (rnd_bound hr b).1
  · rw [f'.2]; exact (rnd_bound hr b').1

theorem Sc.mono {k lo hi lo' hi' : ℤ} {x x' : F64} (h : Sc k lo hi x x') (hl : lo' ≤ lo) (hh : hi ≤ hi') : Sc k lo' hi' x x' :=
  ⟨h.fin, h.fin', h.eq, h.mult.mono hl, h.mult'.mono hl, h.le.trans (zpow_le_zpow_right₀ (by norm_num) hh), h.le'.trans (zpow_le_zpow_right₀ (by norm_num) hh)⟩

theorem two_zpow_succ (hi : ℤ) : (2:ℚ) ^ (hi + 1) = 2 ^ hi + 2 ^ hi := by
  rw [zpow_add₀ (by norm_num), zpow_one]; ring

theorem Sc.add {k lo hi : ℤ} {x x' y y' : F64} (h : Sc k lo hi x x') (h' : Sc k lo hi y y') (hr : InRange lo (hi + 1)) :
    Sc k lo (hi + 1) (x + y) (x' + y') := by
  have b : |x.toQ + y.toQ| ≤ 2 ^ (hi + 1) := (abs_add_le _ _).trans (by rw [two_zpow_succ]; exact add_le_add h.le h'.le)
  have b' : |x'.toQ + y'.toQ| ≤ 2 ^ (hi + 1) := (abs_add_le _ _).trans (by rw [two_zpow_succ]; exact add_le_add h.le' h'.le')
  exact sc_round hr (by rw [h.eq, h'.eq]; ring) (h.mult.add h'.mult) (h.mult'.add h'.mult') b b'
    (add_fin h.fin h'.fin (rnd_bound hr b).2) (add_fin h.fin' h'.fin' (rnd_bound hr b').2)

theorem Sc.sub {k lo hi : ℤ} {x x' y y' : F64} (h : Sc k lo hi x x') (h' : Sc k lo hi y y') (hr : InRange lo (hi + 1)) :
    Sc k lo (hi + 1) (x - y) (x' - y') := by
  have b : |x.toQ - y.toQ| ≤ 2 ^ (hi + 1) := (abs_sub _ _).trans (by rw [two_zpow_succ]; exact add_le_add h.le h'.le)
  have b' : |x'.toQ - y'.toQ| ≤ 2 ^ (hi + 1) := (abs_sub _ _).trans (by rw [two_zpow_succ]; exact add_le_add h.le' h'.le')
  exact sc_round hr (by rw [h.eq, h'.eq]; ring) (by rw [sub_eq_add_neg]; exact h.mult.add h'.mult.neg) (by rw [sub_eq_add_neg]; exact h.mult'.add h'.mult'.neg) b b'
    (sub_fin h.fin h'.fin (rnd_bound hr b).2) (sub_fin h.fin' h'.fin' (rnd_bound hr b').2)

theorem Sc.mul {k l lo hi lo' hi' : ℤ} {x x' y y' : F64} (h : Sc k lo hi x x') (h' : Sc l lo' hi' y y') (hr : InRange (lo + lo') (hi + hi')) :
    Sc (k + l) (lo + lo') (hi + hi') (x * y) (x' * y') := by
  have b : |x.toQ * y.toQ| ≤ 2 ^ (hi + hi') := by
    rw [abs_mul, zpow_add₀ (by norm_num)]; exact mul_le_mul h.le h'.le (abs_nonneg _) (two_zpow_pos _).le
  have b' : |x'.toQ * y'.toQ| ≤ 2 ^ (hi + hi') := by
    rw [abs_mul, zpow_add₀ (by norm_num)]; exact mul_le_mul h.le' h'.le' (abs_nonneg _) (two_zpow_pos _).le
  exact sc_round hr (by rw [h.eq, h'.eq, zpow_add₀ (by norm_num)]; ring) (h.mult.mul h'.mult) (h.mult'.mul h'.mult') b b'
    (mul_fin h.fin h'.fin (rnd_bound hr b).2) (mul_fin h.fin' h'.fin' (rnd_bound hr b').2)

theorem Sc.neg {k lo hi : ℤ} {x x' : F64} (h : Sc k lo hi x x') : Sc k lo hi (-x) (-x') := by
  obtain ⟨f, e⟩ := neg_fin h.fin
  obtain ⟨f', e'⟩ := neg_fin h.fin'
  refine ⟨f, f', by rw [e, e', h.eq]; ring, by rw [e]; exact h.mult.neg, by rw [e']; exact h.mult'.neg, by rw [e, abs_neg]; exact h.le,
    by rw [e', abs_neg]; exact h.le'⟩

theorem Sc.abs {k lo hi : ℤ} {x x' : F64} (h : Sc k lo hi x x') : Sc k lo hi (GoAbs.abs x) (GoAbs.abs x') := by
  obtain ⟨f, e⟩ := abs_fin h.fin
  obtain ⟨f', e'⟩ := abs_fin h.fin'
  refine ⟨f, f', ?_, by rw [e]; exact h.mult.abs, by rw [e']; exact h.mult'.abs, by rw [e, abs_abs]; exact h.le, by rw [e', abs_abs]; exact h.le'⟩
  rw [e, e', h.eq, abs_mul, abs_of_pos (two_zpow_pos (K := ℚ) k)]

theorem Sc.zero_iff {k lo hi : ℤ} {x x' : F64} (h : Sc k lo hi x x') : x.toQ = 0 ↔ x'.toQ = 0 := by
  rw [h.eq]
  constructor
  · intro h; rw [h, mul_zero]
  · intro h
    rcases mul_eq_zero.mp h with h | h
    · exact absurd h (two_zpow_pos _).ne'
    · exact h

theorem abs_div_bound {lo hi lo' hi' : ℤ} {v w : ℚ} (m : Mult lo v) (b : |v| ≤ 2 ^ hi) (m' : Mult lo' w) (b' : |w| ≤ 2 ^ hi') (h0 : w ≠ 0) :
    |v / w| ≤ 2 ^ (hi - lo') ∧ (v ≠ 0 → 2 ^ (lo - hi') ≤ |v / w|) := by
  have hw := m'.ge h0
  have hp : 0 < |w| := abs_pos.mpr h0
  constructor
  · rw [abs_div, div_le_iff₀ hp, zpow_sub₀ (by norm_num)]
    calc |v| ≤ 2 ^ hi := b
      _ = 2 ^ hi / 2 ^ lo' * 2 ^ lo' := by rw [div_mul_cancel₀ _ (two_zpow_pos _).ne']
      _ ≤ _ := mul_le_mul_of_nonneg_left hw (div_nonneg (two_zpow_pos _).le (two_zpow_pos _).le)
  · intro hv
    rw [abs_div, le_div_iff₀ hp, zpow_sub₀ (by norm_num)]
    calc _ ≤ (2:ℚ) ^ lo / 2 ^ hi' * 2 ^ hi' := mul_le_mul_of_nonneg_left b' (div_nonneg (two_zpow_pos _).le (two_zpow_pos _).le)
      _ = 2 ^ lo := by rw [div_mul_cancel₀ _ (two_zpow_pos _).ne']
      _ ≤ |v| := m.ge hv

theorem rnd_mult {j : ℤ} {q : ℚ} (h : q ≠ 0 → 2 ^ j ≤ |q|) : Mult (j - 52) (rnd q) := by
  rcases eq_or_ne q 0 with rfl | h0
  · rw [rnd_zero]; exact Mult.zero _
  refine Mult.mono ⟨roundEven (q / 2 ^ expo q), rfl⟩ ?_
  have : j ≤ Int.log 2 |q| := (Int.zpow_le_iff_le_log (b := 2) (by norm_num) (abs_pos.mpr h0)).mp (by push_cast; exact h h0)
  unfold expo
  omega

theorem Sc.div {k l lo hi lo' hi' : ℤ} {x x' y y' : F64} (h : Sc k lo hi x x') (h' : Sc l lo' hi' y y') (h0 : y.toQ ≠ 0)
    (hr : InRange (lo - hi') (hi - lo')) : Sc (k - l) (lo - hi' - 52) (hi - lo') (x / y) (x' / y') := by
  have h0' : y'.toQ ≠ 0 := fun hc => h0 (h'.zero_iff.mpr hc)
  obtain ⟨b, c⟩ := abs_div_bound h.mult h.le h'.mult h'.le h0
  obtain ⟨b', c'⟩ := abs_div_bound h.mult' h.le' h'.mult' h'.le' h0'
  obtain ⟨f, e⟩ := div_fin h.fin h'.fin h0 (rnd_bound hr b).2
  obtain ⟨f', e'⟩ := div_fin h.fin' h'.fin' h0' (rnd_bound hr b').2
  have hl : (2:ℚ) ^ (-1022:ℤ) ≤ 2 ^ (lo - hi') := zpow_le_zpow_right₀ (by norm_num) hr.1
  have nz : ∀ {v w : ℚ}, v / w ≠ 0 → v ≠ 0 := fun hq hv => hq (by rw [hv, zero_div])
  have eq : x'.toQ / y'.toQ = 2 ^ (k - l) * (x.toQ / y.toQ) := by
    rw [h.eq, h'.eq, zpow_sub₀ (by norm_num), mul_div_mul_comm]
  refine ⟨f, f', ?_, ?_, ?_, ?_, ?_⟩
  · rw [e, e', eq]
    refine rnd_scale _ (fun hq => hl.trans (c (nz hq))) fun hq => ?_
    rw [← eq]
    exact hl.trans (c' (by rw [h.eq]; exact mul_ne_zero (two_zpow_pos _).ne' (nz hq)))
  · rw [e]; exact rnd_mult fun hq => c (nz hq)
  · rw [e']; exact rnd_mult fun hq => c' (nz hq)
  · rw [e]; exact (rnd_bound hr b).1
  · rw [e']; exact (rnd_bound hr b').1

theorem Sc.lt_iff {k lo hi lo' hi' : ℤ} {x x' y y' : F64} (h : Sc k lo hi x x') (h' : Sc k lo' hi' y y') : x < y ↔ x' < y' := by
  rw [lt_fin h.fin h'.fin, lt_fin h.fin' h'.fin', h.eq, h'.eq]
  exact (mul_lt_mul_iff_right₀ (two_zpow_pos k)).symm

theorem Sc.beq {k lo hi lo' hi' : ℤ} {x x' y y' : F64} (h : Sc k lo hi x x') (h' : Sc k lo' hi' y y') : (x == y) = (x' == y') := by
  rw [Bool.eq_iff_iff, beq_fin h.fin h'.fin, beq_fin h.fin' h'.fin', h.eq, h'.eq]
  exact (mul_right_inj' (two_zpow_pos k).ne').symm

theorem fin0 : (0:F64).Finite := trivial

theorem toQ_zero0 : (0:F64).toQ = 0 := rfl

theorem Sc.neg_iff {k lo hi : ℤ} {x x' : F64} (h : Sc k lo hi x x') : x < 0 ↔ x' < 0 := by
  rw [lt_fin h.fin fin0, lt_fin h.fin' fin0, h.eq, toQ_zero0]
  exact ⟨mul_neg_of_pos_of_neg (two_zpow_pos k), fun h => neg_of_mul_neg_right h (two_zpow_pos k).le⟩

theorem Sc.pos_iff {k lo hi : ℤ} {x x' : F64} (h : Sc k lo hi x x') : 0 < x ↔ 0 < x' := by
  rw [lt_fin fin0 h.fin, lt_fin fin0 h.fin', h.eq, toQ_zero0]
  exact (mul_pos_iff_of_pos_left (two_zpow_pos k)).symm

theorem Sc.nonneg_iff {k lo hi : ℤ} {x x' : F64} (h : Sc k lo hi x x') : 0 ≤ x ↔ 0 ≤ x' := by
  rw [le_fin fin0 h.fin, le_fin fin0 h.fin', h.eq, toQ_zero0]
  exact (mul_nonneg_iff_of_pos_left (two_zpow_pos k)).symm

theorem Sc.eq0 {k lo hi : ℤ} {x x' : F64} (h : Sc k lo hi x x') : (x == 0) = (x' == 0) := by
  rw [Bool.eq_iff_iff, beq_fin h.fin fin0, beq_fin h.fin' fin0, toQ_zero0]
  exact h.zero_iff

/-! ## Ranges as numerals -/

theorem Sc.add' {k l1 h1 l2 h2 lo hi : ℤ} {x x' y y' : F64} (h : Sc k l1 h1 x x') (h' : Sc k l2 h2 y y')
    (r : lo ≤ l1 ∧ lo ≤ l2 ∧ h1 < hi ∧ h2 < hi ∧ -1022 ≤ lo ∧ -1022 ≤ hi ∧ hi ≤ 1023) : Sc k lo hi (x + y) (x' + y') := by
  have e : hi - 1 + 1 = hi := by ring
  have := (h.mono (lo' := lo) (hi' := hi - 1) r.1 (by omega)).add (h'.mono (lo' := lo) (hi' := hi - 1) r.2.1 (by omega)) (by rw [e]; exact ⟨by omega, by omega, by omega⟩)
  rwa [e] at this

theorem Sc.sub' {k l1 h1 l2 h2 lo hi : ℤ} {x x' y y' : F64} (h : Sc k l1 h1 x x') (h' : Sc k l2 h2 y y')
    (r : lo ≤ l1 ∧ lo ≤ l2 ∧ h1 < hi ∧ h2 < hi ∧ -1022 ≤ lo ∧ -1022 ≤ hi ∧ hi ≤ 1023) : Sc k lo hi (x - y) (x' - y') := by
  have e : hi - 1 + 1 = hi := by ring
  have := (h.mono (lo' := lo) (hi' := hi - 1) r.1 (by omega)).sub (h'.mono (lo' := lo) (hi' := hi - 1) r.2.1 (by omega)) (by rw [e]; exact ⟨by omega, by omega, by omega⟩)
  rwa [e] at this

theorem Sc.mul' {k l m l1 h1 l2 h2 lo hi : ℤ} {x x' y y' : F64} (h : Sc k l1 h1 x x') (h' : Sc l l2 h2 y y') (hm : m = k + l)
    (r : lo = l1 + l2 ∧ hi = h1 + h2 ∧ -1022 ≤ lo ∧ -1022 ≤ hi ∧ hi ≤ 1023) : Sc m lo hi (x * y) (x' * y') := by
  obtain ⟨rfl, rfl, r⟩ := r
  subst hm
  exact h.mul h' r

theorem Sc.div' {k l m l1 h1 l2 h2 lo hi : ℤ} {x x' y y' : F64} (h : Sc k l1 h1 x x') (h' : Sc l l2 h2 y y') (h0 : y.toQ ≠ 0) (hm : m = k - l)
    (r : lo = l1 - h2 - 52 ∧ hi = h1 - l2 ∧ -1022 ≤ l1 - h2 ∧ -1022 ≤ hi ∧ hi ≤ 1023) : Sc m lo hi (x / y) (x' / y') := by
  obtain ⟨rfl, rfl, r⟩ := r
  subst hm
  exact h.div h' h0 r

theorem Sc.zero (k lo hi : ℤ) : Sc k lo hi (0:F64) (0:F64) :=
  ⟨fin0, fin0, by rw [toQ_zero0, mul_zero], by rw [toQ_zero0]; exact Mult.zero _, by rw [toQ_zero0]; exact Mult.zero _,
    by rw [toQ_zero0, abs_zero]; exact (two_zpow_pos _).le, by rw [toQ_zero0, abs_zero]; exact (two_zpow_pos _).le⟩

theorem Sc.same {lo hi : ℤ} {x : F64} (f : x.Finite) (m : Mult lo x.toQ) (b : |x.toQ| ≤ 2 ^ hi) : Sc 0 lo hi x x :=
  ⟨f, f, by simp, m, m, b, b⟩

theorem Sc.two : Sc 0 1 1 (2:F64) (2:F64) := Sc.same trivial ⟨1, by decide +kernel⟩ (by decide +kernel)
theorem Sc.three : Sc 0 0 2 (3:F64) (3:F64) := Sc.same trivial ⟨3, by decide +kernel⟩ (by decide +kernel)
theorem Sc.half : Sc 0 (-1) (-1) (GoConst.const (1/2) : F64) (GoConst.const (1/2) : F64) :=
  Sc.same (by decide +kernel) ⟨1, by decide +kernel⟩ (by decide +kernel)

/-- equal values of degree zero -/
theorem Sc.eqZ {lo hi : ℤ} {x x' : F64} (h : Sc 0 lo hi x x') : Props.EqZ x x' := by
  have e : x'.toQ = x.toQ := by rw [h.eq]; simp
  by_cases h0 : x.toQ = 0
  · refine Or.inr ?_
    have z : ∀ {y : F64}, y.Finite → y.toQ = 0 → ∃ s, y = F64.zero s := by
      intro y fy ey
      cases y with
      | zero s => exact ⟨s, rfl⟩
      | fin q hq => exact absurd ey hq.1
      | nan => exact fy.elim
      | inf => exact fy.elim
    obtain ⟨s, hs⟩ := z h.fin h0
    obtain ⟨t, ht⟩ := z h.fin' (by rw [e]; exact h0)
    exact ⟨s, t, hs, ht⟩
  · exact Or.inl (toQ_inj h.fin h.fin' e.symm h0)

/-! ## The tests of the triangulator -/

open Verif.Tri2 Verif.R3

/-- a point and its multiple -/
structure ScV (k lo hi : ℤ) (v v' : R3.Vector F64) : Prop where
  x : Sc k lo hi v.X v'.X
  y : Sc k lo hi v.Y v'.Y
  z : Sc k lo hi v.Z v'.Z

theorem ScV.mono {k lo hi lo' hi' : ℤ} {v v' : R3.Vector F64} (h : ScV k lo hi v v') (hl : lo' ≤ lo) (hh : hi ≤ hi') : ScV k lo' hi' v v' :=
  ⟨h.x.mono hl hh, h.y.mono hl hh, h.z.mono hl hh⟩

/-- related of some range -/
def ScD (k : ℤ) (x x' : F64) : Prop := ∃ lo hi, Sc k lo hi x x'

variable {k : ℤ}

theorem sc_sqDist {lo : ℤ} {v v' w w' : R3.Vector F64} (h : ScV k lo 460 v v') (h' : ScV k lo 460 w w') (hl : -506 ≤ lo) (hl' : lo ≤ 0) :
    Sc (2 * k) (lo + lo) 924 (SquaredDistance v w) (SquaredDistance v' w') := by
  have dx : Sc k lo 461 (v.X - w.X) (v'.X - w'.X) := h.x.sub' h'.x (by omega)
  have dy : Sc k lo 461 (v.Y - w.Y) (v'.Y - w'.Y) := h.y.sub' h'.y (by omega)
  have dz : Sc k lo 461 (v.Z - w.Z) (v'.Z - w'.Z) := h.z.sub' h'.z (by omega)
  have sq : ∀ {x x' : F64}, Sc k lo 461 x x' → Sc (2 * k) (lo + lo) 922 (x * x) (x' * x') := fun h => h.mul' h (by ring) (by omega)
  have s1 : Sc (2 * k) (lo + lo) 923 _ _ := (sq dx).add' (sq dy) (by omega)
  have s2 : Sc (2 * k) (lo + lo) 924 _ _ := s1.add' (sq dz) (by omega)
  exact s2

theorem sc_mid {a b c d a' b' c' d' : R3.Vector F64} (ha : ScV k (-90) 90 a a') (hb : ScV k (-90) 90 b b') (hc : ScV k (-90) 90 c c') (hd : ScV k (-90) 90 d d') :
    ScV k (-143) 90 ⟨(a.X + b.X) / 2, (c.Y + d.Y) / 2, 0⟩ ⟨(a'.X + b'.X) / 2, (c'.Y + d'.Y) / 2, 0⟩ := by
  have sx : Sc k (-90) 91 (a.X + b.X) (a'.X + b'.X) := ha.x.add' hb.x (by omega)
  have sy : Sc k (-90) 91 (c.Y + d.Y) (c'.Y + d'.Y) := hc.y.add' hd.y (by omega)
  have t0 : (2:F64).toQ ≠ 0 := by decide +kernel
  exact ⟨sx.div' Sc.two t0 (by ring) (by omega), sy.div' Sc.two t0 (by ring) (by omega), Sc.zero _ _ _⟩

section diff
variable {a b c d a' b' c' d' : R3.Vector F64}

theorem sc_area (ha : ScV k (-90) 90 a a') (hb : ScV k (-90) 90 b b') (hc : ScV k (-90) 90 c c') : Sc (2 * k) (-180) 183 (area a b c) (area a' b' c') := by
  have d1 : Sc k (-90) 91 _ _ := hb.y.sub' ha.y (by omega)
  have d2 : Sc k (-90) 91 _ _ := hc.x.sub' hb.x (by omega)
  have d3 : Sc k (-90) 91 _ _ := hb.x.sub' ha.x (by omega)
  have d4 : Sc k (-90) 91 _ _ := hc.y.sub' hb.y (by omega)
  have m1 : Sc (2 * k) (-180) 182 _ _ := d1.mul' d2 (by ring) (by omega)
  have m2 : Sc (2 * k) (-180) 182 _ _ := d3.mul' d4 (by ring) (by omega)
  exact m1.sub' m2 (by omega)

theorem sc_cross (ha : ScV k (-90) 90 a a') (hb : ScV k (-90) 90 b b') (hc : ScV k (-90) 90 c c') : Sc (2 * k) (-180) 183 (cross2D a b c) (cross2D a' b' c') := by
  have d1 : Sc k (-90) 91 _ _ := hb.x.sub' ha.x (by omega)
  have d2 : Sc k (-90) 91 _ _ := hc.y.sub' ha.y (by omega)
  have d3 : Sc k (-90) 91 _ _ := hb.y.sub' ha.y (by omega)
  have d4 : Sc k (-90) 91 _ _ := hc.x.sub' ha.x (by omega)
  have m1 : Sc (2 * k) (-180) 182 _ _ := d1.mul' d2 (by ring) (by omega)
  have m2 : Sc (2 * k) (-180) 182 _ _ := d3.mul' d4 (by ring) (by omega)
  exact m1.sub' m2 (by omega)

theorem sc_inCircle (ha : ScV k (-90) 90 a a') (hb : ScV k (-90) 90 b b') (hc : ScV k (-90) 90 c c') (hd : ScV k (-90) 90 d d') :
    Sc (4 * k) (-360) 368 (inCircleDet a b c d) (inCircleDet a' b' c' d') := by
  have dx : Sc k (-90) 91 _ _ := ha.x.sub' hd.x (by omega)
  have dy : Sc k (-90) 91 _ _ := ha.y.sub' hd.y (by omega)
  have ex : Sc k (-90) 91 _ _ := hb.x.sub' hd.x (by omega)
  have ey : Sc k (-90) 91 _ _ := hb.y.sub' hd.y (by omega)
  have fx : Sc k (-90) 91 _ _ := hc.x.sub' hd.x (by omega)
  have fy : Sc k (-90) 91 _ _ := hc.y.sub' hd.y (by omega)
  have pr : ∀ {x x' y y' : F64}, Sc k (-90) 91 x x' → Sc k (-90) 91 y y' → Sc (2 * k) (-180) 182 (x * y) (x' * y') := fun h h' => h.mul' h' (by ring) (by omega)
  have ap : Sc (2 * k) (-180) 183 _ _ := (pr dx dx).add' (pr dy dy) (by omega)
  have bp : Sc (2 * k) (-180) 183 _ _ := (pr ex ex).add' (pr ey ey) (by omega)
  have cp : Sc (2 * k) (-180) 183 _ _ := (pr fx fx).add' (pr fy fy) (by omega)
  have p12 : ∀ {x x' y y' : F64}, Sc k (-90) 91 x x' → Sc (2 * k) (-180) 183 y y' → Sc (3 * k) (-270) 274 (x * y) (x' * y') := fun h h' => h.mul' h' (by ring) (by omega)
  have p21 : ∀ {x x' y y' : F64}, Sc (2 * k) (-180) 183 x x' → Sc k (-90) 91 y y' → Sc (3 * k) (-270) 274 (x * y) (x' * y') := fun h h' => h.mul' h' (by ring) (by omega)
  have u1 : Sc (3 * k) (-270) 275 _ _ := (p12 ey cp).sub' (p21 bp fy) (by omega)
  have u2 : Sc (3 * k) (-270) 275 _ _ := (p12 ex cp).sub' (p21 bp fx) (by omega)
  have u3 : Sc (2 * k) (-180) 183 _ _ := (pr ex fy).sub' (pr ey fx) (by omega)
  have w1 : Sc (4 * k) (-360) 366 _ _ := dx.mul' u1 (by ring) (by omega)
  have w2 : Sc (4 * k) (-360) 366 _ _ := dy.mul' u2 (by ring) (by omega)
  have w3 : Sc (4 * k) (-360) 366 _ _ := ap.mul' u3 (by ring) (by omega)
  have w12 : Sc (4 * k) (-360) 367 _ _ := w1.sub' w2 (by omega)
  exact w12.add' w3 (by omega)

/-- the quantities of `circumradius` and `circumcenter` -/
structure Circ (k : ℤ) (dx dy ex ey dx' dy' ex' ey' : F64) : Prop where
  bl : Sc (2 * k) (-180) 183 (dx * dx + dy * dy) (dx' * dx' + dy' * dy')
  cl : Sc (2 * k) (-180) 183 (ex * ex + ey * ey) (ex' * ex' + ey' * ey')
  d : Sc (2 * k) (-180) 183 (dx * ey - dy * ex) (dx' * ey' - dy' * ex')
  x : (dx * ey - dy * ex).toQ ≠ 0 → Sc k (-506) 454 ((ey * (dx * dx + dy * dy) - dy * (ex * ex + ey * ey)) * GoConst.const (1/2) / (dx * ey - dy * ex))
    ((ey' * (dx' * dx' + dy' * dy') - dy' * (ex' * ex' + ey' * ey')) * GoConst.const (1/2) / (dx' * ey' - dy' * ex'))
  y : (dx * ey - dy * ex).toQ ≠ 0 → Sc k (-506) 454 ((dx * (ex * ex + ey * ey) - ex * (dx * dx + dy * dy)) * GoConst.const (1/2) / (dx * ey - dy * ex))
    ((dx' * (ex' * ex' + ey' * ey') - ex' * (dx' * dx' + dy' * dy')) * GoConst.const (1/2) / (dx' * ey' - dy' * ex'))

theorem sc_circ {dx dy ex ey dx' dy' ex' ey' : F64} (hdx : Sc k (-90) 91 dx dx') (hdy : Sc k (-90) 91 dy dy') (hex : Sc k (-90) 91 ex ex') (hey : Sc k (-90) 91 ey ey') :
    Circ k dx dy ex ey dx' dy' ex' ey' := by
  have pr : ∀ {x x' y y' : F64}, Sc k (-90) 91 x x' → Sc k (-90) 91 y y' → Sc (2 * k) (-180) 182 (x * y) (x' * y') := fun h h' => h.mul' h' (by ring) (by omega)
  have bl : Sc (2 * k) (-180) 183 _ _ := (pr hdx hdx).add' (pr hdy hdy) (by omega)
  have cl : Sc (2 * k) (-180) 183 _ _ := (pr hex hex).add' (pr hey hey) (by omega)
  have d : Sc (2 * k) (-180) 183 _ _ := (pr hdx hey).sub' (pr hdy hex) (by omega)
  have p12 : ∀ {x x' y y' : F64}, Sc k (-90) 91 x x' → Sc (2 * k) (-180) 183 y y' → Sc (3 * k) (-270) 274 (x * y) (x' * y') := fun h h' => h.mul' h' (by ring) (by omega)
  have nx : Sc (3 * k) (-270) 275 _ _ := (p12 hey bl).sub' (p12 hdy cl) (by omega)
  have ny : Sc (3 * k) (-270) 275 _ _ := (p12 hdx cl).sub' (p12 hex bl) (by omega)
  have hx : Sc (3 * k) (-271) 274 _ _ := nx.mul' Sc.half (by ring) (by omega)
  have hy : Sc (3 * k) (-271) 274 _ _ := ny.mul' Sc.half (by ring) (by omega)
  exact ⟨bl, cl, d, fun h0 => hx.div' d h0 (by ring) (by omega), fun h0 => hy.div' d h0 (by ring) (by omega)⟩

theorem sc_circ_of (ha : ScV k (-90) 90 a a') (hb : ScV k (-90) 90 b b') (hc : ScV k (-90) 90 c c') :
    Circ k (b.X - a.X) (b.Y - a.Y) (c.X - a.X) (c.Y - a.Y) (b'.X - a'.X) (b'.Y - a'.Y) (c'.X - a'.X) (c'.Y - a'.Y) :=
  sc_circ (hb.x.sub' ha.x (by omega)) (hb.y.sub' ha.y (by omega)) (hc.x.sub' ha.x (by omega)) (hc.y.sub' ha.y (by omega))

theorem toQ_of_beq0 {x : F64} (h : x.Finite) : (x == 0) = true ↔ x.toQ = 0 := by
  rw [beq_fin h fin0, toQ_zero0]

theorem sc_radius (ha : ScV k (-90) 90 a a') (hb : ScV k (-90) 90 b b') (hc : ScV k (-90) 90 c c') :
    Option.Rel (ScD (2 * k)) (circumradius a b c) (circumradius a' b' c') := by
  have C := sc_circ_of ha hb hc
  unfold circumradius
  dsimp only
  generalize b.X - a.X = dx at C ⊢
  generalize b.Y - a.Y = dy at C ⊢
  generalize c.X - a.X = ex at C ⊢
  generalize c.Y - a.Y = ey at C ⊢
  generalize b'.X - a'.X = dx' at C ⊢
  generalize b'.Y - a'.Y = dy' at C ⊢
  generalize c'.X - a'.X = ex' at C ⊢
  generalize c'.Y - a'.Y = ey' at C ⊢
  rw [C.bl.eq0, C.cl.eq0]
  by_cases hd : (dx * ey - dy * ex == 0) = true
  · have hd' := hd
    rw [C.d.eq0] at hd'
    simp only [hd, hd', Bool.or_true, Bool.true_or, if_true]
    exact .none
  · have h0 : (dx * ey - dy * ex).toQ ≠ 0 := fun h => hd ((toQ_of_beq0 C.d.fin).mpr h)
    have X := C.x h0
    have Y := C.y h0
    have xx : Sc (2 * k) (-1012) 908 _ _ := X.mul' X (by ring) (by omega)
    have yy : Sc (2 * k) (-1012) 908 _ _ := Y.mul' Y (by ring) (by omega)
    have r : Sc (2 * k) (-1012) 909 _ _ := xx.add' yy (by omega)
    rw [C.d.eq0, r.eq0]
    split
    · exact .none
    · exact .some ⟨_, _, r⟩

/-- the third point is not on the line of the first two, for the computed determinant -/
theorem det_ne (h : (circumradius a b c).isSome) (f : ((b.X - a.X) * (c.Y - a.Y) - (b.Y - a.Y) * (c.X - a.X)).Finite) :
    ((b.X - a.X) * (c.Y - a.Y) - (b.Y - a.Y) * (c.X - a.X)).toQ ≠ 0 := by
  intro h0
  have hd := (toQ_of_beq0 f).mpr h0
  unfold circumradius at h
  simp only [hd, Bool.or_true, Bool.true_or, if_true] at h
  cases h

theorem diff_swap {p p' q q' : F64} (hp : Sc (2 * k) (-180) 182 p p') (hq : Sc (2 * k) (-180) 182 q q') (h0 : (q - p).toQ ≠ 0) : (p - q).toQ ≠ 0 := by
  have hr : InRange (-180) 183 := ⟨by omega, by omega, by omega⟩
  have b : |p.toQ - q.toQ| ≤ 2 ^ (183:ℤ) := (abs_sub _ _).trans (by rw [show (183:ℤ) = 182 + 1 by ring, two_zpow_succ]; exact add_le_add hp.le hq.le)
  have b' : |q.toQ - p.toQ| ≤ 2 ^ (183:ℤ) := by rw [abs_sub_comm]; exact b
  have e := (sub_fin hp.fin hq.fin (rnd_bound hr b).2).2
  have e' := (sub_fin hq.fin hp.fin (rnd_bound hr b').2).2
  rw [e', ← neg_sub, rnd_neg] at h0
  rw [e]
  exact fun hc => h0 (by rw [hc, neg_zero])

theorem sc_center (ha : ScV k (-90) 90 a a') (hb : ScV k (-90) 90 b b') (hc : ScV k (-90) 90 c c')
    (h : (circumradius a b c).isSome ∨ (circumradius a c b).isSome) : ScV k (-506) 455 (circumcenter a b c) (circumcenter a' b' c') := by
  have C := sc_circ_of ha hb hc
  have h0 : ((b.X - a.X) * (c.Y - a.Y) - (b.Y - a.Y) * (c.X - a.X)).toQ ≠ 0 := by
    rcases h with h | h
    · exact det_ne h C.d.fin
    · have C' := sc_circ_of ha hc hb
      have pr : ∀ {x x' y y' : F64}, Sc k (-90) 91 x x' → Sc k (-90) 91 y y' → Sc (2 * k) (-180) 182 (x * y) (x' * y') := fun h h' => h.mul' h' (by ring) (by omega)
      have hd := det_ne h C'.d.fin
      rw [mul_comm' (c.X - a.X), mul_comm' (c.Y - a.Y)] at hd
      exact diff_swap (pr (hb.x.sub' ha.x (by omega)) (hc.y.sub' ha.y (by omega))) (pr (hb.y.sub' ha.y (by omega)) (hc.x.sub' ha.x (by omega))) hd
  exact ⟨ha.x.add' (C.x h0) (by omega), ha.y.add' (C.y h0) (by omega), Sc.zero _ _ _⟩

theorem angle_quot {x y x' y' : F64} (hp : Props.EqZ (x / (GoAbs.abs x + GoAbs.abs y)) (x' / (GoAbs.abs x' + GoAbs.abs y'))) (hy : 0 < y ↔ 0 < y') :
    pseudoAngle x y = pseudoAngle x' y' := by
  unfold pseudoAngle
  generalize x / (GoAbs.abs x + GoAbs.abs y) = p at hp ⊢
  generalize x' / (GoAbs.abs x' + GoAbs.abs y') = p' at hp ⊢
  have h3 : (3 : F64) - p = 3 - p' := by
    rcases hp with rfl | ⟨s, t, rfl, rfl⟩ <;> rfl
  have h1 : (1 : F64) + p = 1 + p' := by
    rcases hp with rfl | ⟨s, t, rfl, rfl⟩ <;> rfl
  simp only [h3, h1, hy]

theorem rnd_ne {lo : ℤ} (hl : -1022 ≤ lo) {v : ℚ} (m : Mult lo v) (h : v ≠ 0) : rnd v ≠ 0 := by
  have h1 := rnd_mono (m.ge h)
  rw [rnd_two_zpow hl, rnd_abs] at h1
  exact abs_pos.mp ((two_zpow_pos _).trans_le h1)

theorem quot_nan {x y : F64} (fx : x.Finite) (fy : y.Finite) (mx : Mult (-506) x.toQ) (my : Mult (-506) y.toQ) (bx : |x.toQ| ≤ 2 ^ (456:ℤ)) (by' : |y.toQ| ≤ 2 ^ (456:ℤ))
    (h : (GoAbs.abs x + GoAbs.abs y).toQ = 0) : x / (GoAbs.abs x + GoAbs.abs y) = F64.nan := by
  obtain ⟨f1, e1⟩ := abs_fin fx
  obtain ⟨f2, e2⟩ := abs_fin fy
  have hr : InRange (-506) 457 := ⟨by omega, by omega, by omega⟩
  have b : |(GoAbs.abs x).toQ + (GoAbs.abs y).toQ| ≤ 2 ^ (457:ℤ) := by
    rw [e1, e2]
    refine (abs_add_le _ _).trans ?_
    rw [abs_abs, abs_abs, show (457:ℤ) = 456 + 1 by ring, two_zpow_succ]
    exact add_le_add bx by'
  obtain ⟨f3, e3⟩ := add_fin f1 f2 (rnd_bound hr b).2
  rw [e3, e1, e2] at h
  have hs : |x.toQ| + |y.toQ| = 0 := by
    by_contra hc
    exact rnd_ne (by omega) (mx.abs.add my.abs) hc h
  have hx : x.toQ = 0 := by
    have := abs_nonneg x.toQ; have := abs_nonneg y.toQ
    exact abs_eq_zero.mp (by linarith)
  have hy : y.toQ = 0 := by
    have := abs_nonneg x.toQ; have := abs_nonneg y.toQ
    exact abs_eq_zero.mp (by linarith)
  cases x with
  | zero s =>
    cases y with
    | zero t => rfl
    | fin q hq => exact absurd hy hq.1
    | nan => exact fy.elim
    | inf => exact fy.elim
  | fin q hq => exact absurd hx hq.1
  | nan => exact fx.elim
  | inf => exact fx.elim

theorem sc_key (h : ℕ) {v v' o o' : R3.Vector F64} (hv : ScV k (-90) 90 v v') (ho : ScV k (-506) 455 o o') : hashKey h o v = hashKey h o' v' := by
  have dx : Sc k (-506) 456 (v.X - o.X) (v'.X - o'.X) := hv.x.sub' ho.x (by omega)
  have dy : Sc k (-506) 456 (v.Y - o.Y) (v'.Y - o'.Y) := hv.y.sub' ho.y (by omega)
  have su : Sc k (-506) 457 (GoAbs.abs (v.X - o.X) + GoAbs.abs (v.Y - o.Y)) (GoAbs.abs (v'.X - o'.X) + GoAbs.abs (v'.Y - o'.Y)) := dx.abs.add' dy.abs (by omega)
  unfold hashKey
  simp only [R3.Sub]
  rw [angle_quot ?_ dy.pos_iff]
  by_cases h0 : (GoAbs.abs (v.X - o.X) + GoAbs.abs (v.Y - o.Y)).toQ = 0
  · have h0' := su.zero_iff.mp h0
    rw [quot_nan dx.fin dy.fin dx.mult dy.mult dx.le dy.le h0, quot_nan dx.fin' dy.fin' dx.mult' dy.mult' dx.le' dy.le' h0']
    exact Or.inl rfl
  · have q : Sc 0 (-1015) 962 _ _ := dx.div' su h0 (by ring) (by omega)
    exact q.eqZ

theorem sc_less {v v' w w' o o' : R3.Vector F64} (hv : ScV k (-90) 90 v v') (hw : ScV k (-90) 90 w w') (ho : ScV k (-506) 455 o o') :
    idLess o v w = idLess o' v' w' := by
  have d1 := sc_sqDist (hv.mono (lo' := -506) (hi' := 460) (by omega) (by omega)) (ho.mono (lo' := -506) (hi' := 460) (by omega) (by omega)) (by omega) (by omega)
  have d2 := sc_sqDist (hw.mono (lo' := -506) (hi' := 460) (by omega) (by omega)) (ho.mono (lo' := -506) (hi' := 460) (by omega) (by omega)) (by omega) (by omega)
  unfold idLess
  simp only [bne, d1.beq d2, hv.x.beq hw.x, d1.lt_iff d2, hv.x.lt_iff hw.x, hv.y.lt_iff hw.y]

theorem sc_hullLess {v v' w w' : R3.Vector F64} (hv : ScV k (-90) 90 v v') (hw : ScV k (-90) 90 w w') : hullLess v w = hullLess v' w' := by
  unfold hullLess
  simp only [bne, hv.x.beq hw.x, hv.x.lt_iff hw.x, hv.y.lt_iff hw.y]

theorem sc_inSphere {e e' : R3.Vector F64} (ha : ScV k (-90) 94 a a') (hb : ScV k (-90) 94 b b') (hc : ScV k (-90) 94 c c') (hd : ScV k (-90) 94 d d') (he : ScV k (-90) 94 e e') :
    Sc (5 * k) (-450) 482 (Predicates.InSphereFast a b c d e) (Predicates.InSphereFast a' b' c' d' e') := by
  have di : ∀ {x x' y y' : F64}, Sc k (-90) 94 x x' → Sc k (-90) 94 y y' → Sc k (-90) 95 (x - y) (x' - y') := fun h h' => h.sub' h' (by omega)
  have ax := di ha.x he.x
  have bx := di hb.x he.x
  have cx := di hc.x he.x
  have dx := di hd.x he.x
  have ay := di ha.y he.y
  have b_y := di hb.y he.y
  have cy := di hc.y he.y
  have dy := di hd.y he.y
  have az := di ha.z he.z
  have bz := di hb.z he.z
  have cz := di hc.z he.z
  have dz := di hd.z he.z
  have pr : ∀ {x x' y y' : F64}, Sc k (-90) 95 x x' → Sc k (-90) 95 y y' → Sc (2 * k) (-180) 190 (x * y) (x' * y') := fun h h' => h.mul' h' (by ring) (by omega)
  have mi : ∀ {x x' y y' : F64}, Sc (2 * k) (-180) 190 x x' → Sc (2 * k) (-180) 190 y y' → Sc (2 * k) (-180) 191 (x - y) (x' - y') := fun h h' => h.sub' h' (by omega)
  have ab := mi (pr ax b_y) (pr bx ay)
  have bc := mi (pr bx cy) (pr cx b_y)
  have cd := mi (pr cx dy) (pr dx cy)
  have da := mi (pr dx ay) (pr ax dy)
  have ac := mi (pr ax cy) (pr cx ay)
  have bd := mi (pr bx dy) (pr dx b_y)
  have tr : ∀ {x x' y y' : F64}, Sc k (-90) 95 x x' → Sc (2 * k) (-180) 191 y y' → Sc (3 * k) (-270) 286 (x * y) (x' * y') := fun h h' => h.mul' h' (by ring) (by omega)
  have d3 : ∀ {x x' y y' z z' : F64}, Sc (3 * k) (-270) 286 x x' → Sc (3 * k) (-270) 286 y y' → Sc (3 * k) (-270) 286 z z' →
      Sc (3 * k) (-270) 288 (x - y + z) (x' - y' + z') := fun h h' h'' => (h.sub' h' (lo := -270) (hi := 287) (by omega)).add' h'' (by omega)
  have s3 : ∀ {x x' y y' z z' : F64}, Sc (3 * k) (-270) 286 x x' → Sc (3 * k) (-270) 286 y y' → Sc (3 * k) (-270) 286 z z' →
      Sc (3 * k) (-270) 288 (x + y + z) (x' + y' + z') := fun h h' h'' => (h.add' h' (lo := -270) (hi := 287) (by omega)).add' h'' (by omega)
  have abc := d3 (tr az bc) (tr bz ac) (tr cz ab)
  have bcd := d3 (tr bz cd) (tr cz bd) (tr dz bc)
  have cda := s3 (tr cz da) (tr dz ac) (tr az cd)
  have dab := s3 (tr dz ab) (tr az bd) (tr bz da)
  have li : ∀ {x x' y y' z z' : F64}, Sc k (-90) 95 x x' → Sc k (-90) 95 y y' → Sc k (-90) 95 z z' →
      Sc (2 * k) (-180) 192 (x * x + y * y + z * z) (x' * x' + y' * y' + z' * z') :=
    fun h h' h'' => ((pr h h).add' (pr h' h') (lo := -180) (hi := 191) (by omega)).add' (pr h'' h'') (by omega)
  have fi : ∀ {x x' y y' : F64}, Sc (2 * k) (-180) 192 x x' → Sc (3 * k) (-270) 288 y y' → Sc (5 * k) (-450) 480 (x * y) (x' * y') := fun h h' => h.mul' h' (by ring) (by omega)
  have m5 : ∀ {x x' y y' : F64}, Sc (5 * k) (-450) 480 x x' → Sc (5 * k) (-450) 480 y y' → Sc (5 * k) (-450) 481 (x - y) (x' - y') := fun h h' => h.sub' h' (by omega)
  exact (m5 (fi (li cx cy cz) dab) (fi (li dx dy dz) abc)).add' (m5 (fi (li ax ay az) bcd) (fi (li bx b_y bz) cda)) (by omega)

theorem sc_tetra {mn mn' mx mx' : F64} (h : Sc k (-90) 90 mn mn') (h' : Sc k (-90) 90 mx mx') : Sc k (-90) 94 (mn + 3 * (mx - mn)) (mn' + 3 * (mx' - mn')) := by
  have d : Sc k (-90) 91 (mx - mn) (mx' - mn') := h'.sub' h (by omega)
  have t : Sc k (-90) 93 (3 * (mx - mn)) (3 * (mx' - mn')) := Sc.three.mul' d (by ring) (by omega)
  exact h.add' t (by omega)

end diff

end Verif.Proofs
