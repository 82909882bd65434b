import Verif.Go.F64
/-!
# Facts about binary64 arithmetic
-/
namespace Verif.F64

theorem isBin_zero : IsBin64 0 := ⟨0, 0, by norm_num, by norm_num, by norm_num, by simp⟩

theorem toQ_bin (x : F64) : IsBin64 x.toQ := by
  cases x with
  | fin q h => exact h.2
  | _ => exact isBin_zero

theorem IsBin64.lt {q : ℚ} (h : IsBin64 q) : |q| < 2 ^ 1024 := by
  obtain ⟨m, e, h1, _, h3, rfl⟩ := h
  rw [abs_mul, abs_of_pos (a := (2:ℚ) ^ e) (two_zpow_pos e)]
  have e2 : (2:ℚ) ^ 1024 = 2 ^ 53 * 2 ^ (971:ℤ) := by
    rw [show (2:ℚ) ^ (971:ℤ) = 2 ^ (971:ℕ) from zpow_natCast 2 971, ← pow_add]
  rw [e2]
  have a1 : |(m:ℚ)| < 2 ^ 53 := by exact_mod_cast h1
  have a2 : (2:ℚ) ^ e ≤ 2 ^ (971:ℤ) := zpow_le_zpow_right₀ (by norm_num) h3
  exact mul_lt_mul a1 a2 (two_zpow_pos e) (by positivity)

theorem IsBin64.neg {q : ℚ} (h : IsBin64 q) : IsBin64 (-q) := by
  obtain ⟨m, e, h1, h2, h3, h4⟩ := h
  exact ⟨-m, e, by rwa [abs_neg], h2, h3, by rw [h4]; push_cast; ring⟩

theorem rnd_toQ (x : F64) : rnd x.toQ = x.toQ := by
  have := rnd_id (K := ℚ) (toQ_bin x).bin
  simpa using this

section
variable {K : Type} [Field K] [LinearOrder K] [IsStrictOrderedRing K] [FloorRing K]

theorem round_fin {s : Bool} {x : K} (h : |rnd x| < 2 ^ 1024) : (round s x).Finite ∧ (round s x).toQ = rnd x := by
  unfold round
  rw [dif_pos h]
  split_ifs with h0
  · exact ⟨trivial, h0.symm⟩
  · exact ⟨trivial, rfl⟩

theorem round_inf {s : Bool} {x : K} (h : ¬ |rnd x| < 2 ^ 1024) : round s x = inf (decide (x < 0)) := by
  unfold round; rw [dif_neg h]

theorem round_neg {s : Bool} {x : K} : round (!s) (-x) = F64.neg (round s x) := by
  unfold round
  by_cases h : |rnd x| < 2 ^ 1024
  · rw [dif_pos h, dif_pos (by rwa [rnd_neg, abs_neg])]
    by_cases h0 : rnd x = 0
    · rw [dif_pos h0, dif_pos (by rw [rnd_neg, h0, neg_zero])]; rfl
    · rw [dif_neg h0, dif_neg (by rw [rnd_neg]; simpa using h0)]
      unfold F64.neg; congr 1; rw [rnd_neg]
  · rw [dif_neg h, dif_neg (by rwa [rnd_neg, abs_neg])]
    have hx : x ≠ 0 := by
      rintro rfl
      apply h
      rw [rnd_zero, abs_zero]; positivity
    unfold F64.neg
    congr 1
    rcases lt_or_gt_of_ne hx with h1 | h1
    · simp [h1, h1.le]
    · simp [h1, h1.le]

end

attribute [local irreducible] rnd round

theorem neg_neg' (x : F64) : F64.neg (F64.neg x) = x := by
  cases x <;> simp [F64.neg]

theorem add_comm' (x y : F64) : x + y = y + x := by
  show F64.add x y = F64.add y x
  have hr : ∀ a b : ℚ, round false (a + b) = round false (b + a) := fun a b => by rw [add_comm]
  cases x with
  | nan => cases y <;> rfl
  | inf s =>
    cases y with
    | inf t => cases s <;> cases t <;> rfl
    | _ => rfl
  | zero s =>
    cases y with
    | zero t => cases s <;> cases t <;> rfl
    | fin q h => exact hr _ _
    | _ => rfl
  | fin q h =>
    cases y with
    | zero t => exact hr _ _
    | fin q h => exact hr _ _
    | _ => rfl

theorem mul_comm' (x y : F64) : x * y = y * x := by
  show F64.mul x y = F64.mul y x
  have bc : ∀ a b : Bool, (a != b) = (b != a) := by decide
  have hr : ∀ (s t : Bool) (a b : ℚ), round (s != t) (a * b) = round (t != s) (b * a) := fun s t a b => by rw [mul_comm, bc]
  cases x with
  | nan => cases y <;> rfl
  | inf s =>
    cases y with
    | inf t => exact congrArg inf (bc _ _)
    | fin q h => exact congrArg inf (bc _ _)
    | _ => rfl
  | zero s =>
    cases y with
    | zero t => exact hr _ _ _ _
    | fin q h => exact hr _ _ _ _
    | _ => rfl
  | fin q h =>
    cases y with
    | inf t => exact congrArg inf (bc _ _)
    | zero t => exact hr _ _ _ _
    | fin q h => exact hr _ _ _ _
    | _ => rfl

@[simp] theorem finite_zero (s : Bool) : (zero s).Finite := trivial
@[simp] theorem finite_fin (q : ℚ) (h) : (fin q h).Finite := trivial
@[simp] theorem not_finite_nan : ¬ nan.Finite := id
@[simp] theorem not_finite_inf (s : Bool) : ¬ (inf s).Finite := id
@[simp] theorem toQ_zero (s : Bool) : (zero s).toQ = 0 := rfl
@[simp] theorem toQ_fin (q : ℚ) (h) : (fin q h).toQ = q := rfl

theorem neg_fin {x : F64} (hx : x.Finite) : (-x).Finite ∧ (-x).toQ = -x.toQ := by
  show (F64.neg x).Finite ∧ (F64.neg x).toQ = _
  cases x <;> simp_all [F64.neg]

theorem add_fin {x y : F64} (hx : x.Finite) (hy : y.Finite) (h : |rnd (x.toQ + y.toQ)| < 2 ^ 1024) :
    (x + y).Finite ∧ (x + y).toQ = rnd (x.toQ + y.toQ) := by
  show (F64.add x y).Finite ∧ (F64.add x y).toQ = _
  cases x with
  | zero s =>
    cases y with
    | zero t => exact ⟨trivial, by rw [toQ_zero, toQ_zero, add_zero, rnd_zero]; rfl⟩
    | fin q hq => exact round_fin h
    | _ => exact hy.elim
  | fin q hq =>
    cases y with
    | zero t => exact round_fin h
    | fin q hq => exact round_fin h
    | _ => exact hy.elim
  | _ => exact hx.elim

theorem sub_fin {x y : F64} (hx : x.Finite) (hy : y.Finite) (h : |rnd (x.toQ - y.toQ)| < 2 ^ 1024) :
    (x - y).Finite ∧ (x - y).toQ = rnd (x.toQ - y.toQ) := by
  obtain ⟨h1, h2⟩ := neg_fin hy
  have := add_fin (y := -y) hx h1 (by rwa [h2, ← sub_eq_add_neg])
  rwa [h2, ← sub_eq_add_neg] at this

theorem mul_fin {x y : F64} (hx : x.Finite) (hy : y.Finite) (h : |rnd (x.toQ * y.toQ)| < 2 ^ 1024) :
    (x * y).Finite ∧ (x * y).toQ = rnd (x.toQ * y.toQ) := by
  show (F64.mul x y).Finite ∧ (F64.mul x y).toQ = _
  cases x <;> cases y <;> first | exact hx.elim | exact hy.elim | exact round_fin h

theorem div_fin {x y : F64} (hx : x.Finite) (hy : y.Finite) (hy0 : y.toQ ≠ 0) (h : |rnd (x.toQ / y.toQ)| < 2 ^ 1024) :
    (x / y).Finite ∧ (x / y).toQ = rnd (x.toQ / y.toQ) := by
  show (F64.div x y).Finite ∧ (F64.div x y).toQ = _
  cases x <;> cases y <;> first | exact hx.elim | exact hy.elim | exact round_fin h | exact (hy0 rfl).elim

theorem abs_fin {x : F64} (hx : x.Finite) : (GoAbs.abs x).Finite ∧ (GoAbs.abs x).toQ = |x.toQ| := by
  show (F64.abs x).Finite ∧ (F64.abs x).toQ = _
  cases x with
  | nan => exact hx.elim
  | inf s => exact hx.elim
  | zero s => simp [F64.abs]
  | fin q h =>
    have e : F64.abs (fin q h) = if q < 0 then F64.neg (fin q h) else fin q h := rfl
    rw [e]
    split_ifs with h0
    · simp [F64.neg, abs_of_neg h0]
    · simp [abs_of_nonneg (not_lt.mp h0)]

theorem lt_fin {x y : F64} (hx : x.Finite) (hy : y.Finite) : x < y ↔ x.toQ < y.toQ := by
  show F64.lt x y = true ↔ _
  cases x <;> cases y <;> first | exact hx.elim | exact hy.elim | (simp only [F64.lt]; exact decide_eq_true_iff)

theorem beq_fin {x y : F64} (hx : x.Finite) (hy : y.Finite) : (x == y) = true ↔ x.toQ = y.toQ := by
  show F64.beq x y = true ↔ _
  cases x <;> cases y <;> first | exact hx.elim | exact hy.elim | (simp only [F64.beq]; exact decide_eq_true_iff)

theorem le_fin {x y : F64} (hx : x.Finite) (hy : y.Finite) : x ≤ y ↔ x.toQ ≤ y.toQ := by
  show F64.le x y = true ↔ _
  unfold F64.le
  rw [Bool.or_eq_true, le_iff_lt_or_eq]
  exact or_congr (lt_fin hx hy) (beq_fin hx hy)

theorem finite_iff (x : F64) : x.Finite ↔ x ≠ nan ∧ ∀ s, x ≠ inf s := by
  cases x <;> simp

/-- two finite numbers with the same value differ at most in the sign of zero -/
theorem toQ_inj {x y : F64} (hx : x.Finite) (hy : y.Finite) (h : x.toQ = y.toQ) (h0 : x.toQ ≠ 0) : x = y := by
  cases x with
  | fin q hq =>
    cases y with
    | fin r hr => simp only [toQ_fin] at h; subst h; rfl
    | zero t => exact absurd h h0
    | _ => exact hy.elim
  | zero s => exact absurd rfl h0
  | _ => exact hx.elim

/-- the sum of two squares and the like: nonnegative or `+Inf` -/
def NonNeg (x : F64) : Prop := x = inf false ∨ (x.Finite ∧ 0 ≤ x.toQ)

theorem round_nonneg {s : Bool} {x : ℚ} (h : 0 ≤ x) : NonNeg (round s x) := by
  by_cases hr : |rnd x| < 2 ^ 1024
  · obtain ⟨h1, h2⟩ := round_fin (s := s) hr
    exact Or.inr ⟨h1, h2 ▸ rnd_nonneg h⟩
  · left
    rw [round_inf hr]
    simp [h]

theorem NonNeg.add {x y : F64} (hx : NonNeg x) (hy : NonNeg y) : NonNeg (x + y) := by
  show NonNeg (F64.add x y)
  rcases hx with rfl | ⟨hx, h1⟩ <;> rcases hy with rfl | ⟨hy, h2⟩
  · exact Or.inl rfl
  · left; cases y <;> first | exact hy.elim | rfl
  · left; cases x <;> first | exact hx.elim | rfl
  · cases x with
    | zero s =>
      cases y with
      | zero t => exact Or.inr ⟨trivial, le_refl 0⟩
      | fin q hq => exact round_nonneg (add_nonneg h1 h2)
      | _ => exact hy.elim
    | fin q hq =>
      cases y with
      | zero t => exact round_nonneg (add_nonneg h1 h2)
      | fin q hq => exact round_nonneg (add_nonneg h1 h2)
      | _ => exact hy.elim
    | _ => exact hx.elim

theorem NonNeg.sq {x : F64} (hx : x ≠ nan) : NonNeg (x * x) := by
  show NonNeg (F64.mul x x)
  cases x with
  | nan => exact absurd rfl hx
  | inf s => left; cases s <;> rfl
  | zero s => exact round_nonneg (mul_self_nonneg _)
  | fin q h => exact round_nonneg (mul_self_nonneg _)

theorem NonNeg.le {x : F64} (hx : NonNeg x) : (0:F64) ≤ x := by
  rcases hx with rfl | ⟨h1, h2⟩
  · rfl
  · exact (le_fin (x := 0) trivial h1).mpr h2

theorem sub_ne_nan {x y : F64} (hx : x.Finite) (hy : y.Finite) : x - y ≠ nan := by
  have hr : ∀ s (a : ℚ), round s a ≠ nan := by
    intro s a h
    by_cases hr : |rnd a| < 2 ^ 1024
    · have := (round_fin (s := s) hr).1
      rw [h] at this; exact this
    · rw [round_inf hr] at h; cases h
  show F64.add x (F64.neg y) ≠ nan
  cases x with
  | zero s =>
    cases y with
    | zero t => intro h; cases h
    | fin q hq => exact hr _ _
    | _ => exact hy.elim
  | fin q hq =>
    cases y with
    | zero t => exact hr _ _
    | fin q hq => exact hr _ _
    | _ => exact hy.elim
  | _ => exact hx.elim

/-! ## the order, infinities included -/

/-- the value, with infinities replaced by a number beyond all finite ones -/
def toE : F64 → ℚ
  | inf s => if s then -2 ^ 1024 else 2 ^ 1024
  | x => x.toQ

theorem toE_fin {x : F64} (hx : x.Finite) : x.toE = x.toQ := by
  cases x <;> first | exact hx.elim | rfl

theorem toQ_lt (x : F64) : -2 ^ 1024 < x.toQ ∧ x.toQ < 2 ^ 1024 := abs_lt.mp (IsBin64.lt (toQ_bin x))

theorem lt_toE {x y : F64} (hx : x ≠ nan) (hy : y ≠ nan) : x < y ↔ x.toE < y.toE := by
  by_cases fx : x.Finite <;> by_cases fy : y.Finite
  · rw [toE_fin fx, toE_fin fy]; exact lt_fin fx fy
  · rw [toE_fin fx]
    have := toQ_lt x
    cases y with
    | nan => exact absurd rfl hy
    | inf t =>
      show F64.lt x (inf t) = true ↔ _
      cases t
      · simp only [toE]; cases x <;> first | exact fx.elim | simpa [F64.lt] using this.2
      · simp only [toE]; cases x <;> first | exact fx.elim | simpa [F64.lt] using this.1.le
    | _ => exact absurd trivial fy
  · rw [toE_fin fy]
    have := toQ_lt y
    cases x with
    | nan => exact absurd rfl hx
    | inf t =>
      show F64.lt (inf t) y = true ↔ _
      cases t
      · simp only [toE]; cases y <;> first | exact fy.elim | simpa [F64.lt] using this.2.le
      · simp only [toE]; cases y <;> first | exact fy.elim | simpa [F64.lt] using this.1
    | _ => exact absurd trivial fx
  · cases x with
    | nan => exact absurd rfl hx
    | inf s =>
      cases y with
      | nan => exact absurd rfl hy
      | inf t =>
        show F64.lt (inf s) (inf t) = true ↔ _
        cases s <;> cases t <;> simp [F64.lt, toE]
      | _ => exact absurd trivial fy
    | _ => exact absurd trivial fx

theorem beq_toE {x y : F64} (hx : x ≠ nan) (hy : y ≠ nan) : (x == y) = true ↔ x.toE = y.toE := by
  by_cases fx : x.Finite <;> by_cases fy : y.Finite
  · rw [toE_fin fx, toE_fin fy]; exact beq_fin fx fy
  · rw [toE_fin fx]
    have := toQ_lt x
    cases y with
    | nan => exact absurd rfl hy
    | inf t =>
      show F64.beq x (inf t) = true ↔ _
      cases t
      · simp only [toE]; cases x <;> first | exact fx.elim | simpa [F64.beq] using this.2.ne
      · simp only [toE]; cases x <;> first | exact fx.elim | simpa [F64.beq] using this.1.ne'
    | _ => exact absurd trivial fy
  · rw [toE_fin fy]
    have := toQ_lt y
    cases x with
    | nan => exact absurd rfl hx
    | inf t =>
      show F64.beq (inf t) y = true ↔ _
      cases t
      · simp only [toE]; cases y <;> first | exact fy.elim | simpa [F64.beq] using this.2.ne'
      · simp only [toE]; cases y <;> first | exact fy.elim | simpa [F64.beq] using this.1.ne
    | _ => exact absurd trivial fx
  · cases x with
    | nan => exact absurd rfl hx
    | inf s =>
      cases y with
      | nan => exact absurd rfl hy
      | inf t =>
        show F64.beq (inf s) (inf t) = true ↔ _
        have hp : (0:ℚ) < 2 ^ 1024 := by positivity
        cases s <;> cases t <;> simp [F64.beq, toE] <;> generalize (2:ℚ) ^ 1024 = z at hp ⊢ <;> intro h <;> linarith
      | _ => exact absurd trivial fy
    | _ => exact absurd trivial fx

theorem le_toE {x y : F64} (hx : x ≠ nan) (hy : y ≠ nan) : x ≤ y ↔ x.toE ≤ y.toE := by
  show F64.le x y = true ↔ _
  unfold F64.le
  rw [Bool.or_eq_true, le_iff_lt_or_eq]
  exact or_congr (lt_toE hx hy) (beq_toE hx hy)

theorem ne_nan_of_lt {x y : F64} (h : x < y) : x ≠ nan ∧ y ≠ nan := by
  have h : F64.lt x y = true := h
  constructor
  · rintro rfl; cases h
  · rintro rfl; cases x <;> cases h

theorem Finite.ne_nan {x : F64} (h : x.Finite) : x ≠ nan := by rintro rfl; exact h

/-! ## sums that overflow, differences that vanish -/

theorem add_inf_fin {x y : F64} (hx : x.Finite) (hy : y.Finite) (h : ¬ |rnd (x.toQ + y.toQ)| < 2 ^ 1024) :
    x + y = inf (decide (x.toQ + y.toQ < 0)) := by
  show F64.add x y = _
  cases x with
  | zero s =>
    cases y with
    | zero t => exact absurd (by rw [toQ_zero, toQ_zero, add_zero, rnd_zero, abs_zero]; positivity) h
    | fin q hq => exact round_inf h
    | _ => exact hy.elim
  | fin q hq =>
    cases y with
    | zero t => exact round_inf h
    | fin q hq => exact round_inf h
    | _ => exact hy.elim
  | _ => exact hx.elim

theorem rnd_one : rnd (1:ℚ) = 1 := rnd_toQ (1:F64)

theorem rnd_abs_le {x y : ℚ} (hy : rnd y = y) (h : |x| ≤ y) : |rnd x| ≤ y := by
  rw [← rnd_abs]
  exact (rnd_mono h).trans_eq hy

theorem bin_grid {q : ℚ} (h : IsBin64 q) : ∃ n : ℤ, q = n * 2 ^ (-1074 : ℤ) := by
  obtain ⟨m, e, _, h2, _, rfl⟩ := h
  refine ⟨m * 2 ^ (e - -1074).toNat, ?_⟩
  rw [zpow_grid (K := ℚ) h2]; push_cast; ring

/-- gradual underflow: the difference of two different numbers does not round to zero -/
theorem rnd_sub_eq_zero {x y : F64} (h : rnd (x.toQ - y.toQ) = 0) : x.toQ = y.toQ := by
  obtain ⟨n, hn⟩ := bin_grid (toQ_bin x)
  obtain ⟨k, hk⟩ := bin_grid (toQ_bin y)
  by_contra hc
  have hnk : n - k ≠ 0 := by
    intro h0
    exact hc (by rw [hn, hk, show n = k by omega])
  have h1 : (1:ℚ) ≤ |((n - k : ℤ) : ℚ)| := by exact_mod_cast Int.one_le_abs hnk
  have hp := two_zpow_pos (K := ℚ) (-1074)
  have e : |x.toQ - y.toQ| = |((n - k : ℤ) : ℚ)| * 2 ^ (-1074 : ℤ) := by
    rw [hn, hk, ← sub_mul, abs_mul, abs_of_pos hp]; push_cast; rfl
  have h2 : (2:ℚ) ^ (-1074 : ℤ) ≤ |x.toQ - y.toQ| := by
    rw [e]; nlinarith
  have h3 := rnd_mono h2
  rw [rnd_abs, h, abs_zero] at h3
  have h4 : rnd ((2:ℚ) ^ (-1074 : ℤ)) = 2 ^ (-1074 : ℤ) := by
    have := rnd_id (K := ℚ) (q := 2 ^ (-1074 : ℤ)) ⟨1, -1074, by norm_num, le_refl _, by simp⟩
    simpa using this
  rw [h4] at h3
  linarith

end Verif.F64
