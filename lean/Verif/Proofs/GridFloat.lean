import Verif.Props.UtilFloat
import Verif.Props.InSphereFloat
import Verif.Proofs.Exact
/-!
# Exact computations at binary64: small integers
-/
namespace Verif.Proofs
open Verif Verif.F64 Verif.Tri2 Verif.Props

/-- `x` is the float of the integer `n`, which is at most `b` in size -/
structure Ex (x : F64) (n : ℤ) (b : ℕ) : Prop where
  fin : x.Finite
  val : x.toQ = n
  le : |n| ≤ b

theorem rnd_int {n : ℤ} (h : |n| < 2 ^ 53) : rnd ((n : ℤ) : ℚ) = n := by
  have := rnd_id (K := ℚ) (q := n) ⟨n, 0, h, by norm_num, by simp⟩
  simpa using this

theorem lt_big {n : ℤ} (h : |n| < 2 ^ 53) : |(n : ℚ)| < 2 ^ 1024 := by
  have : |(n:ℚ)| < 2 ^ 53 := by exact_mod_cast h
  exact this.trans (pow_lt_pow_right₀ (by norm_num) (by norm_num))

theorem Ex.add {x y : F64} {n m : ℤ} {b c : ℕ} (hx : Ex x n b) (hy : Ex y m c) (h : b + c < 2 ^ 53) : Ex (x + y) (n + m) (b + c) := by
  have hle : |n + m| ≤ ((b + c : ℕ) : ℤ) := by push_cast; exact (abs_add_le n m).trans (add_le_add hx.le hy.le)
  have hlt : |n + m| < 2 ^ 53 := hle.trans_lt (by exact_mod_cast h)
  have e : rnd (x.toQ + y.toQ) = ((n + m : ℤ) : ℚ) := by rw [hx.val, hy.val, ← Int.cast_add, rnd_int hlt]
  obtain ⟨f, v⟩ := add_fin hx.fin hy.fin (by rw [e]; exact lt_big hlt)
  exact ⟨f, by rw [v, e], hle⟩

theorem Ex.sub {x y : F64} {n m : ℤ} {b c : ℕ} (hx : Ex x n b) (hy : Ex y m c) (h : b + c < 2 ^ 53) : Ex (x - y) (n - m) (b + c) := by
  have hle : |n - m| ≤ ((b + c : ℕ) : ℤ) := by push_cast; exact (abs_sub n m).trans (add_le_add hx.le hy.le)
  have hlt : |n - m| < 2 ^ 53 := hle.trans_lt (by exact_mod_cast h)
  have e : rnd (x.toQ - y.toQ) = ((n - m : ℤ) : ℚ) := by rw [hx.val, hy.val, ← Int.cast_sub, rnd_int hlt]
  obtain ⟨f, v⟩ := sub_fin hx.fin hy.fin (by rw [e]; exact lt_big hlt)
  exact ⟨f, by rw [v, e], hle⟩

theorem Ex.mul {x y : F64} {n m : ℤ} {b c : ℕ} (hx : Ex x n b) (hy : Ex y m c) (h : b * c < 2 ^ 53) : Ex (x * y) (n * m) (b * c) := by
  have hle : |n * m| ≤ ((b * c : ℕ) : ℤ) := by push_cast; rw [abs_mul]; exact mul_le_mul hx.le hy.le (abs_nonneg _) (by positivity)
  have hlt : |n * m| < 2 ^ 53 := hle.trans_lt (by exact_mod_cast h)
  have e : rnd (x.toQ * y.toQ) = ((n * m : ℤ) : ℚ) := by rw [hx.val, hy.val, ← Int.cast_mul, rnd_int hlt]
  obtain ⟨f, v⟩ := mul_fin hx.fin hy.fin (by rw [e]; exact lt_big hlt)
  exact ⟨f, by rw [v, e], hle⟩

theorem Ex.zero : Ex (0 : F64) 0 0 := ⟨trivial, by simp [show (0:F64) = F64.zero false from rfl], by simp⟩

/-- the point `v` has the integer coordinates `a`, of size at most 64, and `Z = 0` -/
structure GPt (v : R3.Vector F64) (a : R3.Vector ℤ) : Prop where
  x : Ex v.X a.X 64
  y : Ex v.Y a.Y 64
  z : Ex v.Z a.Z 0

/-- rational coordinates -/
def castQ (a : R3.Vector ℤ) : R3.Vector ℚ := ⟨a.X, a.Y, a.Z⟩

theorem GPt.z0 {v : R3.Vector F64} {a : R3.Vector ℤ} (h : GPt v a) : a.Z = 0 := by
  have := h.z.le
  simpa using this

theorem GPt.exact {v : R3.Vector F64} {a : R3.Vector ℤ} (h : GPt v a) : exactV v = castQ a := by
  unfold exactV castQ
  rw [h.x.val, h.y.val, h.z.val]

section
variable {u v w p : R3.Vector F64} {a b c d : R3.Vector ℤ}

theorem GPt.dx (hu : GPt u a) (hv : GPt v b) : Ex (u.X - v.X) (a.X - b.X) 128 := hu.x.sub hv.x (by norm_num)
theorem GPt.dy (hu : GPt u a) (hv : GPt v b) : Ex (u.Y - v.Y) (a.Y - b.Y) 128 := hu.y.sub hv.y (by norm_num)

theorem GPt.area (hu : GPt u a) (hv : GPt v b) (hw : GPt w c) : Ex (area u v w) (area a b c) 32768 :=
  ((hv.dy hu).mul (hw.dx hv) (by norm_num)).sub ((hv.dx hu).mul (hw.dy hv) (by norm_num)) (by norm_num)

theorem GPt.det (hu : GPt u a) (hv : GPt v b) (hw : GPt w c) (hp : GPt p d) : Ex (inCircleDet u v w p) (inCircleDet a b c d) 3221225472 := by
  have dx := hu.dx hp
  have dy := hu.dy hp
  have ex := hv.dx hp
  have ey := hv.dy hp
  have fx := hw.dx hp
  have fy := hw.dy hp
  have ap := (dx.mul dx (by norm_num)).add (dy.mul dy (by norm_num)) (by norm_num)
  have bp := (ex.mul ex (by norm_num)).add (ey.mul ey (by norm_num)) (by norm_num)
  have cp := (fx.mul fx (by norm_num)).add (fy.mul fy (by norm_num)) (by norm_num)
  exact (((dx.mul ((ey.mul cp (by norm_num)).sub (bp.mul fy (by norm_num)) (by norm_num)) (by norm_num)).sub
    (dy.mul ((ex.mul cp (by norm_num)).sub (bp.mul fx (by norm_num)) (by norm_num)) (by norm_num)) (by norm_num)).add
    (ap.mul ((ex.mul fy (by norm_num)).sub (ey.mul fx (by norm_num)) (by norm_num)) (by norm_num)) (by norm_num))

theorem GPt.sq (hu : GPt u a) (hv : GPt v b) : Ex (R3.SquaredDistance u v) (R3.SquaredDistance a b) 32768 := by
  have dx := hu.dx hv
  have dy := hu.dy hv
  have dz : Ex (u.Z - v.Z) (a.Z - b.Z) 0 := hu.z.sub hv.z (by norm_num)
  exact ((dx.mul dx (by norm_num)).add (dy.mul dy (by norm_num)) (by norm_num)).add (dz.mul dz (by norm_num)) (by norm_num)

end

theorem castQ_area (a b c : R3.Vector ℤ) : area (castQ a) (castQ b) (castQ c) = ((area a b c : ℤ) : ℚ) := by
  simp only [area, castQ]; push_cast; ring
theorem castQ_det (a b c d : R3.Vector ℤ) : inCircleDet (castQ a) (castQ b) (castQ c) (castQ d) = ((inCircleDet a b c d : ℤ) : ℚ) := by
  simp only [inCircleDet, castQ]; push_cast; ring
theorem castQ_sq (a b : R3.Vector ℤ) : R3.SquaredDistance (castQ a) (castQ b) = ((R3.SquaredDistance a b : ℤ) : ℚ) := by
  simp only [R3.SquaredDistance, R3.Vector.Norm2, R3.Dot, R3.Sub, castQ]; push_cast; ring

/-- every point has integer coordinates of size at most 64 and `Z = 0` -/
def Grid (Vs : List (R3.Vector F64)) : Prop := ∀ v ∈ Vs, ∃ a, GPt v a

/-! ## Rounding errors -/

theorem rnd_small {x : ℚ} (h : |x| ≤ 2 ^ 200) : |rnd x| < 2 ^ 1024 := by
  have hb : rnd ((2:ℚ) ^ 200) = 2 ^ 200 := by
    have := rnd_id (K := ℚ) (q := 2 ^ 200) ⟨1, 200, by norm_num, by norm_num, by rw [Int.cast_one, one_mul]; exact (zpow_natCast 2 200).symm⟩
    simpa using this
  exact (rnd_abs_le hb h).trans_lt (pow_lt_pow_right₀ (by norm_num) (by norm_num))

/-- the rounding error, including the range below the smallest normal number -/
theorem rnd_abs_err (x : ℚ) : |rnd x - x| ≤ uro * |x| + 1 / 2 ^ 1000 := by
  by_cases h : (2:ℚ) ^ (-1022 : ℤ) ≤ |x|
  · have := rnd_uro (x := x) (z := -1022) (by norm_num) (fun _ => h)
    exact this.trans (le_add_of_nonneg_right (div_pos one_pos (pow_pos two_pos _)).le)
  · rw [not_le] at h
    rcases eq_or_ne x 0 with rfl | h0
    · rw [show rnd (0:ℚ) = 0 by simp [rnd, roundEven]]
      rw [sub_zero, abs_zero, mul_zero, zero_add]
      positivity
    have e : expo x = -1074 := by
      unfold expo
      apply max_eq_right
      have : Int.log 2 |x| < -1022 := by
        rw [← Int.lt_zpow_iff_log_lt (by norm_num) (abs_pos.mpr h0)]
        exact_mod_cast h
      omega
    have := rnd_err (K := ℚ) x
    rw [e, Rat.cast_id] at this
    refine this.trans ?_
    have h1 : (2:ℚ) ^ (-1074 : ℤ) / 2 ≤ 1 / 2 ^ 1000 := by
      rw [show (1:ℚ) / 2 ^ 1000 = 2 ^ (-1000 : ℤ) by rw [zpow_neg, one_div]; exact congrArg _ (zpow_natCast 2 1000).symm]
      have h3 : (2:ℚ) ^ (-1074 : ℤ) ≤ 2 ^ (-1000 : ℤ) := zpow_le_zpow_right₀ (by norm_num) (by norm_num)
      have h4 : (0:ℚ) < 2 ^ (-1074 : ℤ) := by positivity
      linarith
    have h2 : 0 ≤ uro * |x| := mul_nonneg uro_pos.le (abs_nonneg _)
    linarith

/-- `v` approximates `X` with relative error `(1 + u)^k - 1` -/
structure Rel (v : F64) (X : ℚ) (k : ℕ) : Prop where
  fin : v.Finite
  err : |v.toQ - X| ≤ ((1 + uro) ^ k - 1) * |X|

theorem pow_le_uro {k : ℕ} (hk : k ≤ 10) : (1 + uro) ^ k - 1 ≤ 1 / 2 := by
  have h1 : (1 + uro) ^ k ≤ (1 + uro) ^ 10 := pow_le_pow_right₀ (by linarith [uro_pos]) hk
  have h2 : (1 + uro) ^ 10 ≤ 1 + 1/2 := by unfold uro; norm_num
  linarith

/-- a sensible size: zero or between `2^-e` and `2^e` -/
def Siz (e : ℕ) (X : ℚ) : Prop := (X ≠ 0 → 1 / 2 ^ e ≤ |X|) ∧ |X| ≤ 2 ^ e

/-- the range used for rounding -/
def Mod (X : ℚ) : Prop := (X ≠ 0 → 1 / 2 ^ 100 ≤ |X|) ∧ |X| ≤ 2 ^ 100

theorem Siz.mod {e : ℕ} {X : ℚ} (h : Siz e X) (he : e ≤ 100) : Mod X :=
  ⟨fun h0 => (one_div_le_one_div_of_le (by positivity) (pow_le_pow_right₀ (by norm_num) he)).trans (h.1 h0), h.2.trans (pow_le_pow_right₀ (by norm_num) he)⟩

theorem Siz.mul {e f : ℕ} {X Y : ℚ} (hX : Siz e X) (hY : Siz f Y) : Siz (e + f) (X * Y) := by
  refine ⟨fun h0 => ?_, ?_⟩
  · have h1 := hX.1 (left_ne_zero_of_mul h0)
    have h2 := hY.1 (right_ne_zero_of_mul h0)
    rw [abs_mul, pow_add, show (1:ℚ) / (2 ^ e * 2 ^ f) = 1 / 2 ^ e * (1 / 2 ^ f) by field_simp]
    exact mul_le_mul h1 h2 (by positivity) (abs_nonneg _)
  · rw [abs_mul, pow_add]
    exact mul_le_mul hX.2 hY.2 (abs_nonneg _) (by positivity)

theorem Siz.add_pos {e : ℕ} {X Y : ℚ} (hX : Siz e X) (hY : Siz e Y) (pX : 0 ≤ X) (pY : 0 ≤ Y) : Siz (e + 1) (X + Y) := by
  have a1 := hX.2
  have a2 := hY.2
  rw [abs_of_nonneg pX] at a1
  rw [abs_of_nonneg pY] at a2
  refine ⟨fun h0 => ?_, ?_⟩
  · have hh : (1:ℚ) / 2 ^ (e+1) ≤ 1 / 2 ^ e := one_div_le_one_div_of_le (by positivity) (pow_le_pow_right₀ (by norm_num) (by omega))
    rw [abs_of_nonneg (add_nonneg pX pY)]
    by_cases hx : X = 0
    · have hy : Y ≠ 0 := by rintro rfl; exact h0 (by rw [hx, add_zero])
      have := hY.1 hy
      rw [abs_of_nonneg pY] at this; linarith
    · have := hX.1 hx
      rw [abs_of_nonneg pX] at this; linarith
  · rw [abs_of_nonneg (add_nonneg pX pY), pow_succ]; linarith

theorem Rel.size {v : F64} {X : ℚ} {k : ℕ} (h : Rel v X k) (hk : k ≤ 10) : |X| / 2 ≤ |v.toQ| ∧ |v.toQ| ≤ 2 * |X| := by
  have h1 := h.err
  have h2 := mul_le_mul_of_nonneg_right (pow_le_uro hk) (abs_nonneg X)
  have h3 := abs_sub_abs_le_abs_sub X v.toQ
  have h4 := abs_sub_abs_le_abs_sub v.toQ X
  rw [abs_sub_comm X] at h3
  have h5 := abs_nonneg X
  constructor <;> linarith

theorem rel_round {w X : ℚ} {k : ℕ} (hk : k ≤ 9) (hX : Mod X) (h : |w - X| ≤ ((1 + uro) ^ k - 1) * |X|) :
    |rnd w| < 2 ^ 1024 ∧ |rnd w - X| ≤ ((1 + uro) ^ (k+1) - 1) * |X| := by
  have h2 := mul_le_mul_of_nonneg_right (pow_le_uro (k := k) (by omega)) (abs_nonneg X)
  have h3 := abs_sub_abs_le_abs_sub X w
  have h4 := abs_sub_abs_le_abs_sub w X
  rw [abs_sub_comm X] at h3
  have h5 := abs_nonneg X
  have hw1 : |X| / 2 ≤ |w| := by linarith
  have hw2 : |w| ≤ 2 * |X| := by linarith
  refine ⟨rnd_small (hw2.trans ?_), ?_⟩
  · have := hX.2
    have h6 : (2:ℚ) * 2 ^ 100 ≤ 2 ^ 200 := by norm_num
    linarith
  · have hr : |rnd w - w| ≤ uro * |w| := by
      refine rnd_uro (z := -101) (by norm_num) ?_
      intro h0
      have hX0 : X ≠ 0 := by
        rintro rfl
        apply h0
        rw [abs_zero, mul_zero] at hw2
        exact abs_nonpos_iff.mp hw2
      have := hX.1 hX0
      have e : (2:ℚ) ^ (-101 : ℤ) = 1 / 2 ^ 100 / 2 := by norm_num
      rw [e]; linarith
    have := err_round h le_rfl hr
    rw [pow_succ]
    convert this using 2
    ring

theorem Rel.mul {v w : F64} {X Y : ℚ} {k l : ℕ} (hv : Rel v X k) (hw : Rel w Y l) (hk : k + l ≤ 9) (h : Mod (X * Y)) : Rel (v * w) (X * Y) (k + l + 1) := by
  have h1 : |v.toQ * w.toQ - X * Y| ≤ ((1 + uro) ^ (k + l) - 1) * |X * Y| := by
    have e : v.toQ * w.toQ - X * Y = (v.toQ - X) * (w.toQ - Y) + (v.toQ - X) * Y + X * (w.toQ - Y) := by ring
    have a1 := hv.err
    have a2 := hw.err
    have p1 : 0 ≤ (1 + uro) ^ k - 1 := by linarith [one_le_powu k]
    have p2 : 0 ≤ (1 + uro) ^ l - 1 := by linarith [one_le_powu l]
    have b1 : |(v.toQ - X) * (w.toQ - Y)| ≤ (((1 + uro) ^ k - 1) * |X|) * (((1 + uro) ^ l - 1) * |Y|) := by
      rw [abs_mul]; exact mul_le_mul a1 a2 (abs_nonneg _) (mul_nonneg p1 (abs_nonneg _))
    have b2 : |(v.toQ - X) * Y| ≤ (((1 + uro) ^ k - 1) * |X|) * |Y| := by
      rw [abs_mul]; exact mul_le_mul_of_nonneg_right a1 (abs_nonneg _)
    have b3 : |X * (w.toQ - Y)| ≤ |X| * (((1 + uro) ^ l - 1) * |Y|) := by
      rw [abs_mul]; exact mul_le_mul_of_nonneg_left a2 (abs_nonneg _)
    rw [e]
    refine (abs_add_three _ _ _).trans ((add_le_add (add_le_add b1 b2) b3).trans (le_of_eq ?_))
    rw [pow_add, abs_mul]; ring
  obtain ⟨r1, r2⟩ := rel_round hk h h1
  obtain ⟨f, e⟩ := mul_fin hv.fin hw.fin r1
  exact ⟨f, by rw [e]; exact r2⟩

theorem Rel.add_pos {v w : F64} {X Y : ℚ} {k : ℕ} (hv : Rel v X k) (hw : Rel w Y k) (hX : 0 ≤ X) (hY : 0 ≤ Y) (hk : k ≤ 9) (h : Mod (X + Y)) : Rel (v + w) (X + Y) (k + 1) := by
  have h1 : |v.toQ + w.toQ - (X + Y)| ≤ ((1 + uro) ^ k - 1) * |X + Y| := by
    have a1 := hv.err
    have a2 := hw.err
    rw [show v.toQ + w.toQ - (X + Y) = (v.toQ - X) + (w.toQ - Y) by ring]
    refine (abs_add_le _ _).trans ((add_le_add a1 a2).trans (le_of_eq ?_))
    rw [abs_of_nonneg hX, abs_of_nonneg hY, abs_of_nonneg (add_nonneg hX hY)]; ring
  obtain ⟨r1, r2⟩ := rel_round hk h h1
  obtain ⟨f, e⟩ := add_fin hv.fin hw.fin r1
  exact ⟨f, by rw [e]; exact r2⟩

theorem half_float : (GoConst.const (1/2) : F64).Finite ∧ (GoConst.const (1/2) : F64).toQ = 1/2 := by
  have hr : rnd ((1/2 : ℚ)) = 1/2 := by
    have := rnd_id (K := ℚ) (q := 1/2) ⟨1, -1, by norm_num, by norm_num, by norm_num⟩
    simpa using this
  have := round_fin (s := false) (x := (1/2:ℚ)) (by
    rw [hr, abs_of_pos (by norm_num)]
    exact (show (1/2:ℚ) < 1 by norm_num).trans (one_lt_pow₀ (by norm_num) (by norm_num)))
  rw [hr] at this
  exact this

theorem quot_siz {n m : ℤ} (hm : m ≠ 0) (hn : |n| ≤ 2 ^ 23) (hmm : |m| ≤ 2 ^ 15) : Siz 22 ((n:ℚ) * (1/2) / m) := by
  have hnq : |(n:ℚ)| ≤ 2 ^ 23 := by exact_mod_cast hn
  have hmq : |(m:ℚ)| ≤ 2 ^ 15 := by exact_mod_cast hmm
  have hm1 : (1:ℚ) ≤ |(m:ℚ)| := by exact_mod_cast Int.one_le_abs hm
  refine ⟨fun h0 => ?_, ?_⟩
  · have hn0 : n ≠ 0 := by rintro rfl; simp at h0
    have hn1 : (1:ℚ) ≤ |(n:ℚ)| := by exact_mod_cast Int.one_le_abs hn0
    rw [abs_div, abs_mul, abs_of_pos (show (0:ℚ) < 1/2 by norm_num), le_div_iff₀ (by linarith)]
    have : 1 / 2 ^ 22 * |(m:ℚ)| ≤ 1 / 2 ^ 22 * 2 ^ 15 := mul_le_mul_of_nonneg_left hmq (by positivity)
    have h3 : (1:ℚ) / 2 ^ 22 * 2 ^ 15 ≤ 1 * (1/2) := by norm_num
    linarith
  · rw [abs_div, abs_mul, abs_of_pos (show (0:ℚ) < 1/2 by norm_num), div_le_iff₀ (by linarith)]
    have h4 : (2:ℚ) ^ 22 * 1 ≤ 2 ^ 22 * |(m:ℚ)| := mul_le_mul_of_nonneg_left hm1 (by positivity)
    linarith

/-- the coordinates of the circumcentre relative to the first corner -/
theorem quot_rel {x y : F64} {n m : ℤ} {b c : ℕ} (hx : Ex x n b) (hy : Ex y m c) (hm : m ≠ 0) (hb : b ≤ 2 ^ 23) (hc : c ≤ 2 ^ 15) :
    Rel (x * GoConst.const (1/2) / y) ((n:ℚ) * (1/2) / m) 1 ∧ Siz 22 ((n:ℚ) * (1/2) / m) := by
  obtain ⟨h1, h2⟩ := half_float
  have hn : |n| ≤ 2 ^ 23 := hx.le.trans (by exact_mod_cast hb)
  have hmm : |m| ≤ 2 ^ 15 := hy.le.trans (by exact_mod_cast hc)
  have hnq : |(n:ℚ)| ≤ 2 ^ 23 := by exact_mod_cast hn
  have hm0 : (m:ℚ) ≠ 0 := by exact_mod_cast hm
  have e : rnd (x.toQ * (GoConst.const (1/2) : F64).toQ) = n * (1/2) := by
    rw [hx.val, h2]
    have := rnd_id (K := ℚ) (q := n * (1/2)) ⟨n, -1, by omega, by norm_num, by norm_num⟩
    simpa using this
  obtain ⟨f, v⟩ := mul_fin hx.fin h1 (by
    rw [e, abs_mul]
    have : |(n:ℚ)| * |(1/2:ℚ)| ≤ 2 ^ 53 := by
      rw [abs_of_pos (show (0:ℚ) < 1/2 by norm_num)]; linarith
    exact this.trans_lt (pow_lt_pow_right₀ (by norm_num) (by norm_num)))
  rw [e] at v
  have hs := quot_siz hm hn hmm
  obtain ⟨r1, r2⟩ := rel_round (k := 0) (w := (n:ℚ) * (1/2) / m) (by norm_num) (hs.mod (by norm_num)) (by simp)
  obtain ⟨f', v'⟩ := div_fin f hy.fin (by rw [hy.val]; exact hm0) (by rw [v, hy.val]; exact r1)
  exact ⟨⟨f', by rw [v', v, hy.val]; exact r2⟩, hs⟩

section
variable {u v w : R3.Vector F64} {a b c : R3.Vector ℤ}

/-- twice the coordinates of the circumcentre, relative to `a`, times `dZ` -/
def nxZ (a b c : R3.Vector ℤ) : ℤ :=
  (c.Y - a.Y) * ((b.X - a.X) * (b.X - a.X) + (b.Y - a.Y) * (b.Y - a.Y)) - (b.Y - a.Y) * ((c.X - a.X) * (c.X - a.X) + (c.Y - a.Y) * (c.Y - a.Y))
def nyZ (a b c : R3.Vector ℤ) : ℤ :=
  (b.X - a.X) * ((c.X - a.X) * (c.X - a.X) + (c.Y - a.Y) * (c.Y - a.Y)) - (c.X - a.X) * ((b.X - a.X) * (b.X - a.X) + (b.Y - a.Y) * (b.Y - a.Y))
def dZ (a b c : R3.Vector ℤ) : ℤ := (b.X - a.X) * (c.Y - a.Y) - (b.Y - a.Y) * (c.X - a.X)
def lZ (a b : R3.Vector ℤ) : ℤ := (b.X - a.X) * (b.X - a.X) + (b.Y - a.Y) * (b.Y - a.Y)

theorem dOf_castQ : dOf (castQ a) (castQ b) (castQ c) = dZ a b c := by
  simp only [dOf, castQ, dZ]; push_cast; ring

theorem GPt.len (h0 : GPt u a) (h1 : GPt v b) :
    Ex ((v.X - u.X) * (v.X - u.X) + (v.Y - u.Y) * (v.Y - u.Y)) (lZ a b) 32768 :=
  ((h1.dx h0).mul (h1.dx h0) (by norm_num)).add ((h1.dy h0).mul (h1.dy h0) (by norm_num)) (by norm_num)

theorem GPt.dd (h0 : GPt u a) (h1 : GPt v b) (h2 : GPt w c) :
    Ex ((v.X - u.X) * (w.Y - u.Y) - (v.Y - u.Y) * (w.X - u.X)) (dZ a b c) 32768 :=
  ((h1.dx h0).mul (h2.dy h0) (by norm_num)).sub ((h1.dy h0).mul (h2.dx h0) (by norm_num)) (by norm_num)

theorem GPt.nx (h0 : GPt u a) (h1 : GPt v b) (h2 : GPt w c) :
    Ex ((w.Y - u.Y) * ((v.X - u.X) * (v.X - u.X) + (v.Y - u.Y) * (v.Y - u.Y)) - (v.Y - u.Y) * ((w.X - u.X) * (w.X - u.X) + (w.Y - u.Y) * (w.Y - u.Y)))
      (nxZ a b c) 8388608 :=
  ((h2.dy h0).mul (h0.len h1) (by norm_num)).sub ((h1.dy h0).mul (h0.len h2) (by norm_num)) (by norm_num)

theorem GPt.ny (h0 : GPt u a) (h1 : GPt v b) (h2 : GPt w c) :
    Ex ((v.X - u.X) * ((w.X - u.X) * (w.X - u.X) + (w.Y - u.Y) * (w.Y - u.Y)) - (w.X - u.X) * ((v.X - u.X) * (v.X - u.X) + (v.Y - u.Y) * (v.Y - u.Y)))
      (nyZ a b c) 8388608 :=
  ((h1.dx h0).mul (h0.len h2) (by norm_num)).sub ((h2.dx h0).mul (h0.len h1) (by norm_num)) (by norm_num)

theorem GPt.quots (h0 : GPt u a) (h1 : GPt v b) (h2 : GPt w c) (hd : dZ a b c ≠ 0) :
    (Rel (((w.Y - u.Y) * ((v.X - u.X) * (v.X - u.X) + (v.Y - u.Y) * (v.Y - u.Y)) - (v.Y - u.Y) * ((w.X - u.X) * (w.X - u.X) + (w.Y - u.Y) * (w.Y - u.Y)))
      * GoConst.const (1/2) / ((v.X - u.X) * (w.Y - u.Y) - (v.Y - u.Y) * (w.X - u.X))) ((nxZ a b c : ℚ) * (1/2) / dZ a b c) 1 ∧
      Siz 22 ((nxZ a b c : ℚ) * (1/2) / dZ a b c)) ∧
    (Rel (((v.X - u.X) * ((w.X - u.X) * (w.X - u.X) + (w.Y - u.Y) * (w.Y - u.Y)) - (w.X - u.X) * ((v.X - u.X) * (v.X - u.X) + (v.Y - u.Y) * (v.Y - u.Y)))
      * GoConst.const (1/2) / ((v.X - u.X) * (w.Y - u.Y) - (v.Y - u.Y) * (w.X - u.X))) ((nyZ a b c : ℚ) * (1/2) / dZ a b c) 1 ∧
      Siz 22 ((nyZ a b c : ℚ) * (1/2) / dZ a b c)) :=
  ⟨quot_rel (h0.nx h1 h2) (h0.dd h1 h2) hd (by norm_num) (by norm_num), quot_rel (h0.ny h1 h2) (h0.dd h1 h2) hd (by norm_num) (by norm_num)⟩

/-- the squared circumradius at binary64 -/
theorem GPt.radius (h0 : GPt u a) (h1 : GPt v b) (h2 : GPt w c) (hp : 0 < dist2 (castQ b) (castQ a)) :
    (dOf (castQ a) (castQ b) (castQ c) = 0 → circumradius u v w = none) ∧
    (dOf (castQ a) (castQ b) (castQ c) ≠ 0 → ∃ r, circumradius u v w = some r ∧
      Rel r (dist2 (castQ b) (castQ a) / 4 * (1 + (fOf (castQ a) (castQ b) (castQ c) / dOf (castQ a) (castQ b) (castQ c))^2)) 4) := by
  constructor
  · intro h
    rw [dOf_castQ] at h
    have hd := h0.dd h1 h2
    simp only [circumradius]
    rw [if_pos]
    simp only [Bool.or_eq_true]
    left; right
    rw [beq_fin hd.fin Ex.zero.fin, hd.val, h, Ex.zero.val]; simp
  · intro h
    have hs := (circumradius_spec (v := castQ c) hp).2 h
    have hZ : dZ a b c ≠ 0 := by
      rw [dOf_castQ] at h; exact_mod_cast h
    obtain ⟨⟨rx, sx⟩, ry, sy⟩ := h0.quots h1 h2 hZ
    have hr := ((rx.mul rx (by norm_num) ((sx.mul sx).mod (by norm_num))).add_pos (ry.mul ry (by norm_num) ((sy.mul sy).mod (by norm_num)))
      (mul_self_nonneg _) (mul_self_nonneg _) (by norm_num) (((sx.mul sx).add_pos (sy.mul sy) (mul_self_nonneg _) (mul_self_nonneg _)).mod (by norm_num)))
    set R : ℚ := dist2 (castQ b) (castQ a) / 4 * (1 + (fOf (castQ a) (castQ b) (castQ c) / dOf (castQ a) (castQ b) (castQ c))^2) with hR
    have hRpos : 0 < R := by positivity
    have eR : R = (nxZ a b c : ℚ) * (1/2) / dZ a b c * ((nxZ a b c : ℚ) * (1/2) / dZ a b c) + (nyZ a b c : ℚ) * (1/2) / dZ a b c * ((nyZ a b c : ℚ) * (1/2) / dZ a b c) := by
      have := radius_aux (b.X - a.X : ℚ) (b.Y - a.Y) (c.X - a.X) (c.Y - a.Y) (by
        have : (dZ a b c : ℚ) ≠ 0 := by exact_mod_cast hZ
        simpa [dZ] using this)
      have e1 : ((nxZ a b c : ℤ) : ℚ) = ((c.Y - a.Y : ℚ))*((b.X - a.X)*(b.X - a.X)+(b.Y - a.Y)*(b.Y - a.Y)) - (b.Y - a.Y)*((c.X - a.X)*(c.X - a.X)+(c.Y - a.Y)*(c.Y - a.Y)) := by
        simp [nxZ]
      have e2 : ((nyZ a b c : ℤ) : ℚ) = ((b.X - a.X : ℚ))*((c.X - a.X)*(c.X - a.X)+(c.Y - a.Y)*(c.Y - a.Y)) - (c.X - a.X)*((b.X - a.X)*(b.X - a.X)+(b.Y - a.Y)*(b.Y - a.Y)) := by
        simp [nyZ]
      have e3 : ((dZ a b c : ℤ) : ℚ) = (b.X - a.X : ℚ)*(c.Y - a.Y) - (b.Y - a.Y)*(c.X - a.X) := by
        simp [dZ]
      rw [Rat.cast_id, ← e1, ← e2, ← e3] at this
      rw [this, hR]
      have e4 : dist2 (castQ b) (castQ a) = (b.X - a.X : ℚ)*(b.X - a.X)+(b.Y - a.Y)*(b.Y - a.Y) := by simp only [dist2, castQ]; ring
      have e5 : fOf (castQ a) (castQ b) (castQ c) = ((c.X - a.X)*((c.X - a.X) - (b.X - a.X)) + (c.Y - a.Y)*((c.Y - a.Y) - (b.Y - a.Y)) : ℚ) := by simp only [fOf, castQ]; ring
      rw [e4, e5, dOf_castQ]
    rw [← eR] at hr
    refine ⟨_, ?_, hr⟩
    have hl : (0:ℚ) < lZ a b := by
      have : dist2 (castQ b) (castQ a) = lZ a b := by simp only [dist2, castQ, lZ]; push_cast; ring
      rw [← this]; exact hp
    have hlc : lZ a c ≠ 0 := by
      intro e
      apply hZ
      have h1 : (c.X - a.X) = 0 ∧ (c.Y - a.Y) = 0 := by
        unfold lZ at e
        constructor <;> nlinarith [mul_self_nonneg (c.X - a.X), mul_self_nonneg (c.Y - a.Y)]
      unfold dZ; rw [h1.1, h1.2]; ring
    have hr0 := (hr.size (by norm_num)).1
    simp only [circumradius]
    rw [if_neg]
    simp only [Bool.or_eq_true, not_or]
    have hd := h0.dd h1 h2
    have hb := h0.len h1
    have hc := h0.len h2
    refine ⟨⟨⟨?_, ?_⟩, ?_⟩, ?_⟩
    · rw [beq_fin hb.fin Ex.zero.fin, hb.val, Ex.zero.val]; simpa using (by exact_mod_cast hl.ne' : lZ a b ≠ 0)
    · rw [beq_fin hc.fin Ex.zero.fin, hc.val, Ex.zero.val]; simpa using hlc
    · rw [beq_fin hd.fin Ex.zero.fin, hd.val, Ex.zero.val]; simpa using hZ
    · rw [beq_fin hr.fin Ex.zero.fin, Ex.zero.val]
      simp only [Int.cast_zero]
      intro e
      rw [e, abs_zero, abs_of_pos hRpos] at hr0
      linarith

end

end Verif.Proofs
