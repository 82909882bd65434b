import Verif.Proofs.F64
import Verif.Model.R3
/-!
# The vector package at binary64: C01–C04, C07
-/
namespace Verif.Props
open Verif Verif.F64

/-- equal, or both a zero (of any sign) -/
def EqZ (x y : F64) : Prop := x = y ∨ (∃ s t, x = zero s ∧ y = zero t)

/-- C01: addition commutes bit by bit -/
theorem C01_add_comm_float (a b : R3.Vector F64) : R3.Add a b = R3.Add b a := by
  simp only [R3.Add, add_comm' a.X, add_comm' a.Y, add_comm' a.Z]

/-- C01: the dot product commutes bit by bit -/
theorem C01_dot_comm_float (a b : R3.Vector F64) : R3.Dot a b = R3.Dot b a := by
  simp only [R3.Dot, mul_comm' a.X, mul_comm' a.Y, mul_comm' a.Z]

theorem round_eqZ (s t : Bool) (x : ℚ) : EqZ (F64.round s x) (F64.round t x) := by
  unfold F64.round
  split_ifs with h h0
  · exact Or.inr ⟨s, t, rfl, rfl⟩
  · exact Or.inl rfl
  · exact Or.inl rfl

attribute [local irreducible] rnd F64.round

/-- the difference in the other order is the negative, up to the sign of zero -/
theorem sub_anti (x y : F64) : EqZ (x - y) (-(y - x)) := by
  show EqZ (F64.add x (F64.neg y)) (F64.neg (F64.add y (F64.neg x)))
  have hr : ∀ a b : ℚ, EqZ (F64.round false (a + -b)) (F64.neg (F64.round false (b + -a))) := by
    intro a b
    rw [← round_neg, show -(b + -a) = a + -b by ring]
    exact round_eqZ _ _ _
  have hr0 : ∀ b : ℚ, EqZ (F64.round false (0 + -b)) (F64.neg (F64.round false (b + 0))) := by
    intro b; simpa using hr 0 b
  have hr1 : ∀ b : ℚ, EqZ (F64.round false (b + 0)) (F64.neg (F64.round false (0 + -b))) := by
    intro b; simpa using hr b 0
  cases x with
  | nan => cases y <;> exact Or.inl rfl
  | inf s =>
    cases y with
    | inf t => cases s <;> cases t <;> exact Or.inl rfl
    | nan => exact Or.inl rfl
    | _ => exact Or.inl (congrArg inf (Bool.not_not s).symm)
  | zero s =>
    cases y with
    | zero t => cases s <;> cases t <;> exact Or.inr ⟨_, _, rfl, rfl⟩
    | fin q h => exact hr0 _
    | inf t => exact Or.inl rfl
    | nan => exact Or.inl rfl
  | fin q h =>
    cases y with
    | zero t => exact hr1 _
    | fin q h => exact hr _ _
    | inf t => exact Or.inl rfl
    | nan => exact Or.inl rfl

/-- C02: the cross product changes sign bit by bit when the operands are swapped, up to the sign of zeros -/
theorem C02_antisymmetric_float (a b : R3.Vector F64) :
    EqZ (R3.Cross a b).X (-(R3.Cross b a).X) ∧ EqZ (R3.Cross a b).Y (-(R3.Cross b a).Y) ∧ EqZ (R3.Cross a b).Z (-(R3.Cross b a).Z) := by
  simp only [R3.Cross]
  exact ⟨sub_anti _ _, sub_anti _ _, sub_anti _ _⟩

theorem neg_mul_neg' (x : F64) : (-x) * (-x) = x * x := by
  show F64.mul (F64.neg x) (F64.neg x) = F64.mul x x
  cases x with
  | nan => rfl
  | inf s => cases s <;> rfl
  | zero s => cases s <;> rfl
  | fin q h =>
    show F64.round (_ != _) (-q * -q) = F64.round (_ != _) (q * q)
    rw [neg_mul_neg]
    simp

theorem sq_eqZ {x y : F64} (h : EqZ x (-y)) : x * x = y * y := by
  rcases h with rfl | ⟨s, t, rfl, h⟩
  · exact neg_mul_neg' y
  · have : y = zero !t := by
      have h' : F64.neg (F64.neg y) = F64.neg (zero t) := congrArg F64.neg h
      rwa [neg_neg'] at h'
    subst this
    cases s <;> cases t <;> rfl

/-- C03: the distances are symmetric bit by bit -/
theorem C03_symm_float (v w : R3.Vector F64) : R3.SquaredDistance v w = R3.SquaredDistance w v ∧ R3.Distance v w = R3.Distance w v := by
  have h : R3.Dot (R3.Sub v w) (R3.Sub v w) = R3.Dot (R3.Sub w v) (R3.Sub w v) := by
    simp only [R3.Dot, R3.Sub]
    rw [sq_eqZ (sub_anti v.X w.X), sq_eqZ (sub_anti v.Y w.Y), sq_eqZ (sub_anti v.Z w.Z)]
  exact ⟨h, congrArg GoSqrt.sqrt h⟩

/-- C03: for finite points the squared distance is never NaN and never negative -/
theorem C03_nonneg_float (v w : R3.Vector F64) (hv : v.X.Finite ∧ v.Y.Finite ∧ v.Z.Finite) (hw : w.X.Finite ∧ w.Y.Finite ∧ w.Z.Finite) :
    (0:F64) ≤ R3.SquaredDistance v w ∧ R3.SquaredDistance v w ≠ nan := by
  have h : NonNeg (R3.SquaredDistance v w) :=
    ((NonNeg.sq (sub_ne_nan hv.1 hw.1)).add (NonNeg.sq (sub_ne_nan hv.2.1 hw.2.1))).add (NonNeg.sq (sub_ne_nan hv.2.2 hw.2.2))
  refine ⟨h.le, ?_⟩
  rintro e
  rw [e] at h
  rcases h with h | h
  · cases h
  · exact h.1

/-- `2^k` -/
def pow2 (k : ℤ) (h1 : -1074 ≤ k) (h2 : k ≤ 971) : F64 :=
  fin (2 ^ k) ⟨(two_zpow_pos k).ne', 1, k, by norm_num, h1, h2, by simp⟩

/-- C03: in floats two different points can have squared distance and distance zero (underflow) -/
theorem C03_zero_float_refuted : ∃ v w : R3.Vector F64, v ≠ w ∧ R3.SquaredDistance v w = zero false ∧ R3.Distance v w = zero false := by
  have h : R3.SquaredDistance ⟨pow2 (-600) (by norm_num) (by norm_num), 0, 0⟩ ⟨0, 0, 0⟩ = zero false := by
    decide +kernel
  refine ⟨_, _, ?_, h, ?_⟩
  · intro e
    injection e with e _ _
    cases e
  · show GoSqrt.sqrt (R3.SquaredDistance _ _) = _
    rw [h]; rfl

theorem normalize_zero_norm : (⟨0, 0, 0⟩ : R3.Vector F64).Norm2 = zero false := by decide +kernel

/-- C04: the in-place `Normalize` turns the zero vector into NaNs, the function `Normalize` keeps it -/
theorem C04_inplace_zero_float_refuted :
    (⟨0, 0, 0⟩ : R3.Vector F64).normalizeM = ⟨nan, nan, nan⟩ ∧ R3.Normalize (⟨0, 0, 0⟩ : R3.Vector F64) = ⟨0, 0, 0⟩ := by
  constructor
  · unfold R3.Vector.normalizeM
    rw [normalize_zero_norm]
    rfl
  · unfold R3.Normalize
    rw [normalize_zero_norm]
    rfl

theorem normalize_small_norm : (⟨pow2 (-600) (by norm_num) (by norm_num), 0, 0⟩ : R3.Vector F64).Norm2 = zero false := by decide +kernel

theorem normalize_big_norm : (⟨pow2 600 (by norm_num) (by norm_num), 0, 0⟩ : R3.Vector F64).Norm2 = inf false := by decide +kernel

/-- C04: in floats a nonzero vector can be normalised to the zero vector: by underflow and by overflow of the squared length -/
theorem C04_range_float_refuted :
    R3.Normalize (⟨pow2 (-600) (by norm_num) (by norm_num), 0, 0⟩ : R3.Vector F64) = ⟨0, 0, 0⟩ ∧
    R3.Normalize (⟨pow2 600 (by norm_num) (by norm_num), 0, 0⟩ : R3.Vector F64) = ⟨0, 0, 0⟩ := by
  constructor
  · unfold R3.Normalize
    rw [normalize_small_norm]
    rfl
  · unfold R3.Normalize
    rw [normalize_big_norm]
    decide +kernel

theorem mul_zero_fin {x : F64} (hx : x.Finite) : ∃ s, x * zero false = zero s := by
  obtain ⟨h1, h2⟩ := mul_fin (y := zero false) hx trivial (by rw [toQ_zero, mul_zero, rnd_zero, abs_zero]; positivity)
  rw [toQ_zero, mul_zero, rnd_zero] at h2
  generalize x * zero false = z at h1 h2
  cases z with
  | zero s => exact ⟨s, rfl⟩
  | fin q h => exact absurd h2 h.1
  | _ => exact h1.elim

theorem mul_one_fin {x : F64} (hx : x.Finite) : (x * 1).Finite ∧ (x * 1).toQ = x.toQ := by
  have e : x.toQ * (1:F64).toQ = x.toQ := by show x.toQ * 1 = _; rw [mul_one]
  have := mul_fin (y := 1) hx trivial (by rw [e, rnd_toQ]; exact F64.IsBin64.lt (toQ_bin x))
  rwa [e, rnd_toQ] at this

theorem interp_end {x y : F64} (hx : x.Finite) (hy : y.Finite) : (x * 1 + y * zero false).Finite ∧ (x * 1 + y * zero false).toQ = x.toQ := by
  obtain ⟨s, hs⟩ := mul_zero_fin hy
  obtain ⟨h1, h2⟩ := mul_one_fin hx
  rw [hs]
  have e : (x * 1).toQ + (zero s).toQ = x.toQ := by rw [h2, toQ_zero, add_zero]
  have := add_fin h1 (y := zero s) trivial (by rw [e, rnd_toQ]; exact F64.IsBin64.lt (toQ_bin x))
  rwa [e, rnd_toQ] at this

/-- C07: at `t = 0` and `t = 1` the interpolation gives the end points exactly, also in floats (`==`, so the sign of a zero may change) -/
theorem C07_ends_float (a b : R3.Vector F64) (ha : a.X.Finite ∧ a.Y.Finite ∧ a.Z.Finite) (hb : b.X.Finite ∧ b.Y.Finite ∧ b.Z.Finite) :
    (((R3.Interpolate a b 0).X == a.X) = true ∧ ((R3.Interpolate a b 0).Y == a.Y) = true ∧ ((R3.Interpolate a b 0).Z == a.Z) = true) ∧
    (((R3.Interpolate a b 1).X == b.X) = true ∧ ((R3.Interpolate a b 1).Y == b.Y) = true ∧ ((R3.Interpolate a b 1).Z == b.Z) = true) := by
  have e0 : (1:F64) - 0 = 1 := by decide +kernel
  have e1 : (1:F64) - 1 = zero false := by decide +kernel
  have k0 : ∀ x y : F64, x.Finite → y.Finite → ((x * 1 + y * 0) == x) = true := fun x y hx hy =>
    (beq_fin (interp_end hx hy).1 hx).mpr (interp_end hx hy).2
  have k1 : ∀ x y : F64, x.Finite → y.Finite → ((x * zero false + y * 1) == y) = true := fun x y hx hy => by
    rw [add_comm']
    exact (beq_fin (interp_end hy hx).1 hy).mpr (interp_end hy hx).2
  simp only [R3.Interpolate, e0, e1]
  exact ⟨⟨k0 _ _ ha.1 hb.1, k0 _ _ ha.2.1 hb.2.1, k0 _ _ ha.2.2 hb.2.2⟩, k1 _ _ ha.1 hb.1, k1 _ _ ha.2.1 hb.2.1, k1 _ _ ha.2.2 hb.2.2⟩

/-- for an infinite other end the value at `t = 0` is NaN: finiteness is needed -/
theorem C07_inf_float_refuted : (R3.Interpolate (⟨1, 0, 0⟩ : R3.Vector F64) ⟨inf false, 0, 0⟩ 0).X = nan := by decide +kernel

/-- a vector to which the float theorems apply -/
example : ((1:F64)).Finite ∧ (pow2 (-1074) (by norm_num) (by norm_num)).Finite := ⟨trivial, trivial⟩

end Verif.Props
