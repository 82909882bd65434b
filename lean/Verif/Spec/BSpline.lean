import Mathlib.Algebra.Order.Field.Basic
import Mathlib.Algebra.BigOperators.Group.Finset.Basic
import Mathlib.Algebra.BigOperators.Intervals
import Mathlib.Tactic.Ring
import Mathlib.Tactic.FieldSimp
import Mathlib.Tactic.Linarith
/-!
# B-spline basis functions: the Cox-de Boor recursion

`bspline U p i u` is the textbook definition (half-open spans, quotients with zero denominator are zero).
`piece U k p i u` is its polynomial piece on the span `k`, i.e. the same recursion started from the indicator of
`k`; the two agree for `u` in the half-open span, and `piece` is also meaningful at the right end of the span.
-/
namespace Verif.Spec
set_option linter.unusedSectionVars false
variable {K : Type} [Field K] [LinearOrder K] [IsStrictOrderedRing K]

/-- Cox-de Boor recursion -/
def bspline (U : ℕ → K) : ℕ → ℕ → K → K
  | 0, i, u => if U i ≤ u ∧ u < U (i+1) then 1 else 0
  | p+1, i, u => (u - U i) / (U (i+p+1) - U i) * bspline U p i u +
      (U (i+p+2) - u) / (U (i+p+2) - U (i+1)) * bspline U p (i+1) u

/-- the polynomial piece of the basis function on span `k` -/
def piece (U : ℕ → K) (k : ℕ) : ℕ → ℕ → K → K
  | 0, i, _ => if i = k then 1 else 0
  | p+1, i, u => (u - U i) / (U (i+p+1) - U i) * piece U k p i u +
      (U (i+p+2) - u) / (U (i+p+2) - U (i+1)) * piece U k p (i+1) u

/-- knots nondecreasing on the index range `[a,b]` -/
def MonoOn (U : ℕ → K) (a b : ℕ) : Prop := ∀ i j, a ≤ i → i ≤ j → j ≤ b → U i ≤ U j

theorem piece_support (U : ℕ → K) (k p i : ℕ) (u : K) (h : k < i ∨ i + p < k) : piece U k p i u = 0 := by
  induction p generalizing i with
  | zero => simp only [piece]; rw [if_neg (by omega)]
  | succ p ih => simp only [piece]; rw [ih i (by omega), ih (i+1) (by omega)]; ring

/-- in the half-open span the piece is the basis function -/
theorem piece_eq_bspline (U : ℕ → K) (k p i : ℕ) (u : K) (hm : MonoOn U (min i k) (max (i+p+1) (k+1)))
    (h1 : U k ≤ u) (h2 : u < U (k+1)) : piece U k p i u = bspline U p i u := by
  induction p generalizing i with
  | zero =>
    simp only [piece, bspline]
    by_cases h : i = k
    · subst h; rw [if_pos rfl, if_pos ⟨h1, h2⟩]
    · rw [if_neg h, if_neg]
      rintro ⟨a, b⟩
      rcases Nat.lt_or_ge i k with h' | h'
      · have := hm (i+1) k (by omega) (by omega) (by omega)
        exact absurd (lt_of_lt_of_le b (this.trans h1)) (lt_irrefl _)
      · have := hm (k+1) i (by omega) (by omega) (by omega)
        exact absurd (lt_of_lt_of_le h2 (this.trans a)) (lt_irrefl _)
  | succ p ih =>
    simp only [piece, bspline]
    rw [ih i, ih (i+1)]
    · intro a b ha hab hb; exact hm a b (by omega) hab (by omega)
    · intro a b ha hab hb; exact hm a b (by omega) hab (by omega)

/-- positivity of the denominators that matter -/
theorem knot_diff_pos (U : ℕ → K) (k a b : ℕ) (hm : MonoOn U a b) (hk : U k < U (k+1)) (ha : a ≤ k) (hb : k + 1 ≤ b) :
    0 < U b - U a := by
  have h1 := hm a k (le_refl _) ha (by omega)
  have h2 := hm (k+1) b (by omega) hb (le_refl _)
  linarith

theorem MonoOn.mono {U : ℕ → K} {a b a' b' : ℕ} (h : MonoOn U a b) (h1 : a ≤ a') (h2 : b' ≤ b) : MonoOn U a' b' :=
  fun i j hi hij hj => h i j (h1.trans hi) hij (hj.trans h2)

/-- nonnegativity -/
theorem piece_nonneg (U : ℕ → K) (k p i : ℕ) (u : K) (hm : MonoOn U i (i+p+1)) (h1 : U k ≤ u) (h2 : u ≤ U (k+1)) :
    0 ≤ piece U k p i u := by
  induction p generalizing i with
  | zero => simp only [piece]; split <;> simp
  | succ p ih =>
    simp only [piece]
    have hd1 : 0 ≤ U (i+p+1) - U i := by have := hm i (i+p+1) (by omega) (by omega) (by omega); linarith
    have hd2 : 0 ≤ U (i+p+2) - U (i+1) := by have := hm (i+1) (i+p+2) (by omega) (by omega) (by omega); linarith
    have n1 := ih i (hm.mono (by omega) (by omega))
    have n2 := ih (i+1) (hm.mono (by omega) (by omega))
    apply add_nonneg
    · by_cases hs : k < i ∨ i + p < k
      · rw [piece_support U k p i u hs]; simp
      · have := hm i k (by omega) (by omega) (by omega)
        exact mul_nonneg (div_nonneg (by linarith) hd1) n1
    · by_cases hs : k < i+1 ∨ i + 1 + p < k
      · rw [piece_support U k p (i+1) u hs]; simp
      · have := hm (k+1) (i+p+2) (by omega) (by omega) (by omega)
        exact mul_nonneg (div_nonneg (by linarith) hd2) n2

/-- partition of unity -/
theorem piece_sum (U : ℕ → K) (k p : ℕ) (u : K) (hp : p ≤ k) (hm : MonoOn U (k+1-p) (k+p)) (hk : U k < U (k+1)) :
    ∑ i ∈ Finset.range (k+1), piece U k p i u = 1 := by
  induction p with
  | zero => simp [piece, Finset.sum_ite_eq']
  | succ p ih =>
    have ih := ih (by omega) (hm.mono (by omega) (by omega))
    have step : ∀ i, piece U k (p+1) i u =
        (u - U i) / (U (i+p+1) - U i) * piece U k p i u +
          (piece U k p (i+1) u - (u - U (i+1)) / (U (i+1+p+1) - U (i+1)) * piece U k p (i+1) u) := by
      intro i
      simp only [piece]
      congr 1
      by_cases hs : k < i+1 ∨ i + 1 + p < k
      · rw [piece_support U k p (i+1) u hs]; simp
      · have hd := knot_diff_pos U k (i+1) (i+p+2) (hm.mono (by omega) (by omega)) hk (by omega) (by omega)
        have hd' : U (i+p+2) - U (i+1) ≠ 0 := ne_of_gt hd
        rw [show i + 1 + p + 1 = i + p + 2 by omega]
        field_simp
        ring
    simp_rw [step]
    rw [Finset.sum_add_distrib, Finset.sum_sub_distrib]
    have e1 := Finset.sum_range_succ' (fun i => piece U k p i u) (k+1)
    have e2 := Finset.sum_range_succ' (fun i => (u - U i) / (U (i+p+1) - U i) * piece U k p i u) (k+1)
    rw [Finset.sum_range_succ] at e1 e2
    rw [ih, piece_support U k p (k+1) u (by omega), piece_support U k p 0 u (by omega)] at e1
    rw [piece_support U k p (k+1) u (by omega), piece_support U k p 0 u (by omega)] at e2
    simp only [add_zero, mul_zero] at e1 e2
    rw [← e1, e2]
    ring

/-- at a knot of multiplicity `p` on the left end of the span only the first function is nonzero -/
theorem piece_left_end (U : ℕ → K) (k j i : ℕ) (u : K) (hj : j ≤ k) (he : ∀ m, k + 1 - j ≤ m → m ≤ k → U m = u)
    (hi : k < i + j) : piece U k j i u = 0 := by
  induction j generalizing i with
  | zero => exact piece_support U k 0 i u (by omega)
  | succ j ih =>
    simp only [piece]
    rw [ih (i+1) (by omega) (fun m h1 h2 => he m (by omega) h2) (by omega)]
    by_cases h : k < i
    · rw [piece_support U k j i u (by omega)]; ring
    · rw [he i (by omega) (by omega)]; ring

/-- at a knot of multiplicity `p` on the right end of the span only the last function is nonzero -/
theorem piece_right_end (U : ℕ → K) (k j i : ℕ) (u : K) (he : ∀ m, k + 1 ≤ m → m ≤ k + j → U m = u)
    (hi : i < k) : piece U k j i u = 0 := by
  induction j generalizing i with
  | zero => exact piece_support U k 0 i u (by omega)
  | succ j ih =>
    simp only [piece]
    rw [ih i (fun m h1 h2 => he m (by omega) (by omega)) hi]
    by_cases h : i + 1 + j < k
    · rw [piece_support U k j (i+1) u (by omega)]; ring
    · rw [he (i+j+2) (by omega) (by omega)]; ring

end Verif.Spec
