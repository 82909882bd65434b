import Verif.Proofs.Spline
import Verif.Props.Nurbs
import Mathlib.Analysis.Calculus.MeanValue
/-!
# C107: smoothness of the curve at the knots (nurbs/curve.go:17-27, nurbs/basis.go:13-63)

`curvePoint` uses another polynomial on every span. The pieces fit together: a curve of degree `p` whose interior knots have multiplicity at most `q` is
`p - q` times continuously differentiable on the whole closed domain. With an interior knot of multiplicity `p + 1` it jumps.
-/
namespace Verif.Props
open Verif Verif.Proofs Verif.Spec Verif.Nurbs
open scoped Topology

/-- the combination of the control points of a span is the sum over all control points -/
theorem comb_sum {n p k : ℕ} (U : ℕ → ℝ) (u : ℝ) (c : ℕ → ℝ) (hpk : p ≤ k) (hkn : k ≤ n) :
    ∑ r ∈ Finset.range (p+1), piece U k p (k-p+r) u * c (k-p+r) = ∑ i ∈ Finset.range (n+1), piece U k p i u * c i := by
  have e : n + 1 = (k - p) + (p + 1) + (n - k) := by omega
  rw [e, Finset.sum_range_add _ (k - p + (p + 1)) (n - k), Finset.sum_range_add _ (k - p) (p + 1)]
  rw [Finset.sum_eq_zero (s := Finset.range (k-p)), Finset.sum_eq_zero (s := Finset.range (n-k)), zero_add, add_zero]
  · intro i _; rw [piece_support U k p _ u (by omega), zero_mul]
  · intro i hi; have := Finset.mem_range.mp hi; rw [piece_support U k p _ u (by omega), zero_mul]

/-- the point of the curve by the derivative functions of order zero -/
noncomputable def splinePoint (n p : ℕ) (U : List Int) (P : List (R3.Vector ℝ)) (u : ℝ) : R3.Vector ℝ :=
  ⟨Ds (knot ℝ U) n p (fun i => (P.getD i ⟨0, 0, 0⟩).X) 0 u, Ds (knot ℝ U) n p (fun i => (P.getD i ⟨0, 0, 0⟩).Y) 0 u,
   Ds (knot ℝ U) n p (fun i => (P.getD i ⟨0, 0, 0⟩).Z) 0 u⟩

theorem spline_ok {n p : ℕ} {U : List Int} (hU : Nondec U) (hpn : p ≤ n) (hlen : n + p + 1 < U.length) (hlast : knot ℝ U n < knot ℝ U (n+1)) :
    SplineOK (knot ℝ U) n p :=
  ⟨fun i j _ hij hj => knot_mono U hU i j hij (by omega), hpn, hlast⟩

theorem curve_spline {n p : ℕ} {U : List Int} (hU : Nondec U) (hpn : p ≤ n) (hlen : n + p + 1 < U.length) (hlast : knot ℝ U n < knot ℝ U (n+1))
    (P : List (R3.Vector ℝ)) (hP : n < P.length) {u : ℝ} (hu : u ∈ Set.Icc (knot ℝ U p) (knot ℝ U (n+1))) (fuel : ℕ) (hf : n + 1 - p ≤ fuel) :
    curvePoint fuel n p U P u = .ok (splinePoint n p U P u) := by
  have hok := spline_ok hU hpn hlen hlast
  obtain ⟨k, hk, e⟩ := C45_formula n p U P u ⟨hU, hpn, hlen, hu.1, hu.2, fun _ => hlast⟩ hP fuel hf
  rw [e]
  have hs : Sp (knot ℝ U) n p u k := hk
  unfold comb splinePoint
  simp only [Ds_eq hok.mono' _ 0 hs, Qs, dpiece]
  rw [comb_sum (knot ℝ U) u (fun i => (P.getD i ⟨0, 0, 0⟩).X) hk.1 hk.2.1, comb_sum (knot ℝ U) u (fun i => (P.getD i ⟨0, 0, 0⟩).Y) hk.1 hk.2.1,
    comb_sum (knot ℝ U) u (fun i => (P.getD i ⟨0, 0, 0⟩).Z) hk.1 hk.2.1]

/-- C107: a curve of degree `p` whose interior knots have multiplicity at most `q ≤ p` is continuous and `p - q` times continuously differentiable on its
closed domain -/
theorem C107_smooth (n p q : ℕ) (U : List Int) (P : List (R3.Vector ℝ)) (hU : Nondec U) (hpn : p ≤ n) (hlen : n + p + 1 < U.length)
    (hlast : U.getD n 0 < U.getD (n+1) 0) (hP : n < P.length) (hq : q ≤ p)
    (hmul : ∀ j ≤ n, U.getD p 0 < U.getD j 0 → U.getD j 0 < U.getD (n+1) 0 → U.getD j 0 < U.getD (j+q) 0) :
    ∃ f : ℝ → R3.Vector ℝ,
      (∀ u : ℝ, U.getD p 0 ≤ u → u ≤ U.getD (n+1) 0 → ∀ fuel, n + 1 - p ≤ fuel → curvePoint fuel n p U P u = .ok (f u)) ∧
      ContDiffOn ℝ ((p - q : ℕ) : ℕ∞) (fun u => (f u).X) (Set.Icc (U.getD p 0 : ℝ) (U.getD (n+1) 0)) ∧
      ContDiffOn ℝ ((p - q : ℕ) : ℕ∞) (fun u => (f u).Y) (Set.Icc (U.getD p 0 : ℝ) (U.getD (n+1) 0)) ∧
      ContDiffOn ℝ ((p - q : ℕ) : ℕ∞) (fun u => (f u).Z) (Set.Icc (U.getD p 0 : ℝ) (U.getD (n+1) 0)) := by
  have hl : knot ℝ U n < knot ℝ U (n+1) := by unfold knot; exact_mod_cast hlast
  have hok := spline_ok hU hpn hlen hl
  have hm : MultLE (knot ℝ U) n p q := by
    intro j hj h1 h2
    unfold knot at h1 h2 ⊢
    exact_mod_cast hmul j hj (by exact_mod_cast h1) (by exact_mod_cast h2)
  exact ⟨splinePoint n p U P, fun u h1 h2 fuel hf => curve_spline hU hpn hlen hl P hP ⟨h1, h2⟩ fuel hf,
    Ds_smooth hok hq hm _, Ds_smooth hok hq hm _, Ds_smooth hok hq hm _⟩

/-- C107: the bound is needed: at an interior knot of multiplicity `p + 1` the curve comes in at one control point and goes on from the next one -/
theorem C107_jump (n p k : ℕ) (U : List Int) (P : List (R3.Vector ℝ)) (hU : Nondec U) (hpk : p ≤ k) (hkn : k + p + 1 ≤ n) (hlen : n + p + 1 < U.length)
    (hlast : U.getD n 0 < U.getD (n+1) 0) (hP : n < P.length) (t : Int) (h0 : U.getD k 0 < t) (h1 : t < U.getD (k+p+2) 0)
    (he : ∀ j, k + 1 ≤ j → j ≤ k + p + 1 → U.getD j 0 = t) :
    ∃ f : ℝ → R3.Vector ℝ,
      (∀ u : ℝ, U.getD p 0 ≤ u → u ≤ U.getD (n+1) 0 → ∀ fuel, n + 1 - p ≤ fuel → curvePoint fuel n p U P u = .ok (f u)) ∧
      f t = P.getD (k+1) ⟨0, 0, 0⟩ ∧
      Filter.Tendsto (fun u => (f u).X) (𝓝[<] (t:ℝ)) (𝓝 (P.getD k ⟨0, 0, 0⟩).X) ∧
      Filter.Tendsto (fun u => (f u).Y) (𝓝[<] (t:ℝ)) (𝓝 (P.getD k ⟨0, 0, 0⟩).Y) ∧
      Filter.Tendsto (fun u => (f u).Z) (𝓝[<] (t:ℝ)) (𝓝 (P.getD k ⟨0, 0, 0⟩).Z) := by
  have hl : knot ℝ U n < knot ℝ U (n+1) := by unfold knot; exact_mod_cast hlast
  have hok := spline_ok hU (by omega : p ≤ n) hlen hl
  have g0 : knot ℝ U k < t := by unfold knot; exact_mod_cast h0
  have g1 : (t:ℝ) < knot ℝ U (k+p+1+1) := by unfold knot; exact_mod_cast h1
  have ge : ∀ j, k + 1 ≤ j → j ≤ k + (p + 1) → knot ℝ U j = t := by
    intro j a b; unfold knot; exact_mod_cast he j a (by omega)
  have e1 := ge (k+1) le_rfl (by omega)
  have e2 := ge (k+p+1) (by omega) (by omega)
  have sp1 : ∀ u : ℝ, knot ℝ U k < u → u < t → Sp (knot ℝ U) n p u k := fun u a b =>
    ⟨hpk, by omega, by rw [e1]; exact g0, a.le, Or.inl (by rw [e1]; exact b)⟩
  have sp2 : Sp (knot ℝ U) n p t (k+p+1) := ⟨by omega, hkn, by rw [e2]; exact g1, by rw [e2], Or.inl g1⟩
  have v1 : ∀ c : ℕ → ℝ, Qs (knot ℝ U) n p c 0 k t = c k := by
    intro c
    unfold Qs
    simp only [dpiece]
    rw [Finset.sum_congr rfl fun i _ => by rw [piece_before (knot ℝ U) k (p+1) t g0 ge p i (by omega)]]
    simp only [ite_mul, one_mul, zero_mul, Finset.sum_ite_eq', Finset.mem_range]
    rw [if_pos (by omega)]
  have v2 : ∀ c : ℕ → ℝ, Ds (knot ℝ U) n p c 0 t = c (k+1) := by
    intro c
    rw [Ds_eq hok.mono' c 0 sp2]
    unfold Qs
    simp only [dpiece]
    have : ∀ i ∈ Finset.range (n+1), piece (knot ℝ U) (k+p+1) p i t * c i = if i = k+1 then c i else 0 := by
      intro i _
      rw [piece_after (knot ℝ U) (k+p+1) (p+1) t (by omega) g1 (fun j a b => ge j (by omega) (by omega)) p i (by omega)]
      by_cases e : i = k + 1
      · rw [if_pos e, if_pos (by omega), one_mul]
      · rw [if_neg e, if_neg (by omega), zero_mul]
    rw [Finset.sum_congr rfl this]
    simp only [Finset.sum_ite_eq', Finset.mem_range]
    rw [if_pos (by omega)]
  have lim : ∀ c : ℕ → ℝ, Filter.Tendsto (Ds (knot ℝ U) n p c 0) (𝓝[<] (t:ℝ)) (𝓝 (c k)) := by
    intro c
    rw [← v1 c]
    have := (Qs_deriv hok.mono c 0 k (t:ℝ)).continuousAt.continuousWithinAt (s := Set.Iio (t:ℝ))
    refine Filter.Tendsto.congr' ?_ this
    filter_upwards [self_mem_nhdsWithin, mem_nhdsWithin_of_mem_nhds (Ioi_mem_nhds g0)] with v hv hv'
    exact (Ds_eq hok.mono' c 0 (sp1 v hv' hv)).symm
  refine ⟨splinePoint n p U P, fun u h1 h2 fuel hf => curve_spline hU (by omega) hlen hl P hP ⟨h1, h2⟩ fuel hf, ?_, lim _, lim _, lim _⟩
  unfold splinePoint
  rw [v2, v2, v2]

/-! ## Speed -/

/-- the derivative of the piece as a combination of the differences of the coefficients -/
theorem hodograph {U : ℕ → ℝ} {n p k : ℕ} (c : ℕ → ℝ) (u : ℝ) (hpk : p + 1 ≤ k) (hkn : k ≤ n) :
    Qs U n (p+1) c 1 k u = (p+1) * ∑ i ∈ Finset.range n, piece U k p (i+1) u / (U (i+p+2) - U (i+1)) * (c (i+1) - c i) := by
  unfold Qs
  simp only [dpiece]
  set a : ℕ → ℝ := fun i => piece U k p i u / (U (i+p+1) - U i) with ha
  have e1 : ∀ i, piece U k p (i+1) u / (U (i+p+2) - U (i+1)) = a (i+1) := by
    intro i; simp only [ha]; rw [show i+1+p+1 = i+p+2 by omega]
  have a0 : a 0 = 0 := by simp only [ha]; rw [piece_support U k p 0 u (by omega), zero_div]
  have an : a (n+1) = 0 := by simp only [ha]; rw [piece_support U k p (n+1) u (by omega), zero_div]
  simp only [e1]
  have e2 : ∑ i ∈ Finset.range (n+1), (p+1) * (a i - a (i+1)) * c i = (p+1) * (∑ i ∈ Finset.range (n+1), a i * c i - ∑ i ∈ Finset.range (n+1), a (i+1) * c i) := by
    rw [← Finset.sum_sub_distrib, Finset.mul_sum]
    apply Finset.sum_congr rfl; intro i _; ring
  rw [e2, Finset.sum_range_succ' (fun i => a i * c i), Finset.sum_range_succ (fun i => a (i+1) * c i), a0, an]
  simp only [zero_mul, add_zero]
  rw [← Finset.sum_sub_distrib]
  congr 1
  apply Finset.sum_congr rfl; intro i _; ring

theorem speed {U : List Int} (hU : Nondec U) {n p k : ℕ} (hlen : n + p + 2 < U.length) (c : ℕ → ℝ) (L : ℝ) (hL : ∀ i < n, |c (i+1) - c i| ≤ L) (hL0 : 0 ≤ L)
    {u : ℝ} (hk : Sp (knot ℝ U) n (p+1) u k) : |Qs (knot ℝ U) n (p+1) c 1 k u| ≤ (p+1) * L := by
  obtain ⟨a1, a2, a3, a4, a5⟩ := hk
  have hm : ∀ a b, b < U.length → MonoOn (knot ℝ U) a b := fun a b hb i j _ hij hj => knot_mono U hU i j hij (by omega)
  have hu : u ≤ knot ℝ U (k+1) := by
    rcases a5 with a5 | ⟨rfl, a5⟩
    · exact a5.le
    · exact a5.le
  rw [hodograph c u a1 a2, abs_mul, abs_of_nonneg (by positivity : (0:ℝ) ≤ p+1)]
  apply mul_le_mul_of_nonneg_left _ (by positivity)
  have term : ∀ i ∈ Finset.range n, |piece (knot ℝ U) k p (i+1) u / (knot ℝ U (i+p+2) - knot ℝ U (i+1)) * (c (i+1) - c i)| ≤
      piece (knot ℝ U) k p (i+1) u * L := by
    intro i hi
    have hi := Finset.mem_range.mp hi
    by_cases hs : k < i+1 ∨ i + 1 + p < k
    · rw [piece_support _ k p (i+1) u hs]; simp
    · have n1 := piece_nonneg (knot ℝ U) k p (i+1) u (hm _ _ (by omega)) a4 hu
      have d1 : (1:ℝ) ≤ knot ℝ U (i+p+2) - knot ℝ U (i+1) := by
        have b1 := hU (i+1) k (by omega) (by omega)
        have b2 := hU (k+1) (i+p+2) (by omega) (by omega)
        have b3 : U.getD k 0 < U.getD (k+1) 0 := by unfold knot at a3; exact_mod_cast a3
        unfold knot
        have : (1:ℤ) ≤ U.getD (i+p+2) 0 - U.getD (i+1) 0 := by omega
        exact_mod_cast this
      rw [abs_mul, abs_of_nonneg (div_nonneg n1 (by linarith))]
      exact mul_le_mul (div_le_self n1 d1) (hL i hi) (abs_nonneg _) n1
  refine (Finset.abs_sum_le_sum_abs _ _).trans ((Finset.sum_le_sum term).trans ?_)
  rw [← Finset.sum_mul]
  have tot := piece_sum (knot ℝ U) k p u (by omega) (hm _ _ (by omega)) a3
  have le : ∑ i ∈ Finset.range n, piece (knot ℝ U) k p (i+1) u ≤ 1 := by
    have e : ∑ i ∈ Finset.range (n+1), piece (knot ℝ U) k p i u = 1 := by
      rw [← tot]
      symm
      apply Finset.sum_subset (Finset.range_subset_range.mpr (by omega))
      intro i _ hi
      exact piece_support _ k p i u (by have := Finset.mem_range.not.mp hi; omega)
    rw [Finset.sum_range_succ', piece_support (knot ℝ U) k p 0 u (by omega), add_zero] at e
    rw [e]
  calc _ ≤ 1 * L := mul_le_mul_of_nonneg_right le hL0
    _ = L := one_mul L

theorem Ds_lipschitz {U : List Int} (hU : Nondec U) {n p : ℕ} (hpn : p + 1 ≤ n) (hlen : n + p + 2 < U.length) (hlast : knot ℝ U n < knot ℝ U (n+1))
    (hmul : MultLE (knot ℝ U) n (p+1) (p+1)) (c : ℕ → ℝ) (L : ℝ) (hL : ∀ i < n, |c (i+1) - c i| ≤ L) {v w : ℝ} (hv : knot ℝ U (p+1) ≤ v) (hvw : v ≤ w)
    (hw : w ≤ knot ℝ U (n+1)) : |Ds (knot ℝ U) n (p+1) c 0 w - Ds (knot ℝ U) n (p+1) c 0 v| ≤ (p+1) * L * (w - v) := by
  have hok := spline_ok hU hpn hlen hlast
  have hL0 : 0 ≤ L := (abs_nonneg _).trans (hL 0 (by omega))
  have cont := (Ds_continuous hok le_rfl hmul c 0 (by omega)).mono (Set.Icc_subset_Icc hv hw)
  have := norm_image_sub_le_of_norm_deriv_right_le_segment (f := Ds (knot ℝ U) n (p+1) c 0) (f' := Ds (knot ℝ U) n (p+1) c 1) (a := v) (b := w)
    (C := (p+1) * L) cont ?_ ?_ w ⟨hvw, le_rfl⟩
  · simpa only [Real.norm_eq_abs] using this
  · intro x hx
    obtain ⟨k, hk⟩ := hok.span (u := x) ⟨hv.trans hx.1, hx.2.le.trans hw⟩
    have hk' := hk
    obtain ⟨a1, a2, a3, a4, a5⟩ := hk'
    have hx' : x < knot ℝ U (k+1) := by
      rcases a5 with a5 | ⟨_, a5⟩
      · exact a5
      · have := hx.2; linarith
    rw [Ds_eq hok.mono' c 1 hk]
    refine ((Qs_deriv hok.mono c 0 k x).hasDerivWithinAt (s := Set.Ici x)).congr_of_eventuallyEq ?_ (Ds_eq hok.mono' c 0 hk)
    filter_upwards [self_mem_nhdsWithin, mem_nhdsWithin_of_mem_nhds (Iio_mem_nhds hx')] with y hy hy'
    exact Ds_eq hok.mono' c 0 ⟨a1, a2, a3, a4.trans hy, Or.inl hy'⟩
  · intro x hx
    obtain ⟨k, hk⟩ := hok.span (u := x) ⟨hv.trans hx.1, hx.2.le.trans hw⟩
    rw [Ds_eq hok.mono' c 1 hk, Real.norm_eq_abs]
    exact speed hU hlen c L hL hL0 hk

/-- C107: between two parameters each coordinate of a curve without jumps changes at most by degree times the largest difference of neighbouring control
points times the difference of the parameters -/
theorem C107_speed (n p : ℕ) (U : List Int) (P : List (R3.Vector ℝ)) (hU : Nondec U) (hp : 1 ≤ p) (hpn : p ≤ n) (hlen : n + p + 1 < U.length)
    (hlast : U.getD n 0 < U.getD (n+1) 0) (hP : n < P.length)
    (hmul : ∀ j ≤ n, U.getD p 0 < U.getD j 0 → U.getD j 0 < U.getD (n+1) 0 → U.getD j 0 < U.getD (j+p) 0) (L : ℝ)
    (hL : ∀ i < n, |(P.getD (i+1) ⟨0, 0, 0⟩).X - (P.getD i ⟨0, 0, 0⟩).X| ≤ L ∧ |(P.getD (i+1) ⟨0, 0, 0⟩).Y - (P.getD i ⟨0, 0, 0⟩).Y| ≤ L ∧
      |(P.getD (i+1) ⟨0, 0, 0⟩).Z - (P.getD i ⟨0, 0, 0⟩).Z| ≤ L)
    (fuel : ℕ) (hf : n + 1 - p ≤ fuel) (v w : ℝ) (hv : U.getD p 0 ≤ v) (hvw : v ≤ w) (hw : w ≤ U.getD (n+1) 0) :
    ∃ a b, curvePoint fuel n p U P v = .ok a ∧ curvePoint fuel n p U P w = .ok b ∧
      |b.X - a.X| ≤ p * L * (w - v) ∧ |b.Y - a.Y| ≤ p * L * (w - v) ∧ |b.Z - a.Z| ≤ p * L * (w - v) := by
  obtain ⟨p, rfl⟩ : ∃ r, p = r + 1 := ⟨p - 1, by omega⟩
  have hl : knot ℝ U n < knot ℝ U (n+1) := by unfold knot; exact_mod_cast hlast
  have hm : MultLE (knot ℝ U) n (p+1) (p+1) := by
    intro j hj h1 h2
    unfold knot at h1 h2 ⊢
    exact_mod_cast hmul j hj (by exact_mod_cast h1) (by exact_mod_cast h2)
  have hv' : knot ℝ U (p+1) ≤ v := hv
  have hw' : w ≤ knot ℝ U (n+1) := hw
  refine ⟨_, _, curve_spline hU hpn hlen hl P hP ⟨hv', hvw.trans hw'⟩ fuel hf, curve_spline hU hpn hlen hl P hP ⟨hv'.trans hvw, hw'⟩ fuel hf, ?_⟩
  push_cast
  exact ⟨Ds_lipschitz hU hpn (by omega) hl hm _ L (fun i hi => (hL i hi).1) hv' hvw hw', Ds_lipschitz hU hpn (by omega) hl hm _ L (fun i hi => (hL i hi).2.1) hv' hvw hw',
    Ds_lipschitz hU hpn (by omega) hl hm _ L (fun i hi => (hL i hi).2.2) hv' hvw hw'⟩

/-! ## Concrete cases -/

/-- a cubic with simple interior knots 1, 2, 3 is twice continuously differentiable -/
example (P : List (R3.Vector ℝ)) (hP : P.length = 7) : ∃ f : ℝ → R3.Vector ℝ,
    (∀ u : ℝ, 0 ≤ u → u ≤ 4 → curvePoint 4 6 3 [0, 0, 0, 0, 1, 2, 3, 4, 4, 4, 4] P u = .ok (f u)) ∧
    ContDiffOn ℝ 2 (fun u => (f u).X) (Set.Icc 0 4) := by
  obtain ⟨f, h1, h2, _⟩ := C107_smooth 6 3 1 [0, 0, 0, 0, 1, 2, 3, 4, 4, 4, 4] P (by unfold Nondec; intro i j hij hj; simp at hj; interval_cases j <;> interval_cases i <;> decide)
    (by norm_num) (by decide) (by decide) (by omega) (by norm_num) (by decide)
  refine ⟨f, fun u a b => h1 u (by simpa using a) (by simpa using b) 4 (by norm_num), by simpa using h2⟩

/-- a parabola: between the parameters 0 and 1/10 no coordinate changes by more than 2/10 times the largest step of the control polygon -/
example : ∃ a b, curvePoint 1 2 2 [0, 0, 0, 1, 1, 1] [⟨0, 0, 0⟩, ⟨1, 0, 0⟩, ⟨1, 1, 0⟩] (0 : ℝ) = .ok a ∧
    curvePoint 1 2 2 [0, 0, 0, 1, 1, 1] [⟨0, 0, 0⟩, ⟨1, 0, 0⟩, ⟨1, 1, 0⟩] (1/10 : ℝ) = .ok b ∧ |b.X - a.X| ≤ 2/10 := by
  obtain ⟨a, b, h1, h2, h3, _⟩ := C107_speed 2 2 [0, 0, 0, 1, 1, 1] [⟨0, 0, 0⟩, ⟨1, 0, 0⟩, ⟨1, 1, 0⟩]
    (by unfold Nondec; intro i j hij hj; simp at hj; interval_cases j <;> interval_cases i <;> decide) (by norm_num) (by norm_num) (by decide) (by decide)
    (by simp) (by decide) 1 (by intro i hi; interval_cases i <;> simp) 1 (by norm_num) 0 (1/10) (by simp) (by norm_num) (by norm_num)
  exact ⟨a, b, h1, h2, by norm_num at h3 ⊢; exact h3⟩

/-- a polygon of degree one with a double knot jumps from the second to the third control point -/
example : curvePoint 3 3 1 [0, 0, 1, 1, 2, 2] [⟨0, 0, 0⟩, ⟨1, 0, 0⟩, ⟨5, 0, 0⟩, ⟨6, 0, 0⟩] (99/100 : ℚ) = .ok ⟨99/100, 0, 0⟩ ∧
    curvePoint 3 3 1 [0, 0, 1, 1, 2, 2] [⟨0, 0, 0⟩, ⟨1, 0, 0⟩, ⟨5, 0, 0⟩, ⟨6, 0, 0⟩] (1 : ℚ) = .ok ⟨5, 0, 0⟩ := by
  constructor <;> decide +kernel

end Verif.Props
