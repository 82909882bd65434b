import Verif.Props.Smooth
import Verif.Props.R3
/-!
# C111: the curve follows its control polygon (nurbs/curve.go:17-27, nurbs/basis.go:13-63)

If a coordinate of the control points never decreases, that coordinate of the curve never decreases. A polyline through points of the curve is not longer than
the control polygon. And the control points of a span are determined by the curve on that span.
-/
namespace Verif.Props
open Verif Verif.Proofs Verif.Spec Verif.Nurbs
open scoped Topology

theorem piece_total {U : List Int} (hU : Nondec U) {n p k : ℕ} (hlen : n + p + 1 < U.length) {u : ℝ} (hk : Sp (knot ℝ U) n p u k) :
    ∑ i ∈ Finset.range (n+1), piece (knot ℝ U) k p i u = 1 := by
  obtain ⟨a1, a2, a3, a4, a5⟩ := hk
  have hm : ∀ a b, b < U.length → MonoOn (knot ℝ U) a b := fun a b hb i j _ hij hj => knot_mono U hU i j hij (by omega)
  rw [← piece_sum (knot ℝ U) k p u (by omega) (hm _ _ (by omega)) a3]
  symm
  apply Finset.sum_subset (Finset.range_subset_range.mpr (by omega))
  intro i _ hi
  exact piece_support _ k p i u (by have := Finset.mem_range.not.mp hi; omega)

/-! ## Monotone coordinates -/

theorem slope_nonneg {U : List Int} (hU : Nondec U) {n p k : ℕ} (hlen : n + p + 2 < U.length) (c : ℕ → ℝ) (hc : ∀ i < n, c i ≤ c (i+1))
    {u : ℝ} (hk : Sp (knot ℝ U) n (p+1) u k) : 0 ≤ Qs (knot ℝ U) n (p+1) c 1 k u := by
  obtain ⟨a1, a2, a3, a4, a5⟩ := hk
  have hm : ∀ a b, b < U.length → MonoOn (knot ℝ U) a b := fun a b hb i j _ hij hj => knot_mono U hU i j hij (by omega)
  have hu : u ≤ knot ℝ U (k+1) := by
    rcases a5 with a5 | ⟨rfl, a5⟩
    · exact a5.le
    · exact a5.le
  rw [hodograph c u a1 a2]
  apply mul_nonneg (by positivity)
  apply Finset.sum_nonneg
  intro i hi
  have hi := Finset.mem_range.mp hi
  have n1 := piece_nonneg (knot ℝ U) k p (i+1) u (hm _ _ (by omega)) a4 hu
  have d1 : 0 ≤ knot ℝ U (i+p+2) - knot ℝ U (i+1) := sub_nonneg.mpr (knot_mono U hU _ _ (by omega) (by omega))
  exact mul_nonneg (div_nonneg n1 d1) (sub_nonneg.mpr (hc i hi))

theorem Ds_monotone {U : List Int} (hU : Nondec U) {n p : ℕ} (hpn : p + 1 ≤ n) (hlen : n + p + 2 < U.length) (hlast : knot ℝ U n < knot ℝ U (n+1))
    (hmul : MultLE (knot ℝ U) n (p+1) (p+1)) (c : ℕ → ℝ) (hc : ∀ i < n, c i ≤ c (i+1)) {v w : ℝ} (hv : knot ℝ U (p+1) ≤ v) (hvw : v ≤ w)
    (hw : w ≤ knot ℝ U (n+1)) : Ds (knot ℝ U) n (p+1) c 0 v ≤ Ds (knot ℝ U) n (p+1) c 0 w := by
  have hok := spline_ok hU hpn hlen hlast
  have cont := (Ds_continuous hok le_rfl hmul c 0 (by omega)).mono (Set.Icc_subset_Icc hv hw)
  refine image_le_of_deriv_right_le_deriv_boundary (f := fun _ => Ds (knot ℝ U) n (p+1) c 0 v) (f' := fun _ => 0) (a := v) (b := w)
    (B := Ds (knot ℝ U) n (p+1) c 0) (B' := Ds (knot ℝ U) n (p+1) c 1) continuousOn_const (fun x _ => hasDerivWithinAt_const _ _ _) le_rfl cont ?_ ?_ ⟨hvw, le_rfl⟩
  · intro x hx
    obtain ⟨k, hk⟩ := hok.span (u := x) ⟨hv.trans hx.1, hx.2.le.trans hw⟩
    have hk' := hk
    obtain ⟨a1, a2, a3, a4, a5⟩ := hk'
    have hx' : x < knot ℝ U (k+1) := by
      rcases a5 with a5 | ⟨_, a5⟩
      · exact a5
      · have := hx.2; linarith
    rw [Ds_eq hok.mono' c 1 hk]
    refine ((Qs_deriv hok.mono c 0 k x).hasDerivWithinAt (s := Set.Ici x)).congr_of_eventuallyEq ?_ (Ds_eq hok.mono' c 0 hk)
    filter_upwards [self_mem_nhdsWithin, mem_nhdsWithin_of_mem_nhds (Iio_mem_nhds hx')] with y hy hy'
    exact Ds_eq hok.mono' c 0 ⟨a1, a2, a3, a4.trans hy, Or.inl hy'⟩
  · intro x hx
    obtain ⟨k, hk⟩ := hok.span (u := x) ⟨hv.trans hx.1, hx.2.le.trans hw⟩
    rw [Ds_eq hok.mono' c 1 hk]
    exact slope_nonneg hU hlen c hc hk

/-! ## Length -/

/-- coefficients 0 up to `i` and 1 after it -/
def stepFrom (i j : ℕ) : ℝ := if i < j then 1 else 0

theorem abel (c : ℕ → ℝ) {n j : ℕ} (hj : j ≤ n) : c j = c 0 + ∑ i ∈ Finset.range n, (c (i+1) - c i) * stepFrom i j := by
  have h : ∑ i ∈ Finset.range j, (c (i+1) - c i) * stepFrom i j = ∑ i ∈ Finset.range n, (c (i+1) - c i) * stepFrom i j := by
    apply Finset.sum_subset (Finset.range_subset_range.mpr hj)
    intro i _ hi
    have : ¬ i < j := fun g => hi (Finset.mem_range.mpr g)
    rw [stepFrom, if_neg this, mul_zero]
  rw [← h]
  have : ∑ i ∈ Finset.range j, (c (i+1) - c i) * stepFrom i j = ∑ i ∈ Finset.range j, (c (i+1) - c i) := by
    apply Finset.sum_congr rfl
    intro i hi
    rw [stepFrom, if_pos (Finset.mem_range.mp hi), mul_one]
  rw [this, Finset.sum_range_sub]; ring

theorem Ds_abel {U : List Int} (hU : Nondec U) {n p : ℕ} (hpn : p ≤ n) (hlen : n + p + 1 < U.length) (hlast : knot ℝ U n < knot ℝ U (n+1)) (c : ℕ → ℝ)
    {u : ℝ} (hu : u ∈ Set.Icc (knot ℝ U p) (knot ℝ U (n+1))) :
    Ds (knot ℝ U) n p c 0 u = c 0 + ∑ i ∈ Finset.range n, (c (i+1) - c i) * Ds (knot ℝ U) n p (stepFrom i) 0 u := by
  have hok := spline_ok hU hpn hlen hlast
  obtain ⟨k, hk⟩ := hok.span hu
  have tot := piece_total hU hlen hk
  simp only [Ds_eq hok.mono' _ 0 hk, Qs, dpiece]
  calc ∑ j ∈ Finset.range (n+1), piece (knot ℝ U) k p j u * c j
      = ∑ j ∈ Finset.range (n+1), (c 0 * piece (knot ℝ U) k p j u + ∑ i ∈ Finset.range n, (c (i+1) - c i) * (piece (knot ℝ U) k p j u * stepFrom i j)) := by
        apply Finset.sum_congr rfl
        intro j hj
        conv_lhs => rw [abel c (n := n) (j := j) (by have := Finset.mem_range.mp hj; omega)]
        rw [mul_add, Finset.mul_sum, mul_comm _ (c 0)]
        congr 1
        apply Finset.sum_congr rfl; intro i _; ring
    _ = c 0 + ∑ i ∈ Finset.range n, (c (i+1) - c i) * ∑ j ∈ Finset.range (n+1), piece (knot ℝ U) k p j u * stepFrom i j := by
        rw [Finset.sum_add_distrib, ← Finset.mul_sum, tot, mul_one, Finset.sum_comm]
        congr 1
        apply Finset.sum_congr rfl; intro i _; rw [Finset.mul_sum]

theorem Ds_step {U : List Int} (hU : Nondec U) {n p : ℕ} (hpn : p ≤ n) (hlen : n + p + 1 < U.length) (hlast : knot ℝ U n < knot ℝ U (n+1)) (i : ℕ)
    {u : ℝ} (hu : u ∈ Set.Icc (knot ℝ U p) (knot ℝ U (n+1))) : 0 ≤ Ds (knot ℝ U) n p (stepFrom i) 0 u ∧ Ds (knot ℝ U) n p (stepFrom i) 0 u ≤ 1 := by
  have hok := spline_ok hU hpn hlen hlast
  obtain ⟨k, hk⟩ := hok.span hu
  have tot := piece_total hU hlen hk
  rw [Ds_eq hok.mono' _ 0 hk]
  simp only [Qs, dpiece]
  have hk' := hk
  obtain ⟨a1, a2, a3, a4, a5⟩ := hk'
  have hm : ∀ a b, b < U.length → MonoOn (knot ℝ U) a b := fun a b hb i j _ hij hj => knot_mono U hU i j hij (by omega)
  have hu' : u ≤ knot ℝ U (k+1) := by
    rcases a5 with a5 | ⟨rfl, a5⟩
    · exact a5.le
    · exact a5.le
  have nn : ∀ j ∈ Finset.range (n+1), 0 ≤ piece (knot ℝ U) k p j u := fun j hj =>
    piece_nonneg (knot ℝ U) k p j u (hm _ _ (by have := Finset.mem_range.mp hj; omega)) a4 hu'
  have s01 : ∀ j, 0 ≤ stepFrom i j ∧ stepFrom i j ≤ 1 := by intro j; unfold stepFrom; split <;> norm_num
  refine ⟨Finset.sum_nonneg fun j hj => mul_nonneg (nn j hj) (s01 j).1, ?_⟩
  rw [← tot]
  exact Finset.sum_le_sum fun j hj => mul_le_of_le_one_right (nn j hj) (s01 j).2

/-- a chain of steps is at least as long as the straight way -/
theorem chain_length (a : R3.Vector ℝ) (d : ℕ → R3.Vector ℝ) (s : ℕ → ℝ) (L : ℕ → ℝ) (hs : ∀ i, 0 ≤ s i)
    (hL : ∀ i, L i = Real.sqrt ((d i).X ^ 2 + (d i).Y ^ 2 + (d i).Z ^ 2)) (n : ℕ) :
    R3.Distance a ⟨a.X + ∑ i ∈ Finset.range n, (d i).X * s i, a.Y + ∑ i ∈ Finset.range n, (d i).Y * s i, a.Z + ∑ i ∈ Finset.range n, (d i).Z * s i⟩ ≤
      ∑ i ∈ Finset.range n, s i * L i := by
  induction n with
  | zero =>
    simp only [Finset.range_zero, Finset.sum_empty, add_zero]
    exact ((C03_metric a a a).2.2.2.1.mpr rfl).le
  | succ n ih =>
    set q : R3.Vector ℝ := ⟨a.X + ∑ i ∈ Finset.range n, (d i).X * s i, a.Y + ∑ i ∈ Finset.range n, (d i).Y * s i, a.Z + ∑ i ∈ Finset.range n, (d i).Z * s i⟩ with hq
    refine ((C03_metric a q _).2.2.2.2.1).trans ?_
    rw [Finset.sum_range_succ (fun i => s i * L i)]
    refine add_le_add ih (le_of_eq ?_)
    rw [(C03_metric a q _).1]
    unfold euclid
    rw [hL, ← abs_of_nonneg (hs n), ← Real.sqrt_sq_eq_abs, ← Real.sqrt_mul (sq_nonneg _)]
    congr 1
    simp only [hq, Finset.sum_range_succ]
    ring

/-! ## Control points from the curve -/

/-- the polynomials of a span are linearly independent -/
theorem pieces_independent {U : List Int} (hU : Nondec U) : ∀ (p n k : ℕ) (c : ℕ → ℝ), p ≤ k → k ≤ n → n + p + 1 < U.length → knot ℝ U k < knot ℝ U (k+1) →
    (∀ u ∈ Set.Ioo (knot ℝ U k) (knot ℝ U (k+1)), Qs (knot ℝ U) n p c 0 k u = 0) → ∀ i, k - p ≤ i → i ≤ k → c i = 0 := by
  intro p
  induction p with
  | zero =>
    intro n k c _ hkn hlen hlt h i h1 h2
    obtain rfl : i = k := by omega
    obtain ⟨u, hu1, hu2⟩ := exists_between hlt
    have e := h u ⟨hu1, hu2⟩
    simp only [Qs, dpiece] at e
    rw [Finset.sum_eq_single i] at e
    · have : piece (knot ℝ U) i 0 i u = 1 := by simp [piece]
      rwa [this, one_mul] at e
    · intro j _ hj
      rw [piece_support _ i 0 j u (by omega), zero_mul]
    · intro hn; exact absurd (Finset.mem_range.mpr (by omega)) hn
  | succ p ih =>
    intro n k c hpk hkn hlen hlt h
    have hm : ∀ a b, b < U.length → MonoOn (knot ℝ U) a b := fun a b hb i j _ hij hj => knot_mono U hU i j hij (by omega)
    have hd : ∀ u ∈ Set.Ioo (knot ℝ U k) (knot ℝ U (k+1)), Qs (knot ℝ U) n (p+1) c 1 k u = 0 := by
      intro u hu
      have d1 := Qs_deriv (U := knot ℝ U) (n := n) (p := p+1) (hm _ _ (by omega)) c 0 k u
      have ev : Qs (knot ℝ U) n (p+1) c 0 k =ᶠ[𝓝 u] fun _ => 0 := by
        filter_upwards [isOpen_Ioo.mem_nhds hu] with v hv
        exact h v hv
      exact (d1.congr_of_eventuallyEq ev.symm).unique (hasDerivAt_const u 0)
    set d : ℕ → ℝ := fun i => (c i - c (i-1)) / (knot ℝ U (i+p+1) - knot ℝ U i) with hdd
    have z : ∀ i, k - p ≤ i → i ≤ k → d i = 0 := by
      refine ih n k d (by omega) hkn (by omega) hlt fun u hu => ?_
      have e := hd u hu
      rw [hodograph c u hpk hkn] at e
      have e := (mul_eq_zero.mp e).resolve_left (by positivity)
      simp only [Qs, dpiece]
      rw [Finset.sum_range_succ', piece_support (knot ℝ U) k p 0 u (by omega), zero_mul, add_zero, ← e]
      apply Finset.sum_congr rfl
      intro i _
      simp only [hdd]
      rw [show i + 1 + p + 1 = i + p + 2 by omega, Nat.add_sub_cancel]
      ring
    have same : ∀ i, k - p ≤ i → i ≤ k → c i = c (i-1) := by
      intro i h1 h2
      have := z i h1 h2
      simp only [hdd] at this
      have pos : 0 < knot ℝ U (i+p+1) - knot ℝ U i := by
        have b1 := knot_mono (K := ℝ) U hU i k h2 (by omega)
        have b2 := knot_mono (K := ℝ) U hU (k+1) (i+p+1) (by omega) (by omega)
        linarith
      have := (div_eq_zero_iff.mp this).resolve_right pos.ne'
      linarith
    have const : ∀ m, m ≤ p + 1 → c (k - m) = c k := by
      intro m
      induction m with
      | zero => intro _; rfl
      | succ m ihm =>
        intro hm'
        rw [← ihm (by omega), same (k - m) (by omega) (by omega)]
        congr 1
    obtain ⟨u, hu1, hu2⟩ := exists_between hlt
    have e := h u ⟨hu1, hu2⟩
    have tot := piece_total hU (n := n) (p := p+1) (k := k) hlen ⟨hpk, hkn, hlt, hu1.le, Or.inl hu2⟩
    simp only [Qs, dpiece] at e
    have ck : c k = 0 := by
      rw [← e, ← one_mul (c k), ← tot, Finset.sum_mul]
      apply Finset.sum_congr rfl
      intro i _
      by_cases hs : k < i ∨ i + (p+1) < k
      · rw [piece_support _ k (p+1) i u hs, zero_mul, zero_mul]
      · rw [← const (k - i) (by omega), show k - (k - i) = i by omega]
    intro i h1 h2
    rw [← ck, ← const (k - i) (by omega), show k - (k - i) = i by omega]

/-! ## The curve of the code -/

/-- the component of `v` in the direction `d` -/
def along (d v : R3.Vector ℝ) : ℝ := d.X * v.X + d.Y * v.Y + d.Z * v.Z

theorem Ds_along {U : ℕ → ℝ} {n p : ℕ} (hok : SplineOK U n p) (d : R3.Vector ℝ) (x y z : ℕ → ℝ) {u : ℝ} (hu : u ∈ Set.Icc (U p) (U (n+1))) :
    Ds U n p (fun i => d.X * x i + d.Y * y i + d.Z * z i) 0 u = d.X * Ds U n p x 0 u + d.Y * Ds U n p y 0 u + d.Z * Ds U n p z 0 u := by
  obtain ⟨k, hk⟩ := hok.span hu
  simp only [Ds_eq hok.mono' _ 0 hk, Qs, Finset.mul_sum]
  rw [← Finset.sum_add_distrib, ← Finset.sum_add_distrib]
  apply Finset.sum_congr rfl; intro i _; ring

section
variable (n p : ℕ) (U : List Int) (P : List (R3.Vector ℝ)) (hU : Nondec U) (hp : 1 ≤ p) (hpn : p ≤ n) (hlen : n + p + 1 < U.length)
  (hlast : U.getD n 0 < U.getD (n+1) 0) (hP : n < P.length)
  (hmul : ∀ j ≤ n, U.getD p 0 < U.getD j 0 → U.getD j 0 < U.getD (n+1) 0 → U.getD j 0 < U.getD (j+p) 0)
include hU hp hpn hlen hlast hP hmul

/-- C111: if the control points never go back in a direction, the curve never does -/
theorem C111_monotone (d : R3.Vector ℝ) (hd : ∀ i < n, along d (P.getD i ⟨0, 0, 0⟩) ≤ along d (P.getD (i+1) ⟨0, 0, 0⟩))
    (fuel : ℕ) (hf : n + 1 - p ≤ fuel) (v w : ℝ) (hv : U.getD p 0 ≤ v) (hvw : v ≤ w) (hw : w ≤ U.getD (n+1) 0) :
    ∃ a b, curvePoint fuel n p U P v = .ok a ∧ curvePoint fuel n p U P w = .ok b ∧ along d a ≤ along d b := by
  obtain ⟨p, rfl⟩ : ∃ r, p = r + 1 := ⟨p - 1, by omega⟩
  have hl : knot ℝ U n < knot ℝ U (n+1) := by unfold knot; exact_mod_cast hlast
  have hm : MultLE (knot ℝ U) n (p+1) (p+1) := by
    intro j hj h1 h2
    unfold knot at h1 h2 ⊢
    exact_mod_cast hmul j hj (by exact_mod_cast h1) (by exact_mod_cast h2)
  have hv' : knot ℝ U (p+1) ≤ v := hv
  have hw' : w ≤ knot ℝ U (n+1) := hw
  have hok := spline_ok hU hpn hlen hl
  refine ⟨_, _, curve_spline hU hpn hlen hl P hP ⟨hv', hvw.trans hw'⟩ fuel hf, curve_spline hU hpn hlen hl P hP ⟨hv'.trans hvw, hw'⟩ fuel hf, ?_⟩
  have := Ds_monotone hU hpn (by omega) hl hm (fun i => along d (P.getD i ⟨0, 0, 0⟩)) hd hv' hvw hw'
  unfold along at this
  rwa [Ds_along hok d _ _ _ ⟨hv', hvw.trans hw'⟩, Ds_along hok d _ _ _ ⟨hv'.trans hvw, hw'⟩] at this

/-- C111: a polyline through points of the curve is not longer than the control polygon -/
theorem C111_length : ∃ f : ℝ → R3.Vector ℝ,
    (∀ u : ℝ, U.getD p 0 ≤ u → u ≤ U.getD (n+1) 0 → ∀ fuel, n + 1 - p ≤ fuel → curvePoint fuel n p U P u = .ok (f u)) ∧
    ∀ (m : ℕ) (t : ℕ → ℝ), (∀ j < m, t j ≤ t (j+1)) → U.getD p 0 ≤ t 0 → t m ≤ U.getD (n+1) 0 →
      ∑ j ∈ Finset.range m, R3.Distance (f (t j)) (f (t (j+1))) ≤ ∑ i ∈ Finset.range n, R3.Distance (P.getD i ⟨0, 0, 0⟩) (P.getD (i+1) ⟨0, 0, 0⟩) := by
  obtain ⟨p, rfl⟩ : ∃ r, p = r + 1 := ⟨p - 1, by omega⟩
  have hl : knot ℝ U n < knot ℝ U (n+1) := by unfold knot; exact_mod_cast hlast
  have hmu : MultLE (knot ℝ U) n (p+1) (p+1) := by
    intro j hj h1 h2
    unfold knot at h1 h2 ⊢
    exact_mod_cast hmul j hj (by exact_mod_cast h1) (by exact_mod_cast h2)
  refine ⟨splinePoint n (p+1) U P, fun u h1 h2 fuel hf => curve_spline hU hpn hlen hl P hP ⟨h1, h2⟩ fuel hf, fun m t ht h0 hm => ?_⟩
  have h0 : knot ℝ U (p+1) ≤ t 0 := h0
  have hm : t m ≤ knot ℝ U (n+1) := hm
  have mono : ∀ a b, a ≤ b → b ≤ m → t a ≤ t b := by
    intro a b hab
    induction b, hab using Nat.le_induction with
    | base => intro _; exact le_rfl
    | succ b _ ihb => intro hb; exact (ihb (by omega)).trans (ht b (by omega))
  have dom : ∀ j ≤ m, t j ∈ Set.Icc (knot ℝ U (p+1)) (knot ℝ U (n+1)) := fun j hj => ⟨h0.trans (mono 0 j (by omega) hj), (mono j m hj le_rfl).trans hm⟩
  let S : ℕ → ℝ → ℝ := fun i u => Ds (knot ℝ U) n (p+1) (stepFrom i) 0 u
  have Smono : ∀ i, ∀ j < m, 0 ≤ S i (t (j+1)) - S i (t j) := by
    intro i j hj
    refine sub_nonneg.mpr (Ds_monotone hU hpn (by omega) hl hmu (stepFrom i) (fun a _ => ?_) (dom j hj.le).1 (ht j hj) (dom (j+1) hj).2)
    unfold stepFrom
    split <;> split <;> first | omega | norm_num
  have one : ∀ j < m, R3.Distance (splinePoint n (p+1) U P (t j)) (splinePoint n (p+1) U P (t (j+1))) ≤
      ∑ i ∈ Finset.range n, (S i (t (j+1)) - S i (t j)) * R3.Distance (P.getD i ⟨0, 0, 0⟩) (P.getD (i+1) ⟨0, 0, 0⟩) := by
    intro j hj
    have ab : ∀ c : ℕ → ℝ, Ds (knot ℝ U) n (p+1) c 0 (t (j+1)) = Ds (knot ℝ U) n (p+1) c 0 (t j) + ∑ i ∈ Finset.range n, (c (i+1) - c i) * (S i (t (j+1)) - S i (t j)) := by
      intro c
      rw [Ds_abel hU hpn hlen hl c (dom (j+1) hj), Ds_abel hU hpn hlen hl c (dom j hj.le), add_assoc, ← Finset.sum_add_distrib]
      congr 1
      apply Finset.sum_congr rfl; intro i _; simp only [S]; ring
    have e : splinePoint n (p+1) U P (t (j+1)) = ⟨(splinePoint n (p+1) U P (t j)).X + ∑ i ∈ Finset.range n, ((P.getD (i+1) ⟨0, 0, 0⟩).X - (P.getD i ⟨0, 0, 0⟩).X) * (S i (t (j+1)) - S i (t j)),
        (splinePoint n (p+1) U P (t j)).Y + ∑ i ∈ Finset.range n, ((P.getD (i+1) ⟨0, 0, 0⟩).Y - (P.getD i ⟨0, 0, 0⟩).Y) * (S i (t (j+1)) - S i (t j)),
        (splinePoint n (p+1) U P (t j)).Z + ∑ i ∈ Finset.range n, ((P.getD (i+1) ⟨0, 0, 0⟩).Z - (P.getD i ⟨0, 0, 0⟩).Z) * (S i (t (j+1)) - S i (t j))⟩ := by
      unfold splinePoint
      simp only [ab]
    rw [e]
    exact chain_length _ (fun i => ⟨(P.getD (i+1) ⟨0, 0, 0⟩).X - (P.getD i ⟨0, 0, 0⟩).X, (P.getD (i+1) ⟨0, 0, 0⟩).Y - (P.getD i ⟨0, 0, 0⟩).Y,
      (P.getD (i+1) ⟨0, 0, 0⟩).Z - (P.getD i ⟨0, 0, 0⟩).Z⟩) (fun i => S i (t (j+1)) - S i (t j)) _ (fun i => Smono i j hj) (fun i => by
        rw [Distance_eq_euclid]; unfold euclid; congr 1; ring) n
  calc _ ≤ ∑ j ∈ Finset.range m, ∑ i ∈ Finset.range n, (S i (t (j+1)) - S i (t j)) * R3.Distance (P.getD i ⟨0, 0, 0⟩) (P.getD (i+1) ⟨0, 0, 0⟩) :=
        Finset.sum_le_sum fun j hj => one j (Finset.mem_range.mp hj)
    _ = ∑ i ∈ Finset.range n, (S i (t m) - S i (t 0)) * R3.Distance (P.getD i ⟨0, 0, 0⟩) (P.getD (i+1) ⟨0, 0, 0⟩) := by
        rw [Finset.sum_comm]
        apply Finset.sum_congr rfl
        intro i _
        rw [← Finset.sum_mul, Finset.sum_range_sub (fun j => S i (t j))]
    _ ≤ _ := by
        apply Finset.sum_le_sum
        intro i _
        have b1 := (Ds_step hU hpn hlen hl i (dom m le_rfl)).2
        have b2 := (Ds_step hU hpn hlen hl i (dom 0 (by omega))).1
        exact mul_le_of_le_one_left (C03_metric (P.getD i ⟨0, 0, 0⟩) _ _).2.2.1 (by simp only [S]; linarith)

end

/-- C111: the curve on a span determines the control points of the span -/
theorem C111_unique (n p k : ℕ) (U : List Int) (P P' : List (R3.Vector ℝ)) (hU : Nondec U) (hpk : p ≤ k) (hkn : k ≤ n) (hlen : n + p + 1 < U.length)
    (hlast : U.getD n 0 < U.getD (n+1) 0) (hk : U.getD k 0 < U.getD (k+1) 0) (hP : n < P.length) (hP' : n < P'.length) (fuel : ℕ) (hf : n + 1 - p ≤ fuel)
    (same : ∀ u : ℝ, U.getD k 0 < u → u < U.getD (k+1) 0 → curvePoint fuel n p U P u = curvePoint fuel n p U P' u) :
    ∀ i, k - p ≤ i → i ≤ k → P[i]? = P'[i]? := by
  have hl : knot ℝ U n < knot ℝ U (n+1) := by unfold knot; exact_mod_cast hlast
  have hk' : knot ℝ U k < knot ℝ U (k+1) := by unfold knot; exact_mod_cast hk
  have hpn : p ≤ n := hpk.trans hkn
  have hok := spline_ok hU hpn hlen hl
  have eq : ∀ u ∈ Set.Ioo (knot ℝ U k) (knot ℝ U (k+1)), splinePoint n p U P u = splinePoint n p U P' u := by
    intro u hu
    have dom : u ∈ Set.Icc (knot ℝ U p) (knot ℝ U (n+1)) := ⟨(knot_mono U hU p k hpk (by omega)).trans hu.1.le, hu.2.le.trans (knot_mono U hU (k+1) (n+1) (by omega) (by omega))⟩
    have := same u hu.1 hu.2
    rw [curve_spline hU hpn hlen hl P hP dom fuel hf, curve_spline hU hpn hlen hl P' hP' dom fuel hf] at this
    exact Res.ok.inj this
  have key : ∀ c c' : ℕ → ℝ, (∀ u ∈ Set.Ioo (knot ℝ U k) (knot ℝ U (k+1)), Ds (knot ℝ U) n p c 0 u = Ds (knot ℝ U) n p c' 0 u) → ∀ i, k - p ≤ i → i ≤ k → c i = c' i := by
    intro c c' h i h1 h2
    have := pieces_independent hU p n k (fun i => c i - c' i) hpk hkn hlen hk' (fun u hu => ?_) i h1 h2
    · linarith
    · have sp : Sp (knot ℝ U) n p u k := ⟨hpk, hkn, hk', hu.1.le, Or.inl hu.2⟩
      have e := h u hu
      rw [Ds_eq hok.mono' _ 0 sp, Ds_eq hok.mono' _ 0 sp] at e
      unfold Qs at e ⊢
      simp only [mul_sub, Finset.sum_sub_distrib]
      linarith
  intro i h1 h2
  have a : i < P.length := by omega
  have b : i < P'.length := by omega
  have ex := key _ _ (fun u hu => congrArg R3.Vector.X (eq u hu)) i h1 h2
  have ey := key _ _ (fun u hu => congrArg R3.Vector.Y (eq u hu)) i h1 h2
  have ez := key _ _ (fun u hu => congrArg R3.Vector.Z (eq u hu)) i h1 h2
  simp only [List.getD_eq_getElem?_getD, List.getElem?_eq_getElem a, List.getElem?_eq_getElem b, Option.getD_some] at ex ey ez
  rw [List.getElem?_eq_getElem a, List.getElem?_eq_getElem b]
  congr 1
  cases h : P[i]; cases h' : P'[i]
  rw [h, h'] at ex ey ez
  simp only at ex ey ez
  rw [ex, ey, ez]

/-- C111: if every control point belongs to a span that is not empty, the whole curve determines all control points -/
theorem C111_all (n p : ℕ) (U : List Int) (P P' : List (R3.Vector ℝ)) (hU : Nondec U) (hlen : n + p + 1 < U.length)
    (hlast : U.getD n 0 < U.getD (n+1) 0) (hP : P.length = n + 1) (hP' : P'.length = n + 1) (fuel : ℕ) (hf : n + 1 - p ≤ fuel)
    (hspan : ∀ i ≤ n, ∃ k, p ≤ k ∧ k ≤ n ∧ i ≤ k ∧ k ≤ i + p ∧ U.getD k 0 < U.getD (k+1) 0)
    (same : ∀ u : ℝ, U.getD p 0 ≤ u → u ≤ U.getD (n+1) 0 → curvePoint fuel n p U P u = curvePoint fuel n p U P' u) : P = P' := by
  apply List.ext_getElem?
  intro i
  by_cases hi : i ≤ n
  · obtain ⟨k, h1, h2, h3, h4, h5⟩ := hspan i hi
    refine C111_unique n p k U P P' hU h1 h2 hlen hlast h5 (by omega) (by omega) fuel hf (fun u a b => same u ?_ ?_) i (by omega) h3
    · have := hU p k h1 (by omega)
      have : ((U.getD p 0 : ℤ) : ℝ) ≤ (U.getD k 0 : ℤ) := by exact_mod_cast this
      linarith
    · have := hU (k+1) (n+1) (by omega) (by omega)
      have : ((U.getD (k+1) 0 : ℤ) : ℝ) ≤ (U.getD (n+1) 0 : ℤ) := by exact_mod_cast this
      linarith
  · rw [List.getElem?_eq_none (by omega), List.getElem?_eq_none (by omega)]

/-! ## Concrete cases -/

theorem para_knots : Nondec [0, 0, 0, 1, 1, 1] := by
  unfold Nondec; intro i j hij hj; simp at hj; interval_cases j <;> interval_cases i <;> decide

/-- a parabola that goes to the right all the time -/
example (v w : ℝ) (hv : 0 ≤ v) (hvw : v ≤ w) (hw : w ≤ 1) : ∃ a b, curvePoint 1 2 2 [0, 0, 0, 1, 1, 1] [⟨0, 0, 0⟩, ⟨1, 5, 0⟩, ⟨3, 1, 0⟩] v = .ok a ∧
    curvePoint 1 2 2 [0, 0, 0, 1, 1, 1] [⟨0, 0, 0⟩, ⟨1, 5, 0⟩, ⟨3, 1, 0⟩] w = .ok b ∧ a.X ≤ b.X := by
  obtain ⟨a, b, h1, h2, h3⟩ := C111_monotone 2 2 [0, 0, 0, 1, 1, 1] [⟨0, 0, 0⟩, ⟨1, 5, 0⟩, ⟨3, 1, 0⟩] para_knots (by norm_num) (by norm_num) (by decide) (by decide)
    (by simp) (by decide) ⟨1, 0, 0⟩ (by intro i hi; interval_cases i <;> norm_num [along]) 1 (by norm_num) v w (by simpa using hv) hvw (by simpa using hw)
  exact ⟨a, b, h1, h2, by simpa [along] using h3⟩

/-- the chord of a parabola is shorter than its control polygon -/
example : ∃ f : ℝ → R3.Vector ℝ, (∀ u : ℝ, 0 ≤ u → u ≤ 1 → curvePoint 1 2 2 [0, 0, 0, 1, 1, 1] [⟨0, 0, 0⟩, ⟨1, 5, 0⟩, ⟨3, 1, 0⟩] u = .ok (f u)) ∧
    R3.Distance (f 0) (f (1/2)) + R3.Distance (f (1/2)) (f 1) ≤ R3.Distance (⟨0, 0, 0⟩ : R3.Vector ℝ) ⟨1, 5, 0⟩ + R3.Distance (⟨1, 5, 0⟩ : R3.Vector ℝ) ⟨3, 1, 0⟩ := by
  obtain ⟨f, h1, h2⟩ := C111_length 2 2 [0, 0, 0, 1, 1, 1] [⟨0, 0, 0⟩, ⟨1, 5, 0⟩, ⟨3, 1, 0⟩] para_knots (by norm_num) (by norm_num) (by decide) (by decide) (by simp) (by decide)
  refine ⟨f, fun u a b => h1 u (by simpa using a) (by simpa using b) 1 (by norm_num), ?_⟩
  have := h2 2 (fun j => j / 2) (by intro j _; push_cast; linarith) (by simp) (by simp)
  simp only [Finset.sum_range_succ, Finset.range_zero, Finset.sum_empty, zero_add] at this
  norm_num at this
  simpa using this

/-- two parabolas that are the same curve have the same control points -/
example (P P' : List (R3.Vector ℝ)) (h : P.length = 3) (h' : P'.length = 3)
    (same : ∀ u : ℝ, 0 ≤ u → u ≤ 1 → curvePoint 1 2 2 [0, 0, 0, 1, 1, 1] P u = curvePoint 1 2 2 [0, 0, 0, 1, 1, 1] P' u) : P = P' :=
  C111_all 2 2 [0, 0, 0, 1, 1, 1] P P' para_knots (by decide) (by decide) h h' 1 (by norm_num)
    (fun i _ => ⟨2, by norm_num, by norm_num, by omega, by omega, by decide⟩) (fun u a b => same u (by simpa using a) (by simpa using b))

end Verif.Props
