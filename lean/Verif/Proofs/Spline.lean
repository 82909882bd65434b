import Verif.Spec.BSpline
import Mathlib.Analysis.Calculus.Deriv.Mul
import Mathlib.Analysis.Calculus.Deriv.Add
import Mathlib.Analysis.Calculus.IteratedDeriv.Defs
import Mathlib.Analysis.Calculus.ContDiff.Basic
/-!
# How the polynomial pieces of a B-spline meet at a knot

The pieces of two neighbouring nonempty spans have the same derivatives at the knot between them, up to the order degree minus multiplicity. From that a
spline function is continuously differentiable up to that order.
-/
namespace Verif.Proofs
open Verif.Spec
open scoped Topology

/-- the `s`-th derivative of the piece, by the usual recursion -/
noncomputable def dpiece (U : ℕ → ℝ) (k : ℕ) : ℕ → ℕ → ℕ → ℝ → ℝ
  | 0, p, i, u => piece U k p i u
  | _+1, 0, _, _ => 0
  | s+1, p+1, i, u => (p+1) * (dpiece U k s p i u / (U (i+p+1) - U i) - dpiece U k s p (i+1) u / (U (i+p+2) - U (i+1)))

/-- derivative of a basis function -/
theorem piece_deriv (U : ℕ → ℝ) (k p i : ℕ) (u : ℝ) (hm : MonoOn U i (i+p+1)) :
    HasDerivAt (piece U k p i) (dpiece U k 1 p i u) u := by
  induction p generalizing i with
  | zero =>
    simp only [dpiece]
    exact (hasDerivAt_const u (piece U k 0 i u)).congr_of_eventuallyEq (Filter.Eventually.of_forall fun v => by simp only [piece])
  | succ p ih =>
    have h1 := ih i (hm.mono (by omega) (by omega))
    have h2 := ih (i+1) (hm.mono (by omega) (by omega))
    have a1 : HasDerivAt (fun v : ℝ => (v - U i) / (U (i+p+1) - U i)) (1 / (U (i+p+1) - U i)) u :=
      ((hasDerivAt_id u).sub_const _).div_const _
    have a2 : HasDerivAt (fun v : ℝ => (U (i+p+2) - v) / (U (i+p+2) - U (i+1))) (-1 / (U (i+p+2) - U (i+1))) u :=
      ((hasDerivAt_id u).const_sub _).div_const _
    have h3 := (a1.mul h1).add (a2.mul h2)
    refine (h3.congr_of_eventuallyEq (Filter.Eventually.of_forall fun v => rfl)).congr_deriv ?_
    cases p with
    | zero => simp only [dpiece, piece]; push_cast; ring
    | succ p =>
      simp only [dpiece, piece]
      have m1 := hm i (i+1) (by omega) (by omega) (by omega)
      have m2 := hm (i+1) (i+p+2) (by omega) (by omega) (by omega)
      have m3 := hm (i+p+2) (i+p+3) (by omega) (by omega) (by omega)
      rw [show i + (p+1) + 1 = i+p+2 by omega, show i + (p+1) + 2 = i+p+3 by omega, show i+1+p+1 = i+p+2 by omega, show i+1+p+2 = i+p+3 by omega,
        show i+1+1 = i+2 by omega]
      generalize piece U k p i u = x
      generalize piece U k p (i+1) u = y
      generalize piece U k p (i+2) u = z
      push_cast
      by_cases e : U (i+p+2) - U (i+1) = 0
      · rw [e]; simp only [div_zero]; ring
      · have e1 : U (i+p+2) - U i ≠ 0 := by
          intro h; apply e; linarith
        have e2 : U (i+p+3) - U (i+1) ≠ 0 := by
          intro h; apply e; linarith
        by_cases e3 : U (i+p+1) - U i = 0
        · by_cases e4 : U (i+p+3) - U (i+2) = 0
          · rw [e3, e4]; simp only [div_zero]; field_simp; ring
          · rw [e3]; simp only [div_zero]; field_simp; ring
        · by_cases e4 : U (i+p+3) - U (i+2) = 0
          · rw [e4]; simp only [div_zero]; field_simp; ring
          · field_simp; ring

theorem dpiece_deriv (U : ℕ → ℝ) (k s p i : ℕ) (u : ℝ) (hm : MonoOn U i (i+p+1)) :
    HasDerivAt (dpiece U k s p i) (dpiece U k (s+1) p i u) u := by
  induction s generalizing p i with
  | zero => exact (piece_deriv U k p i u hm).congr_of_eventuallyEq (Filter.Eventually.of_forall fun v => by simp only [dpiece])
  | succ s ih =>
    cases p with
    | zero =>
      simp only [dpiece]
      exact hasDerivAt_const u (0:ℝ)
    | succ p =>
      have h1 := ih p i (hm.mono (by omega) (by omega))
      have h2 := ih p (i+1) (hm.mono (by omega) (by omega))
      have h3 := ((h1.div_const (U (i+p+1) - U i)).sub (h2.div_const (U (i+p+2) - U (i+1)))).const_mul ((p:ℝ)+1)
      refine (h3.congr_of_eventuallyEq (Filter.Eventually.of_forall fun v => ?_)).congr_deriv ?_
      · simp only [dpiece, Pi.sub_apply]
      · conv_rhs => unfold dpiece

/-- values at a knot, seen from the span before it, up to its multiplicity -/
theorem piece_before (U : ℕ → ℝ) (k m : ℕ) (t : ℝ) (h0 : U k < t) (he : ∀ j, k + 1 ≤ j → j ≤ k + m → U j = t) (q i : ℕ) (hq : q ≤ m) :
    piece U k q i t = if i = k then 1 else 0 := by
  induction q generalizing i with
  | zero => simp only [piece]
  | succ q ih =>
    simp only [piece]
    rw [ih i (by omega), ih (i+1) (by omega)]
    by_cases e : i = k
    · subst e
      rw [if_pos rfl, if_neg (by omega), he (i+q+1) (by omega) (by omega), div_self (by linarith)]
      ring
    · rw [if_neg e]
      by_cases e' : i + 1 = k
      · rw [if_pos e', he (i+q+2) (by omega) (by omega)]; ring
      · rw [if_neg e']; ring

/-- values at a knot, seen from the span after it -/
theorem piece_after (U : ℕ → ℝ) (k m : ℕ) (t : ℝ) (hmk : m ≤ k) (h0 : t < U (k+1)) (he : ∀ j, k + 1 - m ≤ j → j ≤ k → U j = t) (q i : ℕ) (hq : q ≤ m) :
    piece U k q i t = if i + q = k then 1 else 0 := by
  induction q generalizing i with
  | zero => simp only [piece, Nat.add_zero]
  | succ q ih =>
    simp only [piece]
    rw [ih i (by omega), ih (i+1) (by omega)]
    by_cases e : i + q = k
    · rw [if_pos e, if_neg (by omega), if_neg (by omega), he i (by omega) (by omega)]; ring
    · rw [if_neg e]
      by_cases e' : i + 1 + q = k
      · rw [if_pos e', if_pos (by omega), he (i+1) (by omega) (by omega), show i+q+2 = k+1 by omega, div_self (by linarith)]; ring
      · rw [if_neg e', if_neg (by omega)]; ring

/-- the pieces of two neighbouring spans have the same value at the knot between them, if its multiplicity is at most the degree -/
theorem piece_join (U : ℕ → ℝ) (k m : ℕ) (t : ℝ) (h0 : U k < t) (h1 : t < U (k+m+1)) (he : ∀ j, k + 1 ≤ j → j ≤ k + m → U j = t)
    (q i : ℕ) (hq : m ≤ q) : piece U k q i t = piece U (k+m) q i t := by
  obtain ⟨r, rfl⟩ := Nat.exists_eq_add_of_le hq
  induction r generalizing i with
  | zero =>
    rw [Nat.add_zero, piece_before U k m t h0 he m i le_rfl, piece_after U (k+m) m t (by omega) h1 (fun j a b => he j (by omega) b) m i le_rfl]
    simp only [Nat.add_right_cancel_iff]
  | succ r ih =>
    rw [show m + (r+1) = (m+r)+1 by omega]
    simp only [piece]
    rw [ih i (by omega), ih (i+1) (by omega)]

/-- the same for the derivatives -/
theorem dpiece_join (U : ℕ → ℝ) (k m : ℕ) (t : ℝ) (h0 : U k < t) (h1 : t < U (k+m+1)) (he : ∀ j, k + 1 ≤ j → j ≤ k + m → U j = t)
    (s q i : ℕ) (hq : m + s ≤ q) : dpiece U k s q i t = dpiece U (k+m) s q i t := by
  induction s generalizing q i with
  | zero => simp only [dpiece]; exact piece_join U k m t h0 h1 he q i (by omega)
  | succ s ih =>
    cases q with
    | zero => omega
    | succ q =>
      simp only [dpiece]
      rw [ih q i (by omega), ih q (i+1) (by omega)]

/-! ## Spline functions -/

/-- the span of a parameter, closed at the end of the domain -/
def Sp (U : ℕ → ℝ) (n p : ℕ) (u : ℝ) (k : ℕ) : Prop :=
  p ≤ k ∧ k ≤ n ∧ U k < U (k+1) ∧ U k ≤ u ∧ (u < U (k+1) ∨ k = n ∧ u = U (n+1))

theorem sp_unique {U : ℕ → ℝ} {n p : ℕ} (hm : MonoOn U 0 (n+1)) {u : ℝ} {k k' : ℕ} (h : Sp U n p u k) (h' : Sp U n p u k') : k = k' := by
  have key : ∀ {k k'}, Sp U n p u k → Sp U n p u k' → ¬ k < k' := by
    rintro k k' ⟨a1, a2, a3, a4, a5⟩ ⟨b1, b2, b3, b4, b5⟩ hlt
    have m1 := hm (k+1) k' (by omega) (by omega) (by omega)
    rcases a5 with a5 | ⟨rfl, a5⟩
    · linarith
    · omega
  rcases Nat.lt_trichotomy k k' with g | g | g
  · exact absurd g (key h h')
  · exact g
  · exact absurd g (key h' h)

/-- the `s`-th derivative on span `k` of the spline with coefficients `c` -/
noncomputable def Qs (U : ℕ → ℝ) (n p : ℕ) (c : ℕ → ℝ) (s k : ℕ) (u : ℝ) : ℝ := ∑ i ∈ Finset.range (n+1), dpiece U k s p i u * c i

theorem Qs_deriv {U : ℕ → ℝ} {n p : ℕ} (hm : MonoOn U 0 (n+p+1)) (c : ℕ → ℝ) (s k : ℕ) (u : ℝ) :
    HasDerivAt (Qs U n p c s k) (Qs U n p c (s+1) k u) u := by
  unfold Qs
  refine (HasDerivAt.fun_sum (u := Finset.range (n+1)) (A := fun i v => dpiece U k s p i v * c i) fun i hi => ?_)
  have := Finset.mem_range.mp hi
  exact (dpiece_deriv U k s p i u (hm.mono (by omega) (by omega))).mul_const _

open Classical in
/-- the `s`-th derivative of the spline -/
noncomputable def Ds (U : ℕ → ℝ) (n p : ℕ) (c : ℕ → ℝ) (s : ℕ) (u : ℝ) : ℝ :=
  if h : ∃ k, Sp U n p u k then Qs U n p c s h.choose u else 0

theorem Ds_eq {U : ℕ → ℝ} {n p : ℕ} (hm : MonoOn U 0 (n+1)) (c : ℕ → ℝ) (s : ℕ) {u : ℝ} {k : ℕ} (h : Sp U n p u k) :
    Ds U n p c s u = Qs U n p c s k u := by
  have hex : ∃ k, Sp U n p u k := ⟨k, h⟩
  unfold Ds
  rw [dif_pos hex, sp_unique hm hex.choose_spec h]

/-- the knot vector: nondecreasing, the last span not empty -/
structure SplineOK (U : ℕ → ℝ) (n p : ℕ) : Prop where
  mono : MonoOn U 0 (n+p+1)
  deg : p ≤ n
  last : U n < U (n+1)

theorem SplineOK.mono' {U : ℕ → ℝ} {n p : ℕ} (h : SplineOK U n p) : MonoOn U 0 (n+1) := h.mono.mono le_rfl (by omega)

theorem SplineOK.span {U : ℕ → ℝ} {n p : ℕ} (h : SplineOK U n p) {u : ℝ} (hu : u ∈ Set.Icc (U p) (U (n+1))) : ∃ k, Sp U n p u k := by
  rcases hu.2.lt_or_eq with hlt | heq
  · classical
    have hp : U p ≤ u := hu.1
    let k := Nat.findGreatest (fun j => U j ≤ u) n
    have hk : U k ≤ u := Nat.findGreatest_spec (P := fun j => U j ≤ u) h.deg hp
    have hpk : p ≤ k := Nat.le_findGreatest h.deg hp
    have hkn : k ≤ n := Nat.findGreatest_le n
    have hlt' : u < U (k+1) := by
      rcases Nat.lt_or_eq_of_le hkn with g | g
      · have := Nat.findGreatest_is_greatest (P := fun j => U j ≤ u) (n := n) (k := k+1) (Nat.lt_succ_self _) g
        exact not_le.mp this
      · rw [g]; exact hlt
    exact ⟨k, hpk, hkn, lt_of_le_of_lt hk hlt', hk, Or.inl hlt'⟩
  · exact ⟨n, h.deg, le_rfl, h.last, by rw [heq]; exact h.last.le, Or.inr ⟨rfl, heq⟩⟩

/-- interior knots have multiplicity at most `q` -/
def MultLE (U : ℕ → ℝ) (n p q : ℕ) : Prop := ∀ j ≤ n, U p < U j → U j < U (n+1) → U j < U (j+q)

/-- the piece to the left of a parameter that is not the first one -/
theorem left_piece {U : ℕ → ℝ} {n p q : ℕ} (h : SplineOK U n p) (hq : q ≤ p) (hmul : MultLE U n p q) {u : ℝ} (hu : u ∈ Set.Icc (U p) (U (n+1))) (h0 : U p < u)
    (c : ℕ → ℝ) : ∃ k, U k < u ∧ (∀ v, U k ≤ v → v < u → Sp U n p v k) ∧ ∀ s, q + s ≤ p → Qs U n p c s k u = Ds U n p c s u := by
  classical
  obtain ⟨k, hk⟩ := h.span hu
  have hk' := hk
  obtain ⟨a1, a2, a3, a4, a5⟩ := hk'
  let j := Nat.findGreatest (fun j => U j < u) k
  have hj : U j < u := Nat.findGreatest_spec (P := fun j => U j < u) a1 h0
  have hpj : p ≤ j := Nat.le_findGreatest a1 h0
  have hjk : j ≤ k := Nat.findGreatest_le k
  rcases Nat.lt_or_eq_of_le hjk with g | g
  · have hgr : ∀ i, j < i → i ≤ k → U i = u := by
      intro i h1 h2
      have := not_lt.mp (Nat.findGreatest_is_greatest (P := fun j => U j < u) h1 h2)
      have := h.mono i k (by omega) h2 (by omega)
      linarith
    have e1 := hgr (j+1) (by omega) (by omega)
    have hub : u < U (k+1) := by rw [← hgr k g le_rfl]; exact a3
    refine ⟨j, hj, fun v hv hv' => ⟨hpj, by omega, by rw [e1]; exact hj, hv, Or.inl (by rw [e1]; exact hv')⟩, fun s hs => ?_⟩
    rw [Ds_eq h.mono' c s hk]
    have hm : k - j ≤ q := by
      by_contra hc
      have hb := h.mono (k+1) (n+1) (by omega) (by omega) (by omega)
      have := hmul (j+1) (by omega) (by rw [e1]; exact h0) (by rw [e1]; linarith)
      rw [e1, hgr (j+1+q) (by omega) (by omega)] at this
      exact lt_irrefl _ this
    unfold Qs
    apply Finset.sum_congr rfl
    intro i _
    have e2 : j + (k - j) = k := by omega
    have := dpiece_join U j (k-j) u hj (by rw [e2]; exact hub) (fun i h1 h2 => hgr i (by omega) (by omega)) s p i (by omega)
    rw [this, e2]
  · refine ⟨k, by rw [← g]; exact hj, fun v hv hv' => ⟨a1, a2, a3, hv, Or.inl ?_⟩, fun s _ => (Ds_eq h.mono' c s hk).symm⟩
    rcases a5 with a5 | ⟨rfl, a5⟩
    · linarith
    · linarith

theorem Ds_eventually {U : ℕ → ℝ} {n p q : ℕ} (h : SplineOK U n p) (hq : q ≤ p) (hmul : MultLE U n p q) {u : ℝ} (hu : u ∈ Set.Icc (U p) (U (n+1)))
    (c : ℕ → ℝ) : ∃ k k', (∀ s, q + s ≤ p → Ds U n p c s =ᶠ[𝓝[Set.Iic u ∩ Set.Icc (U p) (U (n+1))] u] Qs U n p c s k) ∧
      (∀ s, Ds U n p c s =ᶠ[𝓝[Set.Ici u ∩ Set.Icc (U p) (U (n+1))] u] Qs U n p c s k') ∧
      (∀ s, q + s ≤ p → Qs U n p c s k u = Ds U n p c s u) ∧ ∀ s, Qs U n p c s k' u = Ds U n p c s u := by
  obtain ⟨k', hk'⟩ := h.span hu
  have hk'' := hk'
  obtain ⟨a1, a2, a3, a4, a5⟩ := hk''
  have right : ∀ s, Ds U n p c s =ᶠ[𝓝[Set.Ici u ∩ Set.Icc (U p) (U (n+1))] u] Qs U n p c s k' := by
    intro s
    rcases a5 with a5 | ⟨e, a5⟩
    · have : Set.Iio (U (k'+1)) ∈ 𝓝 u := Iio_mem_nhds a5
      filter_upwards [self_mem_nhdsWithin, mem_nhdsWithin_of_mem_nhds this] with v hv hv'
      exact Ds_eq h.mono' c s ⟨a1, a2, a3, a4.trans hv.1, Or.inl hv'⟩
    · filter_upwards [self_mem_nhdsWithin] with v hv
      have : v = u := le_antisymm (by rw [a5]; exact hv.2.2) hv.1
      rw [this]
      exact Ds_eq h.mono' c s hk'
  rcases hu.1.lt_or_eq with h0 | h0
  · obtain ⟨k, b1, b2, b3⟩ := left_piece h hq hmul hu h0 c
    refine ⟨k, k', fun s hs => ?_, right, b3, fun s => (Ds_eq h.mono' c s hk').symm⟩
    filter_upwards [self_mem_nhdsWithin, mem_nhdsWithin_of_mem_nhds (Ioi_mem_nhds b1)] with v hv hv'
    rcases (show v ≤ u from hv.1).lt_or_eq with g | g
    · exact Ds_eq h.mono' c s (b2 v (le_of_lt hv') g)
    · rw [g, b3 s hs]
  · refine ⟨k', k', fun s _ => ?_, right, fun s _ => (Ds_eq h.mono' c s hk').symm, fun s => (Ds_eq h.mono' c s hk').symm⟩
    filter_upwards [self_mem_nhdsWithin] with v hv
    have : v = u := le_antisymm hv.1 (by rw [← h0]; exact hv.2.1)
    rw [this]
    exact Ds_eq h.mono' c s hk'

theorem split_Icc (a b u : ℝ) : Set.Icc a b = (Set.Iic u ∩ Set.Icc a b) ∪ (Set.Ici u ∩ Set.Icc a b) := by
  ext v
  simp only [Set.mem_union, Set.mem_inter_iff, Set.mem_Iic, Set.mem_Ici]
  constructor
  · intro hv; rcases le_total v u with g | g
    · exact Or.inl ⟨g, hv⟩
    · exact Or.inr ⟨g, hv⟩
  · rintro (h | h) <;> exact h.2

theorem Ds_deriv {U : ℕ → ℝ} {n p q : ℕ} (h : SplineOK U n p) (hq : q ≤ p) (hmul : MultLE U n p q) {u : ℝ} (hu : u ∈ Set.Icc (U p) (U (n+1)))
    (c : ℕ → ℝ) (s : ℕ) (hs : q + s + 1 ≤ p) : HasDerivWithinAt (Ds U n p c s) (Ds U n p c (s+1) u) (Set.Icc (U p) (U (n+1))) u := by
  obtain ⟨k, k', e1, e2, e3, e4⟩ := Ds_eventually h hq hmul hu c
  have d1 := (Qs_deriv h.mono c s k u).hasDerivWithinAt (s := Set.Iic u ∩ Set.Icc (U p) (U (n+1)))
  have d2 := (Qs_deriv h.mono c s k' u).hasDerivWithinAt (s := Set.Ici u ∩ Set.Icc (U p) (U (n+1)))
  rw [e3 (s+1) (by omega)] at d1
  rw [e4 (s+1)] at d2
  have f1 := d1.congr_of_eventuallyEq (e1 s (by omega)) (e3 s (by omega)).symm
  have f2 := d2.congr_of_eventuallyEq (e2 s) (e4 s).symm
  have := f1.union f2
  rwa [← split_Icc] at this

theorem Ds_continuous {U : ℕ → ℝ} {n p q : ℕ} (h : SplineOK U n p) (hq : q ≤ p) (hmul : MultLE U n p q)
    (c : ℕ → ℝ) (s : ℕ) (hs : q + s ≤ p) : ContinuousOn (Ds U n p c s) (Set.Icc (U p) (U (n+1))) := by
  intro u hu
  obtain ⟨k, k', e1, e2, e3, e4⟩ := Ds_eventually h hq hmul hu c
  have d1 := (Qs_deriv h.mono c s k u).continuousAt.continuousWithinAt (s := Set.Iic u ∩ Set.Icc (U p) (U (n+1)))
  have d2 := (Qs_deriv h.mono c s k' u).continuousAt.continuousWithinAt (s := Set.Ici u ∩ Set.Icc (U p) (U (n+1)))
  have f1 := d1.congr_of_eventuallyEq (e1 s hs) (e3 s hs).symm
  have f2 := d2.congr_of_eventuallyEq (e2 s) (e4 s).symm
  have := f1.union f2
  rwa [← split_Icc] at this

theorem SplineOK.lt {U : ℕ → ℝ} {n p : ℕ} (h : SplineOK U n p) : U p < U (n+1) :=
  lt_of_le_of_lt (h.mono p n (by omega) h.deg (by omega)) h.last

/-- a spline whose interior knots have multiplicity at most `q` is of class `C^(p-q)` on its domain -/
theorem Ds_smooth {U : ℕ → ℝ} {n p q : ℕ} (h : SplineOK U n p) (hq : q ≤ p) (hmul : MultLE U n p q) (c : ℕ → ℝ) :
    ContDiffOn ℝ ((p - q : ℕ) : ℕ∞) (Ds U n p c 0) (Set.Icc (U p) (U (n+1))) := by
  have hU := uniqueDiffOn_Icc h.lt
  have it : ∀ s, q + s ≤ p → Set.EqOn (iteratedDerivWithin s (Ds U n p c 0) (Set.Icc (U p) (U (n+1)))) (Ds U n p c s) (Set.Icc (U p) (U (n+1))) := by
    intro s
    induction s with
    | zero => intro _ u _; rw [iteratedDerivWithin_zero]
    | succ s ih =>
      intro hs u hu
      rw [iteratedDerivWithin_succ, derivWithin_congr (ih (by omega)) (ih (by omega) hu)]
      exact (Ds_deriv h hq hmul hu c s (by omega)).derivWithin (hU u hu)
  apply contDiffOn_of_continuousOn_differentiableOn_deriv
  · intro s hs
    have hs' : s ≤ p - q := by exact_mod_cast hs
    exact (Ds_continuous h hq hmul c s (by omega)).congr (it s (by omega))
  · intro s hs
    have hs' : s < p - q := by exact_mod_cast hs
    have : DifferentiableOn ℝ (Ds U n p c s) (Set.Icc (U p) (U (n+1))) :=
      fun u hu => (Ds_deriv h hq hmul hu c s (by omega)).differentiableWithinAt
    exact this.congr (it s (by omega))

end Verif.Proofs
