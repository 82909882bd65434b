import Verif.Props.FusedNurbs
import Verif.Props.Smooth
/-!
# C121: what of the geometry of a B-spline curve holds for the computed points

C80 shows that at float64 the curve leaves the hull of its control points and does not start at the first one. Here it is proved how far these and
the other properties of C45 and C107 fail at most, however the products are fused, with `err p M = (12 p + 4) / 2^53 * M` for coordinates up to `M`.
-/
namespace Verif.Props
open Verif Verif.Nurbs Verif.Spec Verif.F64 Verif.Proofs
open Verif.Tri2 (lf)

/-- knots, control points and parameter: the hypotheses of C80 -/
structure CurveF (n p : ℕ) (U : List Int) (P : List (R3.Vector F64)) (u : F64) (M : ℚ) : Prop where
  fit : ∀ k ∈ U, |k| ≤ 2 ^ 53
  fin : u.Finite
  ok : CurveOK n p U u.toQ
  pts : n < P.length
  deg : p ≤ 200
  lo : 1 / 2 ^ 400 ≤ M
  hi : M ≤ 2 ^ 190
  bound : ∀ v ∈ P, v.X.Finite ∧ v.Y.Finite ∧ v.Z.Finite ∧ |v.X.toQ| ≤ M ∧ |v.Y.toQ| ≤ M ∧ |v.Z.toQ| ≤ M

/-- `v` is a curve point that a program may compute, with some products fused -/
def Computes (fuel : ℕ) (n p : Int) (U : List Int) (P : List (R3.Vector F64)) (u : F64) (v : R3.Vector F64) : Prop :=
  ∃ C, curveExpr fuel n p U P u = .ok C ∧ Ev C.X v.X ∧ Ev C.Y v.Y ∧ Ev C.Z v.Z

def err (p : ℕ) (M : ℚ) : ℚ := (12 * p + 4) / 2 ^ 53 * M

/-- C121: the point computed with nothing fused is one of them -/
theorem C121_plain {fuel : ℕ} {n p : Int} {U : List Int} {P : List (R3.Vector F64)} {u : F64} {v : R3.Vector F64} (h : curvePoint fuel n p U P u = .ok v) :
    Computes fuel n p U P u v := by
  rw [C120_plain] at h
  obtain ⟨C, e, rfl⟩ := map'_eq_ok h
  exact ⟨C, e, .eval _, .eval _, .eval _⟩

/-- C121: so is the one with everything fused -/
theorem C121_fused {fuel : ℕ} {n p : Int} {U : List Int} {P : List (R3.Vector F64)} {u : F64} {C : R3.Vector (Expr F64)} (h : curveExpr fuel n p U P u = .ok C) :
    Computes fuel n p U P u ⟨C.X.fuse, C.Y.fuse, C.Z.fuse⟩ := ⟨C, h, .fuse _, .fuse _, .fuse _⟩

section
variable {n p : ℕ} {U : List Int} {P : List (R3.Vector F64)} {u : F64} {M : ℚ} (H : CurveF n p U P u M) {fuel : ℕ} (hf : n + 1 - p ≤ fuel)
include H hf

/-- C121: there is a computed point -/
theorem C121_exists : ∃ v, curvePoint fuel n p U P u = .ok v ∧ Computes fuel n p U P u v := by
  obtain ⟨C, _, e, _⟩ := C80_curve n p U H.fit P u H.fin H.ok H.pts H.deg H.lo H.hi H.bound fuel hf
  exact ⟨C, e, C121_plain e⟩

theorem computes_near {v : R3.Vector F64} (hv : Computes fuel n p U P u v) {E : R3.Vector ℚ}
    (hE : curvePoint fuel n p U (P.map exactV) u.toQ = .ok E) :
    |v.X.toQ - E.X| ≤ err p M ∧ |v.Y.toQ - E.Y| ≤ err p M ∧ |v.Z.toQ - E.Z| ≤ err p M := by
  obtain ⟨C, E', e, e', hX, hY, hZ⟩ := C120_curve n p U H.fit P u H.fin H.ok H.pts H.deg H.lo H.hi H.bound fuel hf
  obtain ⟨C', e2, h1, h2, h3⟩ := hv
  rw [e] at e2
  obtain rfl := Res.ok.inj e2
  rw [hE] at e'
  obtain rfl := Res.ok.inj e'
  exact ⟨(hX _ h1).2, (hY _ h2).2, (hZ _ h3).2⟩

theorem exact_point : ∃ k, IsSpan n p U u.toQ k ∧ curvePoint fuel n p U (P.map exactV) u.toQ =
    .ok (comb p (fun r => piece (knot ℚ U) k p (k-p+r) u.toQ) fun r => (P.map exactV).getD (k-p+r) ⟨0, 0, 0⟩) :=
  C45_formula n p U (P.map exactV) u.toQ H.ok (by simpa using H.pts) fuel hf

/-- C121: the hull. Every half-space that holds the control points of the span holds the computed point after moving its plane by the error bound. -/
theorem C121_halfspace {k : ℕ} (hk : IsSpan n p U u.toQ k) (a : R3.Vector ℚ) (b : ℚ)
    (hb : ∀ i (h : i < P.length), k ≤ i + p → i ≤ k → a.X * P[i].X.toQ + a.Y * P[i].Y.toQ + a.Z * P[i].Z.toQ ≤ b)
    {v : R3.Vector F64} (hv : Computes fuel n p U P u v) :
    a.X * v.X.toQ + a.Y * v.Y.toQ + a.Z * v.Z.toQ ≤ b + (|a.X| + |a.Y| + |a.Z|) * err p M := by
  obtain ⟨k', hk', e⟩ := exact_point H hf
  obtain rfl := isSpan_unique n p U u.toQ H.ok k' k hk' hk
  obtain ⟨w1, w2⟩ := span_weights n p U u.toQ H.ok k' hk'
  obtain ⟨h1, h2, h3⟩ := computes_near H hf hv e
  set c : ℕ → ℚ := fun r => piece (knot ℚ U) k' p (k'-p+r) u.toQ with hc
  set Q : ℕ → R3.Vector ℚ := fun r => (P.map exactV).getD (k'-p+r) ⟨0, 0, 0⟩ with hQ
  have hlin : a.X * (comb p c Q).X + a.Y * (comb p c Q).Y + a.Z * (comb p c Q).Z ≤ b := by
    have e1 : a.X * (comb p c Q).X + a.Y * (comb p c Q).Y + a.Z * (comb p c Q).Z =
        ∑ r ∈ Finset.range (p+1), c r * (a.X * (Q r).X + a.Y * (Q r).Y + a.Z * (Q r).Z) := by
      simp only [comb, Finset.mul_sum, ← Finset.sum_add_distrib]
      exact Finset.sum_congr rfl fun r _ => by ring
    rw [e1]
    have : ∑ r ∈ Finset.range (p+1), c r * (a.X * (Q r).X + a.Y * (Q r).Y + a.Z * (Q r).Z) ≤ ∑ r ∈ Finset.range (p+1), c r * b := by
      refine Finset.sum_le_sum fun r hr => mul_le_mul_of_nonneg_left ?_ (w1 r (by have := Finset.mem_range.mp hr; omega))
      have hr' := Finset.mem_range.mp hr
      have hpk := hk'.1
      have hkn := hk'.2.1
      have hlt : k' - p + r < P.length := by have := H.pts; omega
      have eQ : Q r = exactV P[k' - p + r] := by
        simp only [hQ, List.getD_eq_getElem?_getD, List.getElem?_map, List.getElem?_eq_getElem hlt, Option.map_some, Option.getD_some]
      rw [eQ]
      exact hb (k' - p + r) hlt (by omega) (by omega)
    rw [← Finset.sum_mul, w2, one_mul] at this
    exact this
  have key : ∀ x y z : ℚ, |y - z| ≤ err p M → x * y ≤ x * z + |x| * err p M := by
    intro x y z h
    have h4 : x * (y - z) ≤ |x| * err p M := (le_abs_self _).trans (by rw [abs_mul]; exact mul_le_mul_of_nonneg_left h (abs_nonneg _))
    have h5 : x * (y - z) = x * y - x * z := by ring
    linarith
  have k1 := key a.X _ _ h1
  have k2 := key a.Y _ _ h2
  have k3 := key a.Z _ _ h3
  have e5 : (|a.X| + |a.Y| + |a.Z|) * err p M = |a.X| * err p M + |a.Y| * err p M + |a.Z| * err p M := by ring
  linarith

/-- C121: the ends. Where `p` knots meet at the parameter the computed point is within the error bound of the control point; so it is at the end of the domain. -/
theorem C121_ends {v : R3.Vector F64} (hv : Computes fuel n p U P u v) :
    (∀ k (h : k - p < P.length), IsSpan n p U u.toQ k → (∀ m, k < m + p → m ≤ k → knot ℚ U m = u.toQ) →
      |v.X.toQ - P[k-p].X.toQ| ≤ err p M ∧ |v.Y.toQ - P[k-p].Y.toQ| ≤ err p M ∧ |v.Z.toQ - P[k-p].Z.toQ| ≤ err p M) ∧
    (u.toQ = knot ℚ U (n+1) → (∀ m, n + 1 ≤ m → m ≤ n + p → knot ℚ U m = u.toQ) →
      |v.X.toQ - (P[n]'H.pts).X.toQ| ≤ err p M ∧ |v.Y.toQ - (P[n]'H.pts).Y.toQ| ≤ err p M ∧ |v.Z.toQ - (P[n]'H.pts).Z.toQ| ≤ err p M) := by
  obtain ⟨i1, i2⟩ := C45_interpolates n p U (P.map exactV) u.toQ H.ok (by simpa using H.pts) fuel hf
  have eQ : ∀ i (h : i < P.length), (P.map exactV).getD i ⟨0, 0, 0⟩ = exactV P[i] := by
    intro i h
    simp only [List.getD_eq_getElem?_getD, List.getElem?_map, List.getElem?_eq_getElem h, Option.map_some, Option.getD_some]
  constructor
  · intro k h hk hm
    have e := i1 k hk hm
    rw [eQ (k-p) h] at e
    obtain ⟨t1, t2, t3⟩ := computes_near H hf hv e
    exact ⟨t1, t2, t3⟩
  · intro h1 h2
    have e := i2 h1 h2
    rw [eQ n H.pts] at e
    obtain ⟨t1, t2, t3⟩ := computes_near H hf hv e
    exact ⟨t1, t2, t3⟩

/-- C121: stability. If no coordinate of a control point moves by more than `d`, no coordinate of the computed point moves by more than `d` and twice the error bound. -/
theorem C121_moved {P' : List (R3.Vector F64)} (H' : CurveF n p U P' u M) {d : ℚ}
    (hd : ∀ i (h : i < P.length) (h' : i < P'.length), |P'[i].X.toQ - P[i].X.toQ| ≤ d ∧ |P'[i].Y.toQ - P[i].Y.toQ| ≤ d ∧ |P'[i].Z.toQ - P[i].Z.toQ| ≤ d)
    {v v' : R3.Vector F64} (hv : Computes fuel n p U P u v) (hv' : Computes fuel n p U P' u v') :
    |v'.X.toQ - v.X.toQ| ≤ d + 2 * err p M ∧ |v'.Y.toQ - v.Y.toQ| ≤ d + 2 * err p M ∧ |v'.Z.toQ - v.Z.toQ| ≤ d + 2 * err p M := by
  obtain ⟨k, hk, e⟩ := exact_point H hf
  obtain ⟨k', hk', e'⟩ := exact_point H' hf
  obtain rfl := isSpan_unique n p U u.toQ H.ok k' k hk' hk
  obtain ⟨w1, w2⟩ := span_weights n p U u.toQ H.ok k' hk'
  obtain ⟨h1, h2, h3⟩ := computes_near H hf hv e
  obtain ⟨g1, g2, g3⟩ := computes_near H' hf hv' e'
  have hpk := hk'.1
  have hkn := hk'.2.1
  have key : ∀ (q q' : ℕ → ℚ), (∀ r, r ≤ p → |q' r - q r| ≤ d) →
      |∑ r ∈ Finset.range (p+1), piece (knot ℚ U) k' p (k'-p+r) u.toQ * q' r - ∑ r ∈ Finset.range (p+1), piece (knot ℚ U) k' p (k'-p+r) u.toQ * q r| ≤ d := by
    intro q q' hq
    rw [← Finset.sum_sub_distrib]
    refine (Finset.abs_sum_le_sum_abs _ _).trans ?_
    have : ∑ r ∈ Finset.range (p+1), |piece (knot ℚ U) k' p (k'-p+r) u.toQ * q' r - piece (knot ℚ U) k' p (k'-p+r) u.toQ * q r| ≤
        ∑ r ∈ Finset.range (p+1), piece (knot ℚ U) k' p (k'-p+r) u.toQ * d := by
      refine Finset.sum_le_sum fun r hr => ?_
      have hr' := Finset.mem_range.mp hr
      rw [← mul_sub, abs_mul, abs_of_nonneg (w1 r (by omega))]
      exact mul_le_mul_of_nonneg_left (hq r (by omega)) (w1 r (by omega))
    rw [← Finset.sum_mul, w2, one_mul] at this
    exact this
  have eQ : ∀ {L : List (R3.Vector F64)} (hL : n < L.length) (r : ℕ) (hr : r ≤ p), (L.map exactV).getD (k'-p+r) ⟨0, 0, 0⟩ = exactV (L[k'-p+r]'(by omega)) := by
    intro L hL r hr
    simp only [List.getD_eq_getElem?_getD, List.getElem?_map, List.getElem?_eq_getElem (show k'-p+r < L.length by omega), Option.map_some, Option.getD_some]
  have p1 := H.pts
  have p2 := H'.pts
  have x := key (fun r => ((P.map exactV).getD (k'-p+r) ⟨0, 0, 0⟩).X) (fun r => ((P'.map exactV).getD (k'-p+r) ⟨0, 0, 0⟩).X)
    (fun r hr => by rw [eQ p1 r hr, eQ p2 r hr]; exact (hd (k'-p+r) (by omega) (by omega)).1)
  have y := key (fun r => ((P.map exactV).getD (k'-p+r) ⟨0, 0, 0⟩).Y) (fun r => ((P'.map exactV).getD (k'-p+r) ⟨0, 0, 0⟩).Y)
    (fun r hr => by rw [eQ p1 r hr, eQ p2 r hr]; exact (hd (k'-p+r) (by omega) (by omega)).2.1)
  have z := key (fun r => ((P.map exactV).getD (k'-p+r) ⟨0, 0, 0⟩).Z) (fun r => ((P'.map exactV).getD (k'-p+r) ⟨0, 0, 0⟩).Z)
    (fun r hr => by rw [eQ p1 r hr, eQ p2 r hr]; exact (hd (k'-p+r) (by omega) (by omega)).2.2)
  have tri : ∀ a b s t : ℚ, |a - s| ≤ err p M → |b - t| ≤ err p M → |t - s| ≤ d → |b - a| ≤ d + 2 * err p M := by
    intro a b s t ha hb hst
    have e : b - a = (b - t) + (t - s) - (a - s) := by ring
    rw [e]
    have q1 := abs_sub (b - t + (t - s)) (a - s)
    have q2 := abs_add_le (b - t) (t - s)
    linarith
  exact ⟨tri _ _ _ _ h1 g1 x, tri _ _ _ _ h2 g2 y, tri _ _ _ _ h3 g3 z⟩

end

/-! ## Locality -/

theorem curveLoop_local {F : Type} [_root_.Add F] [Mul F] (P P' : List (R3.Vector F)) (N : List F) (base : Int) (m : ℕ) (i : Int) (C : R3.Vector F)
    (h : ∀ j, i ≤ j → j < i + m → goGet P (base + j) = goGet P' (base + j)) : curveLoop P N base m i C = curveLoop P' N base m i C := by
  induction m generalizing i C with
  | zero => rfl
  | succ m ih =>
    unfold curveLoop
    rw [h i le_rfl (by push_cast; omega)]
    congr 1; funext pt
    congr 1; funext w
    exact ih (i+1) _ fun j h1 h2 => h j (by omega) (by push_cast; omega)

/-- C121: the computed point depends on no other control points than those of the span: not on NaNs or infinities elsewhere, and without error -/
theorem C121_local {fuel : ℕ} {n p : Int} {U : List Int} {P P' : List (R3.Vector F64)} {u : F64} {k : Int} (hk : findSpan fuel n p u U = .ok k) (hp : 0 ≤ p) (hpk : p ≤ k)
    (h : ∀ i : ℕ, k ≤ i + p → (i : Int) ≤ k → P[i]? = P'[i]?) (v : R3.Vector F64) :
    Computes fuel n p U P u v ↔ Computes fuel n p U P' u v := by
  have e : curveExpr fuel n p U P u = curveExpr fuel n p U P' u := by
    unfold curveExpr
    rw [hk]
    simp only [Res.bind_ok]
    congr 1; funext N
    refine curveLoop_local _ _ _ _ _ _ _ fun j h1 h2 => ?_
    rw [goGet_map, goGet_map]
    have e : k - p + j = ((k - p + j).toNat : Int) := by omega
    have e2 := h (k - p + j).toNat (by omega) (by omega)
    rw [e]
    simp only [goGet, Int.toNat_natCast]
    rw [e2]
  unfold Computes
  rw [e]

/-! ## Speed -/

theorem piece_cast (U : List Int) (k p i : ℕ) (q : ℚ) : ((piece (knot ℚ U) k p i q : ℚ) : ℝ) = piece (knot ℝ U) k p i (q : ℝ) := by
  induction p generalizing i with
  | zero => simp only [piece]; split <;> simp
  | succ p ih =>
    simp only [piece]
    push_cast
    rw [ih, ih]
    simp [knot]

/-- the exact real control point -/
def realPt (v : R3.Vector F64) : R3.Vector ℝ := ⟨(v.X.toQ : ℝ), (v.Y.toQ : ℝ), (v.Z.toQ : ℝ)⟩

/-- the exact curve over the rationals is that over the reals -/
theorem curve_real {n p : ℕ} {U : List Int} {P : List (R3.Vector F64)} {q : ℚ} (h : CurveOK n p U q) (hP : n < P.length) {fuel : ℕ} (hf : n + 1 - p ≤ fuel)
    {E : R3.Vector ℚ} (hE : curvePoint fuel n p U (P.map exactV) q = .ok E) :
    curvePoint fuel n p U (P.map realPt) (q : ℝ) = .ok ⟨(E.X : ℝ), (E.Y : ℝ), (E.Z : ℝ)⟩ := by
  have kc : ∀ i, knot ℝ U i = ((knot ℚ U i : ℚ) : ℝ) := fun i => by simp [knot]
  have h' : CurveOK n p U (q : ℝ) := by
    refine ⟨h.nondec, h.deg, h.len, ?_, ?_, ?_⟩
    · rw [kc]; exact_mod_cast h.lo
    · rw [kc]; exact_mod_cast h.hi
    · intro e
      rw [kc] at e
      rw [kc, kc]
      exact_mod_cast h.last (by exact_mod_cast e)
  obtain ⟨k, hk, e⟩ := C45_formula n p U (P.map exactV) q h (by simpa using hP) fuel hf
  obtain ⟨k', hk', e'⟩ := C45_formula n p U (P.map realPt) (q : ℝ) h' (by simpa using hP) fuel hf
  have hk2 : IsSpan n p U (q : ℝ) k := by
    obtain ⟨a1, a2, a3, a4, a5⟩ := hk
    refine ⟨a1, a2, ?_, ?_, ?_⟩
    · rw [kc, kc]; exact_mod_cast a3
    · rw [kc]; exact_mod_cast a4
    · rw [kc, kc]; exact_mod_cast a5
  obtain rfl := isSpan_unique n p U (q : ℝ) h' k' k hk' hk2
  rw [hE] at e
  obtain rfl := Res.ok.inj e
  rw [e']
  have g : ∀ r, (P.map realPt).getD (k'-p+r) ⟨0, 0, 0⟩ = ⟨(((P.map exactV).getD (k'-p+r) ⟨0, 0, 0⟩).X : ℝ),
      (((P.map exactV).getD (k'-p+r) ⟨0, 0, 0⟩).Y : ℝ), (((P.map exactV).getD (k'-p+r) ⟨0, 0, 0⟩).Z : ℝ)⟩ := by
    intro r
    simp only [List.getD_eq_getElem?_getD, List.getElem?_map]
    cases P[k'-p+r]? <;> simp [realPt, exactV]
  simp only [comb, g, ← piece_cast]
  push_cast
  rfl

/-- C121: speed. If neighbouring control points differ by at most `L` in every coordinate and no interior knot has multiplicity above the degree, the computed
points at `u ≤ w` differ by at most `p L (w - u)` and twice the error bound. -/
theorem C121_speed {n p : ℕ} {U : List Int} {P : List (R3.Vector F64)} {u w : F64} {M : ℚ} (H : CurveF n p U P u M) (H' : CurveF n p U P w M)
    (huw : u.toQ ≤ w.toQ) {fuel : ℕ} (hf : n + 1 - p ≤ fuel) (hp : 1 ≤ p) (hlast : U.getD n 0 < U.getD (n+1) 0)
    (hmul : ∀ j ≤ n, U.getD p 0 < U.getD j 0 → U.getD j 0 < U.getD (n+1) 0 → U.getD j 0 < U.getD (j+p) 0) {L : ℚ}
    (hL : ∀ i (h : i < n), |(P[i+1]'(by have := H.pts; omega)).X.toQ - (P[i]'(by have := H.pts; omega)).X.toQ| ≤ L ∧
      |(P[i+1]'(by have := H.pts; omega)).Y.toQ - (P[i]'(by have := H.pts; omega)).Y.toQ| ≤ L ∧
      |(P[i+1]'(by have := H.pts; omega)).Z.toQ - (P[i]'(by have := H.pts; omega)).Z.toQ| ≤ L)
    {a b : R3.Vector F64} (ha : Computes fuel n p U P u a) (hb : Computes fuel n p U P w b) :
    |b.X.toQ - a.X.toQ| ≤ p * L * (w.toQ - u.toQ) + 2 * err p M ∧ |b.Y.toQ - a.Y.toQ| ≤ p * L * (w.toQ - u.toQ) + 2 * err p M ∧
      |b.Z.toQ - a.Z.toQ| ≤ p * L * (w.toQ - u.toQ) + 2 * err p M := by
  obtain ⟨k, _, e⟩ := exact_point H hf
  obtain ⟨k', _, e'⟩ := exact_point H' hf
  obtain ⟨h1, h2, h3⟩ := computes_near H hf ha e
  obtain ⟨g1, g2, g3⟩ := computes_near H' hf hb e'
  have r := curve_real H.ok H.pts hf e
  have r' := curve_real H'.ok H'.pts hf e'
  have hP := H.pts
  have gd : ∀ i (h : i < P.length), (P.map realPt).getD i ⟨0, 0, 0⟩ = realPt P[i] := by
    intro i h
    simp only [List.getD_eq_getElem?_getD, List.getElem?_map, List.getElem?_eq_getElem h, Option.map_some, Option.getD_some]
  obtain ⟨A, B, eA, eB, s1, s2, s3⟩ := C107_speed n p U (P.map realPt) H.ok.nondec hp H.ok.deg H.ok.len hlast (by simpa using hP) hmul (L : ℝ)
    (by
      intro i hi
      obtain ⟨l1, l2, l3⟩ := hL i hi
      rw [gd i (by omega), gd (i+1) (by omega)]
      simp only [realPt]
      exact ⟨by exact_mod_cast l1, by exact_mod_cast l2, by exact_mod_cast l3⟩)
    fuel hf (u.toQ : ℝ) (w.toQ : ℝ) (by have := H.ok.lo; unfold knot at this; exact_mod_cast this) (by exact_mod_cast huw)
    (by have := H'.ok.hi; unfold knot at this; exact_mod_cast this)
  rw [r] at eA
  obtain rfl := Res.ok.inj eA
  rw [r'] at eB
  obtain rfl := Res.ok.inj eB
  dsimp only at s1 s2 s3
  have tri : ∀ a b s t : ℚ, |a - s| ≤ err p M → |b - t| ≤ err p M → |t - s| ≤ p * L * (w.toQ - u.toQ) → |b - a| ≤ p * L * (w.toQ - u.toQ) + 2 * err p M := by
    intro a b s t ha hb hst
    have e : b - a = (b - t) + (t - s) - (a - s) := by ring
    rw [e]
    have q1 := abs_sub (b - t + (t - s)) (a - s)
    have q2 := abs_add_le (b - t) (t - s)
    linarith
  exact ⟨tri _ _ _ _ h1 g1 (by exact_mod_cast s1), tri _ _ _ _ h2 g2 (by exact_mod_cast s2), tri _ _ _ _ h3 g3 (by exact_mod_cast s3)⟩

/-! ### a run -/

/-- the segment of C120 meets the hypotheses -/
theorem seg_curve : CurveF 1 1 segKnots segPoints 1 7 :=
  ⟨by decide, trivial, seg_ok, by decide, by norm_num, le_trans (one_div_le_one_div_of_le one_pos (one_le_pow₀ (by norm_num))) (by norm_num), by norm_num,
    by decide +kernel⟩

/-- the first coordinate of the computed point is at most 7 and the error bound -/
example {v : R3.Vector F64} (hv : Computes 10 1 1 segKnots segPoints 1 v) : v.X.toQ ≤ 7 + err 1 7 := by
  have hk : IsSpan 1 1 segKnots ((1 : F64).toQ) 1 := ⟨le_rfl, le_rfl, by decide +kernel, by decide +kernel, Or.inl (by decide +kernel)⟩
  have := C121_halfspace seg_curve (fuel := 10) (by norm_num) hk ⟨1, 0, 0⟩ 7 (by
    intro i h _ _
    have : i < 2 := h
    have e : ∀ i (h : i < segPoints.length), segPoints[i].X.toQ ≤ 7 := by decide +kernel
    simpa using e i h) hv
  simpa using this

theorem seg_end : CurveF 1 1 segKnots segPoints (flt 3 0) 7 :=
  ⟨by decide, by decide +kernel, ⟨seg_ok.nondec, by decide, by decide, by decide +kernel, by decide +kernel, by decide +kernel⟩, by decide, by norm_num,
    seg_curve.lo, by norm_num, by decide +kernel⟩

/-- at the end of the domain the point is within the error bound of the last control point -/
example {v : R3.Vector F64} (hv : Computes 10 1 1 segKnots segPoints (flt 3 0) v) : |v.X.toQ - 7| ≤ err 1 7 := by
  have := ((C121_ends seg_end (fuel := 10) (by norm_num) hv).2 (by decide +kernel) (by
    intro m h1 h2
    have : m = 2 := by omega
    subst this
    decide +kernel)).1
  have e : (segPoints[1]'(by decide)).X.toQ = 7 := by decide +kernel
  rwa [e] at this

/-- the points at the parameters 1 and 3 are at most 12 and twice the error bound apart -/
example {a b : R3.Vector F64} (ha : Computes 10 1 1 segKnots segPoints 1 a) (hb : Computes 10 1 1 segKnots segPoints (flt 3 0) b) :
    |b.X.toQ - a.X.toQ| ≤ 12 + 2 * err 1 7 := by
  have e1 : (1 : F64).toQ = 1 := by decide +kernel
  have e3 : (flt 3 0).toQ = 3 := by decide +kernel
  have := (C121_speed (L := 6) seg_curve seg_end (by rw [e1, e3]; norm_num) (fuel := 10) (by norm_num) (by norm_num) (by decide) (by decide) (by decide +kernel) ha hb).1
  rw [e1, e3] at this
  refine this.trans (le_of_eq ?_)
  norm_num

/-- moving the second control point by one moves the computed point by at most one and twice the error bound -/
example {v v' : R3.Vector F64} (hv : Computes 10 1 1 segKnots segPoints 1 v) (hv' : Computes 10 1 1 segKnots [⟨1, 1, 0⟩, ⟨flt 6 0, 0, 0⟩] 1 v') :
    |v'.X.toQ - v.X.toQ| ≤ 1 + 2 * err 1 7 :=
  (C121_moved seg_curve (fuel := 10) (by norm_num) (P' := [⟨1, 1, 0⟩, ⟨flt 6 0, 0, 0⟩])
    ⟨seg_curve.fit, trivial, seg_ok, by decide, by norm_num, seg_curve.lo, by norm_num, by decide +kernel⟩ (by decide +kernel) hv hv').1

/-- a NaN in the third control point does not reach the first span -/
example (v : R3.Vector F64) : Computes 10 2 1 [0, 0, 2, 4, 4] [⟨1, 1, 0⟩, ⟨0, 0, 1⟩, ⟨F64.nan, 0, 0⟩] 1 v ↔
    Computes 10 2 1 [0, 0, 2, 4, 4] [⟨1, 1, 0⟩, ⟨0, 0, 1⟩, ⟨0, 0, 0⟩] 1 v :=
  C121_local (k := 1) (by decide +kernel) (by norm_num) (by norm_num) (by
    intro i h1 h2
    have : i = 0 ∨ i = 1 := by omega
    rcases this with rfl | rfl <;> rfl) v

end Verif.Props
