import Verif.Proofs.FusedNurbs
import Verif.Proofs.TriSame
import Verif.Props.NurbsFloat
/-!
# C120: basis functions and curve points with fused multiply-adds
-/
namespace Verif.Props
open Verif Verif.Nurbs Verif.Spec Verif.F64 Verif.Proofs
open Verif.Tri2 (lf)

/-! ## Fusing nothing -/

theorem goSet_map {β γ : Type} (f : β → γ) (l : List β) (z : ℤ) (v : β) : goSet (l.map f) z (f v) = Res.map' (List.map f) (goSet l z v) := by
  unfold goSet
  rw [List.length_map]
  split
  · simp [Res.map', List.map_set]
  · rfl

/-- the value of the coordinates with every operation done by itself -/
def evalV (v : R3.Vector (Expr F64)) : R3.Vector F64 := ⟨v.X.eval, v.Y.eval, v.Z.eval⟩

theorem basisInner_eval (left right : List (Expr F64)) (j : Int) (m : ℕ) (r : Int) (N : List (Expr F64)) (saved : Expr F64) :
    basisInner (left.map Expr.eval) (right.map Expr.eval) j m r (N.map Expr.eval) saved.eval =
      Res.map' (fun a => (a.1.map Expr.eval, a.2.eval)) (basisInner left right j m r N saved) := by
  induction m generalizing r N saved with
  | zero => rfl
  | succ m ih =>
    unfold basisInner
    rw [goGet_map, goGet_map, goGet_map]
    simp only [bind_map', map_bind']
    congr 1; funext nr
    congr 1; funext rr
    congr 1; funext lj
    have e := goSet_map Expr.eval N r (saved + rr * (nr / (rr + lj)))
    have e' : goSet (N.map Expr.eval) r (saved.eval + rr.eval * (nr.eval / (rr.eval + lj.eval))) = _ := e
    rw [e', bind_map']
    congr 1; funext N'
    exact ih (r+1) N' (lj * (nr / (rr + lj)))

theorem basisOuter_eval (i : Int) (u : F64) (U : List Int) (m : ℕ) (j : Int) (left right N : List (Expr F64)) :
    basisOuter i u U m j (left.map Expr.eval) (right.map Expr.eval) (N.map Expr.eval) =
      Res.map' (List.map Expr.eval) (basisOuter i (Expr.leaf u) U m j left right N) := by
  induction m generalizing j left right N with
  | zero => rfl
  | succ m ih =>
    unfold basisOuter
    simp only [map_bind']
    congr 1; funext ul
    have e1 : goSet (left.map Expr.eval) j (u - GoOfInt.ofInt ul) = _ := goSet_map Expr.eval left j (Expr.leaf u - GoOfInt.ofInt ul)
    rw [e1, bind_map']
    congr 1; funext left'
    congr 1; funext ur
    have e2 : goSet (right.map Expr.eval) j (GoOfInt.ofInt ur - u) = _ := goSet_map Expr.eval right j (GoOfInt.ofInt ur - Expr.leaf u)
    rw [e2, bind_map']
    congr 1; funext right'
    have e3 : basisInner (left'.map Expr.eval) (right'.map Expr.eval) j j.toNat 0 (N.map Expr.eval) 0 = _ := basisInner_eval left' right' j j.toNat 0 N 0
    rw [e3, bind_map']
    congr 1; funext a
    have e4 : goSet (a.1.map Expr.eval) j a.2.eval = _ := goSet_map Expr.eval a.1 j a.2
    dsimp only
    rw [e4, bind_map']
    congr 1; funext N'
    exact ih (j+1) left' right' N'

/-- C120: with nothing fused the formulas give the values of `basisFuns`, for every call, panics included -/
theorem C120_basis_plain (i : Int) (u : F64) (p : Int) (U : List Int) : basisFuns i u p U = Res.map' (List.map Expr.eval) (basisExpr i u p U) := by
  unfold basisExpr basisFuns
  split
  · rfl
  · dsimp only
    rw [map_bind']
    have h0 : (List.replicate (p+1).toNat (0 : F64)) = (List.replicate (p+1).toNat (0 : Expr F64)).map Expr.eval := by rw [List.map_replicate]; rfl
    rw [h0]
    have e : goSet ((List.replicate (p+1).toNat (0 : Expr F64)).map Expr.eval) 0 (1 : F64) = _ := goSet_map Expr.eval _ 0 1
    rw [e, bind_map']
    congr 1; funext N
    exact basisOuter_eval i u U p.toNat 1 _ _ N

theorem curveLoop_eval (P : List (R3.Vector F64)) (N : List (Expr F64)) (base : Int) (m : ℕ) (i : Int) (C : R3.Vector (Expr F64)) :
    curveLoop P (N.map Expr.eval) base m i (evalV C) = Res.map' evalV (curveLoop (P.map lf) N base m i C) := by
  induction m generalizing i C with
  | zero => rfl
  | succ m ih =>
    unfold curveLoop
    rw [goGet_map, goGet_map]
    simp only [bind_map', map_bind']
    congr 1; funext pt
    congr 1; funext w
    exact ih (i+1) ⟨C.X + (lf pt).X * w, C.Y + (lf pt).Y * w, C.Z + (lf pt).Z * w⟩

/-- C120: with nothing fused the formulas give the result of `curvePoint`, for every call, panics included -/
theorem C120_plain (fuel : ℕ) (n p : Int) (U : List Int) (P : List (R3.Vector F64)) (u : F64) :
    curvePoint fuel n p U P u = Res.map' evalV (curveExpr fuel n p U P u) := by
  unfold curvePoint curveExpr
  rw [map_bind']
  congr 1; funext span
  rw [C120_basis_plain, bind_map', map_bind']
  congr 1; funext N
  exact curveLoop_eval P N (span - p) (p+1).toNat 0 ⟨0, 0, 0⟩

/-! ## However fused -/

section
variable (U : List Int) (hU : Nondec U) (hfit : ∀ k ∈ U, |k| ≤ 2 ^ 53) (i p : ℕ) (hpi : p ≤ i) (hlen : i + p + 1 < U.length) (hp : p ≤ 200)
  (u : F64) (hu : u.Finite)
include hU hfit hpi hlen hp hu

/-- C120: on a closed nonempty span every value that a basis function may have is finite and not negative, and within `10 p / 2^53` of the exact value, relatively,
up to an underflow error below `1 / 2^540` -/
theorem C120_piece (hk : knot ℚ U i < knot ℚ U (i+1)) (h1 : knot ℚ U i ≤ u.toQ) (h2 : u.toQ ≤ knot ℚ U (i+1)) :
    ∃ N, basisExpr i u p U = .ok N ∧ N.length = p + 1 ∧ ∀ r, r ≤ p → ∃ e, N[r]? = some e ∧ ∀ v, Ev e v → v.Finite ∧ 0 ≤ v.toQ ∧
      |v.toQ - piece (knot ℚ U) i p (i-p+r) u.toQ| ≤ 10 * p / 2 ^ 53 * piece (knot ℚ U) i p (i-p+r) u.toQ + 1 / 2 ^ 540 := by
  obtain ⟨N, e, hl, hN⟩ := basisFuns_nearE hU hfit hpi hlen hp hk h1 h2 hu rfl
  refine ⟨N, e, hl, fun r hr => ?_⟩
  obtain ⟨x, ex, hx⟩ := hN r hr
  refine ⟨x, ex, fun v hv => ⟨(hx v hv).fin, (hx v hv).nn, (hx v hv).err.trans ?_⟩⟩
  have := lvl_mono hp
  rw [lvl_200] at this
  unfold uro
  linarith

/-- C120: for a parameter in the half-open span, against the Cox-de Boor recursion -/
theorem C120_basis (h1 : knot ℚ U i ≤ u.toQ) (h2 : u.toQ < knot ℚ U (i+1)) :
    ∃ N, basisExpr i u p U = .ok N ∧ N.length = p + 1 ∧ ∀ r, r ≤ p → ∃ e, N[r]? = some e ∧ ∀ v, Ev e v → v.Finite ∧ 0 ≤ v.toQ ∧
      |v.toQ - bspline (knot ℚ U) p (i-p+r) u.toQ| ≤ 10 * p / 2 ^ 53 * bspline (knot ℚ U) p (i-p+r) u.toQ + 1 / 2 ^ 540 := by
  obtain ⟨N, e, hl, hN⟩ := C120_piece U hU hfit i p hpi hlen hp u hu (lt_of_le_of_lt h1 h2) h1 h2.le
  refine ⟨N, e, hl, fun r hr => ?_⟩
  have := hN r hr
  rwa [piece_eq_bspline (knot ℚ U) i p _ u.toQ (fun i j _ hij hj => knot_mono U hU i j hij (by omega)) h1 h2] at this

end

/-- one fused step of the accumulation -/
theorem acc_stepF {M a t : ℚ} {c Q : ℕ → ℚ} {p i : ℕ} {x P w : F64} (hM : 1 / 2 ^ 400 ≤ M) (hM' : M ≤ 2 ^ 190) (ha : 0 ≤ a) (ha' : a ≤ 1 / 2 ^ 30) (ht : 0 ≤ t) (ht' : t ≤ 1 / 2 ^ 540)
    (hi : i ≤ p) (hp : p ≤ 200) (hc : ∀ r, 0 ≤ c r) (hs : ∀ i, i ≤ p + 1 → ∑ r ∈ Finset.range i, c r ≤ 1) (hQ : ∀ r, |Q r| ≤ M)
    (hx : Acc M a t c Q i x) (hPf : P.Finite) (hP : P.toQ = Q i) (hw : Proofs.Near w (c i) a t) : Acc M a t c Q (i + 1) (fma P w x) := by
  have hu := uro_pos'
  have hu2 := uro_le50
  have t0 := tau_pos
  have hM0 : 0 < M := lt_of_lt_of_le (by positivity) hM
  have tM : tau ≤ 1 / 2 ^ 100 * M := by
    have h1 : tau ≤ 1 / 2 ^ 100 * (1 / 2 ^ 400) := by
      unfold tau
      rw [one_div_mul_one_div, ← pow_add]
      exact one_div_le_one_div_of_le (by positivity) (pow_le_pow_right₀ (by norm_num) (by norm_num))
    exact h1.trans (mul_le_mul_of_nonneg_left hM (by positivity))
  have tt : t ≤ 1 / 2 ^ 100 := ht'.trans (one_div_le_one_div_of_le (by positivity) (pow_le_pow_right₀ (by norm_num) (by norm_num)))
  have hci : c i ≤ 1 := by
    have := hs (i+1) (by omega)
    rw [Finset.sum_range_succ] at this
    linarith [Finset.sum_nonneg (s := Finset.range i) fun r _ => hc r]
  have hc0 := hc i
  have hPM : |P.toQ| ≤ M := hP ▸ hQ i
  -- the product
  have w2 : w.toQ ≤ 9 / 8 * c i + t := by
    have : a * c i ≤ 1 / 8 * c i := mul_le_mul_of_nonneg_right (ha'.trans (by norm_num)) hc0
    linarith [hw.hi]
  have w3 : w.toQ ≤ 2 := by linarith
  have hpw : |P.toQ * w.toQ| ≤ M * w.toQ := by rw [abs_mul, abs_of_nonneg hw.nn]; exact mul_le_mul_of_nonneg_right hPM hw.nn
  have hpb : |P.toQ * w.toQ| ≤ 2 ^ 200 := by
    have h1 : M * w.toQ ≤ 2 ^ 190 * 2 := mul_le_mul hM' w3 hw.nn (by norm_num)
    exact hpw.trans (h1.trans (by norm_num))
  have r2 : |P.toQ * w.toQ - c i * Q i| ≤ M * (a * c i + t) := by
    have e : P.toQ * w.toQ - c i * Q i = P.toQ * (w.toQ - c i) := by rw [hP]; ring
    rw [e, abs_mul]
    exact mul_le_mul hPM hw.err (abs_nonneg _) hM0.le
  have hprod : |P.toQ * w.toQ - c i * Q i| ≤ (a + 9 / 8 * uro) * M * c i + M * t := by
    refine r2.trans ?_
    have h4 : M * (a * c i + t) = a * M * c i + M * t := by ring
    have h5 : (a + 9 / 8 * uro) * M * c i = a * M * c i + 9 / 8 * (uro * (M * c i)) := by ring
    have h6 : 0 ≤ uro * (M * c i) := mul_nonneg hu.le (mul_nonneg hM0.le hc0)
    linarith
  -- the sum
  obtain ⟨fx, ex⟩ := hx
  have hsum : |(x.toQ + P.toQ * w.toQ) - ∑ r ∈ Finset.range (i+1), c r * Q r| ≤
      (a + 9 / 8 * uro) * M * (∑ r ∈ Finset.range (i+1), c r) + (i * (2 * uro * M + 2 * M * t + 2 * tau) + M * t) := by
    rw [Finset.sum_range_succ, Finset.sum_range_succ]
    have e : x.toQ + P.toQ * w.toQ - (∑ r ∈ Finset.range i, c r * Q r + c i * Q i) =
        (x.toQ - ∑ r ∈ Finset.range i, c r * Q r) + (P.toQ * w.toQ - c i * Q i) := by ring
    rw [e]
    refine (abs_add_le _ _).trans ?_
    unfold accErr at ex
    linarith
  have hexact : |∑ r ∈ Finset.range (i+1), c r * Q r| ≤ M := by
    refine (Finset.abs_sum_le_sum_abs _ _).trans ?_
    have h1 : ∑ r ∈ Finset.range (i+1), |c r * Q r| ≤ ∑ r ∈ Finset.range (i+1), c r * M := Finset.sum_le_sum fun r _ => by
      rw [abs_mul, abs_of_nonneg (hc r)]
      exact mul_le_mul_of_nonneg_left (hQ r) (hc r)
    rw [← Finset.sum_mul] at h1
    exact h1.trans (mul_le_of_le_one_left hM0.le (hs (i+1) (by omega)))
  have hS : ∑ r ∈ Finset.range (i+1), c r ≤ 1 := hs (i+1) (by omega)
  have hS0 : 0 ≤ ∑ r ∈ Finset.range (i+1), c r := Finset.sum_nonneg fun r _ => hc r
  have hi' : (i:ℚ) ≤ 200 := by exact_mod_cast hi.trans hp
  have hMt : M * t ≤ M * (1 / 2 ^ 100) := mul_le_mul_of_nonneg_left tt hM0.le
  have hMt0 : 0 ≤ M * t := mul_nonneg hM0.le ht
  have huM : uro * M ≤ 1 / 2 ^ 50 * M := mul_le_mul_of_nonneg_right hu2 hM0.le
  have huM0 : 0 ≤ uro * M := mul_nonneg hu.le hM0.le
  have hsmall : (a + 9 / 8 * uro) * M * (∑ r ∈ Finset.range (i+1), c r) + (i * (2 * uro * M + 2 * M * t + 2 * tau) + M * t) ≤ 1 / 4 * M := by
    have h1 : (a + 9 / 8 * uro) * M * (∑ r ∈ Finset.range (i+1), c r) ≤ (a + 9 / 8 * uro) * M * 1 :=
      mul_le_mul_of_nonneg_left hS (mul_nonneg (by linarith) hM0.le)
    have h2 : (a + 9 / 8 * uro) * M ≤ 1 / 8 * M := mul_le_mul_of_nonneg_right (by linarith) hM0.le
    have h3 : (i:ℚ) * (2 * uro * M + 2 * M * t + 2 * tau) ≤ 200 * (2 * uro * M + 2 * M * t + 2 * tau) :=
      mul_le_mul_of_nonneg_right hi' (by linarith)
    linarith
  have habs : |x.toQ + P.toQ * w.toQ| ≤ 2 * M := by
    have e : x.toQ + P.toQ * w.toQ = (x.toQ + P.toQ * w.toQ - ∑ r ∈ Finset.range (i+1), c r * Q r) + ∑ r ∈ Finset.range (i+1), c r * Q r := by ring
    rw [e]
    refine (abs_add_le _ _).trans ?_
    linarith
  obtain ⟨f2, v2⟩ := fma_fin hPf hw.fin fx (rnd_small ((show |P.toQ * w.toQ + x.toQ| ≤ 2 * M by rw [add_comm]; exact habs).trans (by linarith [show (2:ℚ) * 2 ^ 190 ≤ 2 ^ 200 by norm_num])))
  refine ⟨f2, ?_⟩
  rw [v2, add_comm]
  have r3 := rnd_abs_err (P.toQ * w.toQ + x.toQ)
  rw [add_comm] at r3
  have r4 : uro * |x.toQ + P.toQ * w.toQ| ≤ uro * (2 * M) := mul_le_mul_of_nonneg_left habs hu.le
  have e : rnd (x.toQ + P.toQ * w.toQ) - ∑ r ∈ Finset.range (i+1), c r * Q r =
      (rnd (x.toQ + P.toQ * w.toQ) - (x.toQ + P.toQ * w.toQ)) + (x.toQ + P.toQ * w.toQ - ∑ r ∈ Finset.range (i+1), c r * Q r) := by ring
  rw [e]
  refine (abs_add_le _ _).trans ?_
  have et : tau = 1 / 2 ^ 1000 := by unfold tau; rfl
  rw [← et] at r3
  unfold accErr
  push_cast
  linarith

/-- every value of one coordinate of the accumulator; it is no product -/
def AccE (M a t : ℚ) (c : ℕ → ℚ) (Q : ℕ → ℚ) (i : ℕ) (e : Expr F64) : Prop := (∀ v, Ev e v → Acc M a t c Q i v) ∧ NoMul e

theorem accE_step {M a t : ℚ} {c Q : ℕ → ℚ} {p i : ℕ} {x w : Expr F64} {P : F64} (hM : 1 / 2 ^ 400 ≤ M) (hM' : M ≤ 2 ^ 190) (ha : 0 ≤ a) (ha' : a ≤ 1 / 2 ^ 30) (ht : 0 ≤ t) (ht' : t ≤ 1 / 2 ^ 540)
    (hi : i ≤ p) (hp : p ≤ 200) (hc : ∀ r, 0 ≤ c r) (hs : ∀ i, i ≤ p + 1 → ∑ r ∈ Finset.range i, c r ≤ 1) (hQ : ∀ r, |Q r| ≤ M)
    (hx : AccE M a t c Q i x) (hPf : P.Finite) (hP : P.toQ = Q i) (hw : NearE w (c i) a t) : AccE M a t c Q (i + 1) (x + Expr.leaf P * w) := by
  refine ⟨fun v hv => ?_, fun c d h => by cases h⟩
  rcases hv.add_inv with ⟨s, y, hs', hy, rfl⟩ | ⟨c', d, s, y, z, hcd, _⟩ | ⟨c', d, s, y, z, hcd, hs', hy, hz, rfl⟩
  · obtain ⟨y1, y2, h1, h2, rfl⟩ := hy.mul_inv
    rw [h1.leaf_inv]
    exact acc_step hM hM' ha ha' ht ht' hi hp hc hs hQ (hx.1 s hs') hPf hP (hw y2 h2)
  · exact absurd hcd (hx.2 c' d)
  · obtain ⟨rfl, rfl⟩ := Expr.mul.inj hcd
    rw [hs'.leaf_inv]
    exact acc_stepF hM hM' ha ha' ht ht' hi hp hc hs hQ (hx.1 z hz) hPf hP (hw y hy)

theorem curveLoop_accE {M a t : ℚ} {c : ℕ → ℚ} {p base : ℕ} (hM : 1 / 2 ^ 400 ≤ M) (hM' : M ≤ 2 ^ 190) (ha : 0 ≤ a) (ha' : a ≤ 1 / 2 ^ 30) (ht : 0 ≤ t) (ht' : t ≤ 1 / 2 ^ 540)
    (hp : p ≤ 200) (hc : ∀ r, 0 ≤ c r) (hs : ∀ i, i ≤ p + 1 → ∑ r ∈ Finset.range i, c r ≤ 1) {P : List (R3.Vector F64)} {N : List (Expr F64)} {Q : ℕ → R3.Vector F64}
    (hQ : ∀ r, (Q r).X.Finite ∧ (Q r).Y.Finite ∧ (Q r).Z.Finite ∧ |(Q r).X.toQ| ≤ M ∧ |(Q r).Y.toQ| ≤ M ∧ |(Q r).Z.toQ| ≤ M)
    (hN : ∀ r, r ≤ p → ∃ x, N[r]? = some x ∧ NearE x (c r) a t) (hP : ∀ r, r ≤ p → P[base + r]? = some (Q r)) :
    ∀ (m i : ℕ) (C : R3.Vector (Expr F64)), i + m = p + 1 → AccE M a t c (fun r => (Q r).X.toQ) i C.X → AccE M a t c (fun r => (Q r).Y.toQ) i C.Y →
      AccE M a t c (fun r => (Q r).Z.toQ) i C.Z →
      ∃ C', curveLoop (P.map lf) N base m i C = .ok C' ∧ AccE M a t c (fun r => (Q r).X.toQ) (p+1) C'.X ∧ AccE M a t c (fun r => (Q r).Y.toQ) (p+1) C'.Y ∧
        AccE M a t c (fun r => (Q r).Z.toQ) (p+1) C'.Z := by
  intro m
  induction m with
  | zero =>
    intro i C hi h1 h2 h3
    have : i = p + 1 := by omega
    subst this
    exact ⟨C, rfl, h1, h2, h3⟩
  | succ m ih =>
    intro i C hi h1 h2 h3
    obtain ⟨w, ew, hw⟩ := hN i (by omega)
    unfold curveLoop
    rw [goGet_eq (n := base + i) (a := lf (Q i)) (by push_cast; rfl) (by rw [List.getElem?_map, hP i (by omega)]; rfl), goGet_eq (n := i) rfl ew]
    simp only [Res.bind_ok]
    rw [show ((i : Int) + 1) = ((i+1 : ℕ) : Int) by push_cast; rfl]
    obtain ⟨q1, q2, q3, _⟩ := hQ i
    exact ih (i+1) _ (by omega)
      (accE_step hM hM' ha ha' ht ht' (by omega) hp hc hs (fun r => (hQ r).2.2.2.1) h1 q1 rfl hw)
      (accE_step hM hM' ha ha' ht ht' (by omega) hp hc hs (fun r => (hQ r).2.2.2.2.1) h2 q2 rfl hw)
      (accE_step hM hM' ha ha' ht ht' (by omega) hp hc hs (fun r => (hQ r).2.2.2.2.2) h3 q3 rfl hw)

/-- C120: whichever products of `basisFuns` and `curvePoint` are fused, every coordinate of the computed curve point is finite and within
`(12 p + 4) / 2^53 * M` of the exact curve point, for control points with coordinates up to `M` -/
theorem C120_curve (n p : ℕ) (U : List Int) (hfit : ∀ k ∈ U, |k| ≤ 2 ^ 53) (P : List (R3.Vector F64)) (u : F64) (hu : u.Finite) (h : CurveOK n p U u.toQ)
    (hP : n < P.length) (hp : p ≤ 200) {M : ℚ} (hM : 1 / 2 ^ 400 ≤ M) (hM' : M ≤ 2 ^ 190)
    (hb : ∀ v ∈ P, v.X.Finite ∧ v.Y.Finite ∧ v.Z.Finite ∧ |v.X.toQ| ≤ M ∧ |v.Y.toQ| ≤ M ∧ |v.Z.toQ| ≤ M) (fuel : ℕ) (hf : n + 1 - p ≤ fuel) :
    ∃ (C : R3.Vector (Expr F64)) (E : R3.Vector ℚ), curveExpr fuel n p U P u = .ok C ∧ curvePoint fuel n p U (P.map exactV) u.toQ = .ok E ∧
      (∀ v, Ev C.X v → v.Finite ∧ |v.toQ - E.X| ≤ (12 * p + 4) / 2 ^ 53 * M) ∧ (∀ v, Ev C.Y v → v.Finite ∧ |v.toQ - E.Y| ≤ (12 * p + 4) / 2 ^ 53 * M) ∧
      (∀ v, Ev C.Z v → v.Finite ∧ |v.toQ - E.Z| ≤ (12 * p + 4) / 2 ^ 53 * M) := by
  have hu0 := uro_pos'
  have hu2 := uro_le50
  have t0 := tau_pos
  have hM0 : 0 < M := lt_of_lt_of_le (by positivity) hM
  obtain ⟨k, hk, e⟩ := C45_formula n p U (P.map exactV) u.toQ h (by simpa using hP) fuel hf
  obtain ⟨hpk, hkn, hlt, h1, h2⟩ := id hk
  have h2' : u.toQ ≤ knot ℚ U (k+1) := h2.elim le_of_lt fun ⟨a, b⟩ => by rw [a, b]
  have hlen := h.len
  obtain ⟨w1, w2⟩ := span_weights n p U u.toQ h k hk
  obtain ⟨N, eN, _, hN⟩ := basisFuns_nearE h.nondec hfit hpk (by omega) hp hlt h1 h2' hu rfl
  -- the span
  have espan : findSpan fuel n p u U = .ok (k : Int) := by
    rw [C79_span hfit hu]
    obtain ⟨k', e', a1, a2, a3, a4⟩ := C41_findSpan n p u.toQ U h.deg (by omega) h.lo h.hi fuel hf
    rw [e']
    by_cases he : u.toQ = knot ℚ U (n+1)
    · have hkn' : k = n := by
        rcases h2 with h2 | ⟨a, _⟩
        · have := knot_mono (K := ℚ) U h.nondec (k+1) (n+1) (by omega) (by omega)
          rw [he] at h2
          exact absurd (lt_of_lt_of_le h2 this) (lt_irrefl _)
        · exact a
      rw [a4 he, hkn']
    · obtain ⟨b1, b2⟩ := a3 he
      have h2 : u.toQ < knot ℚ U (k+1) := h2.elim id fun ⟨_, b⟩ => absurd b he
      rw [span_unique u.toQ U h.nondec k' k (by omega) (by omega) b1 b2 h1 h2]
  let c : ℕ → ℚ := fun r => if r ≤ p then piece (knot ℚ U) k p (k-p+r) u.toQ else 0
  let Q : ℕ → R3.Vector F64 := fun r => P.getD (k-p+r) ⟨0, 0, 0⟩
  have hc : ∀ r, 0 ≤ c r := by
    intro r
    show 0 ≤ ite _ _ _
    split
    · exact w1 r ‹_›
    · exact le_refl _
  have hs1 : ∑ r ∈ Finset.range (p+1), c r = 1 := by
    rw [← w2]
    exact Finset.sum_congr rfl fun r hr => if_pos (by have := Finset.mem_range.mp hr; omega)
  have hs : ∀ i, i ≤ p + 1 → ∑ r ∈ Finset.range i, c r ≤ 1 := by
    intro i hi
    rw [← hs1]
    exact Finset.sum_le_sum_of_subset_of_nonneg (Finset.range_mono hi) fun r _ _ => hc r
  have hQ : ∀ r, (Q r).X.Finite ∧ (Q r).Y.Finite ∧ (Q r).Z.Finite ∧ |(Q r).X.toQ| ≤ M ∧ |(Q r).Y.toQ| ≤ M ∧ |(Q r).Z.toQ| ≤ M := by
    intro r
    have z : |(0 : F64).toQ| ≤ M := by
      have : (0 : F64).toQ = 0 := by decide +kernel
      rw [this, abs_zero]; exact hM0.le
    cases ev : P[k-p+r]? with
    | none =>
      have : Q r = ⟨0, 0, 0⟩ := by show P.getD _ _ = _; rw [List.getD_eq_getElem?_getD, ev]; rfl
      rw [this]
      exact ⟨trivial, trivial, trivial, z, z, z⟩
    | some v =>
      have : Q r = v := by show P.getD _ _ = _; rw [List.getD_eq_getElem?_getD, ev]; rfl
      rw [this]
      exact hb v (List.mem_of_getElem? ev)
  have hp' : (p:ℚ) ≤ 200 := by exact_mod_cast hp
  have hp0 : (0:ℚ) ≤ p := by positivity
  have ha0 : 0 ≤ 10 * (p:ℚ) * uro := by positivity
  have ha1 : 10 * (p:ℚ) * uro ≤ 1 / 2 ^ 30 := by
    have : 10 * (p:ℚ) * uro ≤ 2000 * (1 / 2 ^ 50) := mul_le_mul (by linarith) hu2 hu0.le (by norm_num)
    exact this.trans (by norm_num)
  have hl := lvl_mono hp
  rw [lvl_200] at hl
  have zero : ∀ Q : ℕ → ℚ, AccE M (10 * p * uro) (lvl p) c Q 0 0 := by
    intro Q
    refine ⟨fun v hv => ?_, fun c d h => by cases h⟩
    rw [Ev.leaf_inv (x := 0) hv]
    refine ⟨trivial, ?_⟩
    have : (0 : F64).toQ = 0 := by decide +kernel
    simp [accErr, this]
  obtain ⟨C, eC, aX, aY, aZ⟩ := curveLoop_accE (base := k - p) (P := P) (N := N) (Q := Q) hM hM' ha0 ha1 (lvl_pos p).le hl hp hc hs hQ
    (by
      intro r hr
      obtain ⟨x, ex, hx⟩ := hN r hr
      refine ⟨x, ex, ?_⟩
      show NearE x (ite _ _ _) _ _
      rw [if_pos hr]; exact hx)
    (by
      intro r hr
      show _ = some (P.getD _ _)
      rw [List.getD_eq_getElem?_getD, List.getElem?_eq_getElem (by omega : k - p + r < P.length)]; rfl)
    (p+1) 0 ⟨0, 0, 0⟩ (by omega) (zero _) (zero _) (zero _)
  have hbound : accErr M (10 * p * uro) (lvl p) c (p+1) ≤ (12 * p + 4) / 2 ^ 53 * M := by
    unfold accErr
    rw [hs1]
    have tM : tau ≤ 1 / 2 ^ 100 * M := by
      have h1 : tau ≤ 1 / 2 ^ 100 * (1 / 2 ^ 400) := by
        unfold tau
        rw [one_div_mul_one_div, ← pow_add]
        exact one_div_le_one_div_of_le (by positivity) (pow_le_pow_right₀ (by norm_num) (by norm_num))
      exact h1.trans (mul_le_mul_of_nonneg_left hM (by positivity))
    have tt : lvl p ≤ 1 / 2 ^ 100 := hl.trans (one_div_le_one_div_of_le (by positivity) (pow_le_pow_right₀ (by norm_num) (by norm_num)))
    have hMt : M * lvl p ≤ M * (1 / 2 ^ 100) := mul_le_mul_of_nonneg_left tt hM0.le
    have hMt0 : 0 ≤ M * lvl p := mul_nonneg hM0.le (lvl_pos p).le
    have e1 : (12 * (p:ℚ) + 4) / 2 ^ 53 * M = 12 * p * (uro * M) + 4 * (uro * M) := by unfold uro; ring
    have e2 : uro * M = 1 / 2 ^ 53 * M := rfl
    rw [e1]
    have h3 : ((p + 1 : ℕ) : ℚ) * (2 * uro * M + 2 * M * lvl p + 2 * tau) = 2 * p * (uro * M) + 2 * (uro * M) + (p + 1) * (2 * (M * lvl p) + 2 * tau) := by push_cast; ring
    have h4 : ((p:ℚ) + 1) * (2 * (M * lvl p) + 2 * tau) ≤ 201 * (2 * (M * lvl p) + 2 * tau) := mul_le_mul_of_nonneg_right (by linarith) (by linarith)
    have h5 : (10 * (p:ℚ) * uro + 9 / 8 * uro) * M * 1 = 10 * p * (uro * M) + 9 / 8 * (uro * M) := by ring
    have h6 : (201:ℚ) * (2 * (M * (1 / 2 ^ 100)) + 2 * (1 / 2 ^ 100 * M)) ≤ 7 / 8 * (1 / 2 ^ 53 * M) := by
      have : (201:ℚ) * (2 * (M * (1 / 2 ^ 100)) + 2 * (1 / 2 ^ 100 * M)) = 804 / 2 ^ 100 * M := by ring
      rw [this]
      have h : 7 / 8 * (1 / 2 ^ 53 * M) = 7 / 8 / 2 ^ 53 * M := by ring
      rw [h]
      exact mul_le_mul_of_nonneg_right (by norm_num) hM0.le
    rw [h3, h5]
    linarith
  have hX : ∀ r, r ∈ Finset.range (p+1) → c r = piece (knot ℚ U) k p (k-p+r) u.toQ := fun r hr => if_pos (by have := Finset.mem_range.mp hr; omega)
  have hmap : ∀ r, (P.map exactV).getD (k-p+r) ⟨0, 0, 0⟩ = exactV (Q r) := by
    intro r
    show _ = exactV (P.getD _ _)
    rw [List.getD_eq_getElem?_getD, List.getD_eq_getElem?_getD, List.getElem?_map]
    cases P[k-p+r]? <;> rfl
  refine ⟨C, _, ?_, e, fun v hv => ⟨(aX.1 v hv).1, ?_⟩, fun v hv => ⟨(aY.1 v hv).1, ?_⟩, fun v hv => ⟨(aZ.1 v hv).1, ?_⟩⟩
  · unfold curveExpr
    rw [espan]
    simp only [Res.bind_ok]
    rw [eN]
    simp only [Res.bind_ok]
    rw [show ((k:Int) - (p:Int)) = ((k - p : ℕ) : Int) by omega, show ((p:Int)+1).toNat = p + 1 by omega]
    exact eC
  · refine le_trans (le_of_eq ?_) ((aX.1 v hv).2.trans hbound)
    have e : ∑ r ∈ Finset.range (p+1), piece (knot ℚ U) k p (k-p+r) u.toQ * ((P.map exactV).getD (k-p+r) ⟨0, 0, 0⟩).X =
        ∑ r ∈ Finset.range (p+1), c r * (Q r).X.toQ := Finset.sum_congr rfl fun r hr => by rw [hX r hr, hmap r]; rfl
    exact congrArg (fun z => |v.toQ - z|) e
  · refine le_trans (le_of_eq ?_) ((aY.1 v hv).2.trans hbound)
    have e : ∑ r ∈ Finset.range (p+1), piece (knot ℚ U) k p (k-p+r) u.toQ * ((P.map exactV).getD (k-p+r) ⟨0, 0, 0⟩).Y =
        ∑ r ∈ Finset.range (p+1), c r * (Q r).Y.toQ := Finset.sum_congr rfl fun r hr => by rw [hX r hr, hmap r]; rfl
    exact congrArg (fun z => |v.toQ - z|) e
  · refine le_trans (le_of_eq ?_) ((aZ.1 v hv).2.trans hbound)
    have e : ∑ r ∈ Finset.range (p+1), piece (knot ℚ U) k p (k-p+r) u.toQ * ((P.map exactV).getD (k-p+r) ⟨0, 0, 0⟩).Z =
        ∑ r ∈ Finset.range (p+1), c r * (Q r).Z.toQ := Finset.sum_congr rfl fun r hr => by rw [hX r hr, hmap r]; rfl
    exact congrArg (fun z => |v.toQ - z|) e

/-- C120: two programs that fuse differently compute curve points within `(24 p + 8) / 2^53 * M` of each other in every coordinate -/
theorem C120_machines (n p : ℕ) (U : List Int) (hfit : ∀ k ∈ U, |k| ≤ 2 ^ 53) (P : List (R3.Vector F64)) (u : F64) (hu : u.Finite) (h : CurveOK n p U u.toQ)
    (hP : n < P.length) (hp : p ≤ 200) {M : ℚ} (hM : 1 / 2 ^ 400 ≤ M) (hM' : M ≤ 2 ^ 190)
    (hb : ∀ v ∈ P, v.X.Finite ∧ v.Y.Finite ∧ v.Z.Finite ∧ |v.X.toQ| ≤ M ∧ |v.Y.toQ| ≤ M ∧ |v.Z.toQ| ≤ M) (fuel : ℕ) (hf : n + 1 - p ≤ fuel)
    (C : R3.Vector (Expr F64)) (hC : curveExpr fuel n p U P u = .ok C) (e : Expr F64) (he : e = C.X ∨ e = C.Y ∨ e = C.Z) (v w : F64) (hv : Ev e v) (hw : Ev e w) :
    |v.toQ - w.toQ| ≤ (24 * p + 8) / 2 ^ 53 * M := by
  obtain ⟨C', E, e1, _, hX, hY, hZ⟩ := C120_curve n p U hfit P u hu h hP hp hM hM' hb fuel hf
  rw [hC] at e1
  obtain rfl := Res.ok.inj e1
  have key : ∀ z : ℚ, |v.toQ - z| ≤ (12 * p + 4) / 2 ^ 53 * M → |w.toQ - z| ≤ (12 * p + 4) / 2 ^ 53 * M → |v.toQ - w.toQ| ≤ (24 * p + 8) / 2 ^ 53 * M := by
    intro z h1 h2
    have e2 : v.toQ - w.toQ = (v.toQ - z) - (w.toQ - z) := by ring
    rw [e2]
    refine (abs_sub _ _).trans ?_
    have e3 : (24 * (p:ℚ) + 8) / 2 ^ 53 * M = (12 * p + 4) / 2 ^ 53 * M + (12 * p + 4) / 2 ^ 53 * M := by ring
    linarith
  rcases he with rfl | rfl | rfl
  · exact key E.X (hX v hv).2 (hX w hw).2
  · exact key E.Y (hY v hv).2 (hY w hw).2
  · exact key E.Z (hZ v hv).2 (hZ w hw).2

/-! ### a run -/

/-- a segment from 1 to 7 over the knots 0, 0, 3, 3 -/
def segKnots : List Int := [0, 0, 3, 3]

def segPoints : List (R3.Vector F64) := [⟨1, 1, 0⟩, ⟨flt 7 0, 0, 1⟩]

/-- C120: the result does depend on what is fused: the point of the segment from 1 to 7 at a third is 3 if the last product is fused and `3 - 2^-51` if not -/
theorem C120_differs : Res.map' (fun C => (C.X.eval, C.X.fuse)) (curveExpr 10 1 1 segKnots segPoints 1) = .ok (flt 6755399441055743 (-51), flt 3 0) := by
  decide +kernel

theorem seg_ok : CurveOK 1 1 segKnots ((1 : F64).toQ) := by
  have hn : Nondec segKnots := by
    have h : ∀ j < 4, ∀ i ≤ j, segKnots.getD i 0 ≤ segKnots.getD j 0 := by decide
    exact fun i j hij hj => h j hj i hij
  exact ⟨hn, by decide, by decide, by decide +kernel, by decide +kernel, by decide +kernel⟩

/-- the segment meets the hypotheses of the curve theorems, with `M = 7` -/
example : ∃ (C : R3.Vector (Expr F64)) (E : R3.Vector ℚ), curveExpr 10 1 1 segKnots segPoints 1 = .ok C ∧
    curvePoint 10 1 1 segKnots (segPoints.map exactV) ((1 : F64).toQ) = .ok E ∧
    (∀ v, Ev C.X v → v.Finite ∧ |v.toQ - E.X| ≤ (12 * 1 + 4) / 2 ^ 53 * 7) ∧ (∀ v, Ev C.Y v → v.Finite ∧ |v.toQ - E.Y| ≤ (12 * 1 + 4) / 2 ^ 53 * 7) ∧
    (∀ v, Ev C.Z v → v.Finite ∧ |v.toQ - E.Z| ≤ (12 * 1 + 4) / 2 ^ 53 * 7) := by
  have := C120_curve 1 1 segKnots (by decide) segPoints 1 trivial seg_ok (by decide) (by norm_num) (M := 7)
    (le_trans (one_div_le_one_div_of_le one_pos (one_le_pow₀ (by norm_num))) (by norm_num)) (by norm_num) (by decide +kernel) 10 (by norm_num)
  simpa using this

/-- and those of the basis functions (span 4, degree 2) -/
example : ∃ N, basisExpr 4 exPar 2 exKnots = .ok N ∧ N.length = 3 := by
  have hn : Nondec exKnots := by
    have h : ∀ j < 11, ∀ i ≤ j, exKnots.getD i 0 ≤ exKnots.getD j 0 := by decide
    exact fun i j hij hj => h j hj i hij
  obtain ⟨N, e, hl, _⟩ := C120_basis exKnots hn (by decide) 4 2 (by decide) (by decide) (by decide) exPar (by decide +kernel) (by decide +kernel) (by decide +kernel)
  exact ⟨N, e, hl⟩

end Verif.Props
