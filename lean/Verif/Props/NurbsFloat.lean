import Verif.Proofs.NurbsFloat
import Verif.Props.DelaunatorFloat
/-!
# C79, C80: knot spans, basis functions and curve points at binary64
-/
namespace Verif.Props
open Verif Verif.Nurbs Verif.Spec Verif.F64 Verif.Proofs

/-! ## C79 -/

theorem goGet_mem' {α : Type} {l : List α} {z : Int} {a : α} (h : goGet l z = .ok a) : a ∈ l := by
  unfold goGet at h
  split at h
  · cases h
  · exact List.mem_of_getElem? (Res.ofOption_eq_ok.mp h)

theorem sum_near {w f : ℕ → ℚ} {a t : ℚ} (L : List ℕ) (h : ∀ r ∈ L, |w r - f r| ≤ a * f r + t) :
    |(L.map w).sum - (L.map f).sum| ≤ a * (L.map f).sum + L.length * t := by
  induction L with
  | nil => simp
  | cons r L ih =>
    simp only [List.map_cons, List.sum_cons, List.length_cons]
    have h1 := h r (by simp)
    have h2 := ih fun r hr => h r (by simp [hr])
    have e : w r + (L.map w).sum - (f r + (L.map f).sum) = (w r - f r) + ((L.map w).sum - (L.map f).sum) := by ring
    rw [e]
    refine (abs_add_le _ _).trans ?_
    push_cast
    linarith

theorem findSpanLoop_float {U : List Int} (hfit : KnotsFit U) {u : F64} (hu : u.Finite) (fuel : ℕ) (low high mid : Int) :
    findSpanLoop u U fuel low high mid = findSpanLoop u.toQ U fuel low high mid := by
  induction fuel generalizing low high mid with
  | zero => rfl
  | succ fuel ih =>
    have ex : ∀ {z : Int} {n : Int}, goGet U z = .ok n → (GoOfInt.ofInt n : F64).Finite ∧ (GoOfInt.ofInt n : F64).toQ = n := by
      intro z n h
      exact ofInt_exact (hfit n (goGet_mem' h))
    unfold findSpanLoop
    cases e1 : goGet U mid with
    | panic => rfl
    | fuel => rfl
    | ok n =>
      obtain ⟨f1, v1⟩ := ex e1
      have b : decide (u < GoOfInt.ofInt n) = decide (u.toQ < (GoOfInt.ofInt n : ℚ)) := by
        rw [decide_eq_decide, lt_fin hu f1, v1]; rfl
      simp only [Res.bind_ok]
      rw [b]
      by_cases hb : u.toQ < (GoOfInt.ofInt n : ℚ)
      · simp only [hb, decide_true, if_true, Res.pure_eq, Res.bind_ok, ih]
      · simp only [hb, decide_false, Bool.false_eq_true, if_false]
        cases e2 : goGet U (mid+1) with
        | panic => rfl
        | fuel => rfl
        | ok k =>
          obtain ⟨f2, v2⟩ := ex e2
          have c : decide ((GoOfInt.ofInt k : F64) ≤ u) = decide ((GoOfInt.ofInt k : ℚ) ≤ u.toQ) := by
            rw [decide_eq_decide, le_fin f2 hu, v2]; rfl
          simp only [Res.bind_ok, Res.pure_eq, c, ih]

/-- C79: for knots up to `2^53` in size and a finite parameter, the search in float64 does what it does in exact arithmetic -/
theorem C79_span {U : List Int} (hfit : ∀ k ∈ U, |k| ≤ 2 ^ 53) {u : F64} (hu : u.Finite) (fuel : ℕ) (n p : Int) :
    findSpan fuel n p u U = findSpan fuel n p u.toQ U := by
  unfold findSpan
  cases e : goGet U (n+1) with
  | panic => rfl
  | fuel => rfl
  | ok k =>
    obtain ⟨f, v⟩ := ofInt_exact (hfit k (goGet_mem' e))
    have b : (u == (GoOfInt.ofInt k : F64)) = (u.toQ == (GoOfInt.ofInt k : ℚ)) := by
      rw [Bool.eq_iff_iff, beq_fin hu f, v, beq_iff_eq]; rfl
    simp only [Res.bind_ok, b, findSpanLoop_float hfit hu]

/-- C79: a NaN parameter is not rejected: the search returns the middle index at once -/
theorem C79_nan (U : List Int) (n p fuel : ℕ) (hpn : p ≤ n) (hlen : n + 1 < U.length) :
    findSpan (fuel + 1) n p F64.nan U = .ok (((p + (n + 1)) / 2 : ℕ) : Int) := by
  unfold findSpan
  rw [goGet_knot U _ (n+1) (by push_cast; rfl) hlen]
  have b : ∀ x : F64, (F64.nan == x) = false := fun x => rfl
  have l : ∀ x : F64, ¬ F64.nan < x := fun x h => by cases h
  have l' : ∀ x : F64, ¬ x ≤ F64.nan := fun x h => by
    have h : F64.le x F64.nan = true := h
    cases x <;> cases h
  simp only [Res.bind_ok, b, Bool.false_eq_true, if_false]
  have hd : Int.tdiv ((p:Int) + ((n:Int)+1)) 2 = (((p + (n+1)) / 2 : ℕ) : Int) := by
    rw [Int.tdiv_eq_ediv_of_nonneg (by positivity)]; omega
  rw [hd]
  unfold findSpanLoop
  rw [goGet_knot U _ ((p + (n+1)) / 2) rfl (by omega), goGet_knot U _ ((p + (n+1)) / 2 + 1) (by push_cast; rfl) (by omega)]
  simp only [Res.bind_ok, Res.pure_eq, l, l', decide_false, Bool.false_eq_true, if_false]

section
variable (U : List Int) (hU : Nondec U) (hfit : ∀ k ∈ U, |k| ≤ 2 ^ 53) (i p : ℕ) (hpi : p ≤ i) (hlen : i + p + 1 < U.length) (hp : p ≤ 200)
  (u : F64) (hu : u.Finite)
include hU hfit hpi hlen hp hu

/-- C79: on a closed nonempty span the float64 basis functions are finite and not negative, and within `10 p / 2^53` of the exact value, relatively, up to an underflow
error below `1 / 2^540` -/
theorem C79_piece (hk : knot ℚ U i < knot ℚ U (i+1)) (h1 : knot ℚ U i ≤ u.toQ) (h2 : u.toQ ≤ knot ℚ U (i+1)) :
    ∃ N : List F64, basisFuns i u p U = .ok N ∧ N.length = p + 1 ∧ ∀ r, r ≤ p → ∃ x, N[r]? = some x ∧ x.Finite ∧ 0 ≤ x.toQ ∧
      |x.toQ - piece (knot ℚ U) i p (i-p+r) u.toQ| ≤ 10 * p / 2 ^ 53 * piece (knot ℚ U) i p (i-p+r) u.toQ + 1 / 2 ^ 540 := by
  obtain ⟨N, e, hl, hN⟩ := basisFuns_near hU hfit hpi hlen hp hk h1 h2 hu rfl
  refine ⟨N, e, hl, fun r hr => ?_⟩
  obtain ⟨x, ex, hx⟩ := hN r hr
  refine ⟨x, ex, hx.fin, hx.nn, hx.err.trans ?_⟩
  have := lvl_mono hp
  rw [lvl_200] at this
  unfold uro
  linarith

/-- C79: for a parameter in the half-open span, against the Cox-de Boor recursion -/
theorem C79_basis (h1 : knot ℚ U i ≤ u.toQ) (h2 : u.toQ < knot ℚ U (i+1)) :
    ∃ N : List F64, basisFuns i u p U = .ok N ∧ N.length = p + 1 ∧ ∀ r, r ≤ p → ∃ x, N[r]? = some x ∧ x.Finite ∧ 0 ≤ x.toQ ∧
      |x.toQ - bspline (knot ℚ U) p (i-p+r) u.toQ| ≤ 10 * p / 2 ^ 53 * bspline (knot ℚ U) p (i-p+r) u.toQ + 1 / 2 ^ 540 := by
  obtain ⟨N, e, hl, hN⟩ := C79_piece U hU hfit i p hpi hlen hp u hu (lt_of_le_of_lt h1 h2) h1 h2.le
  refine ⟨N, e, hl, fun r hr => ?_⟩
  have := hN r hr
  rwa [piece_eq_bspline (knot ℚ U) i p _ u.toQ (fun i j _ hij hj => knot_mono U hU i j hij (by omega)) h1 h2] at this

/-- C79: the exact sum of the float64 values is within `10 p / 2^53 + 1 / 2^500` of one -/
theorem C79_sum (hk : knot ℚ U i < knot ℚ U (i+1)) (h1 : knot ℚ U i ≤ u.toQ) (h2 : u.toQ ≤ knot ℚ U (i+1)) (N : List F64)
    (hN : basisFuns i u p U = .ok N) : |(N.map F64.toQ).sum - 1| ≤ 10 * p / 2 ^ 53 + 1 / 2 ^ 500 := by
  obtain ⟨N', e, hl, hb⟩ := C79_piece U hU hfit i p hpi hlen hp u hu hk h1 h2
  rw [hN] at e
  obtain rfl := Res.ok.inj e
  have hs := C44_partition U hU i p u.toQ hpi hlen hk h1 h2 _ (C43_piece U hU i p u.toQ hpi (by omega) hk)
  have e1 : N.map F64.toQ = (List.range (p+1)).map fun r => (N.getD r 0).toQ := by
    apply List.ext_getElem?
    intro r
    rw [List.getElem?_map, List.getElem?_map]
    by_cases hr : r < p + 1
    · rw [List.getElem?_range hr]
      simp [List.getD_eq_getElem?_getD, List.getElem?_eq_getElem (hl ▸ hr : r < N.length)]
    · rw [List.getElem?_eq_none (by omega), List.getElem?_eq_none (by simp; omega)]; rfl
  have key := sum_near (w := fun r => (N.getD r 0).toQ) (f := fun r => piece (knot ℚ U) i p (i-p+r) u.toQ) (List.range (p+1)) (by
    intro r hr
    obtain ⟨x, ex, _, _, hx⟩ := hb r (by have := List.mem_range.mp hr; omega)
    rw [List.getD_eq_getElem?_getD, ex]
    exact hx)
  rw [← e1, hs.2.2, List.length_range] at key
  refine key.trans ?_
  have h3 : ((p + 1 : ℕ) : ℚ) ≤ 2 ^ 40 := by
    have : p + 1 ≤ 2 ^ 40 := by omega
    exact_mod_cast this
  have h4 : ((p + 1 : ℕ) : ℚ) * (1 / 2 ^ 540) ≤ 2 ^ 40 * (1 / 2 ^ 540) := mul_le_mul_of_nonneg_right h3 (by positivity)
  have h5 : (2:ℚ) ^ 40 * (1 / 2 ^ 540) = 1 / 2 ^ 500 := by
    rw [show (2:ℚ) ^ 540 = 2 ^ 40 * 2 ^ 500 by rw [← pow_add]]
    have a1 : (2:ℚ) ^ 40 ≠ 0 := by positivity
    have a2 : (2:ℚ) ^ 500 ≠ 0 := by positivity
    generalize (2:ℚ) ^ 500 = b at *
    field_simp
  rw [h5] at h4
  rw [mul_one]
  exact add_le_add (le_refl _) h4

end

/-! ## C80 -/

/-- accumulated error of the curve loop after `i` terms: exact weights `c`, coordinates up to `M` -/
def accErr (M a t : ℚ) (c : ℕ → ℚ) (i : ℕ) : ℚ := (a + 9 / 8 * uro) * M * (∑ r ∈ Finset.range i, c r) + i * (2 * uro * M + 2 * M * t + 2 * tau)

/-- one coordinate of the accumulator -/
def Acc (M a t : ℚ) (c : ℕ → ℚ) (Q : ℕ → ℚ) (i : ℕ) (x : F64) : Prop :=
  x.Finite ∧ |x.toQ - ∑ r ∈ Finset.range i, c r * Q r| ≤ accErr M a t c i

theorem acc_step {M a t : ℚ} {c Q : ℕ → ℚ} {p i : ℕ} {x P w : F64} (hM : 1 / 2 ^ 400 ≤ M) (hM' : M ≤ 2 ^ 190) (ha : 0 ≤ a) (ha' : a ≤ 1 / 2 ^ 30) (ht : 0 ≤ t) (ht' : t ≤ 1 / 2 ^ 540)
    (hi : i ≤ p) (hp : p ≤ 200) (hc : ∀ r, 0 ≤ c r) (hs : ∀ i, i ≤ p + 1 → ∑ r ∈ Finset.range i, c r ≤ 1) (hQ : ∀ r, |Q r| ≤ M)
    (hx : Acc M a t c Q i x) (hPf : P.Finite) (hP : P.toQ = Q i) (hw : Near w (c i) a t) : Acc M a t c Q (i + 1) (x + P * w) := by
  have hu := uro_pos'
  have hu2 := uro_le50
  have t0 := tau_pos
  have hM0 : 0 < M := lt_of_lt_of_le (by positivity) hM
  have tM : tau ≤ 1 / 2 ^ 100 * M := by
    have h1 : tau ≤ 1 / 2 ^ 100 * (1 / 2 ^ 400) := by
      unfold tau
      rw [one_div_mul_one_div, ← pow_add]
      exact one_div_le_one_div_of_le (by positivity) (pow_le_pow_right₀ (by norm_num) (by norm_num))
    exact h1.trans (mul_le_mul_of_nonneg_left hM (by positivity))
  have tt : t ≤ 1 / 2 ^ 100 := ht'.trans (one_div_le_one_div_of_le (by positivity) (pow_le_pow_right₀ (by norm_num) (by norm_num)))
  have hci : c i ≤ 1 := by
    have := hs (i+1) (by omega)
    rw [Finset.sum_range_succ] at this
    linarith [Finset.sum_nonneg (s := Finset.range i) fun r _ => hc r]
  have hc0 := hc i
  have hPM : |P.toQ| ≤ M := hP ▸ hQ i
  -- the product
  have w2 : w.toQ ≤ 9 / 8 * c i + t := by
    have : a * c i ≤ 1 / 8 * c i := mul_le_mul_of_nonneg_right (ha'.trans (by norm_num)) hc0
    linarith [hw.hi]
  have w3 : w.toQ ≤ 2 := by linarith
  have hpw : |P.toQ * w.toQ| ≤ M * w.toQ := by rw [abs_mul, abs_of_nonneg hw.nn]; exact mul_le_mul_of_nonneg_right hPM hw.nn
  have hpb : |P.toQ * w.toQ| ≤ 2 ^ 200 := by
    have h1 : M * w.toQ ≤ 2 ^ 190 * 2 := mul_le_mul hM' w3 hw.nn (by norm_num)
    exact hpw.trans (h1.trans (by norm_num))
  obtain ⟨f1, v1⟩ := mul_fin hPf hw.fin (rnd_small hpb)
  have r1 : |(P * w).toQ - P.toQ * w.toQ| ≤ uro * (M * w.toQ) + tau := by
    rw [v1]
    have h1 := rnd_abs_err (P.toQ * w.toQ)
    have h2 := mul_le_mul_of_nonneg_left hpw hu.le
    have e : tau = 1 / 2 ^ 1000 := by unfold tau; rfl
    rw [e]
    exact h1.trans (add_le_add h2 (le_refl _))
  have r2 : |P.toQ * w.toQ - c i * Q i| ≤ M * (a * c i + t) := by
    have e : P.toQ * w.toQ - c i * Q i = P.toQ * (w.toQ - c i) := by rw [hP]; ring
    rw [e, abs_mul]
    exact mul_le_mul hPM hw.err (abs_nonneg _) hM0.le
  have hprod : |(P * w).toQ - c i * Q i| ≤ (a + 9 / 8 * uro) * M * c i + (2 * M * t + tau) := by
    have e : (P * w).toQ - c i * Q i = ((P * w).toQ - P.toQ * w.toQ) + (P.toQ * w.toQ - c i * Q i) := by ring
    rw [e]
    refine (abs_add_le _ _).trans ?_
    have h1 : uro * (M * w.toQ) ≤ uro * (M * (9 / 8 * c i + t)) := mul_le_mul_of_nonneg_left (mul_le_mul_of_nonneg_left w2 hM0.le) hu.le
    have h2 : uro * (M * (9 / 8 * c i + t)) = 9 / 8 * uro * M * c i + uro * (M * t) := by ring
    have h3 : uro * (M * t) ≤ 1 * (M * t) := mul_le_mul_of_nonneg_right (by linarith) (mul_nonneg hM0.le ht)
    have h4 : M * (a * c i + t) = a * M * c i + M * t := by ring
    have h5 : (a + 9 / 8 * uro) * M * c i = a * M * c i + 9 / 8 * uro * M * c i := by ring
    linarith
  -- the sum
  obtain ⟨fx, ex⟩ := hx
  have hsum : |(x.toQ + (P * w).toQ) - ∑ r ∈ Finset.range (i+1), c r * Q r| ≤
      (a + 9 / 8 * uro) * M * (∑ r ∈ Finset.range (i+1), c r) + (i * (2 * uro * M + 2 * M * t + 2 * tau) + (2 * M * t + tau)) := by
    rw [Finset.sum_range_succ, Finset.sum_range_succ]
    have e : x.toQ + (P * w).toQ - (∑ r ∈ Finset.range i, c r * Q r + c i * Q i) =
        (x.toQ - ∑ r ∈ Finset.range i, c r * Q r) + ((P * w).toQ - c i * Q i) := by ring
    rw [e]
    refine (abs_add_le _ _).trans ?_
    unfold accErr at ex
    linarith
  have hexact : |∑ r ∈ Finset.range (i+1), c r * Q r| ≤ M := by
    refine (Finset.abs_sum_le_sum_abs _ _).trans ?_
    have h1 : ∑ r ∈ Finset.range (i+1), |c r * Q r| ≤ ∑ r ∈ Finset.range (i+1), c r * M := Finset.sum_le_sum fun r _ => by
      rw [abs_mul, abs_of_nonneg (hc r)]
      exact mul_le_mul_of_nonneg_left (hQ r) (hc r)
    rw [← Finset.sum_mul] at h1
    exact h1.trans (mul_le_of_le_one_left hM0.le (hs (i+1) (by omega)))
  have hS : ∑ r ∈ Finset.range (i+1), c r ≤ 1 := hs (i+1) (by omega)
  have hS0 : 0 ≤ ∑ r ∈ Finset.range (i+1), c r := Finset.sum_nonneg fun r _ => hc r
  have hi' : (i:ℚ) ≤ 200 := by exact_mod_cast hi.trans hp
  have hMt : M * t ≤ M * (1 / 2 ^ 100) := mul_le_mul_of_nonneg_left tt hM0.le
  have hMt0 : 0 ≤ M * t := mul_nonneg hM0.le ht
  have huM : uro * M ≤ 1 / 2 ^ 50 * M := mul_le_mul_of_nonneg_right hu2 hM0.le
  have huM0 : 0 ≤ uro * M := mul_nonneg hu.le hM0.le
  have hsmall : (a + 9 / 8 * uro) * M * (∑ r ∈ Finset.range (i+1), c r) + (i * (2 * uro * M + 2 * M * t + 2 * tau) + (2 * M * t + tau)) ≤ 1 / 4 * M := by
    have h1 : (a + 9 / 8 * uro) * M * (∑ r ∈ Finset.range (i+1), c r) ≤ (a + 9 / 8 * uro) * M * 1 :=
      mul_le_mul_of_nonneg_left hS (mul_nonneg (by linarith) hM0.le)
    have h2 : (a + 9 / 8 * uro) * M ≤ 1 / 8 * M := mul_le_mul_of_nonneg_right (by linarith) hM0.le
    have h3 : (i:ℚ) * (2 * uro * M + 2 * M * t + 2 * tau) ≤ 200 * (2 * uro * M + 2 * M * t + 2 * tau) :=
      mul_le_mul_of_nonneg_right hi' (by linarith)
    linarith
  have habs : |x.toQ + (P * w).toQ| ≤ 2 * M := by
    have e : x.toQ + (P * w).toQ = (x.toQ + (P * w).toQ - ∑ r ∈ Finset.range (i+1), c r * Q r) + ∑ r ∈ Finset.range (i+1), c r * Q r := by ring
    rw [e]
    refine (abs_add_le _ _).trans ?_
    linarith
  obtain ⟨f2, v2⟩ := add_fin fx f1 (rnd_small (habs.trans (by linarith [show (2:ℚ) * 2 ^ 190 ≤ 2 ^ 200 by norm_num])))
  refine ⟨f2, ?_⟩
  rw [v2]
  have r3 := rnd_add_rel x (P * w)
  have r4 : uro * |x.toQ + (P * w).toQ| ≤ uro * (2 * M) := mul_le_mul_of_nonneg_left habs hu.le
  have e : rnd (x.toQ + (P * w).toQ) - ∑ r ∈ Finset.range (i+1), c r * Q r =
      (rnd (x.toQ + (P * w).toQ) - (x.toQ + (P * w).toQ)) + (x.toQ + (P * w).toQ - ∑ r ∈ Finset.range (i+1), c r * Q r) := by ring
  rw [e]
  refine (abs_add_le _ _).trans ?_
  unfold accErr
  push_cast
  linarith

theorem curveLoop_acc {M a t : ℚ} {c : ℕ → ℚ} {p base : ℕ} (hM : 1 / 2 ^ 400 ≤ M) (hM' : M ≤ 2 ^ 190) (ha : 0 ≤ a) (ha' : a ≤ 1 / 2 ^ 30) (ht : 0 ≤ t) (ht' : t ≤ 1 / 2 ^ 540)
    (hp : p ≤ 200) (hc : ∀ r, 0 ≤ c r) (hs : ∀ i, i ≤ p + 1 → ∑ r ∈ Finset.range i, c r ≤ 1) {P : List (R3.Vector F64)} {N : List F64} {Q : ℕ → R3.Vector F64}
    (hQ : ∀ r, (Q r).X.Finite ∧ (Q r).Y.Finite ∧ (Q r).Z.Finite ∧ |(Q r).X.toQ| ≤ M ∧ |(Q r).Y.toQ| ≤ M ∧ |(Q r).Z.toQ| ≤ M)
    (hN : ∀ r, r ≤ p → ∃ x, N[r]? = some x ∧ Near x (c r) a t) (hP : ∀ r, r ≤ p → P[base + r]? = some (Q r)) :
    ∀ (m i : ℕ) (C : R3.Vector F64), i + m = p + 1 → Acc M a t c (fun r => (Q r).X.toQ) i C.X → Acc M a t c (fun r => (Q r).Y.toQ) i C.Y →
      Acc M a t c (fun r => (Q r).Z.toQ) i C.Z →
      ∃ C', curveLoop P N base m i C = .ok C' ∧ Acc M a t c (fun r => (Q r).X.toQ) (p+1) C'.X ∧ Acc M a t c (fun r => (Q r).Y.toQ) (p+1) C'.Y ∧
        Acc M a t c (fun r => (Q r).Z.toQ) (p+1) C'.Z := by
  intro m
  induction m with
  | zero =>
    intro i C hi h1 h2 h3
    have : i = p + 1 := by omega
    subst this
    exact ⟨C, rfl, h1, h2, h3⟩
  | succ m ih =>
    intro i C hi h1 h2 h3
    obtain ⟨w, ew, hw⟩ := hN i (by omega)
    unfold curveLoop
    rw [goGet_eq (n := base + i) (by push_cast; rfl) (hP i (by omega)), goGet_eq (n := i) rfl ew]
    simp only [Res.bind_ok]
    rw [show ((i : Int) + 1) = ((i+1 : ℕ) : Int) by push_cast; rfl]
    obtain ⟨q1, q2, q3, _⟩ := hQ i
    exact ih (i+1) _ (by omega)
      (acc_step hM hM' ha ha' ht ht' (by omega) hp hc hs (fun r => (hQ r).2.2.2.1) h1 q1 rfl hw)
      (acc_step hM hM' ha ha' ht ht' (by omega) hp hc hs (fun r => (hQ r).2.2.2.2.1) h2 q2 rfl hw)
      (acc_step hM hM' ha ha' ht ht' (by omega) hp hc hs (fun r => (hQ r).2.2.2.2.2) h3 q3 rfl hw)

/-- C80: the float64 curve point exists, is finite, and each coordinate is within `(12 p + 4) / 2^53 * M` of the exact curve point, for control points with
coordinates up to `M` -/
theorem C80_curve (n p : ℕ) (U : List Int) (hfit : ∀ k ∈ U, |k| ≤ 2 ^ 53) (P : List (R3.Vector F64)) (u : F64) (hu : u.Finite) (h : CurveOK n p U u.toQ)
    (hP : n < P.length) (hp : p ≤ 200) {M : ℚ} (hM : 1 / 2 ^ 400 ≤ M) (hM' : M ≤ 2 ^ 190)
    (hb : ∀ v ∈ P, v.X.Finite ∧ v.Y.Finite ∧ v.Z.Finite ∧ |v.X.toQ| ≤ M ∧ |v.Y.toQ| ≤ M ∧ |v.Z.toQ| ≤ M) (fuel : ℕ) (hf : n + 1 - p ≤ fuel) :
    ∃ (C : R3.Vector F64) (E : R3.Vector ℚ), curvePoint fuel n p U P u = .ok C ∧ curvePoint fuel n p U (P.map exactV) u.toQ = .ok E ∧
      C.X.Finite ∧ C.Y.Finite ∧ C.Z.Finite ∧
      |C.X.toQ - E.X| ≤ (12 * p + 4) / 2 ^ 53 * M ∧ |C.Y.toQ - E.Y| ≤ (12 * p + 4) / 2 ^ 53 * M ∧ |C.Z.toQ - E.Z| ≤ (12 * p + 4) / 2 ^ 53 * M := by
  have hu0 := uro_pos'
  have hu2 := uro_le50
  have t0 := tau_pos
  have hM0 : 0 < M := lt_of_lt_of_le (by positivity) hM
  obtain ⟨k, hk, e⟩ := C45_formula n p U (P.map exactV) u.toQ h (by simpa using hP) fuel hf
  obtain ⟨hpk, hkn, hlt, h1, h2⟩ := id hk
  have h2' : u.toQ ≤ knot ℚ U (k+1) := h2.elim le_of_lt fun ⟨a, b⟩ => by rw [a, b]
  have hlen := h.len
  obtain ⟨w1, w2⟩ := span_weights n p U u.toQ h k hk
  obtain ⟨N, eN, _, hN⟩ := basisFuns_near h.nondec hfit hpk (by omega) hp hlt h1 h2' hu rfl
  -- the span
  have espan : findSpan fuel n p u U = .ok (k : Int) := by
    rw [C79_span hfit hu]
    obtain ⟨k', e', a1, a2, a3, a4⟩ := C41_findSpan n p u.toQ U h.deg (by omega) h.lo h.hi fuel hf
    rw [e']
    by_cases he : u.toQ = knot ℚ U (n+1)
    · have hkn' : k = n := by
        rcases h2 with h2 | ⟨a, _⟩
        · have := knot_mono (K := ℚ) U h.nondec (k+1) (n+1) (by omega) (by omega)
          rw [he] at h2
          exact absurd (lt_of_lt_of_le h2 this) (lt_irrefl _)
        · exact a
      rw [a4 he, hkn']
    · obtain ⟨b1, b2⟩ := a3 he
      have h2 : u.toQ < knot ℚ U (k+1) := h2.elim id fun ⟨_, b⟩ => absurd b he
      rw [span_unique u.toQ U h.nondec k' k (by omega) (by omega) b1 b2 h1 h2]
  let c : ℕ → ℚ := fun r => if r ≤ p then piece (knot ℚ U) k p (k-p+r) u.toQ else 0
  let Q : ℕ → R3.Vector F64 := fun r => P.getD (k-p+r) ⟨0, 0, 0⟩
  have hc : ∀ r, 0 ≤ c r := by
    intro r
    show 0 ≤ ite _ _ _
    split
    · exact w1 r ‹_›
    · exact le_refl _
  have hs1 : ∑ r ∈ Finset.range (p+1), c r = 1 := by
    rw [← w2]
    exact Finset.sum_congr rfl fun r hr => if_pos (by have := Finset.mem_range.mp hr; omega)
  have hs : ∀ i, i ≤ p + 1 → ∑ r ∈ Finset.range i, c r ≤ 1 := by
    intro i hi
    rw [← hs1]
    exact Finset.sum_le_sum_of_subset_of_nonneg (Finset.range_mono hi) fun r _ _ => hc r
  have hQ : ∀ r, (Q r).X.Finite ∧ (Q r).Y.Finite ∧ (Q r).Z.Finite ∧ |(Q r).X.toQ| ≤ M ∧ |(Q r).Y.toQ| ≤ M ∧ |(Q r).Z.toQ| ≤ M := by
    intro r
    have z : |(0 : F64).toQ| ≤ M := by
      have : (0 : F64).toQ = 0 := by decide +kernel
      rw [this, abs_zero]; exact hM0.le
    cases ev : P[k-p+r]? with
    | none =>
      have : Q r = ⟨0, 0, 0⟩ := by show P.getD _ _ = _; rw [List.getD_eq_getElem?_getD, ev]; rfl
      rw [this]
      exact ⟨trivial, trivial, trivial, z, z, z⟩
    | some v =>
      have : Q r = v := by show P.getD _ _ = _; rw [List.getD_eq_getElem?_getD, ev]; rfl
      rw [this]
      exact hb v (List.mem_of_getElem? ev)
  have hp' : (p:ℚ) ≤ 200 := by exact_mod_cast hp
  have hp0 : (0:ℚ) ≤ p := by positivity
  have ha0 : 0 ≤ 10 * (p:ℚ) * uro := by positivity
  have ha1 : 10 * (p:ℚ) * uro ≤ 1 / 2 ^ 30 := by
    have : 10 * (p:ℚ) * uro ≤ 2000 * (1 / 2 ^ 50) := mul_le_mul (by linarith) hu2 hu0.le (by norm_num)
    exact this.trans (by norm_num)
  have hl := lvl_mono hp
  rw [lvl_200] at hl
  have zero : ∀ Q : ℕ → ℚ, Acc M (10 * p * uro) (lvl p) c Q 0 0 := by
    intro Q
    refine ⟨trivial, ?_⟩
    have : (0 : F64).toQ = 0 := by decide +kernel
    simp [accErr, this]
  obtain ⟨C, eC, aX, aY, aZ⟩ := curveLoop_acc (base := k - p) (P := P) (N := N) (Q := Q) hM hM' ha0 ha1 (lvl_pos p).le hl hp hc hs hQ
    (by
      intro r hr
      obtain ⟨x, ex, hx⟩ := hN r hr
      refine ⟨x, ex, ?_⟩
      show Near x (ite _ _ _) _ _
      rw [if_pos hr]; exact hx)
    (by
      intro r hr
      show _ = some (P.getD _ _)
      rw [List.getD_eq_getElem?_getD, List.getElem?_eq_getElem (by omega : k - p + r < P.length)]; rfl)
    (p+1) 0 ⟨0, 0, 0⟩ (by omega) (zero _) (zero _) (zero _)
  have hbound : accErr M (10 * p * uro) (lvl p) c (p+1) ≤ (12 * p + 4) / 2 ^ 53 * M := by
    unfold accErr
    rw [hs1]
    have tM : tau ≤ 1 / 2 ^ 100 * M := by
      have h1 : tau ≤ 1 / 2 ^ 100 * (1 / 2 ^ 400) := by
        unfold tau
        rw [one_div_mul_one_div, ← pow_add]
        exact one_div_le_one_div_of_le (by positivity) (pow_le_pow_right₀ (by norm_num) (by norm_num))
      exact h1.trans (mul_le_mul_of_nonneg_left hM (by positivity))
    have tt : lvl p ≤ 1 / 2 ^ 100 := hl.trans (one_div_le_one_div_of_le (by positivity) (pow_le_pow_right₀ (by norm_num) (by norm_num)))
    have hMt : M * lvl p ≤ M * (1 / 2 ^ 100) := mul_le_mul_of_nonneg_left tt hM0.le
    have hMt0 : 0 ≤ M * lvl p := mul_nonneg hM0.le (lvl_pos p).le
    have e1 : (12 * (p:ℚ) + 4) / 2 ^ 53 * M = 12 * p * (uro * M) + 4 * (uro * M) := by unfold uro; ring
    have e2 : uro * M = 1 / 2 ^ 53 * M := rfl
    rw [e1]
    have h3 : ((p + 1 : ℕ) : ℚ) * (2 * uro * M + 2 * M * lvl p + 2 * tau) = 2 * p * (uro * M) + 2 * (uro * M) + (p + 1) * (2 * (M * lvl p) + 2 * tau) := by push_cast; ring
    have h4 : ((p:ℚ) + 1) * (2 * (M * lvl p) + 2 * tau) ≤ 201 * (2 * (M * lvl p) + 2 * tau) := mul_le_mul_of_nonneg_right (by linarith) (by linarith)
    have h5 : (10 * (p:ℚ) * uro + 9 / 8 * uro) * M * 1 = 10 * p * (uro * M) + 9 / 8 * (uro * M) := by ring
    have h6 : (201:ℚ) * (2 * (M * (1 / 2 ^ 100)) + 2 * (1 / 2 ^ 100 * M)) ≤ 7 / 8 * (1 / 2 ^ 53 * M) := by
      have : (201:ℚ) * (2 * (M * (1 / 2 ^ 100)) + 2 * (1 / 2 ^ 100 * M)) = 804 / 2 ^ 100 * M := by ring
      rw [this]
      have h : 7 / 8 * (1 / 2 ^ 53 * M) = 7 / 8 / 2 ^ 53 * M := by ring
      rw [h]
      exact mul_le_mul_of_nonneg_right (by norm_num) hM0.le
    rw [h3, h5]
    linarith
  have hX : ∀ r, r ∈ Finset.range (p+1) → c r = piece (knot ℚ U) k p (k-p+r) u.toQ := fun r hr => if_pos (by have := Finset.mem_range.mp hr; omega)
  have hmap : ∀ r, (P.map exactV).getD (k-p+r) ⟨0, 0, 0⟩ = exactV (Q r) := by
    intro r
    show _ = exactV (P.getD _ _)
    rw [List.getD_eq_getElem?_getD, List.getD_eq_getElem?_getD, List.getElem?_map]
    cases P[k-p+r]? <;> rfl
  refine ⟨C, _, ?_, e, aX.1, aY.1, aZ.1, ?_, ?_, ?_⟩
  · unfold curvePoint
    rw [espan]
    simp only [Res.bind_ok]
    rw [eN]
    simp only [Res.bind_ok]
    rw [show ((k:Int) - (p:Int)) = ((k - p : ℕ) : Int) by omega, show ((p:Int)+1).toNat = p + 1 by omega]
    exact eC
  · refine le_trans (le_of_eq ?_) (aX.2.trans hbound)
    have e : ∑ r ∈ Finset.range (p+1), piece (knot ℚ U) k p (k-p+r) u.toQ * ((P.map exactV).getD (k-p+r) ⟨0, 0, 0⟩).X =
        ∑ r ∈ Finset.range (p+1), c r * (Q r).X.toQ := Finset.sum_congr rfl fun r hr => by rw [hX r hr, hmap r]; rfl
    exact congrArg (fun z => |C.X.toQ - z|) e
  · refine le_trans (le_of_eq ?_) (aY.2.trans hbound)
    have e : ∑ r ∈ Finset.range (p+1), piece (knot ℚ U) k p (k-p+r) u.toQ * ((P.map exactV).getD (k-p+r) ⟨0, 0, 0⟩).Y =
        ∑ r ∈ Finset.range (p+1), c r * (Q r).Y.toQ := Finset.sum_congr rfl fun r hr => by rw [hX r hr, hmap r]; rfl
    exact congrArg (fun z => |C.Y.toQ - z|) e
  · refine le_trans (le_of_eq ?_) (aZ.2.trans hbound)
    have e : ∑ r ∈ Finset.range (p+1), piece (knot ℚ U) k p (k-p+r) u.toQ * ((P.map exactV).getD (k-p+r) ⟨0, 0, 0⟩).Z =
        ∑ r ∈ Finset.range (p+1), c r * (Q r).Z.toQ := Finset.sum_congr rfl fun r hr => by rw [hX r hr, hmap r]; rfl
    exact congrArg (fun z => |C.Z.toQ - z|) e

/-! ### a run, and what does not hold -/

/-- knot vector of the example in Piegl & Tiller -/
def exKnots : List Int := [0, 0, 0, 1, 2, 3, 4, 4, 5, 5, 5]

/-- a parameter near 2.37 with a 33 bit mantissa -/
def exPar : F64 := flt 0x12f662ddc (-31)

/-- the parameter and the knots meet the hypotheses of C79 and C80 (span 4, degree 2, eight control points) -/
example : exPar.Finite ∧ Nondec exKnots ∧ (∀ k ∈ exKnots, |k| ≤ 2 ^ 53) ∧ knot ℚ exKnots 4 ≤ exPar.toQ ∧ exPar.toQ < knot ℚ exKnots 5 ∧
    CurveOK 7 2 exKnots exPar.toQ := by
  have hn : Nondec exKnots := by
    have h : ∀ j < 11, ∀ i ≤ j, exKnots.getD i 0 ≤ exKnots.getD j 0 := by decide
    exact fun i j hij hj => h j hj i hij
  refine ⟨by decide +kernel, hn, by decide, by decide +kernel, by decide +kernel, hn, by decide, by decide, by decide +kernel, by decide +kernel, by decide +kernel⟩

/-- C80: at float64 the weights need not sum to one: with all eight control points at (1,1,1) the curve point is `1 - 2^-53`, outside every box that
holds the control points (C45 excludes this in exact arithmetic) -/
theorem C80_hull_refuted : curvePoint 100 7 2 exKnots (List.replicate 8 (⟨1, 1, 1⟩ : R3.Vector F64)) exPar =
    .ok ⟨flt (2 ^ 53 - 1) (-53), flt (2 ^ 53 - 1) (-53), flt (2 ^ 53 - 1) (-53)⟩ := by decide +kernel

/-- C80: at float64 a clamped curve need not start at its first control point: the segment from (1,0,0) to (0,1,0) over the knots 0, 0, 49, 49 starts at
`1 - 2^-53`, because 49 * (1/49) rounds below one -/
theorem C80_interpolation_refuted : curvePoint 100 1 1 [0, 0, 49, 49] [⟨1, 0, 0⟩, ⟨0, 1, 0⟩] (0 : F64) = .ok ⟨flt (2 ^ 53 - 1) (-53), 0, 0⟩ ∧
    curvePoint 100 1 1 [0, 0, 49, 49] [⟨1, 0, 0⟩, ⟨0, 1, 0⟩] (0 : ℚ) = .ok ⟨1, 0, 0⟩ := by decide +kernel

end Verif.Props
