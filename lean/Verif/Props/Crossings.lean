import Verif.Props.CurveShape
/-!
# C117: the curve crosses a plane at most as often as its control polygon (nurbs/curve.go:17-27, nurbs/basis.go:13-63)

If points of the curve at increasing parameters lie alternately on the two sides of a plane, then as many control points, in order, lie alternately on the two
sides. The proof puts further knots into the knot vector, which replaces the control points by points on the sides of the control polygon and leaves the curve
alone, until every one of the given points of the curve is a control point.
-/
namespace Verif.Props
open Verif Verif.Proofs Verif.Spec Verif.Nurbs
open scoped Topology

/-! ## A further knot -/

/-- the knots `U` with `x` put in after the knot `k` -/
noncomputable def insKnot (U : ℕ → ℝ) (x : ℝ) (k j : ℕ) : ℝ := if j ≤ k then U j else if j = k + 1 then x else U (j-1)

/-- the weights of the new control points -/
noncomputable def insWeight (U : ℕ → ℝ) (x : ℝ) (k p i : ℕ) : ℝ := if i + p ≤ k then 1 else if k < i then 0 else (x - U i) / (U (i+p) - U i)

/-- the new control points -/
noncomputable def insCoeff (U : ℕ → ℝ) (x : ℝ) (k p : ℕ) (c : ℕ → ℝ) (i : ℕ) : ℝ :=
  insWeight U x k p i * c i + (1 - insWeight U x k p i) * c (i-1)

/-- span `l` before and span `l'` after the knot was put in -/
def InsSpan (k l l' : ℕ) : Prop := (l < k ∧ l' = l) ∨ (l = k ∧ (l' = k ∨ l' = k + 1)) ∨ (k < l ∧ l' = l + 1)

section
variable {U : ℕ → ℝ} {x : ℝ} {k : ℕ}

theorem ins_le {j : ℕ} (h : j ≤ k) : insKnot U x k j = U j := by unfold insKnot; rw [if_pos h]
theorem ins_at : insKnot U x k (k+1) = x := by unfold insKnot; rw [if_neg (by omega), if_pos rfl]
theorem ins_gt {j : ℕ} (h : k < j) : insKnot U x k (j+1) = U j := by
  unfold insKnot; rw [if_neg (by omega), if_neg (by omega), Nat.add_sub_cancel]

theorem ins_mono (hm : Monotone U) (h1 : U k ≤ x) (h2 : x < U (k+1)) : Monotone (insKnot U x k) := by
  apply monotone_nat_of_le_succ
  intro j
  rcases lt_trichotomy j k with h | h | h
  · rw [ins_le h.le, ins_le (by omega)]; exact hm (by omega)
  · subst h; rw [ins_le le_rfl, ins_at]; exact h1
  · obtain ⟨j, rfl⟩ : ∃ r, j = r + 1 := ⟨j - 1, by omega⟩
    rw [ins_gt h]
    rcases Nat.eq_or_lt_of_le (show k ≤ j by omega) with e | e
    · subst e; rw [ins_at]; exact h2.le
    · rw [ins_gt e]; exact hm (by omega)

/-- a basis function without width vanishes -/
theorem piece_flat {V : ℕ → ℝ} (hm : Monotone V) {l p i : ℕ} (u : ℝ) (hl : V l < V (l+1)) (he : V (i+p+1) = V i) : piece V l p i u = 0 := by
  apply piece_support
  by_contra h
  have a := hm (show i ≤ l by omega)
  have b := hm (show l + 1 ≤ i + p + 1 by omega)
  linarith

/-- the basis functions left of the new knot stay -/
theorem ins_left {l l' : ℕ} (hr : InsSpan k l l') (u : ℝ) (p i : ℕ) (h : i + p + 1 ≤ k) : piece U l p i u = piece (insKnot U x k) l' p i u := by
  induction p generalizing i with
  | zero => simp only [piece]; unfold InsSpan at hr; congr 1; apply propext; omega
  | succ p ih =>
    simp only [piece]
    rw [ih i (by omega), ih (i+1) (by omega), ins_le (by omega), ins_le (by omega), ins_le (by omega), ins_le (by omega)]

/-- and those to the right of it move on by one -/
theorem ins_right {l l' : ℕ} (hr : InsSpan k l l') (u : ℝ) (p i : ℕ) (h : k < i) : piece U l p i u = piece (insKnot U x k) l' p (i+1) u := by
  induction p generalizing i with
  | zero => simp only [piece]; unfold InsSpan at hr; congr 1; apply propext; omega
  | succ p ih =>
    simp only [piece]
    rw [ih i h, ih (i+1) (by omega), show i + 1 + p + 1 = (i + p + 1) + 1 by omega, show i + 1 + p + 2 = (i + p + 2) + 1 by omega,
      ins_gt (show k < i + p + 1 by omega), ins_gt (show k < i + p + 2 by omega), ins_gt h, ins_gt (show k < i + 1 by omega)]

/-- every basis function is a combination of two of the new ones -/
theorem boehm (hm : Monotone U) (h1 : U k ≤ x) (h2 : x < U (k+1)) {l l' : ℕ} (hr : InsSpan k l l')
    (hs : insKnot U x k l' < insKnot U x k (l'+1)) (u : ℝ) (p i : ℕ) :
    piece U l p i u = insWeight U x k p i * piece (insKnot U x k) l' p i u + (1 - insWeight U x k p (i+1)) * piece (insKnot U x k) l' p (i+1) u := by
  have hV := ins_mono hm h1 h2
  have lo : ∀ {j}, j ≤ k → U j ≤ x := fun h => (hm h).trans h1
  have hi : ∀ {j}, k < j → x < U j := fun h => h2.trans_le (hm h)
  induction p generalizing i with
  | zero =>
    simp only [piece, insWeight, Nat.add_zero]
    unfold InsSpan at hr
    rcases lt_trichotomy i k with h | h | h
    · rw [if_pos h.le, if_pos (show i + 1 ≤ k by omega)]
      have : i = l ↔ i = l' := by omega
      simp [this]
    · subst h
      rw [if_pos le_rfl, if_neg (show ¬ i + 1 ≤ i by omega), if_pos (show i < i + 1 by omega)]
      rcases hr with ⟨a, b⟩ | ⟨a, b | b⟩ | ⟨a, b⟩
      · rw [if_neg (by omega), if_neg (by omega), if_neg (by omega)]; ring
      · rw [if_pos (by omega), if_pos (by omega), if_neg (by omega)]; ring
      · rw [if_pos (by omega), if_neg (by omega), if_pos (by omega)]; ring
      · rw [if_neg (by omega), if_neg (by omega), if_neg (by omega)]; ring
    · rw [if_neg (show ¬ i ≤ k by omega), if_pos h, if_neg (show ¬ i + 1 ≤ k by omega), if_pos (show k < i + 1 by omega)]
      have : i = l ↔ i + 1 = l' := by omega
      simp [this]
  | succ p ih =>
    rcases Nat.lt_or_ge k i with hki | hik
    · rw [ins_right hr u (p+1) i hki]
      have w1 : insWeight U x k (p+1) i = 0 := by unfold insWeight; rw [if_neg (by omega), if_pos hki]
      have w2 : insWeight U x k (p+1) (i+1) = 0 := by unfold insWeight; rw [if_neg (by omega), if_pos (by omega)]
      rw [w1, w2]; ring
    rcases Nat.lt_or_ge (i+p+1) k with hlt | hge
    · rw [ins_left hr u (p+1) i (by omega)]
      have w1 : insWeight U x k (p+1) i = 1 := by unfold insWeight; rw [if_pos (by omega)]
      have w2 : insWeight U x k (p+1) (i+1) = 1 := by unfold insWeight; rw [if_pos (by omega)]
      rw [w1, w2]; ring
    have ih0 := ih i
    have ih1 := ih (i+1)
    -- the knots of the basis function in the new numbering
    have kA : insKnot U x k i = U i := ins_le hik
    have kD : insKnot U x k (i+1+p+2) = U (i+p+2) := by rw [show i + 1 + p + 2 = (i + p + 2) + 1 by omega]; exact ins_gt (by omega)
    have hD : x < U (i+p+2) := hi (by omega)
    have hC' : i + p + 1 = k ∨ k < i + p + 1 := by omega
    simp only [piece]
    rw [ih0, ih1]
    rw [show i + 1 + p + 1 = i + p + 2 by omega, show i + 1 + 1 = i + 2 by omega] at *
    rw [kA, kD]
    generalize hN0 : piece (insKnot U x k) l' p i u = N0
    generalize hN1 : piece (insKnot U x k) l' p (i+1) u = N1
    generalize hN2 : piece (insKnot U x k) l' p (i+2) u = N2
    have z0 : insKnot U x k (i+p+1) = insKnot U x k i → N0 = 0 := fun e => hN0 ▸ piece_flat hV u hs e
    have z1 : insKnot U x k (i+p+2) = insKnot U x k (i+1) → N1 = 0 := fun e => hN1 ▸ piece_flat hV u hs (by rw [show i + 1 + p + 1 = i + p + 2 by omega]; exact e)
    rcases Nat.eq_or_lt_of_le hik with e | hik'
    · -- the last function that reaches over the new knot
      subst e
      have w0' : insWeight U x i (p+1) i = (x - U i) / (U (i+p+1) - U i) := by unfold insWeight; rw [if_neg (by omega), if_neg (by omega)]; rfl
      have w1' : insWeight U x i (p+1) (i+1) = 0 := by unfold insWeight; rw [if_neg (by omega), if_pos (by omega)]
      have w1 : insWeight U x i p (i+1) = 0 := by unfold insWeight; rw [if_neg (by omega), if_pos (by omega)]
      have w2 : insWeight U x i p (i+2) = 0 := by unfold insWeight; rw [if_neg (by omega), if_pos (by omega)]
      have k1 : insKnot U x i (i+1) = x := ins_at
      have k2 : insKnot U x i (i+2) = U (i+1) := ins_gt (by omega)
      have kC : insKnot U x i (i+p+2) = U (i+p+1) := ins_gt (by omega)
      have hC : x < U (i+p+1) := hi (by omega)
      rw [w0', w1', w1, w2, k1, k2, kC]
      have d1 : U (i+p+1) - x ≠ 0 := by linarith
      have d2 : U (i+p+1) - U i ≠ 0 := by linarith
      have c0 : insWeight U x i p i * N0 = (x - U i) * (N0 / (insKnot U x i (i+p+1) - U i)) := by
        unfold insWeight
        rcases Nat.eq_zero_or_pos p with rfl | hp
        · rw [if_pos (by omega)]
          rw [show i + 0 + 1 = i + 1 by omega, k1] at z0 ⊢
          by_cases e : x = U i
          · rw [z0 (by rw [kA]; exact e)]; simp
          · have : x - U i ≠ 0 := sub_ne_zero.mpr e
            field_simp
        · rw [if_neg (by omega), if_neg (by omega), ins_gt (show i < i + p by omega)]; ring
      have e0 : (u - U i) / (U (i+p+1) - U i) * (insWeight U x i p i * N0) = (x - U i) / (U (i+p+1) - U i) * ((u - U i) / (insKnot U x i (i+p+1) - U i) * N0) := by
        rw [c0]; ring
      have e1 : (u - U i) / (U (i+p+1) - U i) * N1 = (x - U i) / (U (i+p+1) - U i) * ((U (i+p+1) - u) / (U (i+p+1) - x) * N1) + (u - x) / (U (i+p+1) - x) * N1 := by
        field_simp; ring
      linear_combination e0 + e1
    · have k1 : insKnot U x k (i+1) = U (i+1) := ins_le hik'
      have hB : U (i+1) ≤ x := lo hik'
      have w1' : insWeight U x k (p+1) (i+1) = (x - U (i+1)) / (U (i+p+2) - U (i+1)) := by
        unfold insWeight; rw [if_neg (by omega), if_neg (by omega), show i + 1 + (p + 1) = i + p + 2 by omega]
      have kG : insKnot U x k (i+2) ≤ x := by
        rcases Nat.eq_or_lt_of_le hik' with e | e
        · rw [show i + 2 = k + 1 by omega, ins_at]
        · rw [ins_le (by omega)]; exact lo (by omega)
      have d2 : U (i+p+2) - insKnot U x k (i+2) ≠ 0 := by linarith
      have dB : U (i+p+2) - U (i+1) ≠ 0 := by linarith
      have w2 : 1 - insWeight U x k p (i+2) = (U (i+p+2) - x) / (U (i+p+2) - insKnot U x k (i+2)) := by
        unfold insWeight
        rcases Nat.eq_or_lt_of_le hik' with e | e
        · rw [if_neg (by omega), if_pos (by omega), show i + 2 = k + 1 by omega, ins_at]
          have : U (i+p+2) - x ≠ 0 := by linarith
          field_simp; ring
        · rw [if_neg (by omega), if_neg (by omega), ins_le (show i + 2 ≤ k by omega), show i + 2 + p = i + p + 2 by omega]
          rw [ins_le (show i + 2 ≤ k by omega)] at d2
          field_simp; ring
      rcases hC' with eC | hC
      · -- the first function that reaches over the new knot
        have w0' : insWeight U x k (p+1) i = 1 := by unfold insWeight; rw [if_pos (by omega)]
        have w0 : insWeight U x k p i = 1 := by unfold insWeight; rw [if_pos (by omega)]
        have w1 : insWeight U x k p (i+1) = 1 := by unfold insWeight; rw [if_pos (by omega)]
        have kC : insKnot U x k (i+p+1) = U (i+p+1) := ins_le (by omega)
        have kx : insKnot U x k (i+p+2) = x := by rw [show i + p + 2 = k + 1 by omega]; exact ins_at
        rw [w0', w0, w1, w1', w2, k1, kC, kx]
        have e1 : (U (i+p+2) - u) / (U (i+p+2) - U (i+1)) * N1 = (x - u) / (x - U (i+1)) * N1 +
            (1 - (x - U (i+1)) / (U (i+p+2) - U (i+1))) * ((u - U (i+1)) / (x - U (i+1)) * N1) := by
          by_cases e : x = U (i+1)
          · rw [z1 (by rw [kx, k1]; exact e)]; simp
          · have : x - U (i+1) ≠ 0 := sub_ne_zero.mpr e
            field_simp; ring
        have e2 : (U (i+p+2) - u) / (U (i+p+2) - U (i+1)) * ((U (i+p+2) - x) / (U (i+p+2) - insKnot U x k (i+2)) * N2) =
            (1 - (x - U (i+1)) / (U (i+p+2) - U (i+1))) * ((U (i+p+2) - u) / (U (i+p+2) - insKnot U x k (i+2)) * N2) := by
          field_simp; ring
        linear_combination e1 + e2
      · have hCx : x < U (i+p+1) := hi hC
        have hA : U i ≤ x := lo hik
        have w0' : insWeight U x k (p+1) i = (x - U i) / (U (i+p+1) - U i) := by unfold insWeight; rw [if_neg (by omega), if_neg (by omega)]; rfl
        have w1 : insWeight U x k p (i+1) = (x - U (i+1)) / (U (i+p+1) - U (i+1)) := by
          unfold insWeight; rw [if_neg (by omega), if_neg (by omega), show i + 1 + p = i + p + 1 by omega]
        have kC : insKnot U x k (i+p+2) = U (i+p+1) := ins_gt hC
        have c0 : insWeight U x k p i * N0 = (x - U i) * (N0 / (insKnot U x k (i+p+1) - U i)) := by
          unfold insWeight
          rcases Nat.eq_or_lt_of_le (show k ≤ i + p by omega) with e | e
          · rw [if_pos (by omega)]
            rw [show i + p + 1 = k + 1 by omega, ins_at] at z0 ⊢
            by_cases e : x = U i
            · rw [z0 (by rw [kA]; exact e)]; simp
            · have : x - U i ≠ 0 := sub_ne_zero.mpr e
              field_simp
          · rw [if_neg (by omega), if_neg (by omega), ins_gt e]; ring
        rw [w0', w1, w1', w2, k1, kC]
        have dA : U (i+p+1) - U i ≠ 0 := by linarith
        have dC : U (i+p+1) - U (i+1) ≠ 0 := by linarith
        have e0 : (u - U i) / (U (i+p+1) - U i) * (insWeight U x k p i * N0) = (x - U i) / (U (i+p+1) - U i) * ((u - U i) / (insKnot U x k (i+p+1) - U i) * N0) := by
          rw [c0]; ring
        have e1 : (u - U i) / (U (i+p+1) - U i) * ((1 - (x - U (i+1)) / (U (i+p+1) - U (i+1))) * N1) +
            (U (i+p+2) - u) / (U (i+p+2) - U (i+1)) * ((x - U (i+1)) / (U (i+p+1) - U (i+1)) * N1) =
            (x - U i) / (U (i+p+1) - U i) * ((U (i+p+1) - u) / (U (i+p+1) - U (i+1)) * N1) +
            (1 - (x - U (i+1)) / (U (i+p+2) - U (i+1))) * ((u - U (i+1)) / (U (i+p+1) - U (i+1)) * N1) := by
          field_simp; ring
        have e2 : (U (i+p+2) - u) / (U (i+p+2) - U (i+1)) * ((U (i+p+2) - x) / (U (i+p+2) - insKnot U x k (i+2)) * N2) =
            (1 - (x - U (i+1)) / (U (i+p+2) - U (i+1))) * ((U (i+p+2) - u) / (U (i+p+2) - insKnot U x k (i+2)) * N2) := by
          field_simp; ring
        linear_combination e0 + e1 + e2

theorem weight_mem (hm : Monotone U) (h1 : U k ≤ x) (h2 : x < U (k+1)) (p i : ℕ) : 0 ≤ insWeight U x k p i ∧ insWeight U x k p i ≤ 1 := by
  unfold insWeight
  split_ifs with a b
  · norm_num
  · norm_num
  · have e1 : U i ≤ x := (hm (by omega)).trans h1
    have e2 : x < U (i+p) := h2.trans_le (hm (by omega))
    exact ⟨div_nonneg (by linarith) (by linarith), (div_le_one (by linarith)).mpr (by linarith)⟩

/-- the curve does not change -/
theorem ins_value (hm : Monotone U) (h1 : U k ≤ x) (h2 : x < U (k+1)) {n p l l' : ℕ} (hpk : p ≤ k) (hkn : k ≤ n) (hr : InsSpan k l l')
    (hs : insKnot U x k l' < insKnot U x k (l'+1)) (c : ℕ → ℝ) (u : ℝ) :
    Qs U n p c 0 l u = Qs (insKnot U x k) (n+1) p (insCoeff U x k p c) 0 l' u := by
  simp only [Qs, dpiece, insCoeff]
  have w0 : insWeight U x k p 0 = 1 := by unfold insWeight; rw [if_pos (by omega)]
  have wn : insWeight U x k p (n+1) = 0 := by unfold insWeight; rw [if_neg (by omega), if_pos (by omega)]
  have split : ∀ i, piece (insKnot U x k) l' p i u * (insWeight U x k p i * c i + (1 - insWeight U x k p i) * c (i-1)) =
      insWeight U x k p i * piece (insKnot U x k) l' p i u * c i + (1 - insWeight U x k p i) * piece (insKnot U x k) l' p i u * c (i-1) := fun i => by ring
  simp_rw [split]
  rw [Finset.sum_add_distrib, Finset.sum_range_succ (fun i => insWeight U x k p i * piece (insKnot U x k) l' p i u * c i), wn,
    Finset.sum_range_succ' (fun i => (1 - insWeight U x k p i) * piece (insKnot U x k) l' p i u * c (i-1)), w0]
  simp only [Nat.add_sub_cancel]
  rw [zero_mul, zero_mul, add_zero, sub_self, zero_mul, zero_mul, add_zero, ← Finset.sum_add_distrib]
  apply Finset.sum_congr rfl
  intro i _
  rw [boehm hm h1 h2 hr hs u p i]; ring

/-! ## Alternating signs -/

/-- `m + 1` of the numbers `c 0, …, c n` have, in order, the signs of `s 0, …, s m` -/
def Follows (c : ℕ → ℝ) (n m : ℕ) (s : ℕ → ℝ) : Prop := ∃ g : ℕ → ℕ, (∀ j < m, g j < g (j+1)) ∧ g m ≤ n ∧ ∀ j ≤ m, 0 < c (g j) * s j

theorem steps_le {m : ℕ} {g : ℕ → ℕ} (h : ∀ j < m, g j < g (j+1)) {j : ℕ} (hj : j ≤ m) : g j ≤ g m := by
  induction m, hj using Nat.le_induction with
  | base => exact le_rfl
  | succ q hq ih => exact (ih (fun i hi => h i (by omega))).trans (h q (by omega)).le

/-- numbers of opposite sign do not come from the same place -/
theorem apart_of_sign {a b v w : ℝ} (ha : 0 < a * v) (hb : 0 < b * w) (hvw : v * w < 0) : a ≠ b := by
  rintro rfl
  nlinarith [mul_pos ha hb, mul_nonneg (mul_self_nonneg a) (neg_nonneg.mpr hvw.le)]

/-- cutting corners makes no new changes of sign -/
theorem ins_follows (hm : Monotone U) (h1 : U k ≤ x) (h2 : x < U (k+1)) {n p : ℕ} (hpk : p ≤ k) (hkn : k ≤ n) (c : ℕ → ℝ) {m : ℕ} {s : ℕ → ℝ}
    (hs : ∀ j < m, s j * s (j+1) < 0) (h : Follows (insCoeff U x k p c) (n+1) m s) : Follows c n m s := by
  obtain ⟨g, g1, g2, g3⟩ := h
  have pick : ∀ i, i ≤ n + 1 → ∀ v, 0 < insCoeff U x k p c i * v → ∃ h, (h = i ∨ h + 1 = i) ∧ h ≤ n ∧ 0 < c h * v := by
    intro i hi v hv
    obtain ⟨w1, w2⟩ := weight_mem hm h1 h2 p i
    by_contra hno
    push Not at hno
    have e1 : insWeight U x k p i * (c i * v) ≤ 0 := by
      rcases Nat.eq_or_lt_of_le hi with e | e
      · have : insWeight U x k p i = 0 := by unfold insWeight; rw [if_neg (by omega), if_pos (by omega)]
        rw [this]; simp
      · exact mul_nonpos_of_nonneg_of_nonpos w1 (hno i (Or.inl rfl) (by omega))
    have e2 : (1 - insWeight U x k p i) * (c (i-1) * v) ≤ 0 := by
      rcases Nat.eq_zero_or_pos i with e | e
      · have : insWeight U x k p i = 1 := by unfold insWeight; rw [if_pos (by omega)]
        rw [this]; simp
      · exact mul_nonpos_of_nonneg_of_nonpos (by linarith) (hno (i-1) (Or.inr (by omega)) (by omega))
    unfold insCoeff at hv
    linarith
  have pick' : ∀ j, ∃ h, j ≤ m → (h = g j ∨ h + 1 = g j) ∧ h ≤ n ∧ 0 < c h * s j := by
    intro j
    by_cases hj : j ≤ m
    · obtain ⟨h, hh⟩ := pick (g j) ((steps_le g1 hj).trans g2) (s j) (g3 j hj)
      exact ⟨h, fun _ => hh⟩
    · exact ⟨0, fun h => absurd h hj⟩
  choose f hf using pick'
  refine ⟨f, fun j hj => ?_, (hf m le_rfl).2.1, fun j hj => (hf j hj).2.2⟩
  obtain ⟨a1, a2, a3⟩ := hf j hj.le
  obtain ⟨b1, b2, b3⟩ := hf (j+1) hj
  have := g1 j hj
  have hne : f j ≠ f (j+1) := fun e => apart_of_sign a3 b3 (hs j hj) (by rw [e])
  omega

end

/-! ## Many further knots -/

/-- `x` is in the domain and the last `r` knots up to it are `x` -/
def MultAt (U : ℕ → ℝ) (n p : ℕ) (x : ℝ) (r : ℕ) : Prop :=
  ∃ k, p ≤ k ∧ k ≤ n ∧ U k ≤ x ∧ x < U (k+1) ∧ ∀ j, k < j + r → j ≤ k → U j = x

/-- a property that cutting corners for a further knot keeps -/
def CutStable (p : ℕ) (Q : ((ℕ → ℝ) → ℕ → ℝ) → ℕ → Prop) : Prop :=
  ∀ (W : ℕ → ℝ) (x : ℝ) (k q : ℕ) (N : (ℕ → ℝ) → ℕ → ℝ), Monotone W → W k ≤ x → x < W (k+1) → p ≤ k → k ≤ q → Q N q → Q (fun c => insCoeff W x k p (N c)) (q+1)

/-- the knots `V` are the knots `U` with further ones, and `M` makes the new control points -/
structure Refines (p : ℕ) (U : ℕ → ℝ) (n : ℕ) (V : ℕ → ℝ) (n' : ℕ) (M : (ℕ → ℝ) → ℕ → ℝ) : Prop where
  mono : Monotone V
  last : V (n'+1) = U (n+1)
  value : ∀ u < U (n+1), ∀ l', Sp V n' p u l' → ∃ l, Sp U n p u l ∧ ∀ c, Qs V n' p (M c) 0 l' u = Qs U n p c 0 l u
  cut : ∀ Q, CutStable p Q → Q id n → Q M n'
  mult : ∀ x r, MultAt U n p x r → MultAt V n' p x r

theorem Refines.trans {p : ℕ} {U : ℕ → ℝ} {n : ℕ} {V : ℕ → ℝ} {n' : ℕ} {M : (ℕ → ℝ) → ℕ → ℝ} {W : ℕ → ℝ} {n'' : ℕ} {M' : (ℕ → ℝ) → ℕ → ℝ}
    (h : Refines p U n V n' M) (h' : Refines p V n' W n'' M') : Refines p U n W n'' (fun c => M' (M c)) where
  mono := h'.mono
  last := h'.last.trans h.last
  value := fun u hu l'' hl => by
    obtain ⟨l', s', e'⟩ := h'.value u (by rw [h.last]; exact hu) l'' hl
    obtain ⟨l, s, e⟩ := h.value u hu l' s'
    exact ⟨l, s, fun c => (e' (M c)).trans (e c)⟩
  cut := fun Q hQ h0 => h'.cut (fun N q => Q (fun c => N (M c)) q) (fun W x k q N a1 a2 a3 a4 a5 a6 => hQ W x k q (fun c => N (M c)) a1 a2 a3 a4 a5 a6) (h.cut Q hQ h0)
  mult := fun x r hm => h'.mult x r (h.mult x r hm)

theorem refine_one {U : ℕ → ℝ} {n p : ℕ} (hU : Monotone U) {x : ℝ} {r : ℕ} (hx : MultAt U n p x r) :
    ∃ V M, Refines p U n V (n+1) M ∧ MultAt V (n+1) p x (r+1) := by
  obtain ⟨k, hpk, hkn, h1, h2, h3⟩ := hx
  have hV := ins_mono hU h1 h2
  refine ⟨insKnot U x k, insCoeff U x k p, ⟨hV, ins_gt (by omega), ?_, fun Q hQ h0 => hQ U x k n id hU h1 h2 hpk hkn h0, ?_⟩, ?_⟩
  · rintro u hu l' ⟨a1, a2, a3, a4, a5⟩
    have a5 : u < insKnot U x k (l'+1) := by
      rcases a5 with a5 | ⟨_, a5⟩
      · exact a5
      · rw [ins_gt (show k < n + 1 by omega)] at a5; exact absurd a5 hu.ne
    have fin : ∀ l, InsSpan k l l' → p ≤ l → l ≤ n → U l ≤ u → u < U (l+1) →
        ∃ l, Sp U n p u l ∧ ∀ c, Qs (insKnot U x k) (n+1) p (insCoeff U x k p c) 0 l' u = Qs U n p c 0 l u := fun l hr b1 b2 b3 b4 =>
      ⟨l, ⟨b1, b2, b3.trans_lt b4, b3, Or.inl b4⟩, fun c => (ins_value hU h1 h2 hpk hkn hr a3 c u).symm⟩
    rcases lt_trichotomy l' k with h | h | h
    · rw [ins_le h.le] at a4; rw [ins_le (show l' + 1 ≤ k by omega)] at a5
      exact fin l' (Or.inl ⟨h, rfl⟩) a1 (by omega) a4 a5
    · subst h
      rw [ins_le le_rfl] at a4; rw [ins_at] at a5
      exact fin l' (Or.inr (Or.inl ⟨rfl, Or.inl rfl⟩)) hpk hkn a4 (a5.trans h2)
    · obtain ⟨l, rfl⟩ : ∃ l, l' = l + 1 := ⟨l' - 1, by omega⟩
      rw [ins_gt h] at a5
      rcases Nat.eq_or_lt_of_le (show k ≤ l by omega) with e | e
      · subst e
        rw [ins_at] at a4
        exact fin k (Or.inr (Or.inl ⟨rfl, Or.inr rfl⟩)) hpk hkn (h1.trans a4) a5
      · rw [ins_gt e] at a4
        exact fin l (Or.inr (Or.inr ⟨e, rfl⟩)) (by omega) (by omega) a4 a5
  · rintro y s ⟨q, b1, b2, b3, b4, b5⟩
    rcases lt_trichotomy q k with h | h | h
    · refine ⟨q, b1, by omega, by rw [ins_le h.le]; exact b3, by rw [ins_le (show q + 1 ≤ k by omega)]; exact b4, fun j c1 c2 => ?_⟩
      rw [ins_le (by omega)]; exact b5 j c1 c2
    · subst h
      rcases lt_or_ge y x with hyx | hyx
      · refine ⟨q, b1, by omega, by rw [ins_le le_rfl]; exact b3, by rw [ins_at]; exact hyx, fun j c1 c2 => ?_⟩
        rw [ins_le c2]; exact b5 j c1 c2
      · refine ⟨q+1, by omega, by omega, by rw [ins_at]; exact hyx, by rw [ins_gt (show q < q + 1 by omega)]; exact b4, fun j c1 c2 => ?_⟩
        rcases Nat.eq_or_lt_of_le c2 with e | e
        · subst e
          rw [ins_at]
          have := b5 q (by omega) le_rfl
          linarith
        · rw [ins_le (by omega)]; exact b5 j (by omega) (by omega)
    · refine ⟨q+1, by omega, by omega, by rw [ins_gt h]; exact b3, by rw [ins_gt (show k < q + 1 by omega)]; exact b4, fun j c1 c2 => ?_⟩
      obtain ⟨j, rfl⟩ : ∃ i, j = i + 1 := ⟨j - 1, by
        rcases Nat.eq_zero_or_pos j with e | e
        · exfalso
          subst e
          have := b5 0 (by omega) (by omega)
          have m1 := hU (show 0 ≤ k by omega)
          have m2 := hU (show k + 1 ≤ q by omega)
          linarith
        · omega⟩
      have hj := b5 j (by omega) (by omega)
      have hkj : k < j := by
        by_contra hno
        have m1 := hU (show j ≤ k by omega)
        have m2 := hU (show k + 1 ≤ q by omega)
        linarith
      rw [ins_gt hkj]; exact hj
  · refine ⟨k+1, by omega, by omega, by rw [ins_at], by rw [ins_gt (show k < k + 1 by omega)]; exact h2, fun j c1 c2 => ?_⟩
    rcases Nat.eq_or_lt_of_le c2 with e | e
    · subst e; exact ins_at
    · rw [ins_le (by omega)]; exact h3 j (by omega) (by omega)

theorem refine_many {U : ℕ → ℝ} {n p : ℕ} (hU : Monotone U) (xs : List ℝ) (hx : ∀ x ∈ xs, MultAt U n p x 0) :
    ∃ V n' M, Refines p U n V n' M ∧ ∀ x ∈ xs, MultAt V n' p x p := by
  induction xs with
  | nil => exact ⟨U, n, id, ⟨hU, rfl, fun u _ l hl => ⟨l, hl, fun _ => rfl⟩, fun _ _ h => h, fun _ _ h => h⟩, by simp⟩
  | cons x xs ih =>
    obtain ⟨V, n', M, r, hr⟩ := ih (fun y hy => hx y (List.mem_cons_of_mem _ hy))
    have rep : ∀ s, ∃ W n'' M', Refines p U n W n'' M' ∧ (∀ y ∈ xs, MultAt W n'' p y p) ∧ MultAt W n'' p x s := by
      intro s
      induction s with
      | zero => exact ⟨V, n', M, r, hr, r.mult x 0 (hx x List.mem_cons_self)⟩
      | succ s ih =>
        obtain ⟨W, n'', e, q, q1, q2⟩ := ih
        obtain ⟨W', e', t, t'⟩ := refine_one q.mono q2
        exact ⟨W', n''+1, _, q.trans t, fun y hy => t.mult y p (q1 y hy), t'⟩
    obtain ⟨W, n'', e, q, q1, q2⟩ := rep p
    exact ⟨W, n'', e, q, fun y hy => by
      rcases List.mem_cons.mp hy with rfl | hy
      · exact q2
      · exact q1 y hy⟩

/-! ## The values of a spline -/

theorem value_at {V : ℕ → ℝ} {n p k : ℕ} (d : ℕ → ℝ) {x : ℝ} (hpk : p ≤ k) (hkn : k ≤ n) (h2 : x < V (k+1))
    (h3 : ∀ j, k < j + p → j ≤ k → V j = x) : Qs V n p d 0 k x = d (k-p) := by
  simp only [Qs, dpiece]
  rw [Finset.sum_eq_single (k-p)]
  · rw [piece_after V k p x hpk h2 (fun j a b => h3 j (by omega) b) p _ le_rfl, if_pos (by omega), one_mul]
  · intro i _ hi
    rw [piece_after V k p x hpk h2 (fun j a b => h3 j (by omega) b) p _ le_rfl, if_neg (by omega), zero_mul]
  · intro h; exact absurd (Finset.mem_range.mpr (by omega)) h

/-- after enough further knots the values of all splines at given parameters are control points, in order -/
theorem spline_samples {U : ℕ → ℝ} {n p : ℕ} (hU : Monotone U) (hpn : p ≤ n) (hlast : U n < U (n+1)) (m : ℕ) (t : ℕ → ℝ)
    (ht : ∀ j < m, t j ≤ t (j+1)) (h0 : U p ≤ t 0) (h1 : t m < U (n+1)) :
    ∃ (n' : ℕ) (M : (ℕ → ℝ) → ℕ → ℝ) (g : ℕ → ℕ), (∀ Q, CutStable p Q → Q id n → Q M n') ∧ (∀ j ≤ m, g j ≤ n') ∧ (∀ j < m, g j ≤ g (j+1)) ∧
      ∀ c, ∀ j ≤ m, Ds U n p c 0 (t j) = M c (g j) := by
  have hok : SplineOK U n p := ⟨fun i j _ hij _ => hU hij, hpn, hlast⟩
  have up : ∀ i j, i ≤ j → j ≤ m → t i ≤ t j := by
    intro i j hij
    induction j, hij using Nat.le_induction with
    | base => intro _; exact le_rfl
    | succ q _ ih => intro hj; exact (ih (by omega)).trans (ht q (by omega))
  have dom : ∀ j ≤ m, U p ≤ t j ∧ t j < U (n+1) := fun j hj => ⟨h0.trans (up 0 j (by omega) hj), (up j m hj le_rfl).trans_lt h1⟩
  obtain ⟨V, n', M, r, hr⟩ := refine_many (p := p) (n := n) hU ((List.range (m+1)).map t) (by
    intro x hx
    obtain ⟨j, hj, rfl⟩ := List.mem_map.mp hx
    have hj := List.mem_range.mp hj
    obtain ⟨k, a1, a2, a3, a4, a5⟩ := hok.span (u := t j) ⟨(dom j (by omega)).1, (dom j (by omega)).2.le⟩
    refine ⟨k, a1, a2, a4, ?_, fun j _ _ => by omega⟩
    rcases a5 with a5 | ⟨_, a5⟩
    · exact a5
    · exact absurd a5 (dom j (by omega)).2.ne)
  have sp : ∀ j, ∃ k, j ≤ m → p ≤ k ∧ k ≤ n' ∧ V k ≤ t j ∧ t j < V (k+1) ∧ ∀ c, Ds U n p c 0 (t j) = M c (k-p) := by
    intro j
    by_cases hj : j ≤ m
    · obtain ⟨k, a1, a2, a3, a4, a5⟩ := hr (t j) (List.mem_map.mpr ⟨j, List.mem_range.mpr (by omega), rfl⟩)
      obtain ⟨l, s, e⟩ := r.value (t j) (dom j hj).2 k ⟨a1, a2, a3.trans_lt a4, a3, Or.inl a4⟩
      refine ⟨k, fun _ => ⟨a1, a2, a3, a4, fun c => ?_⟩⟩
      rw [Ds_eq hok.mono' c 0 s, ← e]
      exact value_at (M c) a1 a2 a4 a5
    · exact ⟨0, fun h => absurd h hj⟩
  choose k hk using sp
  refine ⟨n', M, fun j => k j - p, r.cut, fun j hj => ?_, fun j hj => ?_, fun c j hj => (hk j hj).2.2.2.2 c⟩
  · have := (hk j hj).2.1
    show k j - p ≤ n'
    omega
  · obtain ⟨a1, a2, a3, a4, a5⟩ := hk j hj.le
    obtain ⟨b1, b2, b3, b4, b5⟩ := hk (j+1) hj
    have hle : k j ≤ k (j+1) := by
      by_contra hno
      have := r.mono (show k (j+1) + 1 ≤ k j by omega)
      have := ht j hj
      linarith
    show k j - p ≤ k (j+1) - p
    omega

/-- the values of a spline change sign at most as often as its coefficients -/
theorem spline_alternates {U : ℕ → ℝ} {n p : ℕ} (hU : Monotone U) (hpn : p ≤ n) (hlast : U n < U (n+1)) (c : ℕ → ℝ) (m : ℕ) (t : ℕ → ℝ)
    (ht : ∀ j < m, t j < t (j+1)) (h0 : U p ≤ t 0) (h1 : t m < U (n+1))
    (s : ℕ → ℝ) (alt : ∀ j < m, s j * s (j+1) < 0) (hs : ∀ j ≤ m, 0 < Ds U n p c 0 (t j) * s j) : Follows c n m s := by
  obtain ⟨n', M, g, cut, g1, g2, g3⟩ := spline_samples hU hpn hlast m t (fun j hj => (ht j hj).le) h0 h1
  refine cut (fun N q => Follows (N c) q m s → Follows c n m s) (fun W x k q N a1 a2 a3 a4 a5 a6 h => a6 (ins_follows a1 a2 a3 a4 a5 _ alt h)) (fun h => h)
    ⟨g, fun j hj => ?_, g1 m le_rfl, fun j hj => by rw [← g3 c j hj]; exact hs j hj⟩
  refine lt_of_le_of_ne (g2 j hj) fun e => apart_of_sign (hs j hj.le) (hs (j+1) hj) (alt j hj) ?_
  rw [g3 c j hj.le, g3 c (j+1) hj, e]

/-- the same up to the end of the domain -/
theorem spline_alternates' {U : ℕ → ℝ} {n p : ℕ} (hU : Monotone U) (hpn : p ≤ n) (hlast : U n < U (n+1)) (c : ℕ → ℝ) (m : ℕ) (t : ℕ → ℝ)
    (ht : ∀ j < m, t j < t (j+1)) (h0 : U p ≤ t 0) (h1 : t m ≤ U (n+1))
    (s : ℕ → ℝ) (alt : ∀ j < m, s j * s (j+1) < 0) (hs : ∀ j ≤ m, 0 < Ds U n p c 0 (t j) * s j) : Follows c n m s := by
  rcases h1.lt_or_eq with h1 | h1
  · exact spline_alternates hU hpn hlast c m t ht h0 h1 s alt hs
  have hok : SplineOK U n p := ⟨fun i j _ hij _ => hU hij, hpn, hlast⟩
  have cont : ContinuousAt (Qs U n p c 0 n) (U (n+1)) := (Qs_deriv hok.mono c 0 n _).continuousAt
  have eN : Ds U n p c 0 (t m) = Qs U n p c 0 n (U (n+1)) := by
    rw [h1]; exact Ds_eq hok.mono' c 0 ⟨hpn, le_rfl, hlast, hlast.le, Or.inr ⟨rfl, rfl⟩⟩
  have hs' := hs m le_rfl
  rw [eN] at hs'
  have hev : ∀ᶠ y in 𝓝 (U (n+1)), 0 < Qs U n p c 0 n y * s m := (cont.mul continuousAt_const).eventually_const_lt hs'
  have hmax : max (if m = 0 then U n else t (m-1)) (U n) < U (n+1) := by
    apply max_lt _ hlast
    split_ifs with e
    · exact hlast
    · have := ht (m-1) (by omega)
      rw [Nat.sub_add_cancel (by omega), h1] at this
      exact this
  obtain ⟨y, hy, hy1⟩ := ((hev.filter_mono nhdsWithin_le_nhds).and (Ioo_mem_nhdsLT hmax)).exists
  have y1 : m ≠ 0 → t (m-1) < y := fun e => by have := (le_max_left _ _).trans_lt hy1.1; rwa [if_neg e] at this
  have y2 : U n < y := (le_max_right _ _).trans_lt hy1.1
  have eY : Ds U n p c 0 y = Qs U n p c 0 n y := Ds_eq hok.mono' c 0 ⟨hpn, le_rfl, hlast, y2.le, Or.inl hy1.2⟩
  refine spline_alternates hU hpn hlast c m (fun j => if j = m then y else t j) (fun j hj => ?_) ?_ ?_ s alt (fun j hj => ?_)
  · show (if j = m then y else t j) < if j + 1 = m then y else t (j+1)
    rw [if_neg (by omega)]
    split_ifs with e
    · subst e; exact y1 (by omega)
    · exact ht j hj
  · show U p ≤ if 0 = m then y else t 0
    split_ifs with e
    · exact (hU hpn).trans y2.le
    · exact h0
  · show (if m = m then y else t m) < _
    rw [if_pos rfl]; exact hy1.2
  · show 0 < Ds U n p c 0 (if j = m then y else t j) * s j
    split_ifs with e
    · subst e; rw [eY]; exact hy
    · exact hs j hj

/-! ## The curve of the code -/

theorem piece_agree {U V : ℕ → ℝ} {k p i : ℕ} (u : ℝ) (h : ∀ j, i ≤ j → j ≤ i + p + 1 → U j = V j) : piece U k p i u = piece V k p i u := by
  induction p generalizing i with
  | zero => rfl
  | succ p ih =>
    simp only [piece]
    rw [ih (fun j a b => h j a (by omega)), ih (i := i+1) (fun j a b => h j (by omega) (by omega)), h i (by omega) (by omega), h (i+p+1) (by omega) (by omega),
      h (i+1) (by omega) (by omega), h (i+p+2) (by omega) (by omega)]

theorem spline_agree {U V : ℕ → ℝ} {n p : ℕ} (hU : SplineOK U n p) (h : ∀ j ≤ n + p + 1, U j = V j) (c : ℕ → ℝ) {u : ℝ}
    (hu : u ∈ Set.Icc (U p) (U (n+1))) : Ds U n p c 0 u = Ds V n p c 0 u := by
  have hV : MonoOn V 0 (n+1) := fun i j a b e => by rw [← h i (by omega), ← h j (by omega)]; exact hU.mono' i j a b e
  obtain ⟨k, hk⟩ := hU.span hu
  have hk' : Sp V n p u k := by
    obtain ⟨a1, a2, a3, a4, a5⟩ := hk
    refine ⟨a1, a2, ?_⟩
    rw [← h k (by omega), ← h (k+1) (by omega), ← h (n+1) (by omega)]
    exact ⟨a3, a4, a5⟩
  rw [Ds_eq hU.mono' c 0 hk, Ds_eq hV c 0 hk']
  simp only [Qs, dpiece]
  apply Finset.sum_congr rfl
  intro i hi
  have := Finset.mem_range.mp hi
  rw [piece_agree u (fun j _ b => h j (by omega))]

/-- the spline of the control points measured from a plane -/
theorem Ds_plane {n p : ℕ} {U : List Int} (hU : Nondec U) (hpn : p ≤ n) (hlen : n + p + 1 < U.length) (hlast : knot ℝ U n < knot ℝ U (n+1))
    (P : List (R3.Vector ℝ)) (d : R3.Vector ℝ) (h : ℝ) {u : ℝ} (hu : u ∈ Set.Icc (knot ℝ U p) (knot ℝ U (n+1))) :
    Ds (knot ℝ U) n p (fun i => along d (P.getD i ⟨0, 0, 0⟩) - h) 0 u = along d (splinePoint n p U P u) - h := by
  have hok := spline_ok hU hpn hlen hlast
  obtain ⟨k, hk⟩ := hok.span hu
  have e := Ds_along hok d (fun i => (P.getD i ⟨0, 0, 0⟩).X) (fun i => (P.getD i ⟨0, 0, 0⟩).Y) (fun i => (P.getD i ⟨0, 0, 0⟩).Z) hu
  unfold along splinePoint
  simp only
  rw [← e]
  simp only [Ds_eq hok.mono' _ 0 hk, Qs, dpiece]
  have one := piece_total hU hlen hk
  simp_rw [mul_sub]
  rw [Finset.sum_sub_distrib, ← Finset.sum_mul, one, one_mul]

section
variable (n p : ℕ) (U : List Int) (P : List (R3.Vector ℝ)) (hU : Nondec U) (hpn : p ≤ n) (hlen : n + p + 1 < U.length)
  (hlast : U.getD n 0 < U.getD (n+1) 0) (hP : n < P.length)
include hU hpn hlen hlast hP

/-- C117: if points of the curve at increasing parameters lie alternately on the two sides of a plane, as many control points lie in order on the same sides -/
theorem C117_crossings (d : R3.Vector ℝ) (h : ℝ) (m : ℕ) (t : ℕ → ℝ) (ht : ∀ j < m, t j < t (j+1)) (h0 : U.getD p 0 ≤ t 0) (h1 : t m ≤ U.getD (n+1) 0)
    (fuel : ℕ) (hf : n + 1 - p ≤ fuel) (q : ℕ → R3.Vector ℝ) (hq : ∀ j ≤ m, curvePoint fuel n p U P (t j) = .ok (q j))
    (side : ∀ j ≤ m, along d (q j) ≠ h) (alt : ∀ j < m, along d (q j) < h ↔ h < along d (q (j+1))) :
    ∃ g : ℕ → ℕ, (∀ j < m, g j < g (j+1)) ∧ g m ≤ n ∧
      ∀ j ≤ m, (along d (q j) < h ↔ along d (P.getD (g j) ⟨0, 0, 0⟩) < h) ∧ (h < along d (q j) ↔ h < along d (P.getD (g j) ⟨0, 0, 0⟩)) := by
  have hl : knot ℝ U n < knot ℝ U (n+1) := by unfold knot; exact_mod_cast hlast
  have hok := spline_ok hU hpn hlen hl
  have up : ∀ i j, i ≤ j → j ≤ m → t i ≤ t j := by
    intro i j hij
    induction j, hij using Nat.le_induction with
    | base => intro _; exact le_rfl
    | succ q _ ih => intro hj; exact (ih (by omega)).trans (ht q (by omega)).le
  have dom : ∀ j ≤ m, t j ∈ Set.Icc (knot ℝ U p) (knot ℝ U (n+1)) := fun j hj => ⟨le_trans h0 (up 0 j (by omega) hj), le_trans (up j m hj le_rfl) h1⟩
  let V : ℕ → ℝ := fun j => knot ℝ U (min j (n+p+1))
  have agree : ∀ j ≤ n + p + 1, knot ℝ U j = V j := fun j hj => by show _ = knot ℝ U (min j (n+p+1)); rw [min_eq_left hj]
  have hV : Monotone V := fun i j hij => knot_mono U hU _ _ (min_le_min_right _ hij) (by omega)
  have val : ∀ j ≤ m, Ds V n p (fun i => along d (P.getD i ⟨0, 0, 0⟩) - h) 0 (t j) = along d (q j) - h := by
    intro j hj
    have e := curve_spline hU hpn hlen hl P hP (dom j hj) fuel hf
    rw [hq j hj] at e
    rw [Res.ok.inj e, ← spline_agree hok agree _ (dom j hj)]
    exact Ds_plane hU hpn hlen hl P d h (dom j hj)
  obtain ⟨g, g1, g2, g3⟩ := spline_alternates' hV hpn (by rw [← agree n (by omega), ← agree (n+1) (by omega)]; exact hl)
    (fun i => along d (P.getD i ⟨0, 0, 0⟩) - h) m t ht (by rw [← agree p (by omega)]; exact h0) (by rw [← agree (n+1) (by omega)]; exact h1)
    (fun j => along d (q j) - h) (fun j hj => by
      rcases lt_or_gt_of_ne (side j hj.le) with a | a
      · exact mul_neg_of_neg_of_pos (by linarith) (by have := (alt j hj).mp a; linarith)
      · have : ¬ h < along d (q (j+1)) := fun b => absurd ((alt j hj).mpr b) (not_lt.mpr a.le)
        exact mul_neg_of_pos_of_neg (by linarith) (by have := lt_of_le_of_ne (not_lt.mp this) (side (j+1) hj); linarith))
    (fun j hj => by rw [val j hj]; exact mul_self_pos.mpr (sub_ne_zero.mpr (side j hj)))
  refine ⟨g, g1, g2, fun j hj => ?_⟩
  have := g3 j hj
  rcases pos_and_pos_or_neg_and_neg_of_mul_pos this with ⟨a, b⟩ | ⟨a, b⟩
  · exact ⟨⟨fun c => by linarith, fun c => by linarith⟩, ⟨fun _ => by linarith, fun _ => by linarith⟩⟩
  · exact ⟨⟨fun _ => by linarith, fun _ => by linarith⟩, ⟨fun c => by linarith, fun c => by linarith⟩⟩

/-- C117: if the control points never go back in a direction, the curve never does, whatever the multiplicity of the knots -/
theorem C117_monotone (d : R3.Vector ℝ) (hd : ∀ i < n, along d (P.getD i ⟨0, 0, 0⟩) ≤ along d (P.getD (i+1) ⟨0, 0, 0⟩))
    (fuel : ℕ) (hf : n + 1 - p ≤ fuel) (v w : ℝ) (hv : U.getD p 0 ≤ v) (hvw : v ≤ w) (hw : w ≤ U.getD (n+1) 0) :
    ∃ a b, curvePoint fuel n p U P v = .ok a ∧ curvePoint fuel n p U P w = .ok b ∧ along d a ≤ along d b := by
  have hl : knot ℝ U n < knot ℝ U (n+1) := by unfold knot; exact_mod_cast hlast
  have ea := curve_spline hU hpn hlen hl P hP (u := v) ⟨hv, hvw.trans hw⟩ fuel hf
  have eb := curve_spline hU hpn hlen hl P hP (u := w) ⟨hv.trans hvw, hw⟩ fuel hf
  refine ⟨_, _, ea, eb, ?_⟩
  by_contra hlt
  push Not at hlt
  have hvw' : v < w := lt_of_le_of_ne hvw (by rintro rfl; exact lt_irrefl _ hlt)
  obtain ⟨h, l1, l2⟩ := exists_between hlt
  obtain ⟨g, g1, g2, g3⟩ := C117_crossings n p U P hU hpn hlen hlast hP d h 1 (fun j => if j = 0 then v else w)
    (by intro j hj; rw [show j = 0 by omega]; simpa using hvw') (by simpa using hv) (by simpa using hw) fuel hf
    (fun j => splinePoint n p U P (if j = 0 then v else w))
    (by intro j hj; rcases Nat.eq_zero_or_pos j with rfl | e
        · simpa using ea
        · rw [if_neg (by omega)]; exact eb)
    (by intro j hj; rcases Nat.eq_zero_or_pos j with rfl | e
        · simpa using l2.ne'
        · rw [if_neg (by omega)]; exact l1.ne)
    (by intro j hj
        rw [show j = 0 by omega]
        simp only [if_true, zero_add, one_ne_zero, if_false]
        exact ⟨fun a => absurd a (not_lt.mpr l2.le), fun a => absurd a (not_lt.mpr l1.le)⟩)
  have c0 := (g3 0 (by omega)).2.mp (by simpa using l2)
  have c1 := (g3 1 le_rfl).1.mp (by simpa using l1)
  have gl := g1 0 (by omega)
  have steps : ∀ i j, i ≤ j → j ≤ n → along d (P.getD i ⟨0, 0, 0⟩) ≤ along d (P.getD j ⟨0, 0, 0⟩) := by
    intro i j hij
    induction j, hij using Nat.le_induction with
    | base => intro _; exact le_rfl
    | succ q _ ih => intro hj; exact (ih (by omega)).trans (hd q (by omega))
  have := steps (g 0) (g 1) gl.le g2
  linarith

/-- C117: a plane cuts the curve in fewer places than there are control points: no more than `n + 1` points of it lie alternately on the two sides -/
theorem C117_count (d : R3.Vector ℝ) (h : ℝ) (m : ℕ) (t : ℕ → ℝ) (ht : ∀ j < m, t j < t (j+1)) (h0 : U.getD p 0 ≤ t 0) (h1 : t m ≤ U.getD (n+1) 0)
    (fuel : ℕ) (hf : n + 1 - p ≤ fuel) (q : ℕ → R3.Vector ℝ) (hq : ∀ j ≤ m, curvePoint fuel n p U P (t j) = .ok (q j))
    (side : ∀ j ≤ m, along d (q j) ≠ h) (alt : ∀ j < m, along d (q j) < h ↔ h < along d (q (j+1))) : m ≤ n := by
  obtain ⟨g, g1, g2, _⟩ := C117_crossings n p U P hU hpn hlen hlast hP d h m t ht h0 h1 fuel hf q hq side alt
  have : ∀ j ≤ m, j ≤ g j := by
    intro j
    induction j with
    | zero => intro _; exact Nat.zero_le _
    | succ j ih => intro hj; have := ih (by omega); have := g1 j (by omega); omega
  exact (this m le_rfl).trans g2

end

/-- the points of a parabola -/
theorem arch_point (u : ℝ) (h0 : 0 ≤ u) (h1 : u ≤ 1) : curvePoint 1 2 2 [0, 0, 0, 1, 1, 1] [⟨0, 0, 0⟩, ⟨1, 5, 0⟩, ⟨3, 1, 0⟩] u =
    .ok ⟨2 * u + u ^ 2, 10 * u - 9 * u ^ 2, 0⟩ := by
  obtain ⟨k, ⟨a1, a2, _⟩, e⟩ := C45_formula 2 2 [0, 0, 0, 1, 1, 1] [⟨0, 0, 0⟩, ⟨1, 5, 0⟩, ⟨3, 1, 0⟩] u
    ⟨para_knots, by norm_num, by decide, by simpa [knot] using h0, by simpa [knot] using h1, fun _ => by norm_num [knot]⟩ (by simp) 1 (by norm_num)
  have : k = 2 := by omega
  subst this
  refine e.trans ?_
  simp [comb, piece, knot, Finset.sum_range_succ]
  refine ⟨?_, ?_⟩ <;> ring

/-- the parabola is below, above and again below the height `3/2`, and so are its control points -/
example : ∃ g : ℕ → ℕ, (∀ j < 2, g j < g (j+1)) ∧ g 2 ≤ 2 ∧ ∀ j ≤ 2, (j = 1 ↔ (3/2 : ℝ) < (([⟨0, 0, 0⟩, ⟨1, 5, 0⟩, ⟨3, 1, 0⟩] : List (R3.Vector ℝ)).getD (g j) ⟨0, 0, 0⟩).Y) := by
  obtain ⟨g, g1, g2, g3⟩ := C117_crossings 2 2 [0, 0, 0, 1, 1, 1] [⟨0, 0, 0⟩, ⟨1, 5, 0⟩, ⟨3, 1, 0⟩] para_knots (by norm_num) (by decide) (by decide)
    (by simp) ⟨0, 1, 0⟩ (3/2) 2 (fun j => j / 2) (by intro j _; push_cast; linarith) (by simp) (by simp) 1 (by norm_num)
    (fun j => ⟨2 * ((j : ℝ) / 2) + ((j : ℝ) / 2) ^ 2, 10 * ((j : ℝ) / 2) - 9 * ((j : ℝ) / 2) ^ 2, 0⟩)
    (by intro j hj; exact arch_point _ (by positivity) (by have : (j : ℝ) ≤ 2 := by exact_mod_cast hj
                                                           linarith))
    (by intro j hj; interval_cases j <;> norm_num [along])
    (by intro j hj; interval_cases j <;> norm_num [along])
  refine ⟨g, g1, g2, fun j hj => ?_⟩
  have := (g3 j hj).2
  simp only [along, zero_mul, zero_add, one_mul, add_zero] at this
  rw [← this]
  interval_cases j <;> norm_num

end Verif.Props
