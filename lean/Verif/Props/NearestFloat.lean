import Verif.Proofs.Quarter
import Verif.Proofs.Margin
import Verif.Props.NormFloat
import Verif.Props.Meshing
import Verif.Proofs.VolFloat
import Verif.Props.DelaunatorFloat
/-!
# C97: nearest point, centroid, furthest points and the first tetrahedron at binary64
-/
namespace Verif.Props
set_option linter.unusedSectionVars false
open Verif Verif.F64 Verif.Proofs Verif.R3 Verif.Tri3 Verif.Meshing

/-! ## searching a list for the best value -/

section
variable {α : Type}

/-- keep the last best element; values that are not numbers are never taken -/
theorem last_best (f : α → F64) (κ : F64 → ℚ) (upd : F64 → F64 → Prop) [∀ x y, Decidable (upd x y)]
    (h0 : ∀ y, ¬ upd nan y) (h1 : ∀ x y, x ≠ nan → y ≠ nan → (upd x y ↔ κ x ≤ κ y)) (l : List α) (m : F64) (z : α) (hm : m ≠ nan) :
    let r := l.foldl (fun (acc : F64 × α) v => if upd (f v) acc.1 then (f v, v) else acc) (m, z)
    (r = (m, z) ∧ ∀ v ∈ l, f v ≠ nan → κ m < κ (f v)) ∨
    (∃ i : ℕ, l[i]? = some r.2 ∧ r.1 = f r.2 ∧ f r.2 ≠ nan ∧ κ r.1 ≤ κ m ∧ ∀ (j : ℕ) v, l[j]? = some v → f v ≠ nan → κ r.1 ≤ κ (f v) ∧
      (κ (f v) = κ r.1 → j ≤ i)) := by
  induction l generalizing m z with
  | nil => left; simp
  | cons v l ih =>
    dsimp only
    rw [List.foldl_cons]
    dsimp only
    by_cases hv : f v = nan
    · rw [if_neg (by rw [hv]; exact h0 _)]
      rcases ih m z hm with ⟨a, b⟩ | ⟨i, a1, a2, a3, a4, a5⟩
      · refine Or.inl ⟨a, fun w hw hn => ?_⟩
        rcases List.mem_cons.mp hw with rfl | hw
        · exact absurd hv hn
        · exact b w hw hn
      · refine Or.inr ⟨i + 1, by rw [List.getElem?_cons_succ]; exact a1, a2, a3, a4, fun j w hw hn => ?_⟩
        cases j with
        | zero => simp only [List.getElem?_cons_zero, Option.some.injEq] at hw; subst hw; exact absurd hv hn
        | succ j =>
          rw [List.getElem?_cons_succ] at hw
          obtain ⟨c, d⟩ := a5 j w hw hn
          exact ⟨c, fun e => Nat.succ_le_succ (d e)⟩
    · by_cases hu : upd (f v) m
      · have hle := (h1 _ _ hv hm).mp hu
        rw [if_pos hu]
        right
        rcases ih (f v) v hv with ⟨a, b⟩ | ⟨i, a1, a2, a3, a4, a5⟩
        · rw [a]
          refine ⟨0, by simp, rfl, hv, hle, fun j w hw hn => ?_⟩
          cases j with
          | zero => simp only [List.getElem?_cons_zero, Option.some.injEq] at hw; subst hw; simp
          | succ j =>
            rw [List.getElem?_cons_succ] at hw
            have := b w (List.mem_of_getElem? hw) hn
            exact ⟨this.le, fun e => absurd e.symm this.ne⟩
        · refine ⟨i + 1, by rw [List.getElem?_cons_succ]; exact a1, a2, a3, a4.trans hle, fun j w hw hn => ?_⟩
          cases j with
          | zero => simp only [List.getElem?_cons_zero, Option.some.injEq] at hw; subst hw; exact ⟨a4, fun _ => Nat.zero_le _⟩
          | succ j =>
            rw [List.getElem?_cons_succ] at hw
            obtain ⟨c, d⟩ := a5 j w hw hn
            exact ⟨c, fun e => Nat.succ_le_succ (d e)⟩
      · have hlt := not_le.mp (fun h => hu ((h1 _ _ hv hm).mpr h))
        rw [if_neg hu]
        rcases ih m z hm with ⟨a, b⟩ | ⟨i, a1, a2, a3, a4, a5⟩
        · refine Or.inl ⟨a, fun w hw hn => ?_⟩
          rcases List.mem_cons.mp hw with rfl | hw
          · exact hlt
          · exact b w hw hn
        · refine Or.inr ⟨i + 1, by rw [List.getElem?_cons_succ]; exact a1, a2, a3, a4, fun j w hw hn => ?_⟩
          cases j with
          | zero =>
            simp only [List.getElem?_cons_zero, Option.some.injEq] at hw; subst hw
            exact ⟨a4.trans hlt.le, fun _ => Nat.zero_le _⟩
          | succ j =>
            rw [List.getElem?_cons_succ] at hw
            obtain ⟨c, d⟩ := a5 j w hw hn
            exact ⟨c, fun e => Nat.succ_le_succ (d e)⟩

/-- keep the first best element -/
theorem first_best (f : α → F64) (κ : F64 → ℚ) (upd : F64 → F64 → Prop) [∀ x y, Decidable (upd x y)]
    (h0 : ∀ y, ¬ upd nan y) (h1 : ∀ x y, x ≠ nan → y ≠ nan → (upd x y ↔ κ x < κ y)) (l : List α) (m : F64) (z : α) (hm : m ≠ nan) :
    let r := l.foldl (fun (acc : F64 × α) v => if upd (f v) acc.1 then (f v, v) else acc) (m, z)
    (r = (m, z) ∧ ∀ v ∈ l, f v ≠ nan → κ m ≤ κ (f v)) ∨
    (∃ i : ℕ, l[i]? = some r.2 ∧ r.1 = f r.2 ∧ f r.2 ≠ nan ∧ κ r.1 < κ m ∧ ∀ (j : ℕ) v, l[j]? = some v → f v ≠ nan → κ r.1 ≤ κ (f v) ∧
      (κ (f v) = κ r.1 → i ≤ j)) := by
  induction l generalizing m z with
  | nil => left; simp
  | cons v l ih =>
    dsimp only
    rw [List.foldl_cons]
    dsimp only
    by_cases hv : f v = nan
    · rw [if_neg (by rw [hv]; exact h0 _)]
      rcases ih m z hm with ⟨a, b⟩ | ⟨i, a1, a2, a3, a4, a5⟩
      · refine Or.inl ⟨a, fun w hw hn => ?_⟩
        rcases List.mem_cons.mp hw with rfl | hw
        · exact absurd hv hn
        · exact b w hw hn
      · refine Or.inr ⟨i + 1, by rw [List.getElem?_cons_succ]; exact a1, a2, a3, a4, fun j w hw hn => ?_⟩
        cases j with
        | zero => simp only [List.getElem?_cons_zero, Option.some.injEq] at hw; subst hw; exact absurd hv hn
        | succ j =>
          rw [List.getElem?_cons_succ] at hw
          obtain ⟨c, d⟩ := a5 j w hw hn
          exact ⟨c, fun e => Nat.succ_le_succ (d e)⟩
    · by_cases hu : upd (f v) m
      · have hlt := (h1 _ _ hv hm).mp hu
        rw [if_pos hu]
        right
        rcases ih (f v) v hv with ⟨a, b⟩ | ⟨i, a1, a2, a3, a4, a5⟩
        · rw [a]
          refine ⟨0, by simp, rfl, hv, hlt, fun j w hw hn => ?_⟩
          cases j with
          | zero => simp only [List.getElem?_cons_zero, Option.some.injEq] at hw; subst hw; simp
          | succ j =>
            rw [List.getElem?_cons_succ] at hw
            exact ⟨b w (List.mem_of_getElem? hw) hn, fun _ => Nat.zero_le _⟩
        · refine ⟨i + 1, by rw [List.getElem?_cons_succ]; exact a1, a2, a3, a4.trans hlt, fun j w hw hn => ?_⟩
          cases j with
          | zero =>
            simp only [List.getElem?_cons_zero, Option.some.injEq] at hw; subst hw
            exact ⟨a4.le, fun e => absurd e.symm a4.ne⟩
          | succ j =>
            rw [List.getElem?_cons_succ] at hw
            obtain ⟨c, d⟩ := a5 j w hw hn
            exact ⟨c, fun e => Nat.succ_le_succ (d e)⟩
      · have hle := not_lt.mp (fun h => hu ((h1 _ _ hv hm).mpr h))
        rw [if_neg hu]
        rcases ih m z hm with ⟨a, b⟩ | ⟨i, a1, a2, a3, a4, a5⟩
        · refine Or.inl ⟨a, fun w hw hn => ?_⟩
          rcases List.mem_cons.mp hw with rfl | hw
          · exact hle
          · exact b w hw hn
        · refine Or.inr ⟨i + 1, by rw [List.getElem?_cons_succ]; exact a1, a2, a3, a4, fun j w hw hn => ?_⟩
          cases j with
          | zero =>
            simp only [List.getElem?_cons_zero, Option.some.injEq] at hw; subst hw
            exact ⟨(a4.trans_le hle).le, fun e => absurd e.symm (a4.trans_le hle).ne⟩
          | succ j =>
            rw [List.getElem?_cons_succ] at hw
            obtain ⟨c, d⟩ := a5 j w hw hn
            exact ⟨c, fun e => Nat.succ_le_succ (d e)⟩

/-- the search that keeps only the element -/
theorem fold_elem (f : α → F64) (upd : F64 → F64 → Prop) [∀ x y, Decidable (upd x y)] (l : List α) (z : α) :
    l.foldl (fun (acc : F64 × α) v => if upd (f v) acc.1 then (f v, v) else acc) (f z, z) =
      (f (l.foldl (fun (acc : α) v => if upd (f v) (f acc) then v else acc) z), l.foldl (fun (acc : α) v => if upd (f v) (f acc) then v else acc) z) := by
  induction l generalizing z with
  | nil => rfl
  | cons v l ih =>
    rw [List.foldl_cons, List.foldl_cons]
    dsimp only
    split_ifs
    · exact ih v
    · exact ih z

end

theorem nan_le (y : F64) : ¬ nan ≤ y := by
  show ¬ F64.le nan y = true
  cases y <;> simp [F64.le, F64.lt, F64.beq]

theorem nan_lt (y : F64) : ¬ nan < y := fun h => (ne_nan_of_lt h).1 rfl
theorem lt_nan (y : F64) : ¬ y < nan := fun h => (ne_nan_of_lt h).2 rfl

/-! ## the nearest point -/

theorem maxFloat64_float : (GoConst.const maxFloat64 : F64).Finite ∧ (GoConst.const maxFloat64 : F64).toQ = maxFloat64 := by
  have h : rnd maxFloat64 = maxFloat64 := by
    have := rnd_id (K := ℚ) (q := maxFloat64) ⟨2 ^ 53 - 1, 971, by norm_num, by norm_num, by
      unfold maxFloat64
      rw [show (971 : ℤ) = ((971 : ℕ) : ℤ) from rfl, zpow_natCast]
      congr 1; norm_num⟩
    simpa using this
  have h2 : |maxFloat64| < 2 ^ 1024 := by
    have p : (0:ℚ) < 2 ^ 971 := by positivity
    unfold maxFloat64
    rw [abs_of_pos (mul_pos (by norm_num) p), show (1024 : ℕ) = 53 + 971 from rfl, pow_add]
    exact mul_lt_mul_of_pos_right (by norm_num) p
  have := round_fin (s := false) (x := maxFloat64) (by rw [h]; exact h2)
  rw [h] at this
  exact this

/-- no number of the format is above the sentinel -/
theorem le_maxFloat64 (x : F64) : x.toQ ≤ maxFloat64 := by
  obtain ⟨m, e, h1, h2, h3, h4⟩ := toQ_bin x
  rw [h4]
  unfold maxFloat64
  have h1' : m ≤ 2 ^ 53 - 1 := by have := lt_of_abs_lt h1; omega
  have hp := two_zpow_pos (K := ℚ) e
  calc (m:ℚ) * 2 ^ e ≤ (2 ^ 53 - 1) * 2 ^ e := mul_le_mul_of_nonneg_right (by exact_mod_cast h1') hp.le
    _ ≤ (2 ^ 53 - 1) * 2 ^ (971 : ℤ) := mul_le_mul_of_nonneg_left (zpow_le_zpow_right₀ (by norm_num) h3) (by norm_num)
    _ = (2 ^ 53 - 1) * 2 ^ 971 := by rw [← zpow_natCast]; rfl

theorem sqrt_ne_neg_inf (x : F64) : GoSqrt.sqrt x ≠ inf true := by
  show F64.sqrt x ≠ inf true
  cases x with
  | nan => simp [F64.sqrt]
  | inf s => cases s <;> simp [F64.sqrt]
  | zero s => simp [F64.sqrt]
  | fin q h =>
    unfold F64.sqrt
    dsimp only
    split_ifs with hq
    · simp
    · unfold F64.round
      split_ifs <;> simp [Real.sqrt_nonneg]

/-- the sentinel separates the finite distances from the infinite ones -/
theorem toE_sentinel {x : F64} (h : x ≠ nan) (h' : x ≠ inf true) : x.toE ≤ (GoConst.const maxFloat64 : F64).toE ↔ x.Finite := by
  rw [toE_fin maxFloat64_float.1, maxFloat64_float.2]
  cases x with
  | nan => exact absurd rfl h
  | inf s =>
    cases s with
    | true => exact absurd rfl h'
    | false =>
      simp only [not_finite_inf, iff_false, not_le]
      show maxFloat64 < 2 ^ 1024
      have := toQ_lt (GoConst.const maxFloat64 : F64)
      rw [maxFloat64_float.2] at this
      exact this.2
  | zero s => exact iff_of_true (le_maxFloat64 (zero s)) trivial
  | fin q hq => exact iff_of_true (le_maxFloat64 (fin q hq)) trivial

/-- C97: the returned vertex has the least computed distance, and the last one among equals; the others may be anything -/
theorem C97_nearest (vertices : List (R3.Vector F64)) (q : R3.Vector F64) (h : ∃ v ∈ vertices, (Distance v q).Finite) :
    ∃ i : ℕ, vertices[i]? = some (getNearestPoint vertices q) ∧ (Distance (getNearestPoint vertices q) q).Finite ∧
      ∀ (j : ℕ) (v : R3.Vector F64), vertices[j]? = some v → Distance v q ≠ nan →
        Distance (getNearestPoint vertices q) q ≤ Distance v q ∧ (Distance v q ≤ Distance (getNearestPoint vertices q) q → j ≤ i) := by
  have hd : ∀ v : R3.Vector F64, Distance v q ≠ inf true := fun v => sqrt_ne_neg_inf _
  have key := last_best (fun v => Distance v q) toE (fun x y => x ≤ y) nan_le (fun x y hx hy => le_toE hx hy) vertices
    (GoConst.const maxFloat64) ⟨0, 0, 0⟩ maxFloat64_float.1.ne_nan
  unfold getNearestPoint
  dsimp only at key ⊢
  rcases key with ⟨_, b⟩ | ⟨i, a1, a2, a3, a4, a5⟩
  · obtain ⟨v, hv, hf⟩ := h
    exact absurd ((toE_sentinel hf.ne_nan (hd v)).mpr hf) (not_le.mpr (b v hv hf.ne_nan))
  · generalize List.foldl _ _ vertices = r at *
    refine ⟨i, a1, ?_, fun j v hv hn => ?_⟩
    · rw [a2] at a4
      exact (toE_sentinel a3 (hd _)).mp a4
    · obtain ⟨c, d⟩ := a5 j v hv hn
      rw [a2] at c d
      refine ⟨(le_toE a3 hn).mpr c, fun e => d ?_⟩
      exact le_antisymm ((le_toE hn a3).mp e) c

/-- C97: if no distance is a number the origin is returned -/
theorem C97_nearest_none (vertices : List (R3.Vector F64)) (q : R3.Vector F64) (h : ∀ v ∈ vertices, ¬ (Distance v q).Finite) :
    getNearestPoint vertices q = ⟨0, 0, 0⟩ := by
  have hd : ∀ v : R3.Vector F64, Distance v q ≠ inf true := fun v => sqrt_ne_neg_inf _
  have key := last_best (fun v => Distance v q) toE (fun x y => x ≤ y) nan_le (fun x y hx hy => le_toE hx hy) vertices
    (GoConst.const maxFloat64) ⟨0, 0, 0⟩ maxFloat64_float.1.ne_nan
  unfold getNearestPoint
  dsimp only at key ⊢
  rcases key with ⟨a, _⟩ | ⟨i, a1, a2, a3, a4, a5⟩
  · rw [a]
  · rw [a2] at a4
    exact absurd ((toE_sentinel a3 (hd _)).mp a4) (h _ (List.mem_of_getElem? a1))

theorem dist_zero {p q : R3.Vector F64} (hp : FinV p) (hq : FinV q) (h : sqDist p q = 0) : (Distance p q).Finite ∧ (Distance p q).toQ = 0 := by
  unfold sqDist at h
  have hx : p.X.toQ - q.X.toQ = 0 := by nlinarith [sq_nonneg (p.X.toQ - q.X.toQ), sq_nonneg (p.Y.toQ - q.Y.toQ), sq_nonneg (p.Z.toQ - q.Z.toQ)]
  have hy : p.Y.toQ - q.Y.toQ = 0 := by nlinarith [sq_nonneg (p.X.toQ - q.X.toQ), sq_nonneg (p.Y.toQ - q.Y.toQ), sq_nonneg (p.Z.toQ - q.Z.toQ)]
  have hz : p.Z.toQ - q.Z.toQ = 0 := by nlinarith [sq_nonneg (p.X.toQ - q.X.toQ), sq_nonneg (p.Y.toQ - q.Y.toQ), sq_nonneg (p.Z.toQ - q.Z.toQ)]
  have z : ∀ {x y : F64}, x.Finite → y.Finite → x.toQ - y.toQ = 0 → Ex (x - y) 0 0 := by
    intro x y h1 h2 h3
    obtain ⟨f, v⟩ := sub_fin h1 h2 (by rw [h3, rnd_zero]; norm_num)
    exact ⟨f, by rw [v, h3, rnd_zero]; simp, by simp⟩
  have ex := z hp.1 hq.1 hx
  have ey := z hp.2.1 hq.2.1 hy
  have ez := z hp.2.2 hq.2.2 hz
  have s := ((ex.mul ex (by norm_num)).add (ey.mul ey (by norm_num)) (by norm_num)).add (ez.mul ez (by norm_num)) (by norm_num)
  have hs : (R3.Sub p q).Norm2.Finite ∧ (R3.Sub p q).Norm2.toQ = 0 := ⟨s.fin, by rw [show (R3.Sub p q).Norm2.toQ = _ from s.val]; simp⟩
  have e : Distance p q = F64.sqrt (R3.Sub p q).Norm2 := rfl
  rw [e]
  generalize (R3.Sub p q).Norm2 = w at hs
  cases w with
  | nan => exact absurd hs.1 id
  | inf s => exact absurd hs.1 id
  | zero s => exact ⟨trivial, rfl⟩
  | fin r hr => exact absurd hs.2 hr.1

/-- C97: the true distance of the returned vertex is at most 1 + 11/2^53 times the least one -/
theorem C97_nearest_true (vertices : List (R3.Vector F64)) (q : R3.Vector F64) (hne : vertices ≠ []) (hq : FinV q)
    (h : ∀ v ∈ vertices, FinV v ∧ (sqDist v q = 0 ∨ 1 / 2 ^ 190 ≤ sqDist v q ∧ sqDist v q ≤ 2 ^ 190)) :
    getNearestPoint vertices q ∈ vertices ∧
      ∀ v ∈ vertices, Real.sqrt (sqDist (getNearestPoint vertices q) q) ≤ (1 + 11 / 2 ^ 53) * Real.sqrt (sqDist v q) := by
  have hd : ∀ v ∈ vertices, (Distance v q).Finite ∧ |((Distance v q).toQ : ℝ) - Real.sqrt (sqDist v q)| ≤ 5 / 2 ^ 53 * Real.sqrt (sqDist v q) := by
    intro v hv
    obtain ⟨hf, h0 | ⟨h1, h2⟩⟩ := h v hv
    · obtain ⟨a, b⟩ := dist_zero hf hq h0
      exact ⟨a, by rw [b, h0]; simp⟩
    · exact C81_distance hf hq h1 h2
  obtain ⟨w, hw⟩ := List.exists_mem_of_ne_nil vertices hne
  obtain ⟨i, a, b, c⟩ := C97_nearest vertices q ⟨w, hw, (hd w hw).1⟩
  have hr := List.mem_of_getElem? a
  refine ⟨hr, fun v hv => ?_⟩
  obtain ⟨j, hj⟩ := List.mem_iff_getElem?.mp hv
  have hle := (le_fin b (hd v hv).1).mp (c j v hj (hd v hv).1.ne_nan).1
  have hle' : ((Distance (getNearestPoint vertices q) q).toQ : ℝ) ≤ ((Distance v q).toQ : ℝ) := by exact_mod_cast hle
  have e1 := abs_le.mp (hd _ hr).2
  have e2 := abs_le.mp (hd v hv).2
  have p := Real.sqrt_nonneg ((sqDist v q : ℚ) : ℝ)
  generalize Real.sqrt ((sqDist v q : ℚ) : ℝ) = s at *
  generalize Real.sqrt ((sqDist (getNearestPoint vertices q) q : ℚ) : ℝ) = t at *
  have g : (1 - 5 / 2 ^ 53) * t ≤ (1 + 5 / 2 ^ 53) * s := by linarith [e1.1, e2.2]
  have g2 : (1 + 5 / 2 ^ 53 : ℝ) ≤ (1 - 5 / 2 ^ 53) * (1 + 11 / 2 ^ 53) := by norm_num
  have g3 : (1 - 5 / 2 ^ 53 : ℝ) * t ≤ (1 - 5 / 2 ^ 53) * ((1 + 11 / 2 ^ 53) * s) :=
    g.trans ((mul_le_mul_of_nonneg_right g2 p).trans (le_of_eq (by ring)))
  exact le_of_mul_le_mul_left g3 (by norm_num)

/-! ## the centroid -/

theorem mean_float {a b c d : F64} (ha : a.Finite ∧ |a.toQ| ≤ 2 ^ 1021) (hb : b.Finite ∧ |b.toQ| ≤ 2 ^ 1021) (hc : c.Finite ∧ |c.toQ| ≤ 2 ^ 1021)
    (hd : d.Finite ∧ |d.toQ| ≤ 2 ^ 1021) : ((a + b + c + d) / 4).Finite ∧
      ((a + b + c + d) / 4).toQ = rnd (rnd (rnd (rnd (a.toQ + b.toQ) + c.toQ) + d.toQ) / 4) ∧ (a + b).toQ = rnd (a.toQ + b.toQ) ∧
      (a + b + c).toQ = rnd (rnd (a.toQ + b.toQ) + c.toQ) := by
  obtain ⟨B, hB⟩ : ∃ B : ℚ, B = 2 ^ 1021 := ⟨_, rfl⟩
  have big : 4 * B < 2 ^ 1024 := by
    rw [hB, show (1024 : ℕ) = 3 + 1021 from rfl, pow_add]
    exact mul_lt_mul_of_pos_right (by norm_num) (by positivity)
  have hB0 : 0 < B := by rw [hB]; positivity
  have lim : ∀ k : ℤ, k ≤ 4 → (k:ℚ) * B < 2 ^ 1024 := fun k hk =>
    (mul_le_mul_of_nonneg_right (show (k:ℚ) ≤ 4 by exact_mod_cast hk) hB0.le).trans_lt big
  have fix : ∀ k : ℤ, |k| < 2 ^ 53 → rnd ((k:ℚ) * B) = k * B := by
    intro k hk
    have := rnd_id (K := ℚ) (q := (k:ℚ) * B) ⟨k, 1021, hk, by norm_num, by rw [hB, ← zpow_natCast]; rfl⟩
    simpa using this
  rw [← hB] at ha hb hc hd
  have step : ∀ {x y : ℚ} {k : ℤ}, |k + 1| < 2 ^ 53 → |x| ≤ k * B → |y| ≤ B → |rnd (x + y)| ≤ ((k + 1 : ℤ) : ℚ) * B := by
    intro x y k hk hx hy
    refine rnd_abs_le (fix _ hk) ?_
    push_cast
    linarith [abs_add_le x y]
  have b2 := step (k := 1) (x := a.toQ) (y := b.toQ) (by norm_num) (by simpa using ha.2) hb.2
  obtain ⟨f2, v2⟩ := add_fin ha.1 hb.1 (b2.trans_lt (lim _ (by norm_num)))
  rw [← v2] at b2
  have b3 := step (k := 2) (y := c.toQ) (by norm_num) (by exact_mod_cast b2) hc.2
  obtain ⟨f3, v3⟩ := add_fin f2 hc.1 (b3.trans_lt (lim _ (by norm_num)))
  rw [← v3] at b3
  have b4 := step (k := 3) (y := d.toQ) (by norm_num) (by exact_mod_cast b3) hd.2
  obtain ⟨f4, v4⟩ := add_fin f3 hd.1 (b4.trans_lt (lim _ (by norm_num)))
  rw [← v4] at b4
  have four : (4 : F64).Finite ∧ (4 : F64).toQ = 4 := ⟨by decide +kernel, by decide +kernel⟩
  have b5 : |rnd ((a + b + c + d).toQ / (4:F64).toQ)| ≤ ((1 : ℤ) : ℚ) * B := by
    refine rnd_abs_le (fix _ (by norm_num)) ?_
    rw [four.2, abs_div, abs_of_pos (show (0:ℚ) < 4 by norm_num), div_le_iff₀ (by norm_num)]
    push_cast at b4 ⊢
    linarith
  obtain ⟨f5, v5⟩ := div_fin f4 four.1 (by rw [four.2]; norm_num) (b5.trans_lt (lim _ (by norm_num)))
  exact ⟨f5, by rw [v5, v4, v3, v2, four.2], v2, by rw [v3, v2]⟩

/-- the mean lies between any two numbers that enclose the four -/
theorem mean_between {a b c d lo hi : F64} (ha : a.Finite ∧ |a.toQ| ≤ 2 ^ 1021) (hb : b.Finite ∧ |b.toQ| ≤ 2 ^ 1021) (hc : c.Finite ∧ |c.toQ| ≤ 2 ^ 1021)
    (hd : d.Finite ∧ |d.toQ| ≤ 2 ^ 1021) (hlo : lo.Finite) (hhi : hi.Finite) (h : ∀ x ∈ [a, b, c, d], lo ≤ x ∧ x ≤ hi) :
    lo ≤ (a + b + c + d) / 4 ∧ (a + b + c + d) / 4 ≤ hi := by
  obtain ⟨f, v, _⟩ := mean_float ha hb hc hd
  have key : ∀ x : F64, rnd (rnd (rnd (rnd (x.toQ + x.toQ) + x.toQ) + x.toQ) / 4) = x.toQ := by
    intro x
    rw [rnd_four_times (toQ_bin x).bin, mul_div_cancel_left₀ _ (by norm_num), rnd_toQ]
  simp only [List.mem_cons, List.not_mem_nil, or_false, forall_eq_or_imp, forall_eq] at h
  obtain ⟨⟨a1, a2⟩, ⟨b1, b2⟩, ⟨c1, c2⟩, d1, d2⟩ := h
  rw [le_fin hlo ha.1] at a1
  rw [le_fin ha.1 hhi] at a2
  rw [le_fin hlo hb.1] at b1
  rw [le_fin hb.1 hhi] at b2
  rw [le_fin hlo hc.1] at c1
  rw [le_fin hc.1 hhi] at c2
  rw [le_fin hlo hd.1] at d1
  rw [le_fin hd.1 hhi] at d2
  rw [le_fin hlo f, le_fin f hhi, v]
  constructor
  · rw [← key lo]
    refine rnd_mono (div_le_div_of_nonneg_right ?_ (by norm_num))
    exact rnd_mono (add_le_add (rnd_mono (add_le_add (rnd_mono (add_le_add a1 b1)) c1)) d1)
  · rw [← key hi]
    refine rnd_mono (div_le_div_of_nonneg_right ?_ (by norm_num))
    exact rnd_mono (add_le_add (rnd_mono (add_le_add (rnd_mono (add_le_add a2 b2)) c2)) d2)

/-- C97: the computed centroid lies in every box of floats around the four points: rounding never leaves the box -/
theorem C97_centroid_box {a b c d : R3.Vector F64} (ha : Bounded3 (2 ^ 1021) a) (hb : Bounded3 (2 ^ 1021) b) (hc : Bounded3 (2 ^ 1021) c) (hd : Bounded3 (2 ^ 1021) d) (lo hi : R3.Vector F64)
    (hlo : FinV lo) (hhi : FinV hi)
    (h : ∀ p ∈ [a, b, c, d], (lo.X ≤ p.X ∧ p.X ≤ hi.X) ∧ (lo.Y ≤ p.Y ∧ p.Y ≤ hi.Y) ∧ (lo.Z ≤ p.Z ∧ p.Z ≤ hi.Z)) :
    (lo.X ≤ (findCentroid a b c d).X ∧ (findCentroid a b c d).X ≤ hi.X) ∧ (lo.Y ≤ (findCentroid a b c d).Y ∧ (findCentroid a b c d).Y ≤ hi.Y) ∧
      (lo.Z ≤ (findCentroid a b c d).Z ∧ (findCentroid a b c d).Z ≤ hi.Z) := by
  simp only [List.mem_cons, List.not_mem_nil, or_false, forall_eq_or_imp, forall_eq] at h
  obtain ⟨h1, h2, h3, h4⟩ := h
  refine ⟨mean_between ha.1 hb.1 hc.1 hd.1 hlo.1 hhi.1 ?_, mean_between ha.2.1 hb.2.1 hc.2.1 hd.2.1 hlo.2.1 hhi.2.1 ?_,
    mean_between ha.2.2 hb.2.2 hc.2.2 hd.2.2 hlo.2.2 hhi.2.2 ?_⟩ <;>
    simp only [List.mem_cons, List.not_mem_nil, or_false, forall_eq_or_imp, forall_eq]
  exacts [⟨h1.1, h2.1, h3.1, h4.1⟩, ⟨h1.2.1, h2.2.1, h3.2.1, h4.2.1⟩, ⟨h1.2.2, h2.2.2, h3.2.2, h4.2.2⟩]

theorem mean_error {a b c d : F64} (ha : a.Finite ∧ |a.toQ| ≤ 2 ^ 1021) (hb : b.Finite ∧ |b.toQ| ≤ 2 ^ 1021) (hc : c.Finite ∧ |c.toQ| ≤ 2 ^ 1021)
    (hd : d.Finite ∧ |d.toQ| ≤ 2 ^ 1021) :
    |((a + b + c + d) / 4).toQ - (a.toQ + b.toQ + c.toQ + d.toQ) / 4| ≤ 1 / 2 ^ 53 * (|a.toQ| + |b.toQ| + |c.toQ| + |d.toQ|) + 1 / 2 ^ 999 := by
  obtain ⟨f, v, v2, v3⟩ := mean_float ha hb hc hd
  have e2 := rnd_add_rel a b
  have e3 := rnd_add_rel (a + b) c
  have e4 := rnd_add_rel (a + b + c) d
  rw [v2] at e3
  rw [v3] at e4
  rw [v]
  have hb4 := rnd_bin (rnd (rnd (a.toQ + b.toQ) + c.toQ) + d.toQ)
  generalize rnd (a.toQ + b.toQ) = s2 at *
  generalize rnd (s2 + c.toQ) = s3 at *
  generalize rnd (s3 + d.toQ) = s4 at *
  -- dividing by four
  have e5 : |rnd (s4 / 4) - s4 / 4| ≤ 1 / 2 ^ 999 := by
    obtain ⟨n, e, n1, n2, rfl⟩ := hb4
    rcases le_or_gt (-1072) e with g | g
    · have : rnd ((n:ℚ) * 2 ^ e / 4) = n * 2 ^ e / 4 := by
        have := rnd_id (K := ℚ) (q := (n:ℚ) * 2 ^ e / 4) ⟨n, e - 2, n1, by omega, by rw [zpow_sub₀ (by norm_num)]; norm_num; ring⟩
        simpa using this
      rw [this, sub_self, abs_zero]
      positivity
    · have hsmall : |(n:ℚ) * 2 ^ e / 4| ≤ 1 / 2 ^ 1000 := by
        have k1 : |(n:ℚ)| ≤ 2 ^ 53 := by exact_mod_cast n1.le
        have k2 : (2:ℚ) ^ e ≤ 2 ^ (-1073 : ℤ) := zpow_le_zpow_right₀ (by norm_num) (by omega)
        rw [abs_div, abs_mul, abs_of_pos (a := (2:ℚ) ^ e) (two_zpow_pos e), abs_of_pos (show (0:ℚ) < 4 by norm_num)]
        have k3 : |(n:ℚ)| * 2 ^ e ≤ 2 ^ 53 * 2 ^ (-1073 : ℤ) := mul_le_mul k1 k2 (two_zpow_pos _).le (by positivity)
        have k4 : (2:ℚ) ^ 53 * 2 ^ (-1073 : ℤ) = 1 / 2 ^ 20 * (1 / 2 ^ 1000) := by
          rw [show (-1073 : ℤ) = -(73 : ℕ) + -(1000 : ℕ) by norm_num, zpow_add₀ (by norm_num), zpow_neg, zpow_neg, zpow_natCast, zpow_natCast]
          generalize (2:ℚ) ^ 1000 = w
          norm_num
          ring
        rw [k4] at k3
        have p : (0:ℚ) < 1 / 2 ^ 1000 := by positivity
        generalize (1:ℚ) / 2 ^ 1000 = w at *
        linarith
      have hr := rnd_abs_err ((n:ℚ) * 2 ^ e / 4)
      have p : (0:ℚ) < 1 / 2 ^ 1000 := by positivity
      have q : (1:ℚ) / 2 ^ 999 = 2 * (1 / 2 ^ 1000) := by
        rw [show (1000:ℕ) = 999 + 1 from rfl, pow_succ]
        have hw : (2:ℚ) ^ 999 ≠ 0 := by positivity
        generalize (2:ℚ) ^ 999 = w at hw
        field_simp
      rw [q]
      generalize (1:ℚ) / 2 ^ 1000 = w at *
      have hu : uro ≤ 1 := by unfold uro; norm_num
      have : uro * |(n:ℚ) * 2 ^ e / 4| ≤ 1 * w := mul_le_mul hu hsmall (abs_nonneg _) (by norm_num)
      linarith
  have hu : uro = 1 / 2 ^ 53 := rfl
  have hS : |a.toQ + b.toQ| ≤ |a.toQ| + |b.toQ| := abs_add_le _ _
  have t3 : |s2 + c.toQ| ≤ |s2 - (a.toQ + b.toQ)| + (|a.toQ| + |b.toQ| + |c.toQ|) := by
    have := abs_add_le (s2 - (a.toQ + b.toQ)) (a.toQ + b.toQ)
    rw [sub_add_cancel] at this
    linarith [abs_add_le s2 c.toQ]
  have t4 : |s3 + d.toQ| ≤ |s3 - (s2 + c.toQ)| + |s2 + c.toQ| + |d.toQ| := by
    have := abs_add_le (s3 - (s2 + c.toQ)) (s2 + c.toQ)
    rw [sub_add_cancel] at this
    linarith [abs_add_le s3 d.toQ]
  have tot : |s4 / 4 - (a.toQ + b.toQ + c.toQ + d.toQ) / 4| ≤ (|s4 - (s3 + d.toQ)| + |s3 - (s2 + c.toQ)| + |s2 - (a.toQ + b.toQ)|) / 4 := by
    rw [← sub_div, abs_div, abs_of_pos (show (0:ℚ) < 4 by norm_num)]
    refine div_le_div_of_nonneg_right ?_ (by norm_num)
    have := abs_add_three (s4 - (s3 + d.toQ)) (s3 - (s2 + c.toQ)) (s2 - (a.toQ + b.toQ))
    refine le_trans (le_of_eq (congrArg _ (by ring))) this
  have fin := abs_add_le (rnd (s4 / 4) - s4 / 4) (s4 / 4 - (a.toQ + b.toQ + c.toQ + d.toQ) / 4)
  rw [sub_add_sub_cancel] at fin
  generalize (1:ℚ) / 2 ^ 999 = w at *
  generalize |a.toQ| = A at *
  generalize |b.toQ| = B at *
  have pc := abs_nonneg c.toQ
  have pd := abs_nonneg d.toQ
  generalize |c.toQ| = C at *
  generalize |d.toQ| = D at *
  have p2 := abs_nonneg (a.toQ + b.toQ)
  generalize |a.toQ + b.toQ| = X2 at *
  generalize |s2 + c.toQ| = X3 at *
  generalize |s3 + d.toQ| = X4 at *
  generalize |s2 - (a.toQ + b.toQ)| = E2 at *
  generalize |s3 - (s2 + c.toQ)| = E3 at *
  generalize |s4 - (s3 + d.toQ)| = E4 at *
  rw [hu] at e2 e3 e4
  norm_num at e2 e3 e4 ⊢
  linarith

/-- C97: the error of the centroid -/
theorem C97_centroid_error {a b c d : R3.Vector F64} (ha : Bounded3 (2 ^ 1021) a) (hb : Bounded3 (2 ^ 1021) b) (hc : Bounded3 (2 ^ 1021) c) (hd : Bounded3 (2 ^ 1021) d) :
    FinV (findCentroid a b c d) ∧
    |(findCentroid a b c d).X.toQ - (a.X.toQ + b.X.toQ + c.X.toQ + d.X.toQ) / 4| ≤ 1 / 2 ^ 53 * (|a.X.toQ| + |b.X.toQ| + |c.X.toQ| + |d.X.toQ|) + 1 / 2 ^ 999 ∧
    |(findCentroid a b c d).Y.toQ - (a.Y.toQ + b.Y.toQ + c.Y.toQ + d.Y.toQ) / 4| ≤ 1 / 2 ^ 53 * (|a.Y.toQ| + |b.Y.toQ| + |c.Y.toQ| + |d.Y.toQ|) + 1 / 2 ^ 999 ∧
    |(findCentroid a b c d).Z.toQ - (a.Z.toQ + b.Z.toQ + c.Z.toQ + d.Z.toQ) / 4| ≤ 1 / 2 ^ 53 * (|a.Z.toQ| + |b.Z.toQ| + |c.Z.toQ| + |d.Z.toQ|) + 1 / 2 ^ 999 :=
  ⟨⟨(mean_float ha.1 hb.1 hc.1 hd.1).1, (mean_float ha.2.1 hb.2.1 hc.2.1 hd.2.1).1, (mean_float ha.2.2 hb.2.2 hc.2.2 hd.2.2).1⟩,
    mean_error ha.1 hb.1 hc.1 hd.1, mean_error ha.2.1 hb.2.1 hc.2.1 hd.2.1, mean_error ha.2.2 hb.2.2 hc.2.2 hd.2.2⟩

/-! ## the furthest points -/

/-- C97: the third point, for any floats: the first point of greatest computed distance, or the origin -/
theorem C97_third (Vs : List (R3.Vector F64)) (a b : R3.Vector F64) :
    ((∃ p ∈ Vs, 0 < Get2Ddist a b p) → ∃ i : ℕ, Vs[i]? = some (getFurthestFromTwoVectors Vs a b) ∧ 0 < Get2Ddist a b (getFurthestFromTwoVectors Vs a b) ∧
      ∀ (j : ℕ) p, Vs[j]? = some p → Get2Ddist a b p ≠ nan → Get2Ddist a b p ≤ Get2Ddist a b (getFurthestFromTwoVectors Vs a b) ∧
        (Get2Ddist a b (getFurthestFromTwoVectors Vs a b) ≤ Get2Ddist a b p → i ≤ j)) ∧
    ((∀ p ∈ Vs, ¬ 0 < Get2Ddist a b p) → getFurthestFromTwoVectors Vs a b = ⟨0, 0, 0⟩) := by
  have key := first_best (fun v => Get2Ddist a b v) (fun x => -x.toE) (fun x y => y < x) lt_nan
    (fun x y hx hy => by rw [lt_toE hy hx, neg_lt_neg_iff]) Vs 0 ⟨0, 0, 0⟩ (show (0:F64) ≠ nan by decide)
  unfold getFurthestFromTwoVectors
  dsimp only at key ⊢
  constructor
  · rintro ⟨p, hp, h⟩
    rcases key with ⟨_, b⟩ | ⟨i, a1, a2, a3, a4, a5⟩
    · have := b p hp (ne_nan_of_lt h).2
      have h' := (lt_toE (ne_nan_of_lt h).1 (ne_nan_of_lt h).2).mp h
      linarith
    · generalize List.foldl _ _ Vs = r at *
      refine ⟨i, a1, ?_, fun j v hv hn => ?_⟩
      · rw [a2] at a4
        exact (lt_toE (by decide) a3).mpr (neg_lt_neg_iff.mp a4)
      · obtain ⟨c, d⟩ := a5 j v hv hn
        rw [a2] at c d
        refine ⟨(le_toE hn a3).mpr (neg_le_neg_iff.mp c), fun e => d ?_⟩
        exact le_antisymm (neg_le_neg ((le_toE a3 hn).mp e)) c
  · intro h
    rcases key with ⟨a, _⟩ | ⟨i, a1, a2, a3, a4, a5⟩
    · rw [a]
    · rw [a2] at a4
      exact absurd ((lt_toE (by decide) a3).mpr (neg_lt_neg_iff.mp a4)) (h _ (List.mem_of_getElem? a1))

/-- C97: the fourth point, for any floats: the first point of least computed signed volume, or the origin -/
theorem C97_fourth (Vs : List (R3.Vector F64)) (a b c : R3.Vector F64) :
    ((∃ p ∈ Vs, Get3Ddist a b c p < 0) → ∃ i : ℕ, Vs[i]? = some (getFurthestFromthreeVectors Vs a b c) ∧
      Get3Ddist a b c (getFurthestFromthreeVectors Vs a b c) < 0 ∧
      ∀ (j : ℕ) p, Vs[j]? = some p → Get3Ddist a b c p ≠ nan → Get3Ddist a b c (getFurthestFromthreeVectors Vs a b c) ≤ Get3Ddist a b c p ∧
        (Get3Ddist a b c p ≤ Get3Ddist a b c (getFurthestFromthreeVectors Vs a b c) → i ≤ j)) ∧
    ((∀ p ∈ Vs, ¬ Get3Ddist a b c p < 0) → getFurthestFromthreeVectors Vs a b c = ⟨0, 0, 0⟩) := by
  have key := first_best (fun v => Get3Ddist a b c v) toE (fun x y => x < y) nan_lt (fun x y hx hy => lt_toE hx hy) Vs 0 ⟨0, 0, 0⟩ (show (0:F64) ≠ nan by decide)
  unfold getFurthestFromthreeVectors
  dsimp only at key ⊢
  constructor
  · rintro ⟨p, hp, h⟩
    rcases key with ⟨_, b⟩ | ⟨i, a1, a2, a3, a4, a5⟩
    · have := b p hp (ne_nan_of_lt h).1
      have h' := (lt_toE (ne_nan_of_lt h).1 (ne_nan_of_lt h).2).mp h
      linarith
    · generalize List.foldl _ _ Vs = r at *
      refine ⟨i, a1, ?_, fun j v hv hn => ?_⟩
      · rw [a2] at a4
        exact (lt_toE a3 (by decide)).mpr a4
      · obtain ⟨c, d⟩ := a5 j v hv hn
        rw [a2] at c d
        exact ⟨(le_toE a3 hn).mpr c, fun e => d (le_antisymm ((le_toE hn a3).mp e) c)⟩
  · intro h
    rcases key with ⟨a, _⟩ | ⟨i, a1, a2, a3, a4, a5⟩
    · rw [a]
    · rw [a2] at a4
      exact absurd ((lt_toE a3 (by decide)).mpr a4) (h _ (List.mem_of_getElem? a1))

/-- the two searches of `computeExtremitiesForAxeX` -/
theorem extremes_split {F : Type} [LT F] [DecidableLT F] (l : List (R3.Vector F)) (a b : R3.Vector F) :
    l.foldl (fun (acc : R3.Vector F × R3.Vector F) v => (if v.X < acc.1.X then v else acc.1, if acc.2.X < v.X then v else acc.2)) (a, b) =
      (l.foldl (fun acc v => if v.X < acc.X then v else acc) a, l.foldl (fun acc v => if acc.X < v.X then v else acc) b) := by
  induction l generalizing a b with
  | nil => rfl
  | cons v l ih => rw [List.foldl_cons, List.foldl_cons, List.foldl_cons, ih]

/-- C97: the two first points -/
theorem C97_extremes (Vs : List (R3.Vector F64)) (hne : Vs ≠ []) (h : ∀ p ∈ Vs, p.X.Finite ∧ |p.X.toQ| < maxFloat32) :
    (computeExtremitiesForAxeX Vs).1 ∈ Vs ∧ (computeExtremitiesForAxeX Vs).2 ∈ Vs ∧
    ∀ p ∈ Vs, (computeExtremitiesForAxeX Vs).1.X ≤ p.X ∧ p.X ≤ (computeExtremitiesForAxeX Vs).2.X := by
  obtain ⟨f1, f2⟩ := maxFloat32_float
  obtain ⟨g1, g2⟩ := neg_fin f1
  rw [f2] at g2
  unfold computeExtremitiesForAxeX
  dsimp only
  rw [extremes_split]
  generalize (GoConst.const maxFloat32 : F64) = m at *
  have lo := first_best (fun v : R3.Vector F64 => v.X) toE (fun x y => x < y) nan_lt (fun x y hx hy => lt_toE hx hy) Vs m ⟨m, m, m⟩ f1.ne_nan
  have hi := first_best (fun v : R3.Vector F64 => v.X) (fun x => -x.toE) (fun x y => y < x) lt_nan
    (fun x y hx hy => by rw [lt_toE hy hx, neg_lt_neg_iff]) Vs (-m) ⟨-m, -m, -m⟩ g1.ne_nan
  have e1 := fold_elem (fun v : R3.Vector F64 => v.X) (fun x y => x < y) Vs ⟨m, m, m⟩
  have e2 := fold_elem (fun v : R3.Vector F64 => v.X) (fun x y => y < x) Vs ⟨-m, -m, -m⟩
  dsimp only at e1 e2 lo hi ⊢
  rw [e1] at lo
  rw [e2] at hi
  obtain ⟨q, hq⟩ := List.exists_mem_of_ne_nil Vs hne
  have hq' := abs_lt.mp (h q hq).2
  have lo' : ∃ i : ℕ, Vs[i]? = some (Vs.foldl (fun acc v => if v.X < acc.X then v else acc) ⟨m, m, m⟩) ∧
      ∀ p ∈ Vs, (Vs.foldl (fun acc v => if v.X < acc.X then v else acc) ⟨m, m, m⟩).X ≤ p.X := by
    rcases lo with ⟨_, b⟩ | ⟨i, a1, a2, a3, a4, a5⟩
    · have := b q hq (h q hq).1.ne_nan
      rw [toE_fin f1, toE_fin (h q hq).1, f2] at this
      linarith
    · refine ⟨i, a1, fun p hp => ?_⟩
      obtain ⟨j, hj⟩ := List.mem_iff_getElem?.mp hp
      exact (le_toE a3 (h p hp).1.ne_nan).mpr (a5 j p hj (h p hp).1.ne_nan).1
  have hi' : ∃ i : ℕ, Vs[i]? = some (Vs.foldl (fun acc v => if acc.X < v.X then v else acc) ⟨-m, -m, -m⟩) ∧
      ∀ p ∈ Vs, p.X ≤ (Vs.foldl (fun acc v => if acc.X < v.X then v else acc) ⟨-m, -m, -m⟩).X := by
    rcases hi with ⟨_, b⟩ | ⟨i, a1, a2, a3, a4, a5⟩
    · have := b q hq (h q hq).1.ne_nan
      rw [toE_fin g1, toE_fin (h q hq).1, g2] at this
      linarith
    · refine ⟨i, a1, fun p hp => ?_⟩
      obtain ⟨j, hj⟩ := List.mem_iff_getElem?.mp hp
      exact (le_toE (h p hp).1.ne_nan a3).mpr (neg_le_neg_iff.mp (a5 j p hj (h p hp).1.ne_nan).1)
  obtain ⟨i, i1, i2⟩ := lo'
  obtain ⟨j, j1, j2⟩ := hi'
  exact ⟨List.mem_of_getElem? i1, List.mem_of_getElem? j1, fun p hp => ⟨i2 p hp, j2 p hp⟩⟩

/-! ## error bounds -/

section
variable {M : ℚ} (h1 : 1 / 2 ^ 40 ≤ M) (h2 : M ≤ 2 ^ 40)
include h1 h2

theorem cross_part {x y z w : F64} {X Y Z W : ℚ} (hx : App x X (M ^ 1) (5 / 2) 2) (hy : App y Y (M ^ 1) (5 / 2) 2) (hz : App z Z (M ^ 1) (5 / 2) 2)
    (hw : App w W (M ^ 1) (5 / 2) 2) : App (x * y - z * w) (X * Y - Z * W) (M ^ 2) 39 8 := by
  have p := app_mul h1 h2 (by norm_num) hx hy (by norm_num) (by norm_num) (by norm_num) (by norm_num)
  have q := app_mul h1 h2 (by norm_num) hz hw (by norm_num) (by norm_num) (by norm_num) (by norm_num)
  have := app_sub h1 h2 (by norm_num) p q (by norm_num) (by norm_num) (by norm_num) (by norm_num)
  exact this.weaken (scale_pow h1 h2 (by norm_num)) (by norm_num) (by norm_num)

theorem two_app {a b c : R3.Vector F64} (ha : Bounded3 M a) (hb : Bounded3 M b) (hc : Bounded3 M c) :
    App (Get2Ddist a b c) (Get2Ddist (exactV a) (exactV b) (exactV c)) (M ^ 4) 2388 192 := by
  unfold Get2Ddist
  obtain ⟨ax, ay, az⟩ := ha
  obtain ⟨bx, by', bz⟩ := hb
  obtain ⟨cx, cy, cz⟩ := hc
  have abx := app_diff h1 h2 bx.1 ax.1 bx.2 ax.2
  have aby := app_diff h1 h2 by'.1 ay.1 by'.2 ay.2
  have abz := app_diff h1 h2 bz.1 az.1 bz.2 az.2
  have acx := app_diff h1 h2 cx.1 ax.1 cx.2 ax.2
  have acy := app_diff h1 h2 cy.1 ay.1 cy.2 ay.2
  have acz := app_diff h1 h2 cz.1 az.1 cz.2 az.2
  have xy := cross_part h1 h2 abx acy aby acx
  have yz := cross_part h1 h2 aby acz abz acy
  have zx := cross_part h1 h2 abz acx abx acz
  have s1 := app_mul h1 h2 (by norm_num) xy xy (by norm_num) (by norm_num) (by norm_num) (by norm_num)
  have s2 := app_mul h1 h2 (by norm_num) yz yz (by norm_num) (by norm_num) (by norm_num) (by norm_num)
  have s3 := app_mul h1 h2 (by norm_num) zx zx (by norm_num) (by norm_num) (by norm_num) (by norm_num)
  have t := app_add h1 h2 (by norm_num) s1 s2 (by norm_num) (by norm_num) (by norm_num) (by norm_num)
  have := app_add h1 h2 (by norm_num) t s3 (by norm_num) (by norm_num) (by norm_num) (by norm_num)
  exact this.weaken (scale_pow h1 h2 (by norm_num)) (by norm_num) (by norm_num)

theorem three_app {a b c d : R3.Vector F64} (ha : Bounded3 M a) (hb : Bounded3 M b) (hc : Bounded3 M c) (hd : Bounded3 M d) :
    App (Get3Ddist a b c d) (Get3Ddist (exactV a) (exactV b) (exactV c) (exactV d)) (M ^ 3) 426 48 := by
  unfold Get3Ddist
  obtain ⟨ax, ay, az⟩ := ha
  obtain ⟨bx, by', bz⟩ := hb
  obtain ⟨cx, cy, cz⟩ := hc
  obtain ⟨dx, dy, dz⟩ := hd
  have abx := app_diff h1 h2 bx.1 ax.1 bx.2 ax.2
  have aby := app_diff h1 h2 by'.1 ay.1 by'.2 ay.2
  have abz := app_diff h1 h2 bz.1 az.1 bz.2 az.2
  have acx := app_diff h1 h2 cx.1 ax.1 cx.2 ax.2
  have acy := app_diff h1 h2 cy.1 ay.1 cy.2 ay.2
  have acz := app_diff h1 h2 cz.1 az.1 cz.2 az.2
  have adx := app_diff h1 h2 dx.1 ax.1 dx.2 ax.2
  have ady := app_diff h1 h2 dy.1 ay.1 dy.2 ay.2
  have adz := app_diff h1 h2 dz.1 az.1 dz.2 az.2
  have s1 := app_mul h1 h2 (by norm_num) abz (cross_part h1 h2 acx ady acy adx) (by norm_num) (by norm_num) (by norm_num) (by norm_num)
  have s2 := app_mul h1 h2 (by norm_num) acz (cross_part h1 h2 adx aby ady abx) (by norm_num) (by norm_num) (by norm_num) (by norm_num)
  have s3 := app_mul h1 h2 (by norm_num) adz (cross_part h1 h2 abx acy aby acx) (by norm_num) (by norm_num) (by norm_num) (by norm_num)
  have t := app_add h1 h2 (by norm_num) s1 s2 (by norm_num) (by norm_num) (by norm_num) (by norm_num)
  have := app_add h1 h2 (by norm_num) t s3 (by norm_num) (by norm_num) (by norm_num) (by norm_num)
  exact this.weaken (scale_pow h1 h2 (by norm_num)) (by norm_num) (by norm_num)

/-- C97: the true distance of the third point is the greatest up to the rounding error -/
theorem C97_third_true {Vs : List (R3.Vector F64)} {a b : R3.Vector F64} (ha : Bounded3 M a) (hb : Bounded3 M b) (h : ∀ p ∈ Vs, Bounded3 M p)
    (hx : ∃ p ∈ Vs, 2388 / 2 ^ 53 * M ^ 4 < Get2Ddist (exactV a) (exactV b) (exactV p)) :
    getFurthestFromTwoVectors Vs a b ∈ Vs ∧ ∀ p ∈ Vs, Get2Ddist (exactV a) (exactV b) (exactV p) ≤
      Get2Ddist (exactV a) (exactV b) (exactV (getFurthestFromTwoVectors Vs a b)) + 4776 / 2 ^ 53 * M ^ 4 := by
  have hd := fun p hp => two_app h1 h2 ha hb (h p hp)
  obtain ⟨p, hp, hx⟩ := hx
  have eu : ∀ k : ℚ, k * (uro * M ^ 4) = k / 2 ^ 53 * M ^ 4 := by intro k; unfold uro; ring
  have pos : 0 < Get2Ddist a b p := by
    have := abs_le.mp (hd p hp).err
    rw [eu] at this
    rw [lt_fin (show (0:F64).Finite from trivial) (hd p hp).fin]
    rw [show (0:F64).toQ = 0 from rfl]
    linarith
  obtain ⟨i, a1, a2, a3⟩ := (C97_third Vs a b).1 ⟨p, hp, pos⟩
  have hr := List.mem_of_getElem? a1
  refine ⟨hr, fun q hq => ?_⟩
  obtain ⟨j, hj⟩ := List.mem_iff_getElem?.mp hq
  have hle := (le_fin (hd q hq).fin (hd _ hr).fin).mp (a3 j q hj (hd q hq).fin.ne_nan).1
  have e1 := abs_le.mp (hd q hq).err
  have e2 := abs_le.mp (hd _ hr).err
  rw [eu] at e1 e2
  generalize M ^ 4 = S at *
  linarith

/-- C97: the true signed volume of the fourth point is the least up to the rounding error -/
theorem C97_fourth_true {Vs : List (R3.Vector F64)} {a b c : R3.Vector F64} (ha : Bounded3 M a) (hb : Bounded3 M b) (hc : Bounded3 M c)
    (h : ∀ p ∈ Vs, Bounded3 M p) (hx : ∃ p ∈ Vs, Get3Ddist (exactV a) (exactV b) (exactV c) (exactV p) < -(426 / 2 ^ 53 * M ^ 3)) :
    getFurthestFromthreeVectors Vs a b c ∈ Vs ∧ ∀ p ∈ Vs, Get3Ddist (exactV a) (exactV b) (exactV c) (exactV (getFurthestFromthreeVectors Vs a b c)) ≤
      Get3Ddist (exactV a) (exactV b) (exactV c) (exactV p) + 852 / 2 ^ 53 * M ^ 3 := by
  have hd := fun p hp => three_app h1 h2 ha hb hc (h p hp)
  obtain ⟨p, hp, hx⟩ := hx
  have eu : ∀ k : ℚ, k * (uro * M ^ 3) = k / 2 ^ 53 * M ^ 3 := by intro k; unfold uro; ring
  have pos : Get3Ddist a b c p < 0 := by
    have := abs_le.mp (hd p hp).err
    rw [eu] at this
    rw [lt_fin (hd p hp).fin (show (0:F64).Finite from trivial)]
    rw [show (0:F64).toQ = 0 from rfl]
    linarith
  obtain ⟨i, a1, a2, a3⟩ := (C97_fourth Vs a b c).1 ⟨p, hp, pos⟩
  have hr := List.mem_of_getElem? a1
  refine ⟨hr, fun q hq => ?_⟩
  obtain ⟨j, hj⟩ := List.mem_iff_getElem?.mp hq
  have hle := (le_fin (hd _ hr).fin (hd q hq).fin).mp (a3 j q hj (hd q hq).fin.ne_nan).1
  have e1 := abs_le.mp (hd q hq).err
  have e2 := abs_le.mp (hd _ hr).err
  rw [eu] at e1 e2
  generalize M ^ 3 = S at *
  linarith

end

/-! ## coordinates on a dyadic grid -/

/-- the coordinates are `n * 2^e` with `n` at most 2048 in size -/
def GridPoint (e : ℤ) (v : R3.Vector F64) : Prop :=
  (v.X.Finite ∧ ∃ n : ℤ, |n| ≤ 2048 ∧ v.X.toQ = n * 2 ^ e) ∧ (v.Y.Finite ∧ ∃ n : ℤ, |n| ≤ 2048 ∧ v.Y.toQ = n * 2 ^ e) ∧
    (v.Z.Finite ∧ ∃ n : ℤ, |n| ≤ 2048 ∧ v.Z.toQ = n * 2 ^ e)

theorem GridPoint.dy {e : ℤ} {v : R3.Vector F64} (h : GridPoint e v) : ∃ a : R3.Vector ℤ, Dy v.X a.X 2048 e ∧ Dy v.Y a.Y 2048 e ∧ Dy v.Z a.Z 2048 e := by
  obtain ⟨⟨f1, n1, l1, v1⟩, ⟨f2, n2, l2, v2⟩, f3, n3, l3, v3⟩ := h
  exact ⟨⟨n1, n2, n3⟩, ⟨f1, v1, l1⟩, ⟨f2, v2, l2⟩, ⟨f3, v3, l3⟩⟩

theorem gridPoint_zero (e : ℤ) : GridPoint e ⟨0, 0, 0⟩ := by
  have h : (0:F64).Finite ∧ ∃ n : ℤ, |n| ≤ 2048 ∧ (0:F64).toQ = n * 2 ^ e := ⟨trivial, 0, by norm_num, by rw [show (0:F64).toQ = 0 from rfl]; simp⟩
  exact ⟨h, h, h⟩

section
variable {e : ℤ} (he1 : -200 ≤ e) (he2 : e ≤ 110)
include he1 he2

theorem dy_cross {x y z w : F64} {X Y Z W : ℤ} (hx : Dy x X (2048 + 2048) e) (hy : Dy y Y (2048 + 2048) e) (hz : Dy z Z (2048 + 2048) e)
    (hw : Dy w W (2048 + 2048) e) : Dy (x * y - z * w) (X * Y - Z * W) (2 ^ 25) (e + e) :=
  (hx.mul hy (by norm_num) (by omega) (by omega)).sub (hz.mul hw (by norm_num) (by omega) (by omega)) (by norm_num) (by omega) (by omega)

theorem two_grid {a b c : R3.Vector F64} (ha : GridPoint e a) (hb : GridPoint e b) (hc : GridPoint e c) :
    (Get2Ddist a b c).Finite ∧ (Get2Ddist a b c).toQ = Get2Ddist (exactV a) (exactV b) (exactV c) := by
  obtain ⟨a', ax, ay, az⟩ := ha.dy
  obtain ⟨b', bx, by', bz⟩ := hb.dy
  obtain ⟨c', cx, cy, cz⟩ := hc.dy
  have abx := bx.sub ax (by norm_num) (by omega) (by omega)
  have aby := by'.sub ay (by norm_num) (by omega) (by omega)
  have abz := bz.sub az (by norm_num) (by omega) (by omega)
  have acx := cx.sub ax (by norm_num) (by omega) (by omega)
  have acy := cy.sub ay (by norm_num) (by omega) (by omega)
  have acz := cz.sub az (by norm_num) (by omega) (by omega)
  have xy := dy_cross he1 he2 abx acy aby acx
  have yz := dy_cross he1 he2 aby acz abz acy
  have zx := dy_cross he1 he2 abz acx abx acz
  have t := ((xy.mul xy (by norm_num) (by omega) (by omega)).add (yz.mul yz (by norm_num) (by omega) (by omega)) (by norm_num) (by omega) (by omega)).add
    (zx.mul zx (by norm_num) (by omega) (by omega)) (by norm_num) (by omega) (by omega)
  refine ⟨t.fin, (show (Get2Ddist a b c).toQ = _ from t.val).trans ?_⟩
  simp only [Get2Ddist, exactV]
  rw [ax.val, ay.val, az.val, bx.val, by'.val, bz.val, cx.val, cy.val, cz.val, zpow_add₀ (by norm_num), zpow_add₀ (by norm_num)]
  push_cast
  ring

theorem three_grid {a b c d : R3.Vector F64} (ha : GridPoint e a) (hb : GridPoint e b) (hc : GridPoint e c) (hd : GridPoint e d) :
    (Get3Ddist a b c d).Finite ∧ (Get3Ddist a b c d).toQ = Get3Ddist (exactV a) (exactV b) (exactV c) (exactV d) := by
  obtain ⟨a', ax, ay, az⟩ := ha.dy
  obtain ⟨b', bx, by', bz⟩ := hb.dy
  obtain ⟨c', cx, cy, cz⟩ := hc.dy
  obtain ⟨d', dx, dy, dz⟩ := hd.dy
  have abx := bx.sub ax (by norm_num) (by omega) (by omega)
  have aby := by'.sub ay (by norm_num) (by omega) (by omega)
  have abz := bz.sub az (by norm_num) (by omega) (by omega)
  have acx := cx.sub ax (by norm_num) (by omega) (by omega)
  have acy := cy.sub ay (by norm_num) (by omega) (by omega)
  have acz := cz.sub az (by norm_num) (by omega) (by omega)
  have adx := dx.sub ax (by norm_num) (by omega) (by omega)
  have ady := dy.sub ay (by norm_num) (by omega) (by omega)
  have adz := dz.sub az (by norm_num) (by omega) (by omega)
  have bc := dy_cross he1 he2 abx acy aby acx
  have cd := dy_cross he1 he2 acx ady acy adx
  have db := dy_cross he1 he2 adx aby ady abx
  have t := ((abz.mul cd (by norm_num) (by omega) (by omega)).add (acz.mul db (by norm_num) (by omega) (by omega)) (by norm_num) (by omega) (by omega)).add
    (adz.mul bc (by norm_num) (by omega) (by omega)) (by norm_num) (by omega) (by omega)
  refine ⟨t.fin, (show (Get3Ddist a b c d).toQ = _ from t.val).trans ?_⟩
  simp only [Get3Ddist, exactV]
  rw [ax.val, ay.val, az.val, bx.val, by'.val, bz.val, cx.val, cy.val, cz.val, dx.val, dy.val, dz.val, zpow_add₀ (by norm_num), zpow_add₀ (by norm_num)]
  push_cast
  ring

/-- C97: on a dyadic grid the two quantities are computed without error -/
theorem C97_dist_grid {a b c d : R3.Vector F64} (ha : GridPoint e a) (hb : GridPoint e b) (hc : GridPoint e c) (hd : GridPoint e d) :
    (Get2Ddist a b c).toQ = Get2Ddist (exactV a) (exactV b) (exactV c) ∧
    (Get3Ddist a b c d).toQ = Get3Ddist (exactV a) (exactV b) (exactV c) (exactV d) :=
  ⟨(two_grid he1 he2 ha hb hc).2, (three_grid he1 he2 ha hb hc hd).2⟩

omit he1 he2 in
/-- a search that meets only exact values goes the same way as the exact search -/
theorem search_exact (f : R3.Vector F64 → F64) (g : R3.Vector ℚ → ℚ) (c : F64 → F64 → Prop) (d : ℚ → ℚ → Prop) [∀ x y, Decidable (c x y)]
    [∀ x y, Decidable (d x y)] (hcd : ∀ x y : F64, x.Finite → y.Finite → (c x y ↔ d x.toQ y.toQ)) (l : List (R3.Vector F64))
    (h : ∀ v ∈ l, (f v).Finite ∧ (f v).toQ = g (exactV v)) (m : F64) (z : R3.Vector F64) (hm : m.Finite) :
    (l.map exactV).foldl (fun (acc : ℚ × R3.Vector ℚ) v => if d (g v) acc.1 then (g v, v) else acc) (m.toQ, exactV z) =
      (let r := l.foldl (fun (acc : F64 × R3.Vector F64) v => if c (f v) acc.1 then (f v, v) else acc) (m, z); (r.1.toQ, exactV r.2)) := by
  induction l generalizing m z with
  | nil => rfl
  | cons v l ih =>
    obtain ⟨f1, f2⟩ := h v List.mem_cons_self
    dsimp only at ih ⊢
    rw [List.map_cons, List.foldl_cons, List.foldl_cons]
    dsimp only
    have hi := hcd (f v) m f1 hm
    rw [f2] at hi
    by_cases hc : c (f v) m
    · rw [if_pos hc, if_pos (hi.mp hc), ← f2]
      exact ih (fun w hw => h w (List.mem_cons_of_mem _ hw)) _ _ f1
    · rw [if_neg hc, if_neg (fun x => hc (hi.mpr x))]
      exact ih (fun w hw => h w (List.mem_cons_of_mem _ hw)) _ _ hm

omit he1 he2 in
theorem extremes_exact (l : List (R3.Vector F64)) (h : ∀ v ∈ l, v.X.Finite) (a b : R3.Vector F64) (ha : a.X.Finite) (hb : b.X.Finite) :
    (l.map exactV).foldl (fun (acc : R3.Vector ℚ × R3.Vector ℚ) v => (if v.X < acc.1.X then v else acc.1, if acc.2.X < v.X then v else acc.2)) (exactV a, exactV b) =
      (let r := l.foldl (fun (acc : R3.Vector F64 × R3.Vector F64) v => (if v.X < acc.1.X then v else acc.1, if acc.2.X < v.X then v else acc.2)) (a, b)
       (exactV r.1, exactV r.2)) := by
  induction l generalizing a b with
  | nil => rfl
  | cons v l ih =>
    have fv := h v List.mem_cons_self
    dsimp only at ih ⊢
    rw [List.map_cons, List.foldl_cons, List.foldl_cons]
    dsimp only
    have k1 : (if (exactV v).X < (exactV a).X then exactV v else exactV a) = exactV (if v.X < a.X then v else a) := by
      rw [apply_ite exactV]
      exact if_congr (lt_fin fv ha).symm rfl rfl
    have k2 : (if (exactV b).X < (exactV v).X then exactV v else exactV b) = exactV (if b.X < v.X then v else b) := by
      rw [apply_ite exactV]
      exact if_congr (lt_fin hb fv).symm rfl rfl
    rw [k1, k2]
    refine ih (fun w hw => h w (List.mem_cons_of_mem _ hw)) _ _ ?_ ?_
    · split_ifs
      exacts [fv, ha]
    · split_ifs
      exacts [fv, hb]

/-- C97: on a dyadic grid the first tetrahedron is the exact one -/
theorem C97_tetra_grid (Vs : List (R3.Vector F64)) (h : ∀ v ∈ Vs, GridPoint e v) :
    (createInitialTetra Vs).map exactV = createInitialTetra (Vs.map exactV) := by
  obtain ⟨f1, f2⟩ := maxFloat32_float
  obtain ⟨g1, g2⟩ := neg_fin f1
  rw [f2] at g2
  have ext : computeExtremitiesForAxeX (Vs.map exactV) = (exactV (computeExtremitiesForAxeX Vs).1, exactV (computeExtremitiesForAxeX Vs).2) := by
    have := extremes_exact Vs (fun v hv => (h v hv).1.1) ⟨GoConst.const maxFloat32, GoConst.const maxFloat32, GoConst.const maxFloat32⟩
      ⟨-GoConst.const maxFloat32, -GoConst.const maxFloat32, -GoConst.const maxFloat32⟩ f1 g1
    simp only [exactV, f2, g2] at this
    unfold computeExtremitiesForAxeX
    simp only [goConst_field]
    exact this
  rcases eq_or_ne Vs [] with rfl | hne
  · unfold createInitialTetra
    rw [ext]
    rfl
  · have sent : ∀ p ∈ Vs, p.X.Finite ∧ |p.X.toQ| < maxFloat32 := by
      intro p hp
      obtain ⟨f, n, l, v⟩ := (h p hp).1
      refine ⟨f, ?_⟩
      rw [v, abs_mul, abs_of_pos (a := (2:ℚ) ^ e) (two_zpow_pos e)]
      have k1 : |(n:ℚ)| ≤ 2048 := by exact_mod_cast l
      have k2 : (2:ℚ) ^ e ≤ 2 ^ (110 : ℤ) := zpow_le_zpow_right₀ (by norm_num) he2
      refine (mul_le_mul k1 k2 (two_zpow_pos _).le (by norm_num)).trans_lt ?_
      norm_num [maxFloat32]
    obtain ⟨m0, m1, _⟩ := C97_extremes Vs hne sent
    unfold createInitialTetra
    rw [ext]
    generalize (computeExtremitiesForAxeX Vs) = r at *
    obtain ⟨v0, v1⟩ := r
    dsimp only at m0 m1 ⊢
    have q0 := h _ m0
    have q1 := h _ m1
    have third : getFurthestFromTwoVectors (Vs.map exactV) (exactV v0) (exactV v1) = exactV (getFurthestFromTwoVectors Vs v0 v1) := by
      have := search_exact (fun v => Get2Ddist v0 v1 v) (fun v => Get2Ddist (exactV v0) (exactV v1) v) (fun x y => y < x) (fun x y => y < x)
        (fun x y hx hy => lt_fin hy hx) Vs (fun v hv => two_grid he1 he2 q0 q1 (h v hv)) 0 ⟨0, 0, 0⟩ trivial
      exact congrArg Prod.snd this
    have q2 : GridPoint e (getFurthestFromTwoVectors Vs v0 v1) := by
      by_cases c : ∃ p ∈ Vs, 0 < Get2Ddist v0 v1 p
      · obtain ⟨i, hi, _⟩ := (C97_third Vs v0 v1).1 c
        exact h _ (List.mem_of_getElem? hi)
      · rw [(C97_third Vs v0 v1).2 (fun p hp hpos => c ⟨p, hp, hpos⟩)]
        exact gridPoint_zero e
    rw [third]
    generalize getFurthestFromTwoVectors Vs v0 v1 = v2 at *
    have fourth : getFurthestFromthreeVectors (Vs.map exactV) (exactV v0) (exactV v1) (exactV v2) = exactV (getFurthestFromthreeVectors Vs v0 v1 v2) := by
      have := search_exact (fun v => Get3Ddist v0 v1 v2 v) (fun v => Get3Ddist (exactV v0) (exactV v1) (exactV v2) v) (fun x y => x < y) (fun x y => x < y)
        (fun x y hx hy => lt_fin hx hy) Vs (fun v hv => three_grid he1 he2 q0 q1 q2 (h v hv)) 0 ⟨0, 0, 0⟩ trivial
      exact congrArg Prod.snd this
    rw [fourth]
    rfl

end

/-! ## refutations and concrete cases -/

/-- one tenth, two tenths, three tenths as Go reads them -/
def tenth1 : F64 := flt 3602879701896397 (-55)
def tenth2 : F64 := flt 3602879701896397 (-54)
def tenth3 : F64 := flt 5404319552844595 (-54)

def tetTenths : List (R3.Vector F64) := [⟨-tenth2, -tenth2, tenth1⟩, ⟨0, -tenth3, 0⟩, ⟨tenth3, 0, tenth1⟩, ⟨tenth1, tenth1, 0⟩]

/-- C97 without the grid is false: the exact search takes its four points from the input, the float search ends with the origin, which is not
an input point -/
theorem C97_tetra_refuted : (∀ v ∈ createInitialTetra (tetTenths.map exactV), v ∈ tetTenths.map exactV) ∧
    ∃ v ∈ createInitialTetra tetTenths, exactV v ∉ tetTenths.map exactV := by
  have h1 : ((createInitialTetra (tetTenths.map exactV)).all (fun v => (tetTenths.map exactV).any (fun w => decide (v.X = w.X) && decide (v.Y = w.Y) && decide (v.Z = w.Z)))) = true := by
    decide +kernel
  have h2 : ((createInitialTetra tetTenths).any (fun v => (tetTenths.map exactV).all (fun w => !(decide ((exactV v).X = w.X) && decide ((exactV v).Y = w.Y) && decide ((exactV v).Z = w.Z))))) = true := by decide +kernel
  constructor
  · intro v hv
    obtain ⟨w, hw, e⟩ := List.any_eq_true.mp (List.all_eq_true.mp h1 v hv)
    simp only [Bool.and_eq_true, decide_eq_true_eq] at e
    have : v = w := R3.Vector.ext e.1.1 e.1.2 e.2
    rw [this]; exact hw
  · obtain ⟨v, hv, e⟩ := List.any_eq_true.mp h2
    refine ⟨v, hv, fun hm => ?_⟩
    have := List.all_eq_true.mp e _ hm
    simp at this

example : ∀ v ∈ tetTenths, Bounded3 1 v := by
  have h : ∀ v ∈ tetTenths, (v.X.Finite ∧ |v.X.toQ| ≤ 1) ∧ (v.Y.Finite ∧ |v.Y.toQ| ≤ 1) ∧ (v.Z.Finite ∧ |v.Z.toQ| ≤ 1) := by decide +kernel
  exact h

/-- two vertices at distances 1 and slightly more than 1 from the origin -/
def nearPair : List (R3.Vector F64) := [⟨1, 0, 0⟩, ⟨1, flt 1 (-30), 0⟩]

/-- the computed nearest vertex need not be the nearest one: the second is strictly further away -/
theorem C97_nearest_refuted : getNearestPoint nearPair ⟨0, 0, 0⟩ = ⟨1, flt 1 (-30), 0⟩ ∧ sqDist ⟨1, 0, 0⟩ ⟨0, 0, 0⟩ < sqDist ⟨1, flt 1 (-30), 0⟩ ⟨0, 0, 0⟩ := by
  refine ⟨?_, by decide +kernel⟩
  have one : (R3.Sub (⟨1, 0, 0⟩ : R3.Vector F64) ⟨0, 0, 0⟩).Norm2 = 1 := by decide +kernel
  have two : (R3.Sub (⟨1, flt 1 (-30), 0⟩ : R3.Vector F64) ⟨0, 0, 0⟩).Norm2 = 1 := by decide +kernel
  have d1 : Distance (⟨1, 0, 0⟩ : R3.Vector F64) ⟨0, 0, 0⟩ = F64.sqrt 1 := congrArg F64.sqrt one
  have d2 : Distance (⟨1, flt 1 (-30), 0⟩ : R3.Vector F64) ⟨0, 0, 0⟩ = F64.sqrt 1 := congrArg F64.sqrt two
  have f1 := (C81_distance (p := ⟨1, 0, 0⟩) (q := ⟨0, 0, 0⟩) ⟨trivial, trivial, trivial⟩ ⟨trivial, trivial, trivial⟩ (by decide +kernel) (by decide +kernel)).1
  obtain ⟨i, a, b, c⟩ := C97_nearest nearPair ⟨0, 0, 0⟩ ⟨_, List.mem_cons_self, f1⟩
  have hr := List.mem_of_getElem? a
  have e : Distance (getNearestPoint nearPair ⟨0, 0, 0⟩) ⟨0, 0, 0⟩ = F64.sqrt 1 := by
    generalize getNearestPoint nearPair ⟨0, 0, 0⟩ = r at hr
    simp only [nearPair, List.mem_cons, List.not_mem_nil, or_false] at hr
    rcases hr with rfl | rfl
    exacts [d1, d2]
  have hi := (c 1 ⟨1, flt 1 (-30), 0⟩ rfl (by rw [d2, ← d1]; exact f1.ne_nan)).2 (by rw [d2, e, ← d1]; exact (le_fin f1 f1).mpr le_rfl)
  rcases Nat.lt_or_ge i 2 with hlt | hge
  · have : i = 1 := by omega
    subst this
    exact (Option.some.inj a).symm
  · rw [List.getElem?_eq_none (by simpa [nearPair] using hge)] at a
    cases a

/-- the mean of two equal and two opposite huge numbers overflows, so the bound in C97 is needed -/
theorem C97_centroid_overflow_refuted : ∃ x : F64, x.Finite ∧ ((x + x + -x + -x) / 4 = F64.inf false) :=
  ⟨flt 1 1023, by decide +kernel, by decide +kernel⟩

example : ∃ vs : List (R3.Vector F64), vs.length = 2 ∧ ∀ v ∈ vs, FinV v ∧ (sqDist v ⟨0, 0, 0⟩ = 0 ∨ 1 / 2 ^ 190 ≤ sqDist v ⟨0, 0, 0⟩ ∧ sqDist v ⟨0, 0, 0⟩ ≤ 2 ^ 190) := by
  refine ⟨nearPair, rfl, ?_⟩
  have h : ∀ v ∈ nearPair, (v.X.Finite ∧ v.Y.Finite ∧ v.Z.Finite) ∧ (sqDist v ⟨0, 0, 0⟩ = 0 ∨ 1 / 2 ^ 190 ≤ sqDist v ⟨0, 0, 0⟩ ∧ sqDist v ⟨0, 0, 0⟩ ≤ 2 ^ 190) := by
    decide +kernel
  exact h

/-- a tetrahedron of the grid of halves whose first tetrahedron is found exactly -/
example : ∃ Vs : List (R3.Vector F64), Vs.length = 4 ∧ (∀ v ∈ Vs, GridPoint (-1) v) ∧ (createInitialTetra Vs).map exactV = createInitialTetra (Vs.map exactV) ∧
    ∃ v ∈ createInitialTetra Vs, v.Z.toQ = -(1 / 2) := by
  have h : ∀ v ∈ ([⟨flt 1 (-1), 1, 1⟩, ⟨2, 1, 1⟩, ⟨1, 2, 1⟩, ⟨1, 1, -flt 1 (-1)⟩] : List (R3.Vector F64)), GridPoint (-1) v := by
    have k : ∀ x ∈ ([flt 1 (-1), 1, 2, -flt 1 (-1)] : List F64), x.Finite ∧ ∃ n : ℤ, |n| ≤ 2048 ∧ x.toQ = n * 2 ^ (-1 : ℤ) := by
      intro x hx
      simp only [List.mem_cons, List.not_mem_nil, or_false] at hx
      rcases hx with rfl | rfl | rfl | rfl
      · exact ⟨by decide +kernel, 1, by norm_num, by decide +kernel⟩
      · exact ⟨by decide +kernel, 2, by norm_num, by decide +kernel⟩
      · exact ⟨by decide +kernel, 4, by norm_num, by decide +kernel⟩
      · exact ⟨by decide +kernel, -1, by norm_num, by decide +kernel⟩
    intro v hv
    simp only [List.mem_cons, List.not_mem_nil, or_false] at hv
    rcases hv with rfl | rfl | rfl | rfl <;> exact ⟨k _ (by simp), k _ (by simp), k _ (by simp)⟩
  refine ⟨_, rfl, h, C97_tetra_grid (by norm_num) (by norm_num) _ h, ?_⟩
  have : (createInitialTetra ([⟨flt 1 (-1), 1, 1⟩, ⟨2, 1, 1⟩, ⟨1, 2, 1⟩, ⟨1, 1, -flt 1 (-1)⟩] : List (R3.Vector F64))).any (fun v => decide (v.Z.toQ = -(1/2))) = true := by
    decide +kernel
  obtain ⟨v, hv, e⟩ := List.any_eq_true.mp this
  exact ⟨v, hv, of_decide_eq_true e⟩

/-- the hypotheses of `C97_third_true` and `C97_fourth_true` -/
example : ∃ (Vs : List (R3.Vector F64)) (a b c : R3.Vector F64), (∀ p ∈ a :: b :: c :: Vs, Bounded3 1 p) ∧
    (∃ p ∈ Vs, 2388 / 2 ^ 53 * 1 ^ 4 < Get2Ddist (exactV a) (exactV b) (exactV p)) ∧
    (∃ p ∈ Vs, Get3Ddist (exactV a) (exactV b) (exactV c) (exactV p) < -(426 / 2 ^ 53 * 1 ^ 3)) := by
  refine ⟨[⟨0, 1, 0⟩, ⟨0, 0, -1⟩], ⟨0, 0, 0⟩, ⟨1, 0, 0⟩, ⟨0, 1, 0⟩, ?_, ⟨⟨0, 1, 0⟩, by simp, by decide +kernel⟩, ⟨⟨0, 0, -1⟩, by simp, by decide +kernel⟩⟩
  have h : ∀ v ∈ ([⟨0, 0, 0⟩, ⟨1, 0, 0⟩, ⟨0, 1, 0⟩, ⟨0, 1, 0⟩, ⟨0, 0, -1⟩] : List (R3.Vector F64)),
      (v.X.Finite ∧ |v.X.toQ| ≤ 1) ∧ (v.Y.Finite ∧ |v.Y.toQ| ≤ 1) ∧ (v.Z.Finite ∧ |v.Z.toQ| ≤ 1) := by decide +kernel
  exact h

/-- the centroid of a unit tetrahedron lies in its box -/
example : Bounded3 (2 ^ 1021) (⟨1, 0, 0⟩ : R3.Vector F64) :=
  ⟨⟨trivial, by rw [show (1:F64).toQ = 1 from by decide +kernel, abs_one]; exact one_le_pow₀ (by norm_num)⟩,
    ⟨trivial, by rw [show (0:F64).toQ = 0 from rfl, abs_zero]; positivity⟩, ⟨trivial, by rw [show (0:F64).toQ = 0 from rfl, abs_zero]; positivity⟩⟩

end Verif.Props
