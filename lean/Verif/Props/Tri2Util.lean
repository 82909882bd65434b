import Verif.Model.Tri2Util
import Verif.Model.Delaunator
import Verif.Props.Predicates
import Mathlib.Data.List.Rotate
import Mathlib.Algebra.BigOperators.Group.List.Basic
import Mathlib.Analysis.SpecialFunctions.Trigonometric.Basic
/-!
# C14, C15: pseudo angle and polygon utilities (exact arithmetic)
-/
set_option linter.unusedSectionVars false

namespace Verif.Props
open Verif Verif.R3 Verif.Tri2

section C14
variable {K : Type} [Field K] [LinearOrder K] [IsStrictOrderedRing K]

theorem eps_pos : (0 : K) < eps := by
  simp only [eps, goConst_field]; push_cast; positivity

theorem eps_lt_one : (eps : K) < 1 := by
  simp only [eps, goConst_field]; push_cast; rw [div_lt_one (by positivity)]; norm_num

/-- C14: range -/
theorem C14_range (dx dy : K) : 0 ≤ pseudoAngle dx dy ∧ pseudoAngle dx dy ≤ 1 - eps ∧
    pseudoAngle dx dy < 1 := by
  have h1 := eps_lt_one (K := K)
  have h0 := eps_pos (K := K)
  have : pseudoAngle dx dy ≤ 1 - eps := by
    simp only [pseudoAngle, goMax_field, goMin_field]
    exact max_le (by linarith) (min_le_left _ _)
  exact ⟨le_max_left _ _, this, by linarith⟩

/-- C14: only the direction matters -/
theorem C14_direction (s dx dy : K) (hs : 0 < s) : pseudoAngle (s * dx) (s * dy) = pseudoAngle dx dy := by
  have hq : (s * dx) / (|s * dx| + |s * dy|) = dx / (|dx| + |dy|) := by
    rw [abs_mul, abs_mul, abs_of_pos hs, ← mul_add, mul_div_mul_left _ _ hs.ne']
  have hi : (0 < s * dy) ↔ 0 < dy := by
    constructor
    · intro h; exact (pos_iff_pos_of_mul_pos h).mp hs
    · intro h; exact mul_pos hs h
  simp only [pseudoAngle, goAbs_field, hq, hi]

/-- C14: with the clamp removed, i.e. the value before lines 18-19 clamp it, explicit -/
theorem C14_value (dx dy : K) : pseudoAngle dx dy = max 0 (min (1 - 1 / 2^52)
    (if 0 < dy then (3 - dx / (|dx| + |dy|)) / 4 else (1 + dx / (|dx| + |dy|)) / 4)) := by
  simp only [pseudoAngle, goMax_field, goMin_field, goAbs_field, eps, goConst_field]
  push_cast; rfl

end C14

/-- the auxiliary monotone function -/
theorem diamond_anti {c1 s1 c2 s2 : ℝ} (h1 : 0 < |c1| + s1)
    (h2 : 0 < |c2| + s2) (hc : c2 < c1) (hcross : 0 ≤ c1 * s2 - s1 * c2)
    (hstrict : c1 * s2 - s1 * c2 = 0 → c2 < 0 ∧ 0 < c1) :
    c2 / (|c2| + s2) < c1 / (|c1| + s1) := by
  rw [div_lt_div_iff₀ h2 h1]
  rcases le_or_gt 0 c2 with h | h
  · have h' : 0 ≤ c1 := by linarith
    rw [abs_of_nonneg h, abs_of_nonneg h']
    rcases hcross.lt_or_eq with h3 | h3
    · nlinarith
    · exact absurd (hstrict h3.symm).1 (not_lt.mpr h)
  · rcases le_or_gt 0 c1 with h' | h'
    · rw [abs_of_neg h, abs_of_nonneg h']
      rcases hcross.lt_or_eq with h3 | h3
      · nlinarith [mul_nonneg h' (neg_nonneg.mpr h.le)]
      · have := (hstrict h3.symm).2
        nlinarith [mul_pos this (neg_pos.mpr h)]
    · rw [abs_of_neg h, abs_of_neg h']
      rcases hcross.lt_or_eq with h3 | h3
      · nlinarith
      · exact absurd (hstrict h3.symm).2 (not_lt.mpr h'.le)

/-- C14: measured from the negative x axis the pseudo angle is monotone in the polar angle, and strictly so
until the clamp value `1 - eps` is reached. -/
theorem C14_monotone (r₁ r₂ θ₁ θ₂ : ℝ) (hr1 : 0 < r₁) (hr2 : 0 < r₂) (h0 : 0 ≤ θ₁) (h12 : θ₁ < θ₂)
    (h2 : θ₂ < 2 * Real.pi) :
    let f := fun r θ : ℝ => pseudoAngle (r * -Real.cos θ) (r * -Real.sin θ)
    f r₁ θ₁ ≤ f r₂ θ₂ ∧ (f r₁ θ₁ < 1 - eps → f r₁ θ₁ < f r₂ θ₂) := by
  intro f
  have hf : ∀ r θ, 0 < r → f r θ = pseudoAngle (-Real.cos θ) (-Real.sin θ) := by
    intro r θ hr; exact C14_direction r _ _ hr
  rw [hf _ _ hr1, hf _ _ hr2]
  -- the unclamped values
  set g : ℝ → ℝ := fun θ => if 0 < -Real.sin θ then (3 - -Real.cos θ / (|-Real.cos θ| + |-Real.sin θ|)) / 4
    else (1 + -Real.cos θ / (|-Real.cos θ| + |-Real.sin θ|)) / 4 with hg
  have hpa : ∀ θ, pseudoAngle (-Real.cos θ) (-Real.sin θ) = max 0 (min (1 - eps) (g θ)) := by
    intro θ; rfl
  have hden : ∀ θ, 0 < |Real.cos θ| + |Real.sin θ| := by
    intro θ
    have := Real.sin_sq_add_cos_sq θ
    rcases eq_or_ne (Real.cos θ) 0 with hc | hc
    · have : Real.sin θ ≠ 0 := by intro hs; rw [hs, hc] at this; norm_num at this
      positivity
    · positivity
  have hgnn : ∀ θ, 0 ≤ g θ := by
    intro θ
    have hd := hden θ
    have hq : |-Real.cos θ / (|Real.cos θ| + |Real.sin θ|)| ≤ 1 := by
      rw [abs_div, abs_neg, abs_of_pos hd, div_le_one hd]
      linarith [abs_nonneg (Real.sin θ)]
    rw [abs_le] at hq
    simp only [hg, abs_neg]
    split_ifs <;> linarith [hq.1, hq.2]
  -- angles in the closed lower half [0,π] and the open upper one (π,2π)
  have hlow : ∀ θ, 0 ≤ θ → θ ≤ Real.pi → g θ = (1 - Real.cos θ / (|Real.cos θ| + Real.sin θ)) / 4 := by
    intro θ ha hb
    have hs := Real.sin_nonneg_of_nonneg_of_le_pi ha hb
    simp only [hg, abs_neg]
    rw [if_neg (by linarith), abs_of_nonneg hs]; ring
  have hup : ∀ θ, Real.pi < θ → θ < 2 * Real.pi →
      g θ = (3 - Real.cos (θ - Real.pi) / (|Real.cos (θ - Real.pi)| + Real.sin (θ - Real.pi))) / 4 := by
    intro θ ha hb
    have hs : 0 < Real.sin (θ - Real.pi) := Real.sin_pos_of_pos_of_lt_pi (by linarith) (by linarith)
    rw [Real.sin_sub_pi] at hs
    simp only [hg, abs_neg]
    rw [if_pos (by linarith), Real.cos_sub_pi, Real.sin_sub_pi, abs_neg]
    rw [abs_of_neg (show Real.sin θ < 0 by linarith)]
  have key : ∀ a b, 0 ≤ a → a < b → b ≤ Real.pi →
      Real.cos b / (|Real.cos b| + Real.sin b) < Real.cos a / (|Real.cos a| + Real.sin a) := by
    intro a b ha hab hb
    have sa := Real.sin_nonneg_of_nonneg_of_le_pi ha (by linarith)
    have sb := Real.sin_nonneg_of_nonneg_of_le_pi (by linarith : 0 ≤ b) hb
    have da := hden a
    have db := hden b
    rw [abs_of_nonneg sa] at da
    rw [abs_of_nonneg sb] at db
    have hcr : Real.cos a * Real.sin b - Real.sin a * Real.cos b = Real.sin (b - a) := by
      rw [Real.sin_sub]; ring
    refine diamond_anti da db (Real.cos_lt_cos_of_nonneg_of_le_pi ha hb hab) ?_ ?_
    · rw [hcr]; exact Real.sin_nonneg_of_nonneg_of_le_pi (by linarith) (by linarith)
    · rw [hcr]; intro hz
      have hba : b - a = Real.pi := by
        by_contra hne
        have : b - a < Real.pi := lt_of_le_of_ne (by linarith) hne
        have := Real.sin_pos_of_pos_of_lt_pi (by linarith : 0 < b - a) this
        linarith
      have : a = 0 := by linarith
      have : b = Real.pi := by linarith
      subst a b
      simp
  have hq1 : ∀ θ, 0 ≤ θ → θ ≤ Real.pi → |Real.cos θ / (|Real.cos θ| + Real.sin θ)| ≤ 1 := by
    intro θ ha hb
    have hs := Real.sin_nonneg_of_nonneg_of_le_pi ha hb
    have hd := hden θ
    rw [abs_of_nonneg hs] at hd
    rw [abs_div, abs_of_pos hd, div_le_one hd]; linarith
  have hglt : g θ₁ < g θ₂ := by
    rcases le_or_gt θ₂ Real.pi with hb | hb
    · rw [hlow θ₁ h0 (by linarith), hlow θ₂ (by linarith) hb]
      have := key θ₁ θ₂ h0 h12 hb
      linarith
    · rcases le_or_gt θ₁ Real.pi with ha | ha
      · rw [hlow θ₁ h0 ha, hup θ₂ hb h2]
        have q1 := abs_le.mp (hq1 θ₁ h0 ha)
        have := key 0 (θ₂ - Real.pi) le_rfl (by linarith) (by linarith)
        simp only [Real.cos_zero, Real.sin_zero, abs_one, add_zero, div_one] at this
        linarith [q1.1]
      · rw [hup θ₁ ha (by linarith), hup θ₂ hb h2]
        have := key (θ₁ - Real.pi) (θ₂ - Real.pi) (by linarith) (by linarith) (by linarith)
        linarith
  rw [hpa, hpa]
  refine ⟨max_le_max le_rfl (min_le_min le_rfl hglt.le), fun hlt => ?_⟩
  have h1 := hgnn θ₁
  have he := eps_lt_one (K := ℝ)
  rw [max_eq_right (le_min (by linarith) h1)] at hlt ⊢
  have : g θ₁ < 1 - eps := by
    by_contra hcon
    rw [min_eq_left (not_lt.mp hcon)] at hlt
    exact lt_irrefl _ hlt
  rw [min_eq_right this.le]
  exact lt_of_lt_of_le (lt_min this hglt) (le_max_right _ _)

/-- C14: strictness fails inside the clamp: two different directions with the same pseudo angle -/
theorem C14_strict_refuted : ∃ dx dy dx' dy' : ℚ, 0 < dx * dy' - dy * dx' ∧ 0 < dx * dx' + dy * dy' ∧ 0 < dy ∧ 0 < dy' ∧
    pseudoAngle dx dy = pseudoAngle dx' dy' := by
  refine ⟨-2^60, 2, -2^60, 1, by norm_num, by norm_num, by norm_num, by norm_num, ?_⟩
  rw [C14_value, C14_value]
  norm_num [abs_of_pos, abs_of_neg]

section C14hash
variable {K : Type} [Field K] [LinearOrder K] [IsStrictOrderedRing K] [FloorRing K]

/-- C14: the hash bucket of every point is a valid index of a non-empty table -/
theorem C14_hashKey (center p : R3.Vector K) (len : Nat) (hlen : 0 < len) :
    0 ≤ hashKey len center p ∧ hashKey len center p < len := by
  obtain ⟨h0, _, h1⟩ := C14_range (R3.Sub p center).X (R3.Sub p center).Y
  have hl : (0 : K) < (len : K) := by exact_mod_cast hlen
  have hnn : 0 ≤ pseudoAngle (R3.Sub p center).X (R3.Sub p center).Y * (len : K) := mul_nonneg h0 hl.le
  simp only [hashKey, GoTrunc.trunc, goOfInt_field, Int.cast_natCast, if_pos hnn]
  refine ⟨Int.floor_nonneg.mpr hnn, Int.floor_lt.mpr ?_⟩
  push_cast
  calc _ < 1 * (len : K) := mul_lt_mul_of_pos_right h1 hl
    _ = len := one_mul _
end C14hash

section C15
variable {K : Type} [Field K] [LinearOrder K] [IsStrictOrderedRing K]

/-- the directed edges of the closed polygon -/
def edges {α : Type} (l : List α) : List (α × α) := l.zip (l.rotate 1)

/-- signed shoelace area -/
def shoelace (l : List (R3.Vector K)) : K :=
  ((edges l).map fun e => e.1.X * e.2.Y - e.2.X * e.1.Y).sum / 2

theorem edges_eq_finRange {α : Type} (l : List α) :
    edges l = (List.finRange l.length).map fun i =>
      (l[i], l[(i.1 + 1) % l.length]'(Nat.mod_lt _ (Nat.zero_lt_of_lt i.2))) := by
  apply List.ext_getElem
  · simp [edges]
  · intro n h1 h2
    simp [edges, List.getElem_rotate]

theorem foldl_add_eq_sum {α : Type} (f : α → K) (l : List α) (a : K) :
    l.foldl (fun s x => s + f x) a = a + (l.map f).sum := by
  induction l generalizing a with
  | nil => simp
  | cons x l ih => simp [ih, add_assoc]

theorem sum_map_rotate {α : Type} (f : α → K) (l : List α) (n : Nat) :
    ((l.rotate n).map f).sum = (l.map f).sum :=
  ((List.rotate_perm l n).map f).sum_eq

theorem edges_fst {α : Type} (l : List α) : (edges l).map Prod.fst = l := by
  simp [edges, List.map_fst_zip]

theorem edges_snd {α : Type} (l : List α) : (edges l).map Prod.snd = l.rotate 1 := by
  simp [edges, List.map_snd_zip]

theorem edges_rotate {α : Type} (l : List α) (n : Nat) : edges (l.rotate n) = (edges l).rotate n := by
  simp only [edges, List.zip]
  rw [List.zipWith_rotate_distrib _ _ _ _ (by simp), List.rotate_rotate, List.rotate_rotate, add_comm]

theorem edges_map {α β : Type} (f : α → β) (l : List α) :
    edges (l.map f) = (edges l).map (Prod.map f f) := by
  simp [edges, ← List.map_rotate, List.zip_map]

/-- C15: `polygonArea` is the shoelace area -/
theorem C15_area (l : List (R3.Vector K)) : polygonArea l = shoelace l := by
  have h1 : polygonArea l = ((edges l).map fun e => (e.1.X - e.2.X) * (e.1.Y + e.2.Y)).sum / 2 := by
    rw [edges_eq_finRange, List.map_map]
    simp only [polygonArea]
    rw [foldl_add_eq_sum]
    simp [Function.comp_def]
  have h2 : ∀ g : R3.Vector K → K, ((edges l).map fun e => g e.1).sum = ((edges l).map fun e => g e.2).sum := by
    intro g
    have a : ((edges l).map fun e => g e.1) = l.map g := by
      conv_rhs => rw [← edges_fst l, List.map_map]
      rfl
    have b : ((edges l).map fun e => g e.2) = (l.rotate 1).map g := by
      rw [← edges_snd l, List.map_map]; rfl
    rw [a, b, sum_map_rotate]
  rw [h1, shoelace]
  congr 1
  have h3 := h2 fun p => p.X * p.Y
  have : ∀ L : List (R3.Vector K × R3.Vector K),
      (L.map fun e => (e.1.X - e.2.X) * (e.1.Y + e.2.Y)).sum =
      (L.map fun e => e.1.X * e.2.Y - e.2.X * e.1.Y).sum + (L.map fun e => e.1.X * e.1.Y).sum -
        (L.map fun e => e.2.X * e.2.Y).sum := by
    intro L
    induction L with
    | nil => simp
    | cons x L ih => simp only [List.map_cons, List.sum_cons, ih]; ring
  rw [this, h3]; ring

theorem edges_reverse {α : Type} (l : List α) :
    (edges l.reverse).Perm ((edges l).map Prod.swap) := by
  by_cases hl : l = []
  · subst hl; simp [edges]
  have hlen : 0 < l.length := List.length_pos_iff.mpr hl
  -- the reversed list, rotated by one, is the reverse of the list rotated by length - 1
  have h1 : l.reverse.rotate 1 = (l.rotate (l.length - 1)).reverse := by
    rw [List.rotate_reverse]
    rcases Nat.lt_or_ge 1 l.length with h | h
    · rw [Nat.mod_eq_of_lt h]
    · have : l.length = 1 := by omega
      rw [this, Nat.mod_self, Nat.sub_zero, Nat.sub_self, List.rotate_zero]
      conv_lhs => rw [← this, List.rotate_length]
  have h2 : edges l.reverse = (l.zip (l.rotate (l.length - 1))).reverse := by
    simp only [edges, h1, List.zip]; rw [List.reverse_zipWith (by simp)]
  have h3 : ((l.zip (l.rotate (l.length - 1))).rotate 1) = (l.rotate 1).zip l := by
    simp only [List.zip]
    rw [List.zipWith_rotate_distrib _ _ _ _ (by simp), List.rotate_rotate, Nat.sub_add_cancel hlen,
      List.rotate_length]
  rw [h2]
  refine (List.reverse_perm _).trans ((List.rotate_perm _ 1).symm.trans ?_)
  rw [h3, edges, List.zip_swap]

/-- C15: invariant under rotation, negated by reversal, invariant under translation -/
theorem C15_area_invariance (l : List (R3.Vector K)) (n : Nat) (t : R3.Vector K) :
    polygonArea (l.rotate n) = polygonArea l ∧ polygonArea l.reverse = - polygonArea l ∧
    polygonArea (l.map fun p => R3.Add p t) = polygonArea l := by
  refine ⟨?_, ?_, ?_⟩
  · rw [C15_area, C15_area, shoelace, edges_rotate, sum_map_rotate, shoelace]
  · rw [C15_area, C15_area, shoelace, ((edges_reverse l).map _).sum_eq, List.map_map, shoelace, ← neg_div]
    congr 1
    induction edges l with
    | nil => simp
    | cons x L ih => simp only [List.map_cons, List.sum_cons, ih, Function.comp]; simp; ring
  · rw [C15_area, C15_area, shoelace, shoelace, edges_map, List.map_map]
    have h3 : ∀ g : R3.Vector K → K, ((edges l).map fun e => g e.1).sum = ((edges l).map fun e => g e.2).sum := by
      intro g
      have a : ((edges l).map fun e => g e.1) = l.map g := by
        conv_rhs => rw [← edges_fst l, List.map_map]
        rfl
      have b : ((edges l).map fun e => g e.2) = (l.rotate 1).map g := by
        rw [← edges_snd l, List.map_map]; rfl
      rw [a, b, sum_map_rotate]
    congr 1
    have := h3 fun p => t.Y * p.X - t.X * p.Y
    have h4 : ∀ L : List (R3.Vector K × R3.Vector K),
      (L.map ((fun e : R3.Vector K × R3.Vector K => e.1.X * e.2.Y - e.2.X * e.1.Y) ∘
        Prod.map (fun p => R3.Add p t) (fun p => R3.Add p t))).sum =
      (L.map fun e => e.1.X * e.2.Y - e.2.X * e.1.Y).sum + (L.map fun e => t.Y * e.1.X - t.X * e.1.Y).sum -
        (L.map fun e => t.Y * e.2.X - t.X * e.2.Y).sum := by
      intro L
      induction L with
      | nil => simp
      | cons x L ih => rw [List.map_cons, List.sum_cons, ih]; simp only [List.map_cons, List.sum_cons, Function.comp, Prod.map, R3.Add]; ring
    rw [h4, this]; ring

/-- C15: the perimeter is the sum of the edge lengths -/
theorem C15_perimeter (l : List (R3.Vector ℝ)) :
    polygonPerimeter l = ((edges l).map fun e => euclid e.1 e.2).sum := by
  have key : ∀ (l : List (R3.Vector ℝ)) (q : R3.Vector ℝ) (s : ℝ),
      (l.foldl (fun (st : ℝ × R3.Vector ℝ) p => (st.1 + Distance p st.2, p)) (s, q)).1 =
        s + ((l.zip (q :: l)).map fun e => euclid e.1 e.2).sum := by
    intro l
    induction l with
    | nil => intro q s; simp
    | cons x l ih =>
      intro q s
      rw [List.foldl_cons, ih, Distance_eq_euclid]
      simp only [List.zip_cons_cons, List.map_cons, List.sum_cons]
      ring
  have hsym : ∀ v w, euclid v w = euclid w v := by
    intro v w; unfold euclid; congr 1; ring
  rcases List.eq_nil_or_concat l with rfl | ⟨L, b, rfl⟩
  · simp [polygonPerimeter, edges]
  · -- the fold starts at the last vertex: the pairs are those of the list rotated by `length - 1`
    simp only [polygonPerimeter, List.concat_eq_append, List.getLast?_append, List.getLast?_singleton, Option.some_or]
    rw [key, zero_add]
    have h1 : (L ++ [b]).zip (b :: (L ++ [b])) = (L ++ [b]).zip (b :: L) := by
      have : ∀ (A B : List (R3.Vector ℝ)) (x : R3.Vector ℝ), A.length = B.length → A.zip (B ++ [x]) = A.zip B := by
        intro A
        induction A with
        | nil => simp
        | cons a A ih =>
          intro B x h
          cases B with
          | nil => simp at h
          | cons b B => simp only [List.cons_append, List.zip_cons_cons]; rw [ih B x (by simpa using h)]
      exact this _ (b :: L) b (by simp)
    have h2 : edges (b :: L) = (b :: L).zip (L ++ [b]) := by simp [edges]
    have h3 : edges (L ++ [b]) = (edges (b :: L)).rotate 1 := by
      rw [← edges_rotate]; simp
    rw [h1, h3, sum_map_rotate, h2]
    have h4 : (L ++ [b]).zip (b :: L) = ((b :: L).zip (L ++ [b])).map Prod.swap := by
      rw [List.zip_swap]
    rw [h4, List.map_map]
    congr 1
    apply List.map_congr_left
    intro e _
    exact hsym _ _

theorem C15_perimeter_invariance (l : List (R3.Vector ℝ)) (n : Nat) :
    polygonPerimeter (l.rotate n) = polygonPerimeter l ∧ polygonPerimeter l.reverse = polygonPerimeter l := by
  refine ⟨?_, ?_⟩
  · rw [C15_perimeter, C15_perimeter, edges_rotate, sum_map_rotate]
  · rw [C15_perimeter, C15_perimeter, ((edges_reverse l).map _).sum_eq, List.map_map]
    congr 1
    apply List.map_congr_left
    intro e _
    simp only [Function.comp, Prod.fst_swap, Prod.snd_swap]
    unfold euclid; congr 1; ring

example : polygonArea [(⟨0,0,0⟩ : R3.Vector ℚ), ⟨2,0,0⟩, ⟨2,3,0⟩, ⟨0,3,0⟩] = 6 := by
  rw [C15_area]; norm_num [shoelace, edges]

end C15
end Verif.Props
