import Verif.Props.Extremes
import Verif.Props.Axes
import Verif.Proofs.HullLength
import Verif.Props.DyadicCalls
import Verif.Props.DelaunatorGrid
import Mathlib.MeasureTheory.Integral.IntervalIntegral.Periodic
import Mathlib.Analysis.SpecialFunctions.Integrals.Basic
/-!
# C116: the hull is the shortest closed polyline around the points
-/
set_option linter.unusedSectionVars false

namespace Verif.Props
open Verif Verif.Tri2 Verif.Proofs Verif.R3 Verif.Spec

section span
variable {K : Type} [Field K] [LinearOrder K] [IsStrictOrderedRing K]

/-- the total movement in the direction of `X` along the polygon of `ConvexHull` -/
theorem convexHull_span {srt : List (R3.Vector K) → List (R3.Vector K)} (hsrt : SortsHull srt) {Vs : List (R3.Vector K)} (hsep : Separated Vs) {lo hi : K}
    (hle : lo ≤ hi) (h : ∀ p ∈ Vs, lo ≤ p.X ∧ p.X ≤ hi) : ((edges (ConvexHull srt Vs)).map fun e => |e.1.X - e.2.X|).sum ≤ 2 * (hi - lo) := by
  obtain ⟨_, hmem, h1, h2⟩ := C16_encloses srt hsrt Vs hsep
  by_cases he : ∃ p ∈ Vs, ∃ q ∈ Vs, p ≠ q
  · obtain ⟨m, M, l, u, e, _, _, up, down⟩ := h1 he
    have hm : ∀ p ∈ m :: l ++ M :: u, p ∈ Vs := fun p hp => hmem p (by rw [e]; exact hp)
    have hup := chain_up hi (l ++ [M]) m up (by
      intro p hp
      refine (h p (hm p ?_)).2
      simp only [List.cons_append, List.mem_cons, List.mem_append, List.not_mem_nil, or_false] at hp ⊢
      tauto)
    have hdown := chain_down (-lo) (u ++ [m]) M down (by
      intro p hp
      rw [neg_neg]
      refine (h p (hm p ?_)).1
      simp only [List.cons_append, List.mem_cons, List.mem_append, List.not_mem_nil, or_false] at hp ⊢
      tauto)
    rw [e, edges_closed, List.map_append, List.sum_append]
    have hm1 := (h m (hm m (by simp))).1
    have hm2 := (h M (hm M (by simp))).2
    rw [List.cons_append, List.cons_append]
    linarith
  · push Not at he
    rw [h2 he]
    simp [edges]
    linarith

/-- the total movement in any direction along the boundary polygon is at most twice the width of the points -/
theorem boundary_span {Vs P : List (R3.Vector K)} (B : BoundaryPolygon Vs P) (hn : NotCollinear Vs) (hsep : Separated Vs) {a b : K} (hab : a ^ 2 + b ^ 2 = 1)
    {lo hi : K} (hle : lo ≤ hi) (h : ∀ p ∈ Vs, lo ≤ toward a b p ∧ toward a b p ≤ hi) :
    ((edges P).map fun e => |toward a b e.1 - toward a b e.2|).sum ≤ 2 * (hi - lo) := by
  have h1 : a ^ 2 + (-b) ^ 2 = 1 := by rw [neg_sq]; exact hab
  have h0 : a ≠ 0 ∨ -b ≠ 0 := by
    by_contra hc; push Not at hc; rw [hc.1, hc.2] at h1; norm_num at h1
  have A := turn_alike h0 (0 : K) 0
  have hpos : 0 < a ^ 2 + (-b) ^ 2 := by rw [h1]; exact one_pos
  have hs' := separated_turn (t1 := 0) (t2 := 0) h1.ge hsep
  have hn' : NotCollinear (Vs.map (turn a (-b) 0 0)) := notCollinear_image A hpos.ne' (fun p => by simp [List.mem_map]) hn
  have B' := boundary_map A hpos B
  have hX : ∀ p : R3.Vector K, (turn a (-b) 0 0 p).X = toward a b p := fun p => by simp only [turn, toward]; ring
  have := convexHull_span (Vs := Vs.map (turn a (-b) 0 0)) sortsHull_exists hs' hle (by
    intro p hp
    obtain ⟨q, hq, rfl⟩ := List.mem_map.mp hp
    rw [hX]
    exact h q hq)
  rw [← rotated_sum (C73_unique hn' (separated_distinct hs') B' (C73_convexHull _ sortsHull_exists _ hs' hn')) (fun e => |e.1.X - e.2.X|), edges_map, List.map_map] at this
  refine le_trans (le_of_eq ?_) this
  congr 1
  refine List.map_congr_left fun e _ => ?_
  simp only [Function.comp, Prod.map, hX]

/-- the movement along a path is at least the distance of its ends -/
theorem path_ge {α : Type} (f : α → K) (z : α) : ∀ (l : List α) (a : α), |f a - f z| ≤ ((consec (a :: l ++ [z])).map fun e => |f e.1 - f e.2|).sum := by
  intro l
  induction l with
  | nil => intro a; simp [consec]
  | cons b l ih =>
    intro a
    rw [List.cons_append, List.cons_append, consec_cons, List.map_cons, List.sum_cons]
    have := ih b
    rw [List.cons_append] at this
    have h := abs_sub_le (f a) (f b) (f z)
    linarith

/-- the movement along a closed path is at least twice the distance of any two of its points -/
theorem closed_ge {α : Type} (f : α → K) {l : List α} {x y : α} (hx : x ∈ l) (hy : y ∈ l) :
    2 * (f x - f y) ≤ ((edges l).map fun e => |f e.1 - f e.2|).sum := by
  classical
  by_cases hxy : x = y
  · subst hxy
    rw [sub_self, mul_zero]
    refine List.sum_nonneg fun v hv => ?_
    obtain ⟨e, _, rfl⟩ := List.mem_map.mp hv
    exact abs_nonneg _
  obtain ⟨p, q, rfl⟩ := List.append_of_mem hx
  have hrot : ((edges (p ++ x :: q)).map fun e => |f e.1 - f e.2|).sum = ((edges (x :: (q ++ p))).map fun e => |f e.1 - f e.2|).sum := by
    have : x :: (q ++ p) = (p ++ x :: q).rotate p.length := by rw [List.rotate_append_length_eq]; simp
    rw [this, edges_rotate, sum_map_rotate]
  rw [hrot]
  have hy' : y ∈ q ++ p := by
    simp only [List.mem_append, List.mem_cons] at hy ⊢
    rcases hy with h | rfl | h
    · exact Or.inr h
    · exact absurd rfl hxy
    · exact Or.inl h
  obtain ⟨s, t, e⟩ := List.append_of_mem hy'
  rw [e, ← List.cons_append, edges_closed, List.map_append, List.sum_append]
  have h1 := path_ge f y s x
  have h2 := path_ge f x t y
  have := le_abs_self (f x - f y)
  rw [abs_sub_comm] at h2
  linarith

/-- in every direction some point of the list is as far as any point of its convex hull -/
theorem hull_far {w : List (R3.Vector K)} (hw : w ≠ []) (a b : K) : ∃ x ∈ w, ∀ p, InHull w p → toward a b p ≤ toward a b x := by
  classical
  obtain ⟨m, hm⟩ := List.exists_mem_of_ne_nil w hw
  obtain ⟨x, hx, hmax⟩ := Finset.exists_max_image w.toFinset (toward a b) ⟨m, by simpa using hm⟩
  simp only [List.mem_toFinset] at hx hmax
  refine ⟨x, hx, fun p hp => ?_⟩
  have e : ∀ q : R3.Vector K, orient x ⟨x.X - b, x.Y + a, 0⟩ q = toward a b x - toward a b q := by
    intro q; unfold orient toward; ring
  have := hp x ⟨x.X - b, x.Y + a, 0⟩ fun q hq => by rw [e]; linarith [hmax q hq]
  rw [e] at this
  linarith

theorem hull_nil {p : R3.Vector K} (h : InHull [] p) : False := by
  have h1 := h ⟨p.X, p.Y, 0⟩ ⟨p.X + 1, p.Y, 0⟩ (by simp)
  have h2 := h ⟨p.X, p.Y + 1, 0⟩ ⟨p.X + 1, p.Y + 1, 0⟩ (by simp)
  unfold orient at h2
  dsimp only at h2
  linarith

/-- a closed polyline around the points moves at least as much in any direction as the boundary polygon -/
theorem fence_span {Vs P : List (R3.Vector K)} (B : BoundaryPolygon Vs P) (hn : NotCollinear Vs) (hsep : Separated Vs) {w : List (R3.Vector K)}
    (hw : ∀ p ∈ Vs, InHull w p) {a b : K} (hab : a ^ 2 + b ^ 2 = 1) :
    ((edges P).map fun e => |toward a b e.1 - toward a b e.2|).sum ≤ ((edges w).map fun e => |toward a b e.1 - toward a b e.2|).sum := by
  obtain ⟨v, hv⟩ : ∃ v, v ∈ Vs := ⟨hn.choose, hn.choose_spec.1⟩
  have hne : w ≠ [] := by
    rintro rfl
    exact hull_nil (hw v hv)
  obtain ⟨x, hx, hmax⟩ := hull_far hne a b
  obtain ⟨y, hy, hmin⟩ := hull_far hne (-a) (-b)
  have hneg : ∀ p : R3.Vector K, toward (-a) (-b) p = - toward a b p := fun p => by unfold toward; ring
  have hlo : ∀ p ∈ Vs, toward a b y ≤ toward a b p := fun p hp => by
    have := hmin p (hw p hp); rw [hneg, hneg] at this; linarith
  refine (boundary_span B hn hsep hab (lo := toward a b y) (hi := toward a b x) ?_ fun p hp => ⟨hlo p hp, hmax p (hw p hp)⟩).trans (closed_ge _ hx hy)
  exact (hlo v hv).trans (hmax v (hw v hv))

end span

/-! ## Length as the mean of the movements in all directions -/

section mean

/-- the movements of a segment in all directions of a half circle add up to twice its length -/
theorem mean_abs (x y : ℝ) : ∫ t in (0 : ℝ)..Real.pi, |Real.cos t * x + Real.sin t * y| = 2 * Real.sqrt (x ^ 2 + y ^ 2) := by
  set z : ℂ := ⟨x, y⟩ with hz
  have hr : Real.sqrt (x ^ 2 + y ^ 2) = ‖z‖ := by
    rw [Complex.norm_def, Complex.normSq_apply]; congr 1; simp [hz]; ring
  have hx : x = ‖z‖ * Real.cos z.arg := (Complex.norm_mul_cos_arg z).symm
  have hy : y = ‖z‖ * Real.sin z.arg := (Complex.norm_mul_sin_arg z).symm
  rw [hr]
  have e : ∀ t : ℝ, |Real.cos t * x + Real.sin t * y| = ‖z‖ * |Real.cos (t - z.arg)| := by
    intro t
    rw [Real.cos_sub, ← abs_of_nonneg (norm_nonneg z), ← abs_mul]
    congr 1
    conv_lhs => rw [hx, hy]
    ring
  simp_rw [e]
  rw [intervalIntegral.integral_const_mul, intervalIntegral.integral_comp_sub_right (fun t => |Real.cos t|)]
  have hper : Function.Periodic (fun t => |Real.cos t|) Real.pi := fun t => by
    simp only [Real.cos_add_pi, abs_neg]
  have h1 := hper.intervalIntegral_add_eq (0 - z.arg) (-(Real.pi / 2))
  rw [show 0 - z.arg + Real.pi = Real.pi - z.arg by ring, show -(Real.pi / 2) + Real.pi = Real.pi / 2 by ring] at h1
  rw [h1]
  have h2 : ∫ t in (-(Real.pi / 2))..(Real.pi / 2), |Real.cos t| = ∫ t in (-(Real.pi / 2))..(Real.pi / 2), Real.cos t := by
    refine intervalIntegral.integral_congr fun t ht => ?_
    rw [Set.uIcc_of_le (by linarith [Real.pi_pos])] at ht
    exact abs_of_nonneg (Real.cos_nonneg_of_mem_Icc ht)
  rw [h2, integral_cos]
  rw [Real.sin_neg, Real.sin_pi_div_two]
  ring

theorem move_cont (L : List (R3.Vector ℝ × R3.Vector ℝ)) :
    Continuous fun t : ℝ => (L.map fun e => |toward (Real.cos t) (Real.sin t) e.1 - toward (Real.cos t) (Real.sin t) e.2|).sum := by
  induction L with
  | nil => simpa using continuous_const
  | cons e L ih =>
    simp only [List.map_cons, List.sum_cons]
    refine Continuous.add ?_ ih
    unfold toward
    fun_prop

/-- the movements of a polyline in all directions add up to twice its length -/
theorem mean_sum (L : List (R3.Vector ℝ × R3.Vector ℝ)) :
    ∫ t in (0 : ℝ)..Real.pi, (L.map fun e => |toward (Real.cos t) (Real.sin t) e.1 - toward (Real.cos t) (Real.sin t) e.2|).sum =
      2 * (L.map fun e => Real.sqrt ((e.1.X - e.2.X) ^ 2 + (e.1.Y - e.2.Y) ^ 2)).sum := by
  induction L with
  | nil => simp
  | cons e L ih =>
    simp only [List.map_cons, List.sum_cons]
    rw [intervalIntegral.integral_add, ih, mul_add]
    · congr 1
      rw [← mean_abs]
      congr 1
      funext t
      unfold toward
      congr 1
      ring
    · refine Continuous.intervalIntegrable ?_ _ _
      unfold toward
      fun_prop
    · exact (move_cont L).intervalIntegrable _ _

/-- the length of the polygon, seen from above -/
noncomputable def flatLength (L : List (R3.Vector ℝ × R3.Vector ℝ)) : ℝ := (L.map fun e => Real.sqrt ((e.1.X - e.2.X) ^ 2 + (e.1.Y - e.2.Y) ^ 2)).sum

theorem flat_le (w : List (R3.Vector ℝ)) : flatLength (edges w) ≤ polygonPerimeter w := by
  rw [C15_perimeter]
  refine List.sum_le_sum fun e _ => ?_
  unfold euclid
  exact Real.sqrt_le_sqrt (by nlinarith [sq_nonneg (e.1.Z - e.2.Z)])

theorem flat_eq {P : List (R3.Vector ℝ)} (h : Planar P) : polygonPerimeter P = flatLength (edges P) := by
  obtain ⟨z, h⟩ := h
  rw [C15_perimeter]
  unfold flatLength
  congr 1
  refine List.map_congr_left fun e he => ?_
  obtain ⟨h1, h2⟩ := edge_mem he
  unfold euclid
  rw [h _ h1, h _ h2]
  congr 1
  ring

theorem planar_dist {z : ℝ} {p q : R3.Vector ℝ} (hp : p.Z = z) (hq : q.Z = z) : euclid p q = Real.sqrt ((p.X - q.X) ^ 2 + (p.Y - q.Y) ^ 2) := by
  unfold euclid
  rw [hp, hq]
  congr 1
  ring

/-- the movement in one direction is at most the length -/
theorem toward_le {a b : ℝ} (hab : a ^ 2 + b ^ 2 = 1) (p q : R3.Vector ℝ) : |toward a b p - toward a b q| ≤ Real.sqrt ((p.X - q.X) ^ 2 + (p.Y - q.Y) ^ 2) := by
  refine Real.abs_le_sqrt ?_
  unfold toward
  nlinarith [sq_nonneg (a * (p.Y - q.Y) - b * (p.X - q.X))]

/-- `P` is a shortest closed polyline around the points `Vs` -/
structure ShortestFence (Vs P : List (R3.Vector ℝ)) : Prop where
  /-- `P` has the points in its convex hull, and no closed polyline that has the points in its convex hull is shorter -/
  least : IsLeast {x | ∃ w, (∀ p ∈ Vs, InHull w p) ∧ polygonPerimeter w = x} (polygonPerimeter P)
  /-- its length is at least twice the distance of any two points -/
  twice : ∀ p ∈ Vs, ∀ q ∈ Vs, 2 * euclid p q ≤ polygonPerimeter P
  /-- and at most π times the greatest distance of two points -/
  round : ∀ D, (∀ p ∈ Vs, ∀ q ∈ Vs, euclid p q ≤ D) → polygonPerimeter P ≤ Real.pi * D

theorem fence_enclose {Vs P : List (R3.Vector ℝ)} (B : BoundaryPolygon Vs P) (hn : NotCollinear Vs) (hd : PlanarDistinct Vs) {p : R3.Vector ℝ} (hp : p ∈ Vs) : InHull P p := by
  intro u v huv
  obtain ⟨h, hh, hmax⟩ := far_corner B hn hd (v.Y - u.Y) (-(v.X - u.X))
  have h1 := hmax p (left_mem B hp)
  have h2 := huv h hh
  have e : ∀ w : R3.Vector ℝ, orient u v w = toward (v.Y - u.Y) (-(v.X - u.X)) u - toward (v.Y - u.Y) (-(v.X - u.X)) w := by
    intro w; unfold orient toward; ring
  rw [e] at h2 ⊢
  linarith

theorem shortest_fence {Vs P : List (R3.Vector ℝ)} (B : BoundaryPolygon Vs P) (hn : NotCollinear Vs) (hsep : Separated Vs) (hz : Planar Vs) : ShortestFence Vs P := by
  have hP : Planar P := by
    obtain ⟨z, h⟩ := hz
    exact ⟨z, fun p hp => h p (polygon_mem B hp)⟩
  have henc : ∀ p ∈ Vs, InHull P p := fun p hp => fence_enclose B hn (separated_distinct hsep) hp
  have hne := B.ne
  refine ⟨⟨⟨P, henc, rfl⟩, ?_⟩, ?_, ?_⟩
  · rintro x ⟨w, hw, rfl⟩
    rw [flat_eq hP]
    refine le_trans ?_ (flat_le w)
    have := intervalIntegral.integral_mono_on (μ := MeasureTheory.volume) Real.pi_pos.le ((move_cont (edges P)).intervalIntegrable 0 Real.pi)
      ((move_cont (edges w)).intervalIntegrable 0 Real.pi) fun t _ => fence_span B hn hsep hw (Real.cos_sq_add_sin_sq t)
    rw [mean_sum, mean_sum] at this
    unfold flatLength
    linarith
  · intro p hp q hq
    obtain ⟨z, hz⟩ := hz
    rw [planar_dist (hz p hp) (hz q hq), flat_eq hP]
    set r := Real.sqrt ((p.X - q.X) ^ 2 + (p.Y - q.Y) ^ 2) with hr
    have hr0 : 0 ≤ r := Real.sqrt_nonneg _
    have hr2 : r ^ 2 = (p.X - q.X) ^ 2 + (p.Y - q.Y) ^ 2 := Real.sq_sqrt (by positivity)
    rcases hr0.eq_or_lt with h0 | h0
    · rw [← h0, mul_zero]
      refine List.sum_nonneg fun v hv => ?_
      obtain ⟨e, _, rfl⟩ := List.mem_map.mp hv
      exact Real.sqrt_nonneg _
    set a := (p.X - q.X) / r with ha
    set b := (p.Y - q.Y) / r with hb
    have hab : a ^ 2 + b ^ 2 = 1 := by
      rw [ha, hb, div_pow, div_pow, ← add_div, ← hr2, div_self (by positivity)]
    obtain ⟨x, hx, hmax⟩ := hull_far hne a b
    obtain ⟨y, hy, hmin⟩ := hull_far hne (-a) (-b)
    have hneg : ∀ p : R3.Vector ℝ, toward (-a) (-b) p = - toward a b p := fun p => by unfold toward; ring
    have h1 := hmax p (henc p hp)
    have h2 := hmin q (henc q hq)
    rw [hneg, hneg] at h2
    have h3 := closed_ge (toward a b) hx hy
    have h4 : toward a b p - toward a b q = r := by
      have : a * r = p.X - q.X := div_mul_cancel₀ _ h0.ne'
      have : b * r = p.Y - q.Y := div_mul_cancel₀ _ h0.ne'
      apply mul_right_cancel₀ h0.ne'
      unfold toward
      nlinarith
    have h5 : ((edges P).map fun e => |toward a b e.1 - toward a b e.2|).sum ≤ flatLength (edges P) := List.sum_le_sum fun e _ => toward_le hab e.1 e.2
    linarith
  · intro D hD
    obtain ⟨z, hz⟩ := hz
    rw [flat_eq hP]
    have hne' : Vs ≠ [] := by
      obtain ⟨v, hv, -⟩ := hn
      exact List.ne_nil_of_mem hv
    have hself : ∀ p ∈ Vs, InHull Vs p := fun p hp u v h => h p hp
    have bound : ∀ t ∈ Set.Icc (0 : ℝ) Real.pi, ((edges P).map fun e => |toward (Real.cos t) (Real.sin t) e.1 - toward (Real.cos t) (Real.sin t) e.2|).sum ≤ 2 * D := by
      intro t _
      set a := Real.cos t
      set b := Real.sin t
      have hab : a ^ 2 + b ^ 2 = 1 := Real.cos_sq_add_sin_sq t
      obtain ⟨x, hx, hmax⟩ := hull_far hne' a b
      obtain ⟨y, hy, hmin⟩ := hull_far hne' (-a) (-b)
      have hneg : ∀ p : R3.Vector ℝ, toward (-a) (-b) p = - toward a b p := fun p => by unfold toward; ring
      have hlo : ∀ p ∈ Vs, toward a b y ≤ toward a b p := fun p hp => by
        have := hmin p (hself p hp); rw [hneg, hneg] at this; linarith
      have h1 := boundary_span B hn hsep hab (hlo x hx) fun p hp => ⟨hlo p hp, hmax p (hself p hp)⟩
      have h2 := (le_abs_self _).trans (toward_le hab x y)
      rw [← planar_dist (hz x hx) (hz y hy)] at h2
      have h3 := hD x hx y hy
      linarith
    have := intervalIntegral.integral_mono_on (μ := MeasureTheory.volume) Real.pi_pos.le ((move_cont (edges P)).intervalIntegrable 0 Real.pi)
      (intervalIntegrable_const (c := 2 * D)) bound
    rw [mean_sum, intervalIntegral.integral_const, smul_eq_mul, sub_zero] at this
    unfold flatLength
    linarith

end mean

/-! ## From rational to real points -/

theorem cast_collinear {Vs : List (R3.Vector ℚ)} (h : NotCollinear Vs) : NotCollinear (Vs.map castR) := by
  obtain ⟨p, hp, q, hq, r, hr, hne⟩ := h
  refine ⟨_, List.mem_map_of_mem hp, _, List.mem_map_of_mem hq, _, List.mem_map_of_mem hr, ?_⟩
  simp only [castR]
  exact_mod_cast hne

theorem castR_inj : Function.Injective castR := by
  intro a b h
  simp only [castR, R3.Vector.mk.injEq, Rat.cast_inj] at h
  cases a; cases b
  simpa using h

theorem cast_separated {Vs : List (R3.Vector ℚ)} (h : Separated Vs) : Separated (Vs.map castR) := by
  intro p hp q hq
  obtain ⟨a, ha, rfl⟩ := List.mem_map.mp hp
  obtain ⟨b, hb, rfl⟩ := List.mem_map.mp hq
  rcases h a ha b hb with rfl | ⟨h1, h2⟩
  · exact Or.inl rfl
  · refine Or.inr ⟨?_, ?_⟩
    · simp only [castR, Rat.cast_inj]; exact h1
    · unfold Near castR at *
      intro h3
      apply h2
      dsimp only at h3
      refine (Rat.cast_lt (K := ℝ)).mp ?_
      push_cast
      exact h3

theorem cast_between {a b q : R3.Vector ℚ} (hne : ¬ (a.X = b.X ∧ a.Y = b.Y)) (h : Between (castR a) (castR b) (castR q)) : Between a b q := by
  obtain ⟨t, t0, t1, hx, hy⟩ := h
  simp only [castR] at hx hy
  suffices ht : ∃ s : ℚ, (s : ℝ) = t by
    obtain ⟨s, rfl⟩ := ht
    exact ⟨s, by exact_mod_cast t0, by exact_mod_cast t1, by exact_mod_cast hx, by exact_mod_cast hy⟩
  by_cases hX : a.X = b.X
  · have hY : (b.Y : ℝ) - a.Y ≠ 0 := by
      intro h
      exact hne ⟨hX, by have : (b.Y : ℝ) = a.Y := by linarith
                        exact_mod_cast this.symm⟩
    refine ⟨(q.Y - a.Y) / (b.Y - a.Y), ?_⟩
    push_cast
    rw [div_eq_iff hY, hy]; ring
  · have hX' : (b.X : ℝ) - a.X ≠ 0 := by
      intro h
      exact hX (by have : (b.X : ℝ) = a.X := by linarith
                   exact_mod_cast this.symm)
    refine ⟨(q.X - a.X) / (b.X - a.X), ?_⟩
    push_cast
    rw [div_eq_iff hX', hx]; ring

theorem cast_boundary {Vs P : List (R3.Vector ℚ)} (hd : PlanarDistinct Vs) (h : BoundaryPolygon Vs P) : BoundaryPolygon (Vs.map castR) (P.map castR) := by
  refine ⟨(List.nodup_map_iff castR_inj).mpr h.nodup, by simpa using h.ne, ?_⟩
  intro e he
  rw [edges_map] at he
  obtain ⟨⟨a, b⟩, he', rfl⟩ := List.mem_map.mp he
  have H := h.edge _ he'
  refine ⟨List.mem_map_of_mem H.fst, List.mem_map_of_mem H.snd, fun e => H.ne (castR_inj e), ?_, ?_⟩
  · intro q hq
    obtain ⟨c, hc, rfl⟩ := List.mem_map.mp hq
    have := H.left c hc
    unfold OnLeft at *
    simp only [Prod.map, castR]
    exact_mod_cast this
  · intro q hq
    obtain ⟨c, hc, rfl⟩ := List.mem_map.mp hq
    intro hb
    exact H.tight c hc (cast_between (fun hab => H.ne (hd _ H.fst _ H.snd hab.1 hab.2)) hb)

/-! ## C116 -/

/-- C116: the polygon of `ConvexHull` is a shortest closed polyline around the points, in exact arithmetic -/
theorem C116_hull (srt : List (R3.Vector ℝ) → List (R3.Vector ℝ)) (hsrt : SortsHull srt) (Vs : List (R3.Vector ℝ)) (hsep : Separated Vs) (hn : NotCollinear Vs)
    (hz : Planar Vs) : ShortestFence Vs (ConvexHull srt Vs) :=
  shortest_fence (C73_convexHull srt hsrt Vs hsep hn) hn hsep hz

/-- C116: the polygon of `ConvexHull` in float64, for integers of size at most `2^24` -/
theorem C116_hull_float (srt : List (R3.Vector F64) → List (R3.Vector F64)) (Vs : List (R3.Vector F64)) (hs : SortsHullF srt Vs) (h : IntCoords Vs)
    (hz : ∀ v ∈ Vs, v.Z.toQ = 0) (hn : NotCollinear (Vs.map exactV)) : ShortestFence (Vs.map exactR) ((ConvexHull srt Vs).map exactR) := by
  have hf : Flat Vs := fun p hp q hq _ _ => by rw [hz p hp, hz q hq]
  have hsep := ints_separated h.ints hf
  rw [exactR_eq, exactR_eq]
  refine shortest_fence (cast_boundary (separated_distinct hsep) (C75_boundary srt Vs hs h hf hn)) (cast_collinear hn) (cast_separated hsep) ⟨0, ?_⟩
  intro p hp
  simp only [List.mem_map] at hp
  obtain ⟨a, ⟨v, hv, rfl⟩, rfl⟩ := hp
  simp only [castR, exactV, hz v hv, Rat.cast_zero]

/-- C116: the hull returned by `Triangulate` is a shortest closed polyline around the points, in exact arithmetic -/
theorem C116_triangulate (srt : R3.Vector ℝ → List ℤ → List ℤ) (hsrt : ∀ c l, (srt c l).Perm l) (hashSize : ℕ → ℕ) (fuel : ℕ) (Vs : List (R3.Vector ℝ))
    (hp : Planar Vs) (hn : 2 ≤ Vs.length) (hash : 0 < hashSize Vs.length) (hf : 6 * Vs.length < fuel) {hull : List (R3.Vector ℝ)} {ts hs : List ℤ}
    (h : Triangulate srt hashSize fuel Vs = .ok (.triangulation hull ts hs)) (hs' : Sorts srt Vs) (hsep : Separated Vs) : ShortestFence Vs hull := by
  obtain ⟨B, hN⟩ := C72_boundary srt hsrt hashSize fuel Vs hp hn hash hf h hs' hsep
  exact shortest_fence B hN hsep hp

/-- C116: the hull returned by `Triangulate` in float64, for coordinates that are integers of size at most 512 times a power of two -/
theorem C116_float {e : ℤ} (he : -26 ≤ e ∧ e ≤ 80) (srt : R3.Vector F64 → List ℤ → List ℤ) (hsrt : ∀ c l, (srt c l).Perm l) (hashSize : ℕ → ℕ) (fuel : ℕ)
    (Vs : List (R3.Vector F64)) (hg : MidDyadic e Vs) (hn : 2 ≤ Vs.length) (hash : 0 < hashSize Vs.length ∧ hashSize Vs.length < 2 ^ 53) (hf : 6 * Vs.length < fuel)
    {hull : List (R3.Vector F64)} {ts hs : List ℤ} (h : Triangulate srt hashSize fuel Vs = .ok (.triangulation hull ts hs)) (hs' : SortsCall srt Vs) :
    ShortestFence (Vs.map exactR) (hull.map exactR) := by
  obtain ⟨B, -⟩ := C104_dyadic_hull he srt hsrt hashSize fuel Vs hg hn hash.1 hash.2 hf h hs'
  have hsep := dyadic_separated he hg
  rw [exactR_eq, exactR_eq]
  refine shortest_fence (cast_boundary (separated_distinct hsep) B) (cast_collinear (dyadic_not_collinear he srt hashSize fuel Vs hg hn h)) (cast_separated hsep) ⟨0, ?_⟩
  intro p hp
  simp only [List.mem_map] at hp
  obtain ⟨a, ⟨v, hv, rfl⟩, rfl⟩ := hp
  have : v.Z.toQ = 0 := by rw [(hg v hv).2.2.2]; decide +kernel
  simp only [castR, exactV, this, Rat.cast_zero]

/-- C116: if the convex hull of some points contains other points, its boundary is at least as long -/
theorem C116_monotone (srt : List (R3.Vector ℝ) → List (R3.Vector ℝ)) (hsrt : SortsHull srt) (Vs Ws : List (R3.Vector ℝ)) (hsep : Separated Vs) (hn : NotCollinear Vs)
    (hz : Planar Vs) (hsep' : Separated Ws) (hn' : NotCollinear Ws) (h : ∀ p ∈ Vs, InHull Ws p) :
    polygonPerimeter (ConvexHull srt Vs) ≤ polygonPerimeter (ConvexHull srt Ws) := by
  have B := C73_convexHull srt hsrt Ws hsep' hn'
  refine (C116_hull srt hsrt Vs hsep hn hz).least.2 ⟨_, fun p hp u v huv => ?_, rfl⟩
  exact h p hp u v fun q hq => fence_enclose B hn' (separated_distinct hsep') hq u v huv

/-- a case: the corners of a square and an inner point. Every closed polyline that visits the five points in some order is at least as long as the boundary. -/
example (srt : List (R3.Vector ℝ) → List (R3.Vector ℝ)) (hsrt : SortsHull srt) (w : List (R3.Vector ℝ))
    (hw : w.Perm [⟨0, 0, 0⟩, ⟨4, 0, 0⟩, ⟨4, 4, 0⟩, ⟨0, 4, 0⟩, ⟨1, 2, 0⟩]) :
    polygonPerimeter (ConvexHull srt ([⟨0, 0, 0⟩, ⟨4, 0, 0⟩, ⟨4, 4, 0⟩, ⟨0, 4, 0⟩, ⟨1, 2, 0⟩] : List (R3.Vector ℝ))) ≤ polygonPerimeter w := by
  refine (C116_hull srt hsrt _ ?_ ⟨⟨0, 0, 0⟩, by simp, ⟨4, 0, 0⟩, by simp, ⟨4, 4, 0⟩, by simp, by norm_num⟩ ⟨0, by simp⟩).least.2 ⟨w, fun p hp u v h => h p (hw.mem_iff.mpr hp), rfl⟩
  unfold Separated Near
  norm_num

end Verif.Props
