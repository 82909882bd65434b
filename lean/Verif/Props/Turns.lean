import Verif.Props.Crossings
/-!
# C118: the curve turns as its control polygon does (nurbs/curve.go:17-27, nurbs/basis.go:13-63)

If any three control points, in order, turn left when seen from a given direction, then so do any three points of the curve: a convex control polygon gives a
convex curve. If any four control points, in order, form a screw of the same hand, then so do any four points of the curve. Putting in a further knot (C117)
replaces the control points by points on the sides of the polygon, and this keeps both properties.
-/
namespace Verif.Props
open Verif Verif.Proofs Verif.Spec Verif.Nurbs
open scoped Topology

/-- twice the area of the triangle `a`, `b`, `c` seen against the direction `e`, positive for a left turn -/
def turnAbout (e a b c : R3.Vector ℝ) : ℝ :=
  e.X * ((b.Y - a.Y) * (c.Z - a.Z) - (b.Z - a.Z) * (c.Y - a.Y)) + e.Y * ((b.Z - a.Z) * (c.X - a.X) - (b.X - a.X) * (c.Z - a.Z)) +
    e.Z * ((b.X - a.X) * (c.Y - a.Y) - (b.Y - a.Y) * (c.X - a.X))

/-- six times the volume of the tetrahedron `a`, `b`, `c`, `d`, positive for a right-handed screw -/
def screw (a b c d : R3.Vector ℝ) : ℝ :=
  (b.X - a.X) * ((c.Y - a.Y) * (d.Z - a.Z) - (c.Z - a.Z) * (d.Y - a.Y)) + (b.Y - a.Y) * ((c.Z - a.Z) * (d.X - a.X) - (c.X - a.X) * (d.Z - a.Z)) +
    (b.Z - a.Z) * ((c.X - a.X) * (d.Y - a.Y) - (c.Y - a.Y) * (d.X - a.X))

/-- a point of the segment from `b` to `a` -/
def mix (w : ℝ) (a b : R3.Vector ℝ) : R3.Vector ℝ := ⟨w * a.X + (1 - w) * b.X, w * a.Y + (1 - w) * b.Y, w * a.Z + (1 - w) * b.Z⟩

theorem mix_nonneg {w A B : ℝ} (h0 : 0 ≤ w) (h1 : w ≤ 1) (hA : 0 < w → 0 ≤ A) (hB : 0 ≤ B) : 0 ≤ w * A + (1 - w) * B := by
  rcases h0.lt_or_eq with h | h
  · exact add_nonneg (mul_nonneg h0 (hA h)) (mul_nonneg (by linarith) hB)
  · rw [← h]; simpa using hB

/-- the control point number `i` made by `N` -/
def cutPoint (N : (ℕ → ℝ) → ℕ → ℝ) (x y z : ℕ → ℝ) (i : ℕ) : R3.Vector ℝ := ⟨N x i, N y i, N z i⟩

theorem cutPoint_ins (W : ℕ → ℝ) (s : ℝ) (k p : ℕ) (N : (ℕ → ℝ) → ℕ → ℝ) (x y z : ℕ → ℝ) (i : ℕ) :
    cutPoint (fun c => insCoeff W s k p (N c)) x y z i = mix (insWeight W s k p i) (cutPoint N x y z i) (cutPoint N x y z (i-1)) := rfl

/-- left turns stay left turns -/
theorem turn_stable (p : ℕ) (e : R3.Vector ℝ) (x y z : ℕ → ℝ) : CutStable p (fun N q => ∀ i j l, i ≤ j → j ≤ l → l ≤ q →
    0 ≤ turnAbout e (cutPoint N x y z i) (cutPoint N x y z j) (cutPoint N x y z l)) := by
  intro W s k q N hW h1 h2 hpk hkq hQ i j l hij hjl hl
  have e1 : ∀ w a a' b c, turnAbout e (mix w a a') b c = w * turnAbout e a b c + (1 - w) * turnAbout e a' b c := by
    intro w a a' b c; unfold turnAbout mix; ring
  have e2 : ∀ w a b b' c, turnAbout e a (mix w b b') c = w * turnAbout e a b c + (1 - w) * turnAbout e a b' c := by
    intro w a b b' c; unfold turnAbout mix; ring
  have e3 : ∀ w a b c c', turnAbout e a b (mix w c c') = w * turnAbout e a b c + (1 - w) * turnAbout e a b c' := by
    intro w a b c c'; unfold turnAbout mix; ring
  have w := weight_mem hW h1 h2 p
  have top : ∀ {i}, 0 < insWeight W s k p i → i ≤ q + 1 → i ≤ q := by
    intro i hi hiq
    by_contra hno
    have : insWeight W s k p i = 0 := by unfold insWeight; rw [if_neg (by omega), if_pos (by omega)]
    linarith
  rcases Nat.eq_or_lt_of_le hij with rfl | hij
  · unfold turnAbout; ring_nf; exact le_rfl
  rcases Nat.eq_or_lt_of_le hjl with rfl | hjl
  · unfold turnAbout; ring_nf; exact le_rfl
  simp only [cutPoint_ins]
  rw [e3]
  refine mix_nonneg (w l).1 (w l).2 (fun hl' => ?_) ?_
  · have := top hl' hl
    rw [e2]
    refine mix_nonneg (w j).1 (w j).2 (fun _ => ?_) ?_
    all_goals
      rw [e1]
      refine mix_nonneg (w i).1 (w i).2 (fun _ => ?_) ?_
    all_goals exact hQ _ _ _ (by omega) (by omega) (by omega)
  · rw [e2]
    refine mix_nonneg (w j).1 (w j).2 (fun _ => ?_) ?_
    all_goals
      rw [e1]
      refine mix_nonneg (w i).1 (w i).2 (fun _ => ?_) ?_
    all_goals exact hQ _ _ _ (by omega) (by omega) (by omega)

/-- right-handed screws stay right-handed -/
theorem screw_stable (p : ℕ) (x y z : ℕ → ℝ) : CutStable p (fun N q => ∀ h i j l, h ≤ i → i ≤ j → j ≤ l → l ≤ q →
    0 ≤ screw (cutPoint N x y z h) (cutPoint N x y z i) (cutPoint N x y z j) (cutPoint N x y z l)) := by
  intro W s k q N hW h1 h2 hpk hkq hQ h i j l hhi hij hjl hl
  have e0 : ∀ w o o' a b c, screw (mix w o o') a b c = w * screw o a b c + (1 - w) * screw o' a b c := by
    intro w o o' a b c; unfold screw mix; ring
  have e1 : ∀ w o a a' b c, screw o (mix w a a') b c = w * screw o a b c + (1 - w) * screw o a' b c := by
    intro w o a a' b c; unfold screw mix; ring
  have e2 : ∀ w o a b b' c, screw o a (mix w b b') c = w * screw o a b c + (1 - w) * screw o a b' c := by
    intro w o a b b' c; unfold screw mix; ring
  have e3 : ∀ w o a b c c', screw o a b (mix w c c') = w * screw o a b c + (1 - w) * screw o a b c' := by
    intro w o a b c c'; unfold screw mix; ring
  have w := weight_mem hW h1 h2 p
  have top : ∀ {i}, 0 < insWeight W s k p i → i ≤ q + 1 → i ≤ q := by
    intro i hi hiq
    by_contra hno
    have : insWeight W s k p i = 0 := by unfold insWeight; rw [if_neg (by omega), if_pos (by omega)]
    linarith
  rcases Nat.eq_or_lt_of_le hhi with rfl | hhi
  · unfold screw; ring_nf; exact le_rfl
  rcases Nat.eq_or_lt_of_le hij with rfl | hij
  · unfold screw; ring_nf; exact le_rfl
  rcases Nat.eq_or_lt_of_le hjl with rfl | hjl
  · unfold screw; ring_nf; exact le_rfl
  simp only [cutPoint_ins]
  rw [e3]
  refine mix_nonneg (w l).1 (w l).2 (fun hl' => ?_) ?_
  · have := top hl' hl
    rw [e2]
    refine mix_nonneg (w j).1 (w j).2 (fun _ => ?_) ?_
    all_goals
      rw [e1]
      refine mix_nonneg (w i).1 (w i).2 (fun _ => ?_) ?_
    all_goals
      rw [e0]
      refine mix_nonneg (w h).1 (w h).2 (fun _ => ?_) ?_
    all_goals exact hQ _ _ _ _ (by omega) (by omega) (by omega) (by omega)
  · rw [e2]
    refine mix_nonneg (w j).1 (w j).2 (fun _ => ?_) ?_
    all_goals
      rw [e1]
      refine mix_nonneg (w i).1 (w i).2 (fun _ => ?_) ?_
    all_goals
      rw [e0]
      refine mix_nonneg (w h).1 (w h).2 (fun _ => ?_) ?_
    all_goals exact hQ _ _ _ _ (by omega) (by omega) (by omega) (by omega)

/-- the point of the spline with the coordinates `x`, `y`, `z` of the control points -/
noncomputable def dsPoint (U : ℕ → ℝ) (n p : ℕ) (x y z : ℕ → ℝ) (u : ℝ) : R3.Vector ℝ := ⟨Ds U n p x 0 u, Ds U n p y 0 u, Ds U n p z 0 u⟩

/-- the end of the domain is reached continuously -/
theorem Ds_end {U : ℕ → ℝ} {n p : ℕ} (hok : SplineOK U n p) (c : ℕ → ℝ) :
    Filter.Tendsto (Ds U n p c 0) (𝓝[<] (U (n+1))) (𝓝 (Ds U n p c 0 (U (n+1)))) := by
  rw [Ds_eq hok.mono' c 0 ⟨hok.deg, le_rfl, hok.last, hok.last.le, Or.inr ⟨rfl, rfl⟩⟩]
  have cont : ContinuousAt (Qs U n p c 0 n) (U (n+1)) := (Qs_deriv hok.mono c 0 n _).continuousAt
  refine (cont.tendsto.mono_left nhdsWithin_le_nhds).congr' ?_
  filter_upwards [Ioo_mem_nhdsLT hok.last] with y hy
  exact (Ds_eq hok.mono' c 0 ⟨hok.deg, le_rfl, hok.last, hy.1.le, Or.inl hy.2⟩).symm

theorem tendsto_affine (A B C D : ℝ) {f g h : ℝ → ℝ} {l : Filter ℝ} {x y z : ℝ} (hf : Filter.Tendsto f l (𝓝 x)) (hg : Filter.Tendsto g l (𝓝 y))
    (hh : Filter.Tendsto h l (𝓝 z)) : Filter.Tendsto (fun s => A * f s + B * g s + C * h s + D) l (𝓝 (A * x + B * y + C * z + D)) :=
  (((hf.const_mul A).add (hg.const_mul B)).add (hh.const_mul C)).add_const D

theorem turn_affine (e a b : R3.Vector ℝ) : ∃ A B C D : ℝ, ∀ c : R3.Vector ℝ, turnAbout e a b c = A * c.X + B * c.Y + C * c.Z + D :=
  ⟨e.Y * (b.Z - a.Z) - e.Z * (b.Y - a.Y), e.Z * (b.X - a.X) - e.X * (b.Z - a.Z), e.X * (b.Y - a.Y) - e.Y * (b.X - a.X),
    - (e.Y * (b.Z - a.Z) - e.Z * (b.Y - a.Y)) * a.X - (e.Z * (b.X - a.X) - e.X * (b.Z - a.Z)) * a.Y - (e.X * (b.Y - a.Y) - e.Y * (b.X - a.X)) * a.Z,
    fun c => by unfold turnAbout; ring⟩

theorem screw_affine (a b c : R3.Vector ℝ) : ∃ A B C D : ℝ, ∀ d : R3.Vector ℝ, screw a b c d = A * d.X + B * d.Y + C * d.Z + D :=
  ⟨(b.Y - a.Y) * (c.Z - a.Z) - (b.Z - a.Z) * (c.Y - a.Y), (b.Z - a.Z) * (c.X - a.X) - (b.X - a.X) * (c.Z - a.Z), (b.X - a.X) * (c.Y - a.Y) - (b.Y - a.Y) * (c.X - a.X),
    - ((b.Y - a.Y) * (c.Z - a.Z) - (b.Z - a.Z) * (c.Y - a.Y)) * a.X - ((b.Z - a.Z) * (c.X - a.X) - (b.X - a.X) * (c.Z - a.Z)) * a.Y -
      ((b.X - a.X) * (c.Y - a.Y) - (b.Y - a.Y) * (c.X - a.X)) * a.Z,
    fun d => by unfold screw; ring⟩

theorem spline_turn {U : ℕ → ℝ} {n p : ℕ} (hU : Monotone U) (hpn : p ≤ n) (hlast : U n < U (n+1)) (e : R3.Vector ℝ) (x y z : ℕ → ℝ)
    (h : ∀ i j l, i < j → j < l → l ≤ n → 0 ≤ turnAbout e ⟨x i, y i, z i⟩ ⟨x j, y j, z j⟩ ⟨x l, y l, z l⟩)
    {t0 t1 t2 : ℝ} (h0 : U p ≤ t0) (h01 : t0 ≤ t1) (h12 : t1 ≤ t2) (h2 : t2 ≤ U (n+1)) :
    0 ≤ turnAbout e (dsPoint U n p x y z t0) (dsPoint U n p x y z t1) (dsPoint U n p x y z t2) := by
  have hok : SplineOK U n p := ⟨fun i j _ hij _ => hU hij, hpn, hlast⟩
  have inner : ∀ t2, t1 ≤ t2 → t2 < U (n+1) → 0 ≤ turnAbout e (dsPoint U n p x y z t0) (dsPoint U n p x y z t1) (dsPoint U n p x y z t2) := by
    intro t2 h12 h2
    obtain ⟨n', M, g, cut, g1, g2, g3⟩ := spline_samples hU hpn hlast 2 (fun j => if j = 0 then t0 else if j = 1 then t1 else t2)
      (by intro j hj; interval_cases j <;> simpa) (by simpa using h0) (by simpa using h2)
    have v0 : dsPoint U n p x y z t0 = cutPoint M x y z (g 0) := by
      have := fun c => g3 c 0 (by omega); simp only [if_true] at this
      unfold dsPoint cutPoint; rw [this, this, this]
    have v1 : dsPoint U n p x y z t1 = cutPoint M x y z (g 1) := by
      have := fun c => g3 c 1 (by omega); simp only [if_true, one_ne_zero, if_false] at this
      unfold dsPoint cutPoint; rw [this, this, this]
    have v2 : dsPoint U n p x y z t2 = cutPoint M x y z (g 2) := by
      have := fun c => g3 c 2 (by omega); simp only [OfNat.ofNat_ne_zero, OfNat.ofNat_ne_one, if_false] at this
      unfold dsPoint cutPoint; rw [this, this, this]
    rw [v0, v1, v2]
    refine cut _ (turn_stable p e x y z) (fun i j l hij hjl hl => ?_) (g 0) (g 1) (g 2) (g2 0 (by omega)) (g2 1 (by omega)) (g1 2 le_rfl)
    rcases Nat.eq_or_lt_of_le hij with rfl | hij
    · unfold turnAbout; ring_nf; exact le_rfl
    rcases Nat.eq_or_lt_of_le hjl with rfl | hjl
    · unfold turnAbout; ring_nf; exact le_rfl
    exact h i j l hij hjl hl
  rcases h2.lt_or_eq with h2 | rfl
  · exact inner t2 h12 h2
  rcases h12.lt_or_eq with h12 | rfl
  · have lim : Filter.Tendsto (fun s => turnAbout e (dsPoint U n p x y z t0) (dsPoint U n p x y z t1) (dsPoint U n p x y z s)) (𝓝[<] (U (n+1)))
        (𝓝 (turnAbout e (dsPoint U n p x y z t0) (dsPoint U n p x y z t1) (dsPoint U n p x y z (U (n+1))))) := by
      obtain ⟨A, B, C, D, hc⟩ := turn_affine e (dsPoint U n p x y z t0) (dsPoint U n p x y z t1)
      simp only [hc]
      exact tendsto_affine A B C D (Ds_end hok x) (Ds_end hok y) (Ds_end hok z)
    refine ge_of_tendsto lim ?_
    filter_upwards [Ioo_mem_nhdsLT h12] with s hs
    exact inner s hs.1.le hs.2
  · unfold turnAbout; ring_nf; exact le_rfl

theorem spline_screw {U : ℕ → ℝ} {n p : ℕ} (hU : Monotone U) (hpn : p ≤ n) (hlast : U n < U (n+1)) (x y z : ℕ → ℝ)
    (h : ∀ h i j l, h < i → i < j → j < l → l ≤ n → 0 ≤ screw ⟨x h, y h, z h⟩ ⟨x i, y i, z i⟩ ⟨x j, y j, z j⟩ ⟨x l, y l, z l⟩)
    {t0 t1 t2 t3 : ℝ} (h0 : U p ≤ t0) (h01 : t0 ≤ t1) (h12 : t1 ≤ t2) (h23 : t2 ≤ t3) (h3 : t3 ≤ U (n+1)) :
    0 ≤ screw (dsPoint U n p x y z t0) (dsPoint U n p x y z t1) (dsPoint U n p x y z t2) (dsPoint U n p x y z t3) := by
  have hok : SplineOK U n p := ⟨fun i j _ hij _ => hU hij, hpn, hlast⟩
  have inner : ∀ t3, t2 ≤ t3 → t3 < U (n+1) → 0 ≤ screw (dsPoint U n p x y z t0) (dsPoint U n p x y z t1) (dsPoint U n p x y z t2) (dsPoint U n p x y z t3) := by
    intro t3 h23 h3
    obtain ⟨n', M, g, cut, g1, g2, g3⟩ := spline_samples hU hpn hlast 3 (fun j => if j = 0 then t0 else if j = 1 then t1 else if j = 2 then t2 else t3)
      (by intro j hj; interval_cases j <;> simpa) (by simpa using h0) (by simpa using h3)
    have v0 : dsPoint U n p x y z t0 = cutPoint M x y z (g 0) := by
      have := fun c => g3 c 0 (by omega); simp only [if_true] at this
      unfold dsPoint cutPoint; rw [this, this, this]
    have v1 : dsPoint U n p x y z t1 = cutPoint M x y z (g 1) := by
      have := fun c => g3 c 1 (by omega); simp only [if_true, one_ne_zero, if_false] at this
      unfold dsPoint cutPoint; rw [this, this, this]
    have v2 : dsPoint U n p x y z t2 = cutPoint M x y z (g 2) := by
      have := fun c => g3 c 2 (by omega); simp only [OfNat.ofNat_ne_zero, OfNat.ofNat_ne_one, if_false, if_true] at this
      unfold dsPoint cutPoint; rw [this, this, this]
    have v3 : dsPoint U n p x y z t3 = cutPoint M x y z (g 3) := by
      have := fun c => g3 c 3 (by omega); norm_num at this
      unfold dsPoint cutPoint; rw [this, this, this]
    rw [v0, v1, v2, v3]
    refine cut _ (screw_stable p x y z) (fun o i j l hoi hij hjl hl => ?_) (g 0) (g 1) (g 2) (g 3) (g2 0 (by omega)) (g2 1 (by omega)) (g2 2 (by omega)) (g1 3 le_rfl)
    rcases Nat.eq_or_lt_of_le hoi with rfl | hoi
    · unfold screw; ring_nf; exact le_rfl
    rcases Nat.eq_or_lt_of_le hij with rfl | hij
    · unfold screw; ring_nf; exact le_rfl
    rcases Nat.eq_or_lt_of_le hjl with rfl | hjl
    · unfold screw; ring_nf; exact le_rfl
    exact h o i j l hoi hij hjl hl
  rcases h3.lt_or_eq with h3 | rfl
  · exact inner t3 h23 h3
  rcases h23.lt_or_eq with h23 | rfl
  · have lim : Filter.Tendsto (fun s => screw (dsPoint U n p x y z t0) (dsPoint U n p x y z t1) (dsPoint U n p x y z t2) (dsPoint U n p x y z s)) (𝓝[<] (U (n+1)))
        (𝓝 (screw (dsPoint U n p x y z t0) (dsPoint U n p x y z t1) (dsPoint U n p x y z t2) (dsPoint U n p x y z (U (n+1))))) := by
      obtain ⟨A, B, C, D, hc⟩ := screw_affine (dsPoint U n p x y z t0) (dsPoint U n p x y z t1) (dsPoint U n p x y z t2)
      simp only [hc]
      exact tendsto_affine A B C D (Ds_end hok x) (Ds_end hok y) (Ds_end hok z)
    refine ge_of_tendsto lim ?_
    filter_upwards [Ioo_mem_nhdsLT h23] with s hs
    exact inner s hs.1.le hs.2
  · unfold screw; ring_nf; exact le_rfl

/-! ## The curve of the code -/

/-- the knots, the last one repeated for ever -/
theorem knots_extended {n p : ℕ} {U : List Int} (hU : Nondec U) (hpn : p ≤ n) (hlen : n + p + 1 < U.length) (hlast : U.getD n 0 < U.getD (n+1) 0)
    (P : List (R3.Vector ℝ)) (hP : n < P.length) : ∃ V : ℕ → ℝ, Monotone V ∧ V n < V (n+1) ∧ V p = U.getD p 0 ∧ V (n+1) = U.getD (n+1) 0 ∧
      ∀ t : ℝ, U.getD p 0 ≤ t → t ≤ U.getD (n+1) 0 → ∀ fuel, n + 1 - p ≤ fuel → curvePoint fuel n p U P t =
        .ok (dsPoint V n p (fun i => (P.getD i ⟨0, 0, 0⟩).X) (fun i => (P.getD i ⟨0, 0, 0⟩).Y) (fun i => (P.getD i ⟨0, 0, 0⟩).Z) t) := by
  have hl : knot ℝ U n < knot ℝ U (n+1) := by unfold knot; exact_mod_cast hlast
  have hok := spline_ok hU hpn hlen hl
  have agree : ∀ j ≤ n + p + 1, knot ℝ U j = knot ℝ U (min j (n+p+1)) := fun j hj => by rw [min_eq_left hj]
  refine ⟨fun j => knot ℝ U (min j (n+p+1)), fun i j hij => knot_mono U hU _ _ (min_le_min_right _ hij) (by omega), ?_, ?_, ?_, fun t a b fuel hf => ?_⟩
  · show knot ℝ U (min n (n+p+1)) < knot ℝ U (min (n+1) (n+p+1))
    rw [← agree n (by omega), ← agree (n+1) (by omega)]; exact hl
  · show knot ℝ U (min p (n+p+1)) = _
    rw [← agree p (by omega)]; rfl
  · show knot ℝ U (min (n+1) (n+p+1)) = _
    rw [← agree (n+1) (by omega)]; rfl
  · have ht : t ∈ Set.Icc (knot ℝ U p) (knot ℝ U (n+1)) := ⟨a, b⟩
    rw [curve_spline hU hpn hlen hl P hP ht fuel hf]
    unfold splinePoint dsPoint
    rw [spline_agree hok agree _ ht, spline_agree hok agree _ ht, spline_agree hok agree _ ht]

section
variable (n p : ℕ) (U : List Int) (P : List (R3.Vector ℝ)) (hU : Nondec U) (hpn : p ≤ n) (hlen : n + p + 1 < U.length)
  (hlast : U.getD n 0 < U.getD (n+1) 0) (hP : n < P.length)
include hU hpn hlen hlast hP

/-- C118: if any three control points, in order, turn left about the direction `e`, so do any three points of the curve -/
theorem C118_convex (e : R3.Vector ℝ)
    (h : ∀ i j l, i < j → j < l → l ≤ n → 0 ≤ turnAbout e (P.getD i ⟨0, 0, 0⟩) (P.getD j ⟨0, 0, 0⟩) (P.getD l ⟨0, 0, 0⟩))
    (fuel : ℕ) (hf : n + 1 - p ≤ fuel) (t0 t1 t2 : ℝ) (h0 : U.getD p 0 ≤ t0) (h01 : t0 ≤ t1) (h12 : t1 ≤ t2) (h2 : t2 ≤ U.getD (n+1) 0) :
    ∃ a b c, curvePoint fuel n p U P t0 = .ok a ∧ curvePoint fuel n p U P t1 = .ok b ∧ curvePoint fuel n p U P t2 = .ok c ∧ 0 ≤ turnAbout e a b c := by
  obtain ⟨V, hV, v1, v2, v3, v4⟩ := knots_extended hU hpn hlen hlast P hP
  exact ⟨_, _, _, v4 t0 h0 (h01.trans (h12.trans h2)) fuel hf, v4 t1 (h0.trans h01) (h12.trans h2) fuel hf, v4 t2 (h0.trans (h01.trans h12)) h2 fuel hf,
    spline_turn hV hpn v1 e _ _ _ h (by rw [v2]; exact h0) h01 h12 (by rw [v3]; exact h2)⟩

/-- C118: if any four control points, in order, form a right-handed screw, so do any four points of the curve -/
theorem C118_screw
    (h : ∀ o i j l, o < i → i < j → j < l → l ≤ n → 0 ≤ screw (P.getD o ⟨0, 0, 0⟩) (P.getD i ⟨0, 0, 0⟩) (P.getD j ⟨0, 0, 0⟩) (P.getD l ⟨0, 0, 0⟩))
    (fuel : ℕ) (hf : n + 1 - p ≤ fuel) (t0 t1 t2 t3 : ℝ) (h0 : U.getD p 0 ≤ t0) (h01 : t0 ≤ t1) (h12 : t1 ≤ t2) (h23 : t2 ≤ t3) (h3 : t3 ≤ U.getD (n+1) 0) :
    ∃ a b c d, curvePoint fuel n p U P t0 = .ok a ∧ curvePoint fuel n p U P t1 = .ok b ∧ curvePoint fuel n p U P t2 = .ok c ∧
      curvePoint fuel n p U P t3 = .ok d ∧ 0 ≤ screw a b c d := by
  obtain ⟨V, hV, v1, v2, v3, v4⟩ := knots_extended hU hpn hlen hlast P hP
  exact ⟨_, _, _, _, v4 t0 h0 (h01.trans (h12.trans (h23.trans h3))) fuel hf, v4 t1 (h0.trans h01) (h12.trans (h23.trans h3)) fuel hf,
    v4 t2 (h0.trans (h01.trans h12)) (h23.trans h3) fuel hf, v4 t3 (h0.trans (h01.trans (h12.trans h23))) h3 fuel hf,
    spline_screw hV hpn v1 _ _ _ h (by rw [v2]; exact h0) h01 h12 h23 (by rw [v3]; exact h3)⟩

/-- C118: the same for left-handed screws -/
theorem C118_screw_left
    (h : ∀ o i j l, o < i → i < j → j < l → l ≤ n → screw (P.getD o ⟨0, 0, 0⟩) (P.getD i ⟨0, 0, 0⟩) (P.getD j ⟨0, 0, 0⟩) (P.getD l ⟨0, 0, 0⟩) ≤ 0)
    (fuel : ℕ) (hf : n + 1 - p ≤ fuel) (t0 t1 t2 t3 : ℝ) (h0 : U.getD p 0 ≤ t0) (h01 : t0 ≤ t1) (h12 : t1 ≤ t2) (h23 : t2 ≤ t3) (h3 : t3 ≤ U.getD (n+1) 0) :
    ∃ a b c d, curvePoint fuel n p U P t0 = .ok a ∧ curvePoint fuel n p U P t1 = .ok b ∧ curvePoint fuel n p U P t2 = .ok c ∧
      curvePoint fuel n p U P t3 = .ok d ∧ screw a b c d ≤ 0 := by
  have swap : ∀ a b c d : R3.Vector ℝ, screw ⟨a.Y, a.X, a.Z⟩ ⟨b.Y, b.X, b.Z⟩ ⟨c.Y, c.X, c.Z⟩ ⟨d.Y, d.X, d.Z⟩ = - screw a b c d := by
    intro a b c d; unfold screw; ring
  obtain ⟨V, hV, v1, v2, v3, v4⟩ := knots_extended hU hpn hlen hlast P hP
  refine ⟨_, _, _, _, v4 t0 h0 (h01.trans (h12.trans (h23.trans h3))) fuel hf, v4 t1 (h0.trans h01) (h12.trans (h23.trans h3)) fuel hf,
    v4 t2 (h0.trans (h01.trans h12)) (h23.trans h3) fuel hf, v4 t3 (h0.trans (h01.trans (h12.trans h23))) h3 fuel hf, ?_⟩
  have := spline_screw hV hpn v1 (fun i => (P.getD i ⟨0, 0, 0⟩).Y) (fun i => (P.getD i ⟨0, 0, 0⟩).X) (fun i => (P.getD i ⟨0, 0, 0⟩).Z)
    (fun o i j l a b c d => by
      have e := h o i j l a b c d
      rw [swap (P.getD o ⟨0, 0, 0⟩) (P.getD i ⟨0, 0, 0⟩) (P.getD j ⟨0, 0, 0⟩) (P.getD l ⟨0, 0, 0⟩)]; linarith)
    (by rw [v2]; exact h0) h01 h12 h23 (by rw [v3]; exact h3)
  unfold dsPoint at this ⊢
  have e := swap (dsPoint V n p (fun i => (P.getD i ⟨0, 0, 0⟩).X) (fun i => (P.getD i ⟨0, 0, 0⟩).Y) (fun i => (P.getD i ⟨0, 0, 0⟩).Z) t0)
    (dsPoint V n p (fun i => (P.getD i ⟨0, 0, 0⟩).X) (fun i => (P.getD i ⟨0, 0, 0⟩).Y) (fun i => (P.getD i ⟨0, 0, 0⟩).Z) t1)
    (dsPoint V n p (fun i => (P.getD i ⟨0, 0, 0⟩).X) (fun i => (P.getD i ⟨0, 0, 0⟩).Y) (fun i => (P.getD i ⟨0, 0, 0⟩).Z) t2)
    (dsPoint V n p (fun i => (P.getD i ⟨0, 0, 0⟩).X) (fun i => (P.getD i ⟨0, 0, 0⟩).Y) (fun i => (P.getD i ⟨0, 0, 0⟩).Z) t3)
  unfold dsPoint at e
  rw [e] at this
  linarith

end

theorem cubic_knots : Nondec [0, 0, 0, 0, 1, 1, 1, 1] := by
  unfold Nondec; intro i j hij hj; simp at hj; interval_cases j <;> interval_cases i <;> decide

/-- a cubic whose control points turn left: so does the curve -/
example (t0 t1 t2 : ℝ) (h0 : 0 ≤ t0) (h01 : t0 ≤ t1) (h12 : t1 ≤ t2) (h2 : t2 ≤ 1) :
    ∃ a b c, curvePoint 1 3 3 [0, 0, 0, 0, 1, 1, 1, 1] [⟨0, 0, 0⟩, ⟨1, 0, 0⟩, ⟨2, 1, 1⟩, ⟨2, 2, 3⟩] t0 = .ok a ∧
      curvePoint 1 3 3 [0, 0, 0, 0, 1, 1, 1, 1] [⟨0, 0, 0⟩, ⟨1, 0, 0⟩, ⟨2, 1, 1⟩, ⟨2, 2, 3⟩] t1 = .ok b ∧
      curvePoint 1 3 3 [0, 0, 0, 0, 1, 1, 1, 1] [⟨0, 0, 0⟩, ⟨1, 0, 0⟩, ⟨2, 1, 1⟩, ⟨2, 2, 3⟩] t2 = .ok c ∧ 0 ≤ (b.X - a.X) * (c.Y - a.Y) - (b.Y - a.Y) * (c.X - a.X) := by
  obtain ⟨a, b, c, ha, hb, hc, h⟩ := C118_convex 3 3 [0, 0, 0, 0, 1, 1, 1, 1] [⟨0, 0, 0⟩, ⟨1, 0, 0⟩, ⟨2, 1, 1⟩, ⟨2, 2, 3⟩] cubic_knots (by norm_num) (by decide)
    (by decide) (by simp) ⟨0, 0, 1⟩ (by intro i j l hij hjl hl; interval_cases l <;> interval_cases j <;> interval_cases i <;> norm_num [turnAbout]) 1 (by norm_num)
    t0 t1 t2 (by simpa using h0) h01 h12 (by simpa using h2)
  exact ⟨a, b, c, ha, hb, hc, by simpa [turnAbout] using h⟩

/-- and its points form right-handed screws -/
example (t0 t1 t2 t3 : ℝ) (h0 : 0 ≤ t0) (h01 : t0 ≤ t1) (h12 : t1 ≤ t2) (h23 : t2 ≤ t3) (h3 : t3 ≤ 1) :
    ∃ a b c d, curvePoint 1 3 3 [0, 0, 0, 0, 1, 1, 1, 1] [⟨0, 0, 0⟩, ⟨1, 0, 0⟩, ⟨2, 1, 1⟩, ⟨2, 2, 3⟩] t0 = .ok a ∧
      curvePoint 1 3 3 [0, 0, 0, 0, 1, 1, 1, 1] [⟨0, 0, 0⟩, ⟨1, 0, 0⟩, ⟨2, 1, 1⟩, ⟨2, 2, 3⟩] t1 = .ok b ∧
      curvePoint 1 3 3 [0, 0, 0, 0, 1, 1, 1, 1] [⟨0, 0, 0⟩, ⟨1, 0, 0⟩, ⟨2, 1, 1⟩, ⟨2, 2, 3⟩] t2 = .ok c ∧
      curvePoint 1 3 3 [0, 0, 0, 0, 1, 1, 1, 1] [⟨0, 0, 0⟩, ⟨1, 0, 0⟩, ⟨2, 1, 1⟩, ⟨2, 2, 3⟩] t3 = .ok d ∧ 0 ≤ screw a b c d :=
  C118_screw 3 3 [0, 0, 0, 0, 1, 1, 1, 1] [⟨0, 0, 0⟩, ⟨1, 0, 0⟩, ⟨2, 1, 1⟩, ⟨2, 2, 3⟩] cubic_knots (by norm_num) (by decide) (by decide) (by simp)
    (by intro o i j l hoi hij hjl hl; interval_cases l <;> interval_cases j <;> interval_cases i <;> interval_cases o <;> norm_num [screw]) 1 (by norm_num)
    t0 t1 t2 t3 (by simpa using h0) h01 h12 h23 (by simpa using h3)

end Verif.Props
