import Mathlib.Tactic.FieldSimp
import Mathlib.Tactic.LinearCombination
import Mathlib.Tactic.Positivity
import Mathlib.Algebra.Order.Floor.Ring
import Verif.Props.Delaunator
/-!
# The seed triangle in exact arithmetic (triangulator.go:81-128)
-/
namespace Verif.Proofs
open Verif Verif.Tri2 Verif.Props

variable {K : Type} [Field K] [LinearOrder K] [IsStrictOrderedRing K]

/-- one step of a search for the smallest value -/
def aminStep {α : Type} (f : α × ℕ → Option K) (acc : ℕ × Option K) (x : α × ℕ) : ℕ × Option K :=
  match f x with
  | none => acc
  | some d => if ltInf d acc.2 then (x.2, some d) else acc

omit [IsStrictOrderedRing K] in
theorem amin_spec {α : Type} (f : α × ℕ → Option K) (L : List (α × ℕ)) :
    ((L.foldl (aminStep f) (0, none)) = (0, none) ∧ ∀ x ∈ L, f x = none) ∨
    ∃ x ∈ L, ∃ d, L.foldl (aminStep f) (0, none) = (x.2, some d) ∧ f x = some d ∧ ∀ y ∈ L, ∀ d', f y = some d' → d ≤ d' := by
  induction L using List.reverseRecOn with
  | nil => left; simp
  | append_singleton L x ih =>
    rw [List.foldl_append, List.foldl_cons, List.foldl_nil]
    cases hfx : f x with
    | none =>
      have e : ∀ acc, aminStep f acc x = acc := fun acc => by unfold aminStep; rw [hfx]
      rw [e]
      rcases ih with ⟨h1, h2⟩ | ⟨y, hy, d, h1, h2, h3⟩
      · left
        refine ⟨h1, fun y hy => ?_⟩
        rcases List.mem_append.mp hy with hy | hy
        · exact h2 y hy
        · rw [List.mem_singleton.mp hy]; exact hfx
      · right
        refine ⟨y, List.mem_append_left _ hy, d, h1, h2, fun z hz d' hd => ?_⟩
        rcases List.mem_append.mp hz with hz | hz
        · exact h3 z hz d' hd
        · rw [List.mem_singleton.mp hz, hfx] at hd; cases hd
    | some d =>
      right
      rcases ih with ⟨h1, h2⟩ | ⟨y, hy, d0, h1, h2, h3⟩
      · refine ⟨x, by simp, d, ?_, hfx, fun z hz d' hd => ?_⟩
        · rw [h1]; unfold aminStep; rw [hfx]; simp [ltInf]
        · rcases List.mem_append.mp hz with hz | hz
          · rw [h2 z hz] at hd; cases hd
          · rw [List.mem_singleton.mp hz, hfx] at hd; injection hd with hd; exact hd.le
      · by_cases hlt : d < d0
        · refine ⟨x, by simp, d, ?_, hfx, fun z hz d' hd => ?_⟩
          · rw [h1]; unfold aminStep; rw [hfx]; simp [ltInf, hlt]
          · rcases List.mem_append.mp hz with hz | hz
            · exact hlt.le.trans (h3 z hz d' hd)
            · rw [List.mem_singleton.mp hz, hfx] at hd; injection hd with hd; exact hd.le
        · refine ⟨y, List.mem_append_left _ hy, d0, ?_, h2, fun z hz d' hd => ?_⟩
          · rw [h1]; unfold aminStep; rw [hfx]; simp [ltInf, hlt]
          · rcases List.mem_append.mp hz with hz | hz
            · exact h3 z hz d' hd
            · rw [List.mem_singleton.mp hz, hfx] at hd; injection hd with hd; rw [← hd]; exact not_lt.mp hlt

theorem mem_zipIdx' {α : Type} {l : List α} {x : α × ℕ} : x ∈ l.zipIdx ↔ l[x.2]? = some x.1 := by
  rw [List.mem_zipIdx_iff_getElem?]

/-- the points lie in a plane parallel to z = 0 -/
def Planar (Vs : List (R3.Vector K)) : Prop := ∃ z, ∀ v ∈ Vs, v.Z = z

/-- planar squared distance -/
def dist2 (p q : R3.Vector K) : K := (p.X - q.X)^2 + (p.Y - q.Y)^2

omit [LinearOrder K] [IsStrictOrderedRing K] in
theorem sq_planar {p q : R3.Vector K} (h : p.Z = q.Z) : R3.SquaredDistance p q = dist2 p q := by
  simp only [R3.SquaredDistance, R3.Vector.Norm2, R3.Dot, R3.Sub, dist2, h]; ring

/-- the index found by the first search is valid -/
theorem seed0_lt (Vs : List (R3.Vector K)) (m : R3.Vector K) (hne : Vs ≠ []) : seed0 Vs m < Vs.length := by
  have e : seed0 Vs m = (Vs.zipIdx.foldl (aminStep fun pi => some (R3.SquaredDistance pi.1 m)) (0, none)).1 := by
    unfold seed0; rfl
  rw [e]
  rcases amin_spec (fun pi : R3.Vector K × ℕ => some (R3.SquaredDistance pi.1 m)) Vs.zipIdx with ⟨h, h'⟩ | ⟨x, hx, d, h, _⟩
  · rw [h]; exact List.length_pos_iff.mpr hne
  · rw [h]
    rw [mem_zipIdx'] at hx
    exact (List.getElem?_eq_some_iff.mp hx).1

/-- the second search: the closest point different from `p0` -/
theorem seed1_spec (Vs : List (R3.Vector K)) (i0 : ℕ) (p0 : R3.Vector K) :
    (seed1 Vs i0 p0 = 0 ∧ ∀ i v, Vs[i]? = some v → i ≠ i0 → ¬ 0 < R3.SquaredDistance v p0) ∨
    ∃ p1, Vs[seed1 Vs i0 p0]? = some p1 ∧ seed1 Vs i0 p0 ≠ i0 ∧ 0 < R3.SquaredDistance p1 p0 ∧
      ∀ i v, Vs[i]? = some v → i ≠ i0 → 0 < R3.SquaredDistance v p0 → R3.SquaredDistance p1 p0 ≤ R3.SquaredDistance v p0 := by
  set f : R3.Vector K × ℕ → Option K := fun pi => if pi.2 = i0 then none else if 0 < R3.SquaredDistance pi.1 p0 then some (R3.SquaredDistance pi.1 p0) else none with hf
  have e : seed1 Vs i0 p0 = (Vs.zipIdx.foldl (aminStep f) (0, none)).1 := by
    unfold seed1
    congr 2
    funext acc pi
    unfold aminStep
    simp only [hf]
    by_cases h1 : pi.2 = i0
    · simp [h1]
    · by_cases h2 : 0 < R3.SquaredDistance pi.1 p0
      · simp [h1, h2]
      · simp [h1, h2]
  rw [e]
  rcases amin_spec f Vs.zipIdx with ⟨h, h'⟩ | ⟨x, hx, d, h, hfx, hmin⟩
  · left
    refine ⟨by rw [h], fun i v hv hi hlt => ?_⟩
    have := h' (v, i) (by rw [mem_zipIdx']; exact hv)
    simp [hf, hi, hlt] at this
  · right
    rw [h]
    rw [mem_zipIdx'] at hx
    have hx0 : x.2 ≠ i0 := by intro e; simp [hf, e] at hfx
    have hxp : 0 < R3.SquaredDistance x.1 p0 := by
      by_contra e; simp [hf, e] at hfx
    refine ⟨x.1, hx, hx0, hxp, fun i v hv hi hlt => ?_⟩
    have := hmin (v, i) (by rw [mem_zipIdx']; exact hv) (R3.SquaredDistance v p0) (by simp [hf, hi, hlt])
    simp [hf, hx0, hxp] at hfx
    rw [hfx]; exact this

/-- the third search -/
theorem seed2_spec (Vs : List (R3.Vector K)) (i0 i1 : ℕ) (p0 p1 : R3.Vector K) :
    ((seed2 Vs i0 i1 p0 p1) = (0, none) ∧ ∀ i v, Vs[i]? = some v → i ≠ i0 → i ≠ i1 → circumradius p0 p1 v = none) ∨
    ∃ i2 p2 r, seed2 Vs i0 i1 p0 p1 = (i2, some r) ∧ Vs[i2]? = some p2 ∧ i2 ≠ i0 ∧ i2 ≠ i1 ∧ circumradius p0 p1 p2 = some r ∧
      ∀ i v r', Vs[i]? = some v → i ≠ i0 → i ≠ i1 → circumradius p0 p1 v = some r' → r ≤ r' := by
  set f : R3.Vector K × ℕ → Option K := fun pi => if pi.2 = i0 ∨ pi.2 = i1 then none else circumradius p0 p1 pi.1 with hf
  have e : seed2 Vs i0 i1 p0 p1 = (Vs.zipIdx.foldl (aminStep f) (0, none)) := by
    unfold seed2
    congr 1
    funext acc pi
    unfold aminStep
    simp only [hf]
    by_cases h1 : pi.2 = i0 ∨ pi.2 = i1
    · simp [h1]
    · simp only [h1, if_false]
      cases circumradius p0 p1 pi.1 <;> rfl
  rw [e]
  rcases amin_spec f Vs.zipIdx with ⟨h, h'⟩ | ⟨x, hx, d, h, hfx, hmin⟩
  · left
    refine ⟨h, fun i v hv hi hi' => ?_⟩
    have := h' (v, i) (by rw [mem_zipIdx']; exact hv)
    simpa [hf, hi, hi'] using this
  · right
    rw [mem_zipIdx'] at hx
    have hx0 : ¬ (x.2 = i0 ∨ x.2 = i1) := by intro e; simp only [hf, if_pos e] at hfx; cases hfx
    simp only [hf, if_neg hx0] at hfx
    push Not at hx0
    refine ⟨x.2, x.1, d, h, hx, hx0.1, hx0.2, hfx, fun i v r' hv hi hi' hr => ?_⟩
    exact hmin (v, i) (by rw [mem_zipIdx']; exact hv) r' (by simp only [hf]; rw [if_neg (by tauto)]; exact hr)

/-- the cross product whose vanishing means collinear with `p0`, `p1` -/
def dOf (p0 p1 v : R3.Vector K) : K := (p1.X - p0.X)*(v.Y - p0.Y) - (p1.Y - p0.Y)*(v.X - p0.X)

/-- `(v - p0)·(v - p1)` -/
def fOf (p0 p1 v : R3.Vector K) : K := (v.X - p0.X)*(v.X - p1.X) + (v.Y - p0.Y)*(v.Y - p1.Y)

theorem dist2_pos {p q : R3.Vector K} : 0 < dist2 p q ↔ ¬ (p.X = q.X ∧ p.Y = q.Y) := by
  unfold dist2
  constructor
  · rintro h ⟨h1, h2⟩
    rw [h1, h2] at h; simp at h
  · intro h
    by_contra h'
    have h1 : 0 ≤ (p.X - q.X)^2 := sq_nonneg _
    have h2 : 0 ≤ (p.Y - q.Y)^2 := sq_nonneg _
    have e1 : (p.X - q.X)^2 = 0 := by linarith
    have e2 : (p.Y - q.Y)^2 = 0 := by linarith
    exact h ⟨by have := pow_eq_zero_iff (n := 2) (by norm_num) |>.mp e1; linarith, by have := pow_eq_zero_iff (n := 2) (by norm_num) |>.mp e2; linarith⟩

omit [LinearOrder K] [IsStrictOrderedRing K] in
theorem radius_aux [CharZero K] (a b c d : K) (h : a*d - b*c ≠ 0) :
    (d*(a*a+b*b) - b*(c*c+d*d)) * ((1/2 : ℚ) : K) / (a*d - b*c) * ((d*(a*a+b*b) - b*(c*c+d*d)) * ((1/2 : ℚ) : K) / (a*d - b*c)) +
    (a*(c*c+d*d) - c*(a*a+b*b)) * ((1/2 : ℚ) : K) / (a*d - b*c) * ((a*(c*c+d*d) - c*(a*a+b*b)) * ((1/2 : ℚ) : K) / (a*d - b*c)) =
    (a*a+b*b)/4 * (1 + ((c*(c-a) + d*(d-b)) / (a*d - b*c))^2) := by
  have h2 : ((1/2 : ℚ) : K) = 1/2 := by push_cast; ring
  obtain ⟨D, hD⟩ : ∃ D, D = a*d - b*c := ⟨_, rfl⟩
  rw [h2]
  rw [← hD] at h ⊢
  field_simp
  rw [hD]
  ring

/-- the squared circumradius -/
theorem circumradius_spec {p0 p1 v : R3.Vector K} (h1 : 0 < dist2 p1 p0) :
    (dOf p0 p1 v = 0 → circumradius p0 p1 v = none) ∧
    (dOf p0 p1 v ≠ 0 → circumradius p0 p1 v = some (dist2 p1 p0 / 4 * (1 + (fOf p0 p1 v / dOf p0 p1 v)^2))) := by
  constructor
  · intro h
    simp only [circumradius]
    have : (p1.X - p0.X) * (v.Y - p0.Y) - (p1.Y - p0.Y) * (v.X - p0.X) = 0 := h
    rw [this]
    simp
  · intro h
    have hd : (p1.X - p0.X) * (v.Y - p0.Y) - (p1.Y - p0.Y) * (v.X - p0.X) ≠ 0 := h
    have hb : (p1.X - p0.X) * (p1.X - p0.X) + (p1.Y - p0.Y) * (p1.Y - p0.Y) ≠ 0 := by
      have : (p1.X - p0.X) * (p1.X - p0.X) + (p1.Y - p0.Y) * (p1.Y - p0.Y) = dist2 p1 p0 := by unfold dist2; ring
      rw [this]; exact h1.ne'
    have hc : (v.X - p0.X) * (v.X - p0.X) + (v.Y - p0.Y) * (v.Y - p0.Y) ≠ 0 := by
      intro e
      have : ¬ 0 < dist2 v p0 := by unfold dist2; nlinarith
      rw [dist2_pos, not_not] at this
      apply hd
      rw [this.1, this.2]; ring
    have key := radius_aux (p1.X - p0.X) (p1.Y - p0.Y) (v.X - p0.X) (v.Y - p0.Y) hd
    have e2 : dist2 p1 p0 / 4 * (1 + (fOf p0 p1 v / dOf p0 p1 v)^2) =
        ((p1.X - p0.X) * (p1.X - p0.X) + (p1.Y - p0.Y) * (p1.Y - p0.Y)) / 4 * (1 + (((v.X - p0.X)*((v.X - p0.X) - (p1.X - p0.X)) +
          (v.Y - p0.Y)*((v.Y - p0.Y) - (p1.Y - p0.Y))) / ((p1.X - p0.X) * (v.Y - p0.Y) - (p1.Y - p0.Y) * (v.X - p0.X)))^2) := by
      have e3 : fOf p0 p1 v = (v.X - p0.X)*((v.X - p0.X) - (p1.X - p0.X)) + (v.Y - p0.Y)*((v.Y - p0.Y) - (p1.Y - p0.Y)) := by unfold fOf; ring
      have e4 : dist2 p1 p0 = (p1.X - p0.X) * (p1.X - p0.X) + (p1.Y - p0.Y) * (p1.Y - p0.Y) := by unfold dist2; ring
      rw [e3, e4]; rfl
    have e5 : dist2 p1 p0 / 4 * (1 + (fOf p0 p1 v / dOf p0 p1 v)^2) ≠ 0 := by positivity
    rw [e2] at e5 ⊢
    rw [← key] at e5 ⊢
    simp only [circumradius, goConst_field]
    rw [if_neg]
    simp only [Bool.or_eq_true, beq_iff_eq, not_or]
    exact ⟨⟨⟨hb, hc⟩, hd⟩, e5⟩

/-- the seed circle is empty: `p1` closest to `p0`, `p2` with the smallest circumradius -/
theorem seed_empty {p0 p1 p2 v : R3.Vector K} (h1 : 0 < dist2 p1 p0) (hd2 : dOf p0 p1 p2 ≠ 0)
    (h2 : dist2 p1 p0 ≤ dist2 p2 p0)
    (hv : 0 < dist2 v p0 → dist2 p1 p0 ≤ dist2 v p0)
    (hr : dOf p0 p1 v ≠ 0 → (fOf p0 p1 p2 / dOf p0 p1 p2)^2 ≤ (fOf p0 p1 v / dOf p0 p1 v)^2) :
    0 ≤ dOf p0 p1 p2 * (dOf p0 p1 p2 * fOf p0 p1 v - fOf p0 p1 p2 * dOf p0 p1 v) := by
  have fpos : ∀ w : R3.Vector K, (0 < dist2 w p0 → dist2 p1 p0 ≤ dist2 w p0) → 0 ≤ fOf p0 p1 w := by
    intro w hw
    by_cases h : 0 < dist2 w p0
    · have := hw h
      unfold dist2 fOf at *
      nlinarith [sq_nonneg (w.X - p1.X), sq_nonneg (w.Y - p1.Y)]
    · rw [dist2_pos, not_not] at h
      unfold fOf; rw [h.1, h.2]; simp
  have f2 := fpos p2 (fun _ => h2)
  have fv := fpos v hv
  by_cases hdv : dOf p0 p1 v = 0
  · rw [hdv, mul_zero, sub_zero, ← mul_assoc]
    exact mul_nonneg (mul_self_nonneg _) fv
  · have h := hr hdv
    rw [div_pow, div_pow, div_le_div_iff₀ (by positivity) (by positivity), ← mul_pow, ← mul_pow] at h
    set d2 := dOf p0 p1 p2
    set dv := dOf p0 p1 v
    set a := fOf p0 p1 p2
    set b := fOf p0 p1 v
    have : |a * dv| ≤ |b * d2| := sq_le_sq.mp h
    rw [abs_mul, abs_mul, abs_of_nonneg f2, abs_of_nonneg fv] at this
    have h3 : d2 * (d2 * b - a * dv) = |d2| * (|d2| * b) - d2 * (a * dv) := by
      rw [← mul_assoc, abs_mul_abs_self]; ring
    rw [h3]
    have h4 : d2 * (a * dv) ≤ |d2| * (a * |dv|) := by
      calc d2 * (a * dv) ≤ |d2 * (a * dv)| := le_abs_self _
        _ = |d2| * (a * |dv|) := by rw [abs_mul, abs_mul, abs_of_nonneg f2]
    have h5 : |d2| * (a * |dv|) ≤ |d2| * (|d2| * b) := by
      apply mul_le_mul_of_nonneg_left _ (abs_nonneg _)
      linarith
    linarith

omit [LinearOrder K] [IsStrictOrderedRing K] in
theorem det_dOf (p0 p1 p2 v : R3.Vector K) : inCircleDet p0 p1 p2 v = - (dOf p0 p1 p2 * fOf p0 p1 v - fOf p0 p1 p2 * dOf p0 p1 v) := by
  simp only [inCircleDet, dOf, fOf]; ring

omit [LinearOrder K] [IsStrictOrderedRing K] in
theorem area_dOf (p0 p1 p2 : R3.Vector K) : area p0 p1 p2 = - dOf p0 p1 p2 := by
  simp only [area, dOf]; ring

end Verif.Proofs
