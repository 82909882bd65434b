import Verif.Model.FusedNearest
import Verif.Props.FusedLine
import Verif.Props.NearestFloat
/-!
# C125: the nearest point, however fused
-/
namespace Verif.Props
set_option linter.unusedSectionVars false
open Verif Verif.F64 Verif.Proofs Verif.R3 Verif.Meshing

/-- equal points have distance zero, however it is computed -/
theorem dist_zero_fused {p q : R3.Vector F64} (hp : FinV p) (hq : FinV q) (h : sqDist p q = 0) {d : F64} (hd : DistanceEv p q d) : d.Finite ∧ d.toQ = 0 := by
  unfold sqDist at h
  have hx : p.X.toQ - q.X.toQ = 0 := by nlinarith [sq_nonneg (p.X.toQ - q.X.toQ), sq_nonneg (p.Y.toQ - q.Y.toQ), sq_nonneg (p.Z.toQ - q.Z.toQ)]
  have hy : p.Y.toQ - q.Y.toQ = 0 := by nlinarith [sq_nonneg (p.X.toQ - q.X.toQ), sq_nonneg (p.Y.toQ - q.Y.toQ), sq_nonneg (p.Z.toQ - q.Z.toQ)]
  have hz : p.Z.toQ - q.Z.toQ = 0 := by nlinarith [sq_nonneg (p.X.toQ - q.X.toQ), sq_nonneg (p.Y.toQ - q.Y.toQ), sq_nonneg (p.Z.toQ - q.Z.toQ)]
  have z : ∀ {x y : F64}, x.Finite → y.Finite → x.toQ - y.toQ = 0 → Ex (x - y) 0 0 := by
    intro x y h1 h2 h3
    obtain ⟨f, v⟩ := sub_fin h1 h2 (by rw [h3, rnd_zero]; norm_num)
    exact ⟨f, by rw [v, h3, rnd_zero]; simp, by simp⟩
  have ex : Ex (R3.Sub p q).X 0 0 := z hp.1 hq.1 hx
  have ey : Ex (R3.Sub p q).Y 0 0 := z hp.2.1 hq.2.1 hy
  have ez : Ex (R3.Sub p q).Z 0 0 := z hp.2.2 hq.2.2 hz
  obtain ⟨n, hn, rfl⟩ := hd
  obtain ⟨s, hs, hd⟩ := dot_inv hn
  have e1 : Ex s 0 0 := by
    rcases hs with rfl | rfl | rfl
    · simpa using (ex.mul ex (by norm_num)).add (ey.mul ey (by norm_num)) (by norm_num)
    · simpa using ex.fma ex (ey.mul ey (by norm_num)) (by norm_num)
    · simpa using ey.fma ey (ex.mul ex (by norm_num)) (by norm_num)
  have e2 : Ex n 0 0 := by
    rcases hd with rfl | rfl
    · simpa using e1.add (ez.mul ez (by norm_num)) (by norm_num)
    · simpa using ez.fma ez e1 (by norm_num)
  have f := e2.fin
  have v : n.toQ = 0 := by rw [e2.val]; simp
  cases n with
  | nan => exact absurd f id
  | inf s => exact absurd f id
  | zero s => exact ⟨trivial, rfl⟩
  | fin r hr => exact absurd v hr.1

/-- the points of the search: equal to the query or at a distance between `2^-95` and `2^95` -/
def Reach (q v : R3.Vector F64) : Prop := FinV v ∧ (sqDist v q = 0 ∨ 1 / 2 ^ 190 ≤ sqDist v q ∧ sqDist v q ≤ 2 ^ 190)

theorem dist_fused {q v : R3.Vector F64} (hq : FinV q) (h : Reach q v) {d : F64} (hd : DistanceEv v q d) :
    d.Finite ∧ |(d.toQ : ℝ) - Real.sqrt (sqDist v q)| ≤ 5 / 2 ^ 53 * Real.sqrt (sqDist v q) := by
  obtain ⟨hf, h0 | ⟨h1, h2⟩⟩ := h
  · obtain ⟨a, b⟩ := dist_zero_fused hf hq h0 hd
    exact ⟨a, by rw [b, h0]; simp⟩
  · exact C124_distance hf hq h1 h2 hd

/-- the loop keeps a computed distance and its point, and ends with one that is not larger than any it has seen -/
theorem loop_fused {q : R3.Vector F64} (hq : FinV q) {acc r : F64 × R3.Vector F64} {vs : List (R3.Vector F64)} (h : NearestLoop q acc vs r) :
    acc.1.Finite → (∀ v ∈ vs, Reach q v) → r.1.Finite ∧ r.1.toQ ≤ acc.1.toQ ∧ (r = acc ∨ r.2 ∈ vs ∧ DistanceEv r.2 q r.1) ∧
      ∀ v ∈ vs, ∃ d, DistanceEv v q d ∧ r.1.toQ ≤ d.toQ := by
  induction h with
  | done acc => exact fun f _ => ⟨f, le_rfl, Or.inl rfl, by simp⟩
  | @step acc v vs d r hd _ ih =>
    intro f hv
    obtain ⟨fd, _⟩ := dist_fused hq (hv v (by simp)) hd
    have hv' : ∀ w ∈ vs, Reach q w := fun w hw => hv w (by simp [hw])
    by_cases hle : d ≤ acc.1
    · rw [if_pos hle] at ih
      obtain ⟨a, b, c, e⟩ := ih fd hv'
      refine ⟨a, b.trans ((le_fin fd f).mp hle), Or.inr ?_, fun w hw => ?_⟩
      · rcases c with rfl | ⟨c, c'⟩
        · exact ⟨by simp, hd⟩
        · exact ⟨by simp [c], c'⟩
      · rcases List.mem_cons.mp hw with rfl | hw
        · exact ⟨d, hd, b⟩
        · exact e w hw
    · rw [if_neg hle] at ih
      obtain ⟨a, b, c, e⟩ := ih f hv'
      refine ⟨a, b, c.imp id (fun c => ⟨by simp [c.1], c.2⟩), fun w hw => ?_⟩
      rcases List.mem_cons.mp hw with rfl | hw
      · refine ⟨d, hd, b.trans ?_⟩
        rw [le_fin fd f] at hle
        exact (not_le.mp hle).le
      · exact e w hw

/-- C125: every point the program may return is one of the vertices, and its true distance is at most 1 + 11/2^53 times the least one -/
theorem C125_nearest {vertices : List (R3.Vector F64)} {q p : R3.Vector F64} (hne : vertices ≠ []) (hq : FinV q)
    (h : ∀ v ∈ vertices, FinV v ∧ (sqDist v q = 0 ∨ 1 / 2 ^ 190 ≤ sqDist v q ∧ sqDist v q ≤ 2 ^ 190)) (hp : NearestEv vertices q p) :
    p ∈ vertices ∧ ∀ v ∈ vertices, Real.sqrt (sqDist p q) ≤ (1 + 11 / 2 ^ 53) * Real.sqrt (sqDist v q) := by
  obtain ⟨m, hl⟩ := hp
  obtain ⟨fm, hall, hmem, hd⟩ : m.Finite ∧ (∀ v ∈ vertices, ∃ d, DistanceEv v q d ∧ m.toQ ≤ d.toQ) ∧ p ∈ vertices ∧ DistanceEv p q m := by
    cases hl with
    | done => exact absurd rfl hne
    | @step _ v vs d _ hd hl =>
      obtain ⟨fd, _⟩ := dist_fused hq (h v (by simp)) hd
      have hle : d ≤ (GoConst.const maxFloat64 : F64) := by
        rw [le_fin fd maxFloat64_float.1, maxFloat64_float.2]
        exact le_maxFloat64 d
      rw [if_pos hle] at hl
      obtain ⟨a, b, c, e⟩ := loop_fused hq hl fd (fun w hw => h w (by simp [hw]))
      refine ⟨a, fun w hw => ?_, ?_⟩
      · rcases List.mem_cons.mp hw with rfl | hw
        · exact ⟨d, hd, b⟩
        · exact e w hw
      · rcases c with c | ⟨c, c'⟩
        · obtain ⟨rfl, rfl⟩ := Prod.mk.inj c
          exact ⟨by simp, hd⟩
        · exact ⟨by simp [c], c'⟩
  refine ⟨hmem, fun v hv => ?_⟩
  obtain ⟨d, hdv, hle⟩ := hall v hv
  have hle' : (m.toQ : ℝ) ≤ (d.toQ : ℝ) := by exact_mod_cast hle
  have e1 := abs_le.mp (dist_fused hq (h p hmem) hd).2
  have e2 := abs_le.mp (dist_fused hq (h v hv) hdv).2
  have p0 := Real.sqrt_nonneg ((sqDist v q : ℚ) : ℝ)
  generalize Real.sqrt ((sqDist v q : ℚ) : ℝ) = s at *
  generalize Real.sqrt ((sqDist p q : ℚ) : ℝ) = t at *
  have g : (1 - 5 / 2 ^ 53) * t ≤ (1 + 5 / 2 ^ 53) * s := by linarith [e1.1, e2.2]
  have g2 : (1 + 5 / 2 ^ 53 : ℝ) ≤ (1 - 5 / 2 ^ 53) * (1 + 11 / 2 ^ 53) := by norm_num
  have g3 : (1 - 5 / 2 ^ 53 : ℝ) * t ≤ (1 - 5 / 2 ^ 53) * ((1 + 11 / 2 ^ 53) * s) :=
    g.trans ((mul_le_mul_of_nonneg_right g2 p0).trans (le_of_eq (by ring)))
  exact le_of_mul_le_mul_left g3 (by norm_num)

theorem loop_plain (q : R3.Vector F64) (vs : List (R3.Vector F64)) (acc : F64 × R3.Vector F64) :
    NearestLoop q acc vs (vs.foldl (fun (acc : F64 × R3.Vector F64) vertex =>
      let distance := Distance vertex q
      if distance ≤ acc.1 then (distance, vertex) else acc) acc) := by
  induction vs generalizing acc with
  | nil => exact .done acc
  | cons v vs ih => exact .step (C124_plain_norm v q).2.2.1 (ih _)

/-- C125: the point returned without fusing is one of them -/
theorem C125_plain (vertices : List (R3.Vector F64)) (q : R3.Vector F64) : NearestEv vertices q (getNearestPoint vertices q) :=
  ⟨_, loop_plain q vertices _⟩

/-- C125: no vertices, no choice: the origin -/
theorem C125_empty {q p : R3.Vector F64} (h : NearestEv [] q p) : p = ⟨0, 0, 0⟩ := by
  obtain ⟨m, h⟩ := h
  cases h; rfl

/-- decimal points, one of them the query itself, meet the hypotheses -/
example : let q : R3.Vector F64 := ⟨GoConst.const (1 / 10), GoConst.const (-7 / 3), 1⟩
    FinV q ∧ ∀ v ∈ [q, ⟨GoConst.const (1 / 3), 0, GoConst.const (10 ^ 6)⟩, ⟨GoConst.const (1 / 10), GoConst.const (-7 / 3), GoConst.const (11 / 10)⟩],
      FinV v ∧ (sqDist v q = 0 ∨ 1 / 2 ^ 190 ≤ sqDist v q ∧ sqDist v q ≤ 2 ^ 190) := by
  unfold FinV
  decide +kernel

end Verif.Props
