import Verif.Proofs.VolFloat
import Verif.Props.DelaunatorFloat
import Verif.Props.Meshing
/-!
# C83: bounding boxes and the super-tetrahedron of package meshing at binary64
-/
namespace Verif.Props
open Verif Verif.F64 Verif.Proofs Verif.Meshing Verif.Tri3 Verif.R3

/-- the coordinates are numbers -/
def AllFin (v : R3.Vector F64) : Prop := v.X.Finite ∧ v.Y.Finite ∧ v.Z.Finite

theorem const_bin {m : ℤ} {e : ℕ} (hm : |m| < 2 ^ 53) (he : e ≤ 971) :
    (GoConst.const ((m : ℚ) * 2 ^ e) : F64).Finite ∧ (GoConst.const ((m : ℚ) * 2 ^ e) : F64).toQ = m * 2 ^ e := by
  have hr : rnd ((m:ℚ) * 2 ^ e) = m * 2 ^ e := by
    have := rnd_id (K := ℚ) (q := m * 2 ^ e) ⟨m, e, hm, by omega, by simp⟩
    simpa using this
  have hlt : |(m:ℚ) * 2 ^ e| < 2 ^ 1024 := by
    have hn : |(m:ℚ)| < 2 ^ 53 := by exact_mod_cast hm
    have hp : (0:ℚ) < 2 ^ e := by positivity
    rw [abs_mul, abs_of_pos hp]
    calc |(m:ℚ)| * 2 ^ e < 2 ^ 53 * 2 ^ e := mul_lt_mul_of_pos_right hn hp
      _ = 2 ^ (53 + e) := by rw [pow_add]
      _ ≤ 2 ^ 1024 := pow_le_pow_right₀ (by norm_num) (by omega)
  obtain ⟨f, v⟩ := round_fin (s := false) (x := (m:ℚ) * 2 ^ e) (by rw [hr]; exact hlt)
  exact ⟨f, v.trans hr⟩

theorem max64 : (GoConst.const maxFloat64 : F64).Finite ∧ (GoConst.const maxFloat64 : F64).toQ = maxFloat64 := by
  have := const_bin (m := 2 ^ 53 - 1) (e := 971) (by norm_num) (by norm_num)
  have e : ((2 ^ 53 - 1 : ℤ) : ℚ) = 2 ^ 53 - 1 := by push_cast; ring
  unfold maxFloat64
  rw [e] at this
  exact this

theorem max32 : (GoConst.const maxFloat32 : F64).Finite ∧ (GoConst.const maxFloat32 : F64).toQ = maxFloat32 := by
  have := const_bin (m := 2 ^ 24 - 1) (e := 104) (by norm_num) (by norm_num)
  have e : ((2 ^ 24 - 1 : ℤ) : ℚ) = 2 ^ 24 - 1 := by push_cast; ring
  unfold maxFloat32
  rw [e] at this
  exact this

/-- one step of the bounding-box loops -/
def boxStep {α : Type} [LT α] [DecidableLT α] (h : R3.Vector α × R3.Vector α) (P : R3.Vector α) : R3.Vector α × R3.Vector α :=
  (⟨if P.X < h.1.X then P.X else h.1.X, if P.Y < h.1.Y then P.Y else h.1.Y, if P.Z < h.1.Z then P.Z else h.1.Z⟩,
   ⟨if h.2.X < P.X then P.X else h.2.X, if h.2.Y < P.Y then P.Y else h.2.Y, if h.2.Z < P.Z then P.Z else h.2.Z⟩)

theorem extremas_fold {α : Type} [LT α] [DecidableLT α] [Neg α] [GoConst α] (points : List (R3.Vector α)) :
    ((findExtremas points).min, (findExtremas points).max) =
      points.foldl boxStep (⟨GoConst.const maxFloat64, GoConst.const maxFloat64, GoConst.const maxFloat64⟩,
        ⟨-GoConst.const maxFloat64, -GoConst.const maxFloat64, -GoConst.const maxFloat64⟩) := by
  unfold findExtremas
  dsimp only
  generalize (⟨GoConst.const maxFloat64, GoConst.const maxFloat64, GoConst.const maxFloat64⟩ : R3.Vector α) = a
  generalize (⟨-GoConst.const maxFloat64, -GoConst.const maxFloat64, -GoConst.const maxFloat64⟩ : R3.Vector α) = b
  induction points generalizing a b with
  | nil => rfl
  | cons P ps ih =>
    rw [List.foldl_cons, List.foldl_cons]
    rw [show boxStep (a, b) P = ((boxStep (a, b) P).1, (boxStep (a, b) P).2) from rfl, ← ih]
    have e : (let h : Helper α := ⟨a, b⟩
        let h := if h.max.X < P.X then { h with max := { h.max with X := P.X } } else h
        let h := if h.max.Y < P.Y then { h with max := { h.max with Y := P.Y } } else h
        let h := if h.max.Z < P.Z then { h with max := { h.max with Z := P.Z } } else h
        let h := if P.X < h.min.X then { h with min := { h.min with X := P.X } } else h
        let h := if P.Y < h.min.Y then { h with min := { h.min with Y := P.Y } } else h
        let h := if P.Z < h.min.Z then { h with min := { h.min with Z := P.Z } } else h
        h) = ⟨(boxStep (a, b) P).1, (boxStep (a, b) P).2⟩ := by
      obtain ⟨a1, a2, a3⟩ := a
      obtain ⟨b1, b2, b3⟩ := b
      unfold boxStep
      by_cases q1 : P.X < a1 <;> by_cases q2 : P.Y < a2 <;> by_cases q3 : P.Z < a3 <;>
        by_cases q4 : b1 < P.X <;> by_cases q5 : b2 < P.Y <;> by_cases q6 : b3 < P.Z <;> simp [q1, q2, q3, q4, q5, q6]
    dsimp only at e
    rw [e]

theorem boxes_fold {α : Type} [LT α] [DecidableLT α] [Neg α] [GoConst α] (points : List (R3.Vector α)) :
    computeBoundingBoxForVectors points =
      points.foldl boxStep (⟨GoConst.const maxFloat32, GoConst.const maxFloat32, GoConst.const maxFloat32⟩,
        ⟨-GoConst.const maxFloat32, -GoConst.const maxFloat32, -GoConst.const maxFloat32⟩) := by
  unfold computeBoundingBoxForVectors
  dsimp only
  generalize (⟨GoConst.const maxFloat32, GoConst.const maxFloat32, GoConst.const maxFloat32⟩ : R3.Vector α) = a
  generalize (⟨-GoConst.const maxFloat32, -GoConst.const maxFloat32, -GoConst.const maxFloat32⟩ : R3.Vector α) = b
  induction points generalizing a b with
  | nil => rfl
  | cons P ps ih =>
    rw [List.foldl_cons, List.foldl_cons]
    rw [show boxStep (a, b) P = ((boxStep (a, b) P).1, (boxStep (a, b) P).2) from rfl, ← ih]
    have e : (let mn := a
        let mx := b
        let mn := if P.X < mn.X then { mn with X := P.X } else mn
        let mn := if P.Y < mn.Y then { mn with Y := P.Y } else mn
        let mn := if P.Z < mn.Z then { mn with Z := P.Z } else mn
        let mx := if mx.X < P.X then { mx with X := P.X } else mx
        let mx := if mx.Y < P.Y then { mx with Y := P.Y } else mx
        let mx := if mx.Z < P.Z then { mx with Z := P.Z } else mx
        (mn, mx)) = ((boxStep (a, b) P).1, (boxStep (a, b) P).2) := by
      obtain ⟨a1, a2, a3⟩ := a
      obtain ⟨b1, b2, b3⟩ := b
      unfold boxStep
      by_cases q1 : P.X < a1 <;> by_cases q2 : P.Y < a2 <;> by_cases q3 : P.Z < a3 <;>
        by_cases q4 : b1 < P.X <;> by_cases q5 : b2 < P.Y <;> by_cases q6 : b3 < P.Z <;> simp [q1, q2, q3, q4, q5, q6]
    dsimp only at e
    rw [e]

theorem boxStep_exact {a b P : R3.Vector F64} (ha : AllFin a) (hb : AllFin b) (hp : AllFin P) :
    AllFin (boxStep (a, b) P).1 ∧ AllFin (boxStep (a, b) P).2 ∧
    boxStep (exactV a, exactV b) (exactV P) = (exactV (boxStep (a, b) P).1, exactV (boxStep (a, b) P).2) := by
  have fin_ite : ∀ {c : Prop} [Decidable c] {u w : F64}, u.Finite → w.Finite → (if c then u else w).Finite := by
    intro c _ u w hu hw; split_ifs <;> assumption
  have val : ∀ {u w : F64}, u.Finite → w.Finite → (if u < w then w else u).toQ = if u.toQ < w.toQ then w.toQ else u.toQ := by
    intro u w hu hw
    have := lt_fin hu hw
    by_cases h : u < w
    · rw [if_pos h, if_pos (this.mp h)]
    · rw [if_neg h, if_neg (fun h' => h (this.mpr h'))]
  have val' : ∀ {u w : F64}, u.Finite → w.Finite → (if w < u then w else u).toQ = if w.toQ < u.toQ then w.toQ else u.toQ := by
    intro u w hu hw
    have := lt_fin hw hu
    by_cases h : w < u
    · rw [if_pos h, if_pos (this.mp h)]
    · rw [if_neg h, if_neg (fun h' => h (this.mpr h'))]
  refine ⟨⟨fin_ite hp.1 ha.1, fin_ite hp.2.1 ha.2.1, fin_ite hp.2.2 ha.2.2⟩, ⟨fin_ite hp.1 hb.1, fin_ite hp.2.1 hb.2.1, fin_ite hp.2.2 hb.2.2⟩, ?_⟩
  unfold boxStep exactV
  dsimp only
  rw [val hb.1 hp.1, val hb.2.1 hp.2.1, val hb.2.2 hp.2.2, val' ha.1 hp.1, val' ha.2.1 hp.2.1, val' ha.2.2 hp.2.2]

theorem fold_exact : ∀ (points : List (R3.Vector F64)) (a b : R3.Vector F64), AllFin a → AllFin b → (∀ p ∈ points, AllFin p) →
    AllFin (points.foldl boxStep (a, b)).1 ∧ AllFin (points.foldl boxStep (a, b)).2 ∧
    (points.map exactV).foldl boxStep (exactV a, exactV b) = (exactV (points.foldl boxStep (a, b)).1, exactV (points.foldl boxStep (a, b)).2)
  | [], a, b, ha, hb, _ => ⟨ha, hb, rfl⟩
  | P :: ps, a, b, ha, hb, h => by
    obtain ⟨f1, f2, e⟩ := boxStep_exact ha hb (h P (by simp))
    rw [List.map_cons, List.foldl_cons, List.foldl_cons, e]
    exact fold_exact ps (boxStep (a, b) P).1 (boxStep (a, b) P).2 f1 f2 (fun q hq => h q (List.mem_cons_of_mem _ hq))

/-- C83: on finite points the float64 extremes of `findExtremas` are exact -/
theorem C83_extremas (points : List (R3.Vector F64)) (h : ∀ p ∈ points, AllFin p) :
    AllFin (findExtremas points).min ∧ AllFin (findExtremas points).max ∧
    exactV (findExtremas points).min = (findExtremas (points.map exactV)).min ∧ exactV (findExtremas points).max = (findExtremas (points.map exactV)).max := by
  obtain ⟨f, v⟩ := max64
  obtain ⟨f', v'⟩ := neg_fin f
  obtain ⟨g1, g2, e⟩ := fold_exact points _ _ (⟨f, f, f⟩ : AllFin ⟨GoConst.const maxFloat64, GoConst.const maxFloat64, GoConst.const maxFloat64⟩)
    (⟨f', f', f'⟩ : AllFin ⟨-GoConst.const maxFloat64, -GoConst.const maxFloat64, -GoConst.const maxFloat64⟩) h
  have e1 := extremas_fold points
  have e2 := extremas_fold (points.map exactV)
  have i : (exactV ⟨GoConst.const maxFloat64, GoConst.const maxFloat64, GoConst.const maxFloat64⟩, exactV ⟨-GoConst.const maxFloat64, -GoConst.const maxFloat64, -GoConst.const maxFloat64⟩) =
      ((⟨GoConst.const maxFloat64, GoConst.const maxFloat64, GoConst.const maxFloat64⟩ : R3.Vector ℚ), (⟨-GoConst.const maxFloat64, -GoConst.const maxFloat64, -GoConst.const maxFloat64⟩ : R3.Vector ℚ)) := by
    unfold exactV; dsimp only; rw [v', v]; rfl
  rw [i, ← e2, ← e1] at e
  rw [← e1] at g1 g2
  obtain ⟨q1, q2⟩ := Prod.mk.inj e
  exact ⟨g1, g2, q1.symm, q2.symm⟩

/-- C83: the same for `computeBoundingBoxForVectors` of package triangulate3 -/
theorem C83_box (points : List (R3.Vector F64)) (h : ∀ p ∈ points, AllFin p) :
    AllFin (computeBoundingBoxForVectors points).1 ∧ AllFin (computeBoundingBoxForVectors points).2 ∧
    computeBoundingBoxForVectors (points.map exactV) = (exactV (computeBoundingBoxForVectors points).1, exactV (computeBoundingBoxForVectors points).2) := by
  obtain ⟨f, v⟩ := max32
  obtain ⟨f', v'⟩ := neg_fin f
  obtain ⟨g1, g2, e⟩ := fold_exact points _ _ (⟨f, f, f⟩ : AllFin ⟨GoConst.const maxFloat32, GoConst.const maxFloat32, GoConst.const maxFloat32⟩)
    (⟨f', f', f'⟩ : AllFin ⟨-GoConst.const maxFloat32, -GoConst.const maxFloat32, -GoConst.const maxFloat32⟩) h
  have i : (exactV ⟨GoConst.const maxFloat32, GoConst.const maxFloat32, GoConst.const maxFloat32⟩, exactV ⟨-GoConst.const maxFloat32, -GoConst.const maxFloat32, -GoConst.const maxFloat32⟩) =
      ((⟨GoConst.const maxFloat32, GoConst.const maxFloat32, GoConst.const maxFloat32⟩ : R3.Vector ℚ), (⟨-GoConst.const maxFloat32, -GoConst.const maxFloat32, -GoConst.const maxFloat32⟩ : R3.Vector ℚ)) := by
    unfold exactV; dsimp only; rw [v', v]; rfl
  rw [i] at e
  rw [boxes_fold points, boxes_fold (points.map exactV)]
  exact ⟨g1, g2, e⟩

theorem three_fin : (3 : F64).Finite ∧ (3 : F64).toQ = 3 := ⟨trivial, rfl⟩

/-- one vertex coordinate of the super-tetrahedron -/
theorem tetra_coord {M : ℚ} (h1 : 1 / 2 ^ 34 ≤ M) (h2 : M ≤ 2 ^ 34) {mn mx : F64} (hn : mn.Finite ∧ |mn.toQ| ≤ M) (hx : mx.Finite ∧ |mx.toQ| ≤ M) :
    App (mn + 3 * (mx - mn)) (mn.toQ + 3 * (mx.toQ - mn.toQ)) (M ^ 1) 22 7 := by
  have d := app_diff5 h1 h2 hx hn
  have t : App (3 : F64) 3 (M ^ 0) 0 3 := ⟨trivial, by rw [three_fin.2]; simp, by simp⟩
  have p := app_mul5 h1 h2 (by norm_num) t d (by norm_num) (by norm_num) (by norm_num) (by norm_num)
  have c := (app_coord hn.1 hn.2).add p (scale5 h1 h2 (by norm_num)) (by norm_num) (by norm_num) (by norm_num) (by norm_num)
  exact c.weaken (scale5 h1 h2 (by norm_num)) (by norm_num) (by norm_num)

/-- a coordinate between the extremes, as a share of the computed edge -/
theorem near_share {M mn mx x t : ℚ} (h1 : mn ≤ x) (h2 : x ≤ mx) (hM : 0 < M) (ht : |t - (mn + 3 * (mx - mn))| ≤ 22 * (uro * M ^ 1)) :
    ∃ u : ℚ, 0 ≤ u ∧ 3 * u ≤ 1 ∧ |mn + u * (t - mn) - x| ≤ 8 / 2 ^ 53 * M := by
  obtain ⟨u, u0, u1, hu⟩ := third_share x mn mx h1 h2
  refine ⟨u, u0, u1, ?_⟩
  rw [show mn + u * (t - mn) - x = u * (t - (mn + 3 * (mx - mn))) by rw [hu]; ring, abs_mul, abs_of_nonneg u0]
  have e : 22 * (uro * M ^ 1) = 22 / 2 ^ 53 * M := by unfold uro; ring
  rw [e] at ht
  have a : u * |t - (mn + 3 * (mx - mn))| ≤ u * (22 / 2 ^ 53 * M) := mul_le_mul_of_nonneg_left ht u0
  have b : u * (22 / 2 ^ 53 * M) ≤ 1 / 3 * (22 / 2 ^ 53 * M) := mul_le_mul_of_nonneg_right (by linarith) (by positivity)
  have c : (1:ℚ) / 3 * (22 / 2 ^ 53 * M) = 22 / 3 / 2 ^ 53 * M := by ring
  have d : (22:ℚ) / 3 / 2 ^ 53 * M ≤ 8 / 2 ^ 53 * M := mul_le_mul_of_nonneg_right (by norm_num) hM.le
  linarith

/-- the extremes are coordinates of points, and bound them -/
theorem extremas_in (points : List (R3.Vector F64)) (hne : points ≠ []) (hf : ∀ p ∈ points, AllFin p) (Q : ℚ → Prop) (hQ : ∀ q, Q q → |q| ≤ maxFloat64)
    (h : ∀ p ∈ points, Q p.X.toQ ∧ Q p.Y.toQ ∧ Q p.Z.toQ) :
    ((Q (findExtremas points).min.X.toQ ∧ Q (findExtremas points).min.Y.toQ ∧ Q (findExtremas points).min.Z.toQ) ∧
      (Q (findExtremas points).max.X.toQ ∧ Q (findExtremas points).max.Y.toQ ∧ Q (findExtremas points).max.Z.toQ)) ∧
    ∀ p ∈ points, ((findExtremas points).min.X.toQ ≤ p.X.toQ ∧ (findExtremas points).min.Y.toQ ≤ p.Y.toQ ∧ (findExtremas points).min.Z.toQ ≤ p.Z.toQ) ∧
      p.X.toQ ≤ (findExtremas points).max.X.toQ ∧ p.Y.toQ ≤ (findExtremas points).max.Y.toQ ∧ p.Z.toQ ≤ (findExtremas points).max.Z.toQ := by
  obtain ⟨_, _, e1, e2⟩ := C83_extremas points hf
  have hb := C28_extremas_tight (K := ℚ) (points.map exactV) (by simpa using hne) (by
    intro p hp
    obtain ⟨v, hv, rfl⟩ := List.mem_map.mp hp
    obtain ⟨q1, q2, q3⟩ := h v hv
    rw [Rat.cast_id]
    exact ⟨hQ _ q1, hQ _ q2, hQ _ q3⟩)
  rw [← e1, ← e2] at hb
  obtain ⟨b0, ⟨p1, m1, v1⟩, ⟨p2, m2, v2⟩, ⟨p3, m3, v3⟩, ⟨p4, m4, v4⟩, ⟨p5, m5, v5⟩, ⟨p6, m6, v6⟩⟩ := hb
  obtain ⟨w1, n1, rfl⟩ := List.mem_map.mp m1
  obtain ⟨w2, n2, rfl⟩ := List.mem_map.mp m2
  obtain ⟨w3, n3, rfl⟩ := List.mem_map.mp m3
  obtain ⟨w4, n4, rfl⟩ := List.mem_map.mp m4
  obtain ⟨w5, n5, rfl⟩ := List.mem_map.mp m5
  obtain ⟨w6, n6, rfl⟩ := List.mem_map.mp m6
  have tr : ∀ {x y : ℚ}, x = y → Q x → Q y := fun e q => e ▸ q
  refine ⟨⟨⟨tr v1 (h w1 n1).1, tr v2 (h w2 n2).2.1, tr v3 (h w3 n3).2.2⟩, ⟨tr v4 (h w4 n4).1, tr v5 (h w5 n5).2.1, tr v6 (h w6 n6).2.2⟩⟩, fun p hp => ?_⟩
  obtain ⟨a, b, c, d, e, f⟩ := b0 (exactV p) (List.mem_map_of_mem hp)
  exact ⟨⟨a, b, c⟩, d, e, f⟩

/-- C83: for coordinates of size at most `M` the super-tetrahedron is prepended, its vertices are numbers, and each coordinate of each point is within
`8 * 2^-53 * M` of a point of the tetrahedron -/
theorem C83_near {M : ℚ} (h1 : 1 / 2 ^ 34 ≤ M) (h2 : M ≤ 2 ^ 34) (points : List (R3.Vector F64)) (hne : points ≠ []) (h : ∀ p ∈ points, Bounded3 M p) :
    ∃ p1 p2 p3 p4, englobe points = (p1 :: p2 :: p3 :: p4 :: points, initialTetra) ∧ (∀ v ∈ [p1, p2, p3, p4], AllFin v) ∧
      ∀ p ∈ points, ∃ q, InTet (exactV p1) (exactV p2) (exactV p3) (exactV p4) q ∧
        |q.X - p.X.toQ| ≤ 8 / 2 ^ 53 * M ∧ |q.Y - p.Y.toQ| ≤ 8 / 2 ^ 53 * M ∧ |q.Z - p.Z.toQ| ≤ 8 / 2 ^ 53 * M := by
  have hf : ∀ p ∈ points, AllFin p := fun p hp => ⟨(h p hp).1.1, (h p hp).2.1.1, (h p hp).2.2.1⟩
  obtain ⟨⟨⟨q1, q2, q3⟩, q4, q5, q6⟩, bd⟩ := extremas_in points hne hf (fun q => |q| ≤ M)
    (fun q hq => hq.trans (h2.trans (by decide +kernel))) (fun p hp => ⟨(h p hp).1.2, (h p hp).2.1.2, (h p hp).2.2.2⟩)
  obtain ⟨fn, fx, _, _⟩ := C83_extremas points hf
  have hM : 0 < M := lt_of_lt_of_le (by positivity) h1
  have ax := tetra_coord h1 h2 ⟨fn.1, q1⟩ ⟨fx.1, q4⟩
  have ay := tetra_coord h1 h2 ⟨fn.2.1, q2⟩ ⟨fx.2.1, q5⟩
  have az := tetra_coord h1 h2 ⟨fn.2.2, q3⟩ ⟨fx.2.2, q6⟩
  refine ⟨_, _, _, _, rfl, ?_, ?_⟩
  · intro v hv
    simp only [List.mem_cons, List.not_mem_nil, or_false] at hv
    rcases hv with rfl | rfl | rfl | rfl
    · exact fn
    · exact ⟨ax.fin, fn.2.1, fn.2.2⟩
    · exact ⟨fn.1, ay.fin, fn.2.2⟩
    · exact ⟨fn.1, fn.2.1, az.fin⟩
  · intro p hp
    obtain ⟨⟨lx, ly, lz⟩, ux, uy, uz⟩ := bd p hp
    obtain ⟨u, u0, u1, hu⟩ := near_share lx ux hM ax.err
    obtain ⟨v, v0, v1, hv⟩ := near_share ly uy hM ay.err
    obtain ⟨w, w0, w1, hw⟩ := near_share lz uz hM az.err
    refine ⟨⟨_, _, _⟩, ⟨1 - u - v - w, u, v, w, by linarith, u0, v0, w0, by ring, ?_, ?_, ?_⟩, hu, hv, hw⟩
    · simp only [exactV]; ring
    · simp only [exactV]; ring
    · simp only [exactV]; ring

/-- C83: when the coordinates are multiples of `2^e` by integers of size at most 2^50 the tetrahedron contains every point -/
theorem C83_grid {e : ℤ} (h1 : -1000 ≤ e) (h2 : e ≤ 800) (points : List (R3.Vector F64)) (hne : points ≠ [])
    (h : ∀ p ∈ points, ∀ x ∈ [p.X, p.Y, p.Z], x.Finite ∧ ∃ n : ℤ, |n| ≤ 2 ^ 50 ∧ x.toQ = n * 2 ^ e) :
    ∃ p1 p2 p3 p4, englobe points = (p1 :: p2 :: p3 :: p4 :: points, initialTetra) ∧ (∀ v ∈ [p1, p2, p3, p4], AllFin v) ∧
      ∀ p ∈ points, InTet (exactV p1) (exactV p2) (exactV p3) (exactV p4) (exactV p) := by
  have hf : ∀ p ∈ points, AllFin p := fun p hp => ⟨(h p hp p.X (by simp)).1, (h p hp p.Y (by simp)).1, (h p hp p.Z (by simp)).1⟩
  obtain ⟨⟨⟨q1, q2, q3⟩, q4, q5, q6⟩, bd⟩ := extremas_in points hne hf (fun q => ∃ n : ℤ, |n| ≤ 2 ^ 50 ∧ q = n * 2 ^ e) (by
      rintro q ⟨n, hn, rfl⟩
      have hn' : |(n:ℚ)| ≤ 2 ^ 50 := by exact_mod_cast hn
      have hp : (0:ℚ) < 2 ^ e := by positivity
      have h3 : (2:ℚ) ^ e ≤ 2 ^ (800 : ℤ) := zpow_le_zpow_right₀ (by norm_num) h2
      have h4 : (2:ℚ) ^ (800 : ℤ) = 2 ^ 800 := zpow_natCast 2 800
      rw [abs_mul, abs_of_pos hp]
      calc |(n:ℚ)| * 2 ^ e ≤ 2 ^ 50 * 2 ^ 800 := mul_le_mul hn' (h4 ▸ h3) hp.le (by positivity)
        _ = 1 * 2 ^ 850 := by rw [← pow_add, one_mul]
        _ ≤ (2 ^ 53 - 1) * 2 ^ 971 := mul_le_mul (by norm_num) (pow_le_pow_right₀ (by norm_num) (by norm_num)) (by positivity) (by norm_num)
        _ = maxFloat64 := rfl)
    (fun p hp => ⟨(h p hp p.X (by simp)).2, (h p hp p.Y (by simp)).2, (h p hp p.Z (by simp)).2⟩)
  obtain ⟨fn, fx, _, _⟩ := C83_extremas points hf
  have co : ∀ {mn mx : F64}, mn.Finite → mx.Finite → (∃ n : ℤ, |n| ≤ 2 ^ 50 ∧ mn.toQ = n * 2 ^ e) → (∃ n : ℤ, |n| ≤ 2 ^ 50 ∧ mx.toQ = n * 2 ^ e) →
      (mn + 3 * (mx - mn)).Finite ∧ (mn + 3 * (mx - mn)).toQ = mn.toQ + 3 * (mx.toQ - mn.toQ) := by
    rintro mn mx f1 f2 ⟨n, hn, e1⟩ ⟨m, hm, e2⟩
    have d1 : Dy mn n (2 ^ 50) e := ⟨f1, e1, by exact_mod_cast hn⟩
    have d2 : Dy mx m (2 ^ 50) e := ⟨f2, e2, by exact_mod_cast hm⟩
    have d3 : Dy (3 : F64) 3 3 0 := ⟨trivial, by rw [three_fin.2]; norm_num, by norm_num⟩
    have s := d3.mul (d2.sub d1 (by norm_num) h1 h2) (by norm_num) (by omega) (by omega)
    rw [zero_add] at s
    have r := d1.add s (by norm_num) h1 h2
    exact ⟨r.fin, by rw [r.val, e1, e2]; push_cast; ring⟩
  obtain ⟨gx, ex⟩ := co fn.1 fx.1 q1 q4
  obtain ⟨gy, ey⟩ := co fn.2.1 fx.2.1 q2 q5
  obtain ⟨gz, ez⟩ := co fn.2.2 fx.2.2 q3 q6
  refine ⟨_, _, _, _, rfl, ?_, ?_⟩
  · intro v hv
    simp only [List.mem_cons, List.not_mem_nil, or_false] at hv
    rcases hv with rfl | rfl | rfl | rfl
    · exact fn
    · exact ⟨gx, fn.2.1, fn.2.2⟩
    · exact ⟨fn.1, gy, fn.2.2⟩
    · exact ⟨fn.1, fn.2.1, gz⟩
  · intro p hp
    obtain ⟨⟨lx, ly, lz⟩, ux, uy, uz⟩ := bd p hp
    obtain ⟨u, u0, u1, hu⟩ := third_share _ _ _ lx ux
    obtain ⟨v, v0, v1, hv⟩ := third_share _ _ _ ly uy
    obtain ⟨w, w0, w1, hw⟩ := third_share _ _ _ lz uz
    refine ⟨1 - u - v - w, u, v, w, by linarith, u0, v0, w0, by ring, ?_, ?_, ?_⟩
    · simp only [exactV, ex]; rw [hu]; ring
    · simp only [exactV, ey]; rw [hv]; ring
    · simp only [exactV, ez]; rw [hw]; ring

/-- the two points of `C83_contains_refuted`: (0.3, 0, 0.5) and (1.5, 0.6, 2) -/
def tenths : List (R3.Vector F64) := [⟨flt 5404319552844595 (-54), flt 0 0, flt 1 (-1)⟩, ⟨flt 3 (-1), flt 5404319552844595 (-53), flt 2 0⟩]

/-- C83: in general the float64 super-tetrahedron does not contain every point: (1.5, 0.6, 2) lies outside, beyond the face opposite to the first vertex -/
theorem C83_contains_refuted : ∃ p1 p2 p3 p4, englobe tenths = (p1 :: p2 :: p3 :: p4 :: tenths, initialTetra) ∧ (∀ v ∈ [p1, p2, p3, p4], AllFin v) ∧
    ∃ p ∈ tenths, ¬ InTet (exactV p1) (exactV p2) (exactV p3) (exactV p4) (exactV p) := by
  have hin : ∀ {a b c d p : R3.Vector ℚ}, VectorInTetrahedron a b c d p = false → ¬ InTet a b c d p := by
    intro a b c d p hv hi
    by_cases hc : Coplanar4 a b c d
    · rw [C27_degenerate _ _ _ _ _ hc] at hv; exact absurd hv (by simp)
    · rw [(C27_membership _ _ _ _ _ hc).mpr hi] at hv; exact absurd hv (by simp)
  refine ⟨_, _, _, _, rfl, by unfold AllFin; decide +kernel, ⟨flt 3 (-1), flt 5404319552844595 (-53), flt 2 0⟩, by simp [tenths], hin (by decide +kernel)⟩

/-- C83: the hypotheses of `C83_near` hold for these points with `M = 2`, and those of `C83_grid` for points with integer coordinates -/
example : (∀ p ∈ tenths, Bounded3 2 p) ∧ tenths ≠ [] ∧
    (∀ p ∈ ([⟨flt 1 0, flt 2 0, flt 3 0⟩, ⟨flt (-4) 0, flt 0 0, flt 7 0⟩] : List (R3.Vector F64)), ∀ x ∈ [p.X, p.Y, p.Z], x.Finite ∧ x.toQ.den = 1 ∧ |x.toQ.num| ≤ 2 ^ 50) := by
  unfold Bounded3; decide +kernel

end Verif.Props
