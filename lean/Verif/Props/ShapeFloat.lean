import Verif.Proofs.ShapeFloat
/-!
# C92: the vertices of the shapes at binary64

For every implementation of `math.Cos` and `math.Sin` with a small absolute error (`TrigAcc`).
-/
namespace Verif.Props
set_option linter.unusedSectionVars false
open Verif Verif.F64 Verif.Proofs Verif.R3 Verif.Shape

/-! ## The records, for every scalar type -/

section generic
variable {F : Type} [_root_.Add F] [_root_.Sub F] [Mul F] [Div F] [OfNat F 0] [OfNat F 1] [GoTrig F] [GoOfInt F]

def gRec (sc st : ℕ) (inv xy z : F) (i j : ℕ) : VertexRec F :=
  ⟨⟨xy * GoTrig.cos (GoOfInt.ofInt (j : ℤ) * (GoTrig.piMul 2 / GoOfInt.ofInt (sc : ℤ)) : F),
    xy * GoTrig.sin (GoOfInt.ofInt (j : ℤ) * (GoTrig.piMul 2 / GoOfInt.ofInt (sc : ℤ)) : F), z⟩,
   (xy * GoTrig.cos (GoOfInt.ofInt (j : ℤ) * (GoTrig.piMul 2 / GoOfInt.ofInt (sc : ℤ)) : F) * inv,
    xy * GoTrig.sin (GoOfInt.ofInt (j : ℤ) * (GoTrig.piMul 2 / GoOfInt.ofInt (sc : ℤ)) : F) * inv, z * inv),
   (GoOfInt.ofInt ((j / sc : ℕ) : ℤ), GoOfInt.ofInt ((i / st : ℕ) : ℤ))⟩

theorem gRing (sc st : ℕ) (hsc : 0 < sc) (hst : 0 < st) (inv xy z : F) (i : ℕ) :
    ringVertices (sc : Int) (st : Int) inv xy z (i : Int) = .ok ((List.range (sc+1)).map (gRec sc st inv xy z i)) := by
  unfold ringVertices
  rw [show ((sc : Int) + 1) = ((sc + 1 : ℕ) : Int) by push_cast; rfl, loopTo_nat]
  dsimp only
  rw [loopRecs_ok _ (fun j : Int => gRec sc st inv xy z i j.toNat)]
  · rw [List.map_map]; rfl
  · intro j hj
    obtain ⟨j', _, rfl⟩ := List.mem_map.mp hj
    rw [goDiv_nat j' sc hsc, goDiv_nat i st hst]
    rfl

def gSphere (r : F) (sc st i j : ℕ) : VertexRec F :=
  gRec sc st (1 / r) (r * GoTrig.cos (GoTrig.piMul (1/2) - GoOfInt.ofInt (i : ℤ) * (GoTrig.piMul 1 / GoOfInt.ofInt (st : ℤ)) : F))
    (r * GoTrig.sin (GoTrig.piMul (1/2) - GoOfInt.ofInt (i : ℤ) * (GoTrig.piMul 1 / GoOfInt.ofInt (st : ℤ)) : F)) i j

def gTorus (R t : F) (sc st i j : ℕ) : VertexRec F :=
  gRec sc st (1 / R) (R + t * GoTrig.cos (GoTrig.piMul (1/2) - GoOfInt.ofInt (i : ℤ) * (GoTrig.piMul 2 / GoOfInt.ofInt (st : ℤ)) : F))
    (t * GoTrig.sin (GoTrig.piMul (1/2) - GoOfInt.ofInt (i : ℤ) * (GoTrig.piMul 2 / GoOfInt.ofInt (st : ℤ)) : F)) i j

theorem gSphere_construct (c : R3.Vector F) (r : F) (sc st : ℕ) (hsc : 0 < sc) :
    ∃ m, Sphere.Construct ⟨c, r, sc, st⟩ = .ok m ∧ m.Indices = gridIndices sc st ∧
      m.Vertices.length = st * (sc+1) ∧ m.Normals.length = st * (sc+1) ∧ m.TexCoords.length = st * (sc+1) ∧
      ∀ i j, i < st → j ≤ sc → m.Vertices[i * (sc+1) + j]? = some (gSphere r sc st i j).pos ∧
        m.Normals[i * (sc+1) + j]? = some (gSphere r sc st i j).normal ∧
        m.TexCoords[i * (sc+1) + j]? = some (gSphere r sc st i j).tex := by
  have hg : Sphere.generateVertices ⟨c, r, sc, st⟩ =
      .ok ((List.range st).map fun i => (List.range (sc+1)).map (gSphere r sc st i)).flatten := by
    unfold Sphere.generateVertices
    dsimp only
    rw [loopTo_nat, loopRecs_ok _ (fun i : Int => (List.range (sc+1)).map (gSphere r sc st i.toNat))]
    · simp only [Res.bind_ok, Res.pure_eq, List.map_map]; rfl
    · intro i hi
      obtain ⟨i', hi', rfl⟩ := List.mem_map.mp hi
      have := List.mem_range.mp hi'
      rw [gRing sc st hsc (by omega)]
      rfl
  unfold Sphere.Construct
  rw [hg]
  refine ⟨_, rfl, rfl, ?_, ?_, ?_, ?_⟩
  · rw [List.length_map, length_grid]
  · rw [List.length_map, length_grid]
  · rw [List.length_map, length_grid]
  · intro i j hi hj
    refine ⟨?_, ?_, ?_⟩ <;> rw [List.getElem?_map, flatten_grid _ _ _ _ _ hi (by omega)] <;> rfl

theorem gTorus_construct (c : R3.Vector F) (R t : F) (sc st : ℕ) (hsc : 0 < sc) :
    ∃ m, Torus.Construct ⟨c, R, t, sc, st⟩ = .ok m ∧ m.Indices = gridIndices sc st ∧
      m.Vertices.length = st * (sc+1) ∧ m.Normals.length = st * (sc+1) ∧ m.TexCoords.length = st * (sc+1) ∧
      ∀ i j, i < st → j ≤ sc → m.Vertices[i * (sc+1) + j]? = some (gTorus R t sc st i j).pos ∧
        m.Normals[i * (sc+1) + j]? = some (gTorus R t sc st i j).normal ∧
        m.TexCoords[i * (sc+1) + j]? = some (gTorus R t sc st i j).tex := by
  have hg : Torus.generateVertices ⟨c, R, t, sc, st⟩ =
      .ok ((List.range st).map fun i => (List.range (sc+1)).map (gTorus R t sc st i)).flatten := by
    unfold Torus.generateVertices
    dsimp only
    rw [loopTo_nat, loopRecs_ok _ (fun i : Int => (List.range (sc+1)).map (gTorus R t sc st i.toNat))]
    · simp only [Res.bind_ok, Res.pure_eq, List.map_map]; rfl
    · intro i hi
      obtain ⟨i', hi', rfl⟩ := List.mem_map.mp hi
      have := List.mem_range.mp hi'
      rw [gRing sc st hsc (by omega)]
      rfl
  unfold Torus.Construct
  rw [hg]
  refine ⟨_, rfl, rfl, ?_, ?_, ?_, ?_⟩
  · rw [List.length_map, length_grid]
  · rw [List.length_map, length_grid]
  · rw [List.length_map, length_grid]
  · intro i j hi hj
    refine ⟨?_, ?_, ?_⟩ <;> rw [List.getElem?_map, flatten_grid _ _ _ _ _ hi (by omega)] <;> rfl

end generic

/-! ## Errors of the products -/

theorem scale_mul {v w : F64} {X Y R a ε : ℝ} (h : Nr v X (R * a)) (hX : |X| ≤ R) (h' : Nr w Y ε) (hY : |Y| ≤ 1)
    (R1 : 1 / 2 ^ 100 ≤ R) (R2 : R ≤ 2 ^ 101) (a0 : 0 ≤ a) (a1 : a ≤ 1 / 2 ^ 10) (ε1 : ε ≤ 1 / 2 ^ 10) :
    Nr (v * w) (X * Y) (R * (a + ε + a * ε + 2 * ur)) := by
  have R0 : 0 < R := lt_of_lt_of_le (by positivity) R1
  have ε0 : 0 ≤ ε := (abs_nonneg _).trans h'.err
  have u0 := ur_pos
  have b : (1 + a) * (1 + ε) ≤ 11 / 10 := by
    have : a * ε ≤ 1 / 2 ^ 10 * (1 / 2 ^ 10) := mul_le_mul a1 ε1 ε0 (by norm_num)
    have e : (1 + a) * (1 + ε) = 1 + a + ε + a * ε := by ring
    rw [e]; norm_num at *; linarith
  have e1 : (R + R * a) * (1 + ε) = R * ((1 + a) * (1 + ε)) := by ring
  have s := h.mul h' hX hY (by
    rw [e1]
    calc R * ((1 + a) * (1 + ε)) ≤ 2 ^ 101 * (11 / 10) := mul_le_mul R2 b (by positivity) (by norm_num)
      _ ≤ 2 ^ 190 := by norm_num)
  refine s.mono ?_
  rw [e1]
  have t := tau_scale R1
  have c1 : ur * (R * ((1 + a) * (1 + ε))) ≤ 11 / 10 * (ur * R) := by
    have := mul_le_mul_of_nonneg_left b (mul_nonneg u0.le R0.le)
    linarith
  have c2 : (1:ℝ) / 2 ^ 60 * (ur * R) ≤ 9 / 10 * (ur * R) := mul_le_mul_of_nonneg_right (by norm_num) (by positivity)
  have e2 : R * (a + ε + a * ε + 2 * ur) = R * a + R * ε + R * a * ε + 2 * (ur * R) := by ring
  rw [e2]
  linarith

theorem scale_inv {v r : F64} {X S a : ℝ} (h : Nr v X (S * a)) (hX : |X| ≤ S) (hr : r.Finite) (r1 : (1:ℝ) / 2 ^ 80 ≤ |(r.toQ : ℝ)|)
    (r2 : |(r.toQ : ℝ)| ≤ 2 ^ 80) (hS : |(r.toQ : ℝ)| ≤ S) (S2 : S ≤ 2 ^ 81) (a0 : 0 ≤ a) (a1 : a ≤ 1 / 2 ^ 10) :
    Nr (v * (1 / r)) (X * (1 / r.toQ)) (S / |(r.toQ : ℝ)| * (a + 4 * ur)) := by
  have u0 := ur_pos
  have u1 := ur_le
  have hu : ur ≤ 1 / 2 ^ 10 := u1.trans (by norm_num)
  have q0 : 0 < |(r.toQ : ℝ)| := lt_of_lt_of_le (by positivity) r1
  have S0 : 0 < S := lt_of_lt_of_le q0 hS
  have rn : r.toQ ≠ 0 := by
    intro e; rw [e] at q0; simp at q0
  have hone : ((1 : F64).toQ : ℝ) = 1 := by
    have : (1 : F64).toQ = 1 := rfl
    rw [this]; norm_num
  have h1 := Nr.exact (v := (1 : F64)) trivial
  rw [hone] at h1
  have hinv : |1 / (r.toQ : ℝ)| = 1 / |(r.toQ : ℝ)| := by rw [abs_div, abs_one]
  generalize hq : |(r.toQ : ℝ)| = q at *
  have iq : 1 / q ≤ 2 ^ 80 := by
    rw [div_le_iff₀ q0]
    have : (1:ℝ) = 2 ^ 80 * (1 / 2 ^ 80) := by norm_num
    rw [this]
    exact mul_le_mul_of_nonneg_left r1 (by positivity)
  have iq' : 1 / 2 ^ 80 ≤ 1 / q := one_div_le_one_div_of_le q0 r2
  have s1 := h1.div hr rn (A := 1) (by simp) (by
    rw [hq, add_zero]
    exact iq.trans (pow_le_pow_right₀ (by norm_num) (by norm_num)))
  rw [hq, zero_div, zero_add, add_zero] at s1
  have t := tau_scale (S := 1 / q) (le_trans (by norm_num) iq')
  have s2 : Nr (1 / r) (1 / (r.toQ : ℝ)) (2 * ur * (1 / q)) := by
    refine s1.mono ?_
    have : (1:ℝ) / 2 ^ 60 * (ur * (1 / q)) ≤ 1 * (ur * (1 / q)) := mul_le_mul_of_nonneg_right (by norm_num) (by positivity)
    linarith
  have hau : a * ur ≤ 1 / 2 ^ 10 * ur := mul_le_mul_of_nonneg_right a1 u0.le
  have b : (1 + a) * (1 + 2 * ur) ≤ 11 / 10 := by
    have e : (1 + a) * (1 + 2 * ur) = 1 + a + 2 * ur + 2 * (a * ur) := by ring
    rw [e]; norm_num at *; linarith
  have e1 : (S + S * a) * (1 / q + 2 * ur * (1 / q)) = S / q * ((1 + a) * (1 + 2 * ur)) := by ring
  have Sq : 1 ≤ S / q := by rw [le_div_iff₀ q0]; linarith
  have hSq : S / q ≤ 2 ^ 161 := by
    have : S / q = S * (1 / q) := by ring
    rw [this]
    calc S * (1 / q) ≤ 2 ^ 81 * 2 ^ 80 := mul_le_mul S2 iq (by positivity) (by positivity)
      _ ≤ _ := by norm_num
  have s3 := h.mul s2 hX (B := 1 / q) hinv.le (by
    rw [e1]
    calc S / q * ((1 + a) * (1 + 2 * ur)) ≤ 2 ^ 161 * (11 / 10) := mul_le_mul hSq b (by positivity) (by norm_num)
      _ ≤ 2 ^ 190 := by norm_num)
  refine s3.mono ?_
  rw [e1]
  have t2 := tau_scale (S := S / q) (le_trans (by norm_num) Sq)
  have K0 : 0 < S / q := by linarith
  have c1 : ur * (S / q * ((1 + a) * (1 + 2 * ur))) ≤ 11 / 10 * (ur * (S / q)) := by
    have := mul_le_mul_of_nonneg_left b (mul_nonneg u0.le K0.le)
    linarith
  have c2 : (1:ℝ) / 2 ^ 60 * (ur * (S / q)) ≤ 1 / 10 * (ur * (S / q)) := mul_le_mul_of_nonneg_right (by norm_num) (by positivity)
  have e2 : S * (2 * ur * (1 / q)) + 1 / q * (S * a) + S * a * (2 * ur * (1 / q)) =
      2 * (ur * (S / q)) + S / q * a + 2 * (a * ur * (S / q)) := by ring
  have c3 : a * ur * (S / q) ≤ 1 / 2 ^ 10 * ur * (S / q) := mul_le_mul_of_nonneg_right hau K0.le
  have c4 : (1:ℝ) / 2 ^ 10 * ur * (S / q) ≤ 1 / 10 * (ur * (S / q)) := by
    rw [mul_assoc]; exact mul_le_mul_of_nonneg_right (by norm_num) (by positivity)
  have e3 : S / q * (a + 4 * ur) = S / q * a + 4 * (ur * (S / q)) := by ring
  rw [e2, e3]
  linarith

/-! ## C92 -/

variable [GoTrig F64] {δ : ℝ}

/-- sizes for which there is neither overflow nor underflow -/
def RadOk (r : F64) : Prop := r.Finite ∧ 1 / 2 ^ 80 ≤ |r.toQ| ∧ |r.toQ| ≤ 2 ^ 80

theorem RadOk.real {r : F64} (h : RadOk r) : (1:ℝ) / 2 ^ 80 ≤ |(r.toQ : ℝ)| ∧ |(r.toQ : ℝ)| ≤ 2 ^ 80 := by
  obtain ⟨_, h1, h2⟩ := h
  have a := (Rat.cast_le (K := ℝ)).mpr h1
  have b := (Rat.cast_le (K := ℝ)).mpr h2
  push_cast at a b
  exact ⟨a, b⟩

/-- the error of one cosine or sine is small -/
theorem eps_small (h : TrigAcc δ) (hδ : δ ≤ 1 / 2 ^ 20) : 0 ≤ 31 * ur + δ ∧ 31 * ur + δ ≤ 1 / 2 ^ 19 := by
  have u0 := ur_pos
  have u1 : ur = 1 / 2 ^ 53 := rfl
  have := h.nonneg
  refine ⟨by linarith, ?_⟩
  rw [u1]; norm_num at *; linarith

/-- radius times cosine or sine -/
theorem rad_mul {r w : F64} {Y ε : ℝ} (hr : RadOk r) (h' : Nr w Y ε) (hY : |Y| ≤ 1) (ε1 : ε ≤ 1 / 2 ^ 19) :
    Nr (r * w) (r.toQ * Y) (|(r.toQ : ℝ)| * (ε + 2 * ur)) ∧ |(r.toQ : ℝ) * Y| ≤ |(r.toQ : ℝ)| := by
  obtain ⟨r1, r2⟩ := hr.real
  have h0 : Nr r (r.toQ : ℝ) (|(r.toQ : ℝ)| * 0) := by rw [mul_zero]; exact Nr.exact hr.1
  have s := scale_mul h0 le_rfl h' hY (le_trans (by norm_num) r1) (r2.trans (by norm_num)) le_rfl (by norm_num)
    (ε1.trans (by norm_num))
  refine ⟨?_, ?_⟩
  · rw [show (0:ℝ) + ε + 0 * ε + 2 * ur = ε + 2 * ur by ring] at s
    exact s
  · rw [abs_mul]
    exact mul_le_of_le_one_right (abs_nonneg _) hY

theorem ring_err {ε δ : ℝ} (he : ε = 31 * ur + δ) (d0 : 0 ≤ δ) (ε1 : ε ≤ 1 / 2 ^ 19) {k : ℝ} (k1 : k ≤ 4) :
    (ε + k * ur) + ε + (ε + k * ur) * ε + 2 * ur ≤ 70 * ur + 3 * δ := by
  have u0 := ur_pos
  have ε0 : 0 ≤ ε := by rw [he]; linarith
  have h1 : ε * ε ≤ 1 / 2 ^ 19 * ε := mul_le_mul_of_nonneg_right ε1 ε0
  have h2 : k * ur * ε ≤ 4 * ur * (1 / 2 ^ 19) := mul_le_mul (mul_le_mul_of_nonneg_right k1 u0.le) ε1 ε0 (by positivity)
  have h3 : k * ur ≤ 4 * ur := mul_le_mul_of_nonneg_right k1 u0.le
  have e : (ε + k * ur) + ε + (ε + k * ur) * ε + 2 * ur = 2 * ε + k * ur + ε * ε + k * ur * ε + 2 * ur := by ring
  rw [e]
  norm_num at h1 h2
  linarith

/-- C92 for the sphere: every vertex and normal, with the exact value it approximates -/
theorem C92_sphere (h : TrigAcc δ) (hδ : δ ≤ 1 / 2 ^ 20) (c : R3.Vector F64) (r : F64) (hr : RadOk r) (sc st : ℕ)
    (hsc : 1 ≤ sc) (hsc2 : sc ≤ 2 ^ 52) (hst2 : st ≤ 2 ^ 52) :
    ∃ m, Sphere.Construct ⟨c, r, sc, st⟩ = .ok m ∧ m.Indices = gridIndices sc st ∧
      m.Vertices.length = st * (sc+1) ∧ m.Normals.length = st * (sc+1) ∧
      ∀ i j, i < st → j ≤ sc → ∃ v n, m.Vertices[i * (sc+1) + j]? = some v ∧ m.Normals[i * (sc+1) + j]? = some n ∧
        FinV v ∧ n.1.Finite ∧ n.2.1.Finite ∧ n.2.2.Finite ∧
        |(v.X.toQ : ℝ) - r.toQ * Real.cos (Real.pi/2 - i * (Real.pi / st)) * Real.cos (j * (2 * Real.pi / sc))| ≤
          |(r.toQ : ℝ)| * (70 * ur + 3 * δ) ∧
        |(v.Y.toQ : ℝ) - r.toQ * Real.cos (Real.pi/2 - i * (Real.pi / st)) * Real.sin (j * (2 * Real.pi / sc))| ≤
          |(r.toQ : ℝ)| * (70 * ur + 3 * δ) ∧
        |(v.Z.toQ : ℝ) - r.toQ * Real.sin (Real.pi/2 - i * (Real.pi / st))| ≤ |(r.toQ : ℝ)| * (33 * ur + δ) ∧
        |(n.1.toQ : ℝ) - Real.cos (Real.pi/2 - i * (Real.pi / st)) * Real.cos (j * (2 * Real.pi / sc))| ≤ 74 * ur + 3 * δ ∧
        |(n.2.1.toQ : ℝ) - Real.cos (Real.pi/2 - i * (Real.pi / st)) * Real.sin (j * (2 * Real.pi / sc))| ≤ 74 * ur + 3 * δ ∧
        |(n.2.2.toQ : ℝ) - Real.sin (Real.pi/2 - i * (Real.pi / st))| ≤ 37 * ur + δ := by
  obtain ⟨m, e, hi, l1, l2, _, hm⟩ := gSphere_construct c r sc st hsc
  refine ⟨m, e, hi, l1, l2, fun i j hi hj => ?_⟩
  obtain ⟨m1, m2, _⟩ := hm i j hi hj
  refine ⟨_, _, m1, m2, ?_⟩
  have d0 := h.nonneg
  obtain ⟨ε0, ε1⟩ := eps_small h hδ
  have u0 := ur_pos
  have p1 := Real.pi_gt_three
  have p2 := Real.pi_lt_d2
  obtain ⟨r1, r2⟩ := hr.real
  have q0 : 0 < |(r.toQ : ℝ)| := lt_of_lt_of_le (by positivity) r1
  have rn : (r.toQ : ℝ) ≠ 0 := abs_pos.mp q0
  -- angles
  have st1 : 1 ≤ st := by omega
  have A := angle_down h 1 le_rfl (by norm_num) st i st1 hst2 hi.le
  obtain ⟨_, A1, A2⟩ := angle_near h 1 le_rfl (by norm_num) st i st1 hst2 hi.le
  obtain ⟨B, B1, B2⟩ := angle_near h 2 (by norm_num) le_rfl sc j hsc hsc2 hj
  simp only [Rat.cast_one, Rat.cast_ofNat, one_mul] at A A1 A2 B B1 B2
  obtain ⟨ca, sa⟩ := trig_near h A (by rw [abs_le]; constructor <;> linarith)
  obtain ⟨cb, sb⟩ := trig_near h (B.mono (f := 31 * ur) (by linarith)) (by rw [abs_le]; constructor <;> linarith)
  generalize Real.pi/2 - (i:ℝ) * (Real.pi / st) = α at *
  generalize (j:ℝ) * (2 * Real.pi / sc) = β at *
  -- stack
  obtain ⟨xy, xyb⟩ := rad_mul hr ca (Real.abs_cos_le_one α) ε1
  obtain ⟨z, zb⟩ := rad_mul hr sa (Real.abs_sin_le_one α) ε1
  have a0 : 0 ≤ 31 * ur + δ + 2 * ur := by linarith
  have a1 : 31 * ur + δ + 2 * ur ≤ 1 / 2 ^ 10 := by
    have : ur ≤ 1 / 2 ^ 50 := ur_le
    norm_num at *; linarith
  have hK := ring_err (k := 2) rfl d0 ε1 (by norm_num)
  have x := (scale_mul xy xyb cb (Real.abs_cos_le_one β) (le_trans (by norm_num) r1) (r2.trans (by norm_num)) a0 a1 (ε1.trans (by norm_num))).mono
    (mul_le_mul_of_nonneg_left hK q0.le)
  have y := (scale_mul xy xyb sb (Real.abs_sin_le_one β) (le_trans (by norm_num) r1) (r2.trans (by norm_num)) a0 a1 (ε1.trans (by norm_num))).mono
    (mul_le_mul_of_nonneg_left hK q0.le)
  have xb : |(r.toQ : ℝ) * Real.cos α * Real.cos β| ≤ |(r.toQ : ℝ)| := by
    rw [abs_mul]; exact (mul_le_of_le_one_right (abs_nonneg _) (Real.abs_cos_le_one β)).trans xyb
  have yb : |(r.toQ : ℝ) * Real.cos α * Real.sin β| ≤ |(r.toQ : ℝ)| := by
    rw [abs_mul]; exact (mul_le_of_le_one_right (abs_nonneg _) (Real.abs_sin_le_one β)).trans xyb
  have b1 : 70 * ur + 3 * δ ≤ 1 / 2 ^ 10 := by
    have : ur ≤ 1 / 2 ^ 50 := ur_le
    norm_num at *; linarith
  have nx := scale_inv x xb hr.1 r1 r2 le_rfl (r2.trans (by norm_num)) (by positivity) b1
  have ny := scale_inv y yb hr.1 r1 r2 le_rfl (r2.trans (by norm_num)) (by positivity) b1
  have nz := scale_inv z zb hr.1 r1 r2 le_rfl (r2.trans (by norm_num)) a0 a1
  rw [div_self q0.ne', one_mul] at nx ny nz
  rw [show (r.toQ : ℝ) * Real.cos α * Real.cos β * (1 / r.toQ) = Real.cos α * Real.cos β by field_simp] at nx
  rw [show (r.toQ : ℝ) * Real.cos α * Real.sin β * (1 / r.toQ) = Real.cos α * Real.sin β by field_simp] at ny
  rw [show (r.toQ : ℝ) * Real.sin α * (1 / r.toQ) = Real.sin α by field_simp] at nz
  have ez : 31 * ur + δ + 2 * ur = 33 * ur + δ := by ring
  rw [ez] at z nz
  exact ⟨⟨x.fin, y.fin, z.fin⟩, nx.fin, ny.fin, nz.fin, x.err, y.err, z.err, (nx.mono (by linarith)).err,
    (ny.mono (by linarith)).err, (nz.mono (by linarith)).err⟩

/-- lengths of nearby vectors -/
theorem length_near {x y z X Y Z e r : ℝ} (hx : |x - X| ≤ e) (hy : |y - Y| ≤ e) (hz : |z - Z| ≤ e) (hr : 0 ≤ r)
    (h : X ^ 2 + Y ^ 2 + Z ^ 2 = r ^ 2) (he : 10 * e ≤ r) : |Real.sqrt (x ^ 2 + y ^ 2 + z ^ 2) - r| ≤ 2 * e := by
  have e0 : 0 ≤ e := (abs_nonneg _).trans hx
  obtain ⟨a, rfl⟩ : ∃ a, x = X + a := ⟨x - X, by ring⟩
  obtain ⟨b, rfl⟩ : ∃ b, y = Y + b := ⟨y - Y, by ring⟩
  obtain ⟨c, rfl⟩ : ∃ c, z = Z + c := ⟨z - Z, by ring⟩
  rw [add_sub_cancel_left] at hx hy hz
  have sq3 : (|X| + |Y| + |Z|) ^ 2 ≤ 3 * r ^ 2 := by
    have h1 := sq_abs X
    have h2 := sq_abs Y
    have h3 := sq_abs Z
    nlinarith [sq_nonneg (|X| - |Y|), sq_nonneg (|Y| - |Z|), sq_nonneg (|X| - |Z|)]
  have hs : |X| + |Y| + |Z| ≤ 7 / 4 * r := by
    apply abs_le_of_sq_le_sq' _ (by positivity) |>.2
    nlinarith [sq_nonneg r]
  have ha : a ^ 2 ≤ e ^ 2 := by rw [← sq_abs]; exact pow_le_pow_left₀ (abs_nonneg _) hx 2
  have hb : b ^ 2 ≤ e ^ 2 := by rw [← sq_abs]; exact pow_le_pow_left₀ (abs_nonneg _) hy 2
  have hc : c ^ 2 ≤ e ^ 2 := by rw [← sq_abs]; exact pow_le_pow_left₀ (abs_nonneg _) hz 2
  have hcross : |X * a + Y * b + Z * c| ≤ 7 / 4 * r * e := by
    have m1 : |X * a| ≤ |X| * e := by rw [abs_mul]; exact mul_le_mul_of_nonneg_left hx (abs_nonneg _)
    have m2 : |Y * b| ≤ |Y| * e := by rw [abs_mul]; exact mul_le_mul_of_nonneg_left hy (abs_nonneg _)
    have m3 : |Z * c| ≤ |Z| * e := by rw [abs_mul]; exact mul_le_mul_of_nonneg_left hz (abs_nonneg _)
    have := abs_add_le (X * a + Y * b) (Z * c)
    have := abs_add_le (X * a) (Y * b)
    have := mul_le_mul_of_nonneg_right hs e0
    linarith
  obtain ⟨c1, c2⟩ := abs_le.mp hcross
  have er : (X + a) ^ 2 + (Y + b) ^ 2 + (Z + c) ^ 2 = r ^ 2 + 2 * (X * a + Y * b + Z * c) + (a ^ 2 + b ^ 2 + c ^ 2) := by
    rw [← h]; ring
  have hre : e * e ≤ 1 / 10 * (r * e) := by nlinarith
  rw [abs_le]
  constructor
  · have : r - 2 * e ≤ Real.sqrt ((X + a) ^ 2 + (Y + b) ^ 2 + (Z + c) ^ 2) := by
      apply Real.le_sqrt_of_sq_le
      rw [er]
      nlinarith [sq_nonneg a, sq_nonneg b, sq_nonneg c]
    linarith
  · have : Real.sqrt ((X + a) ^ 2 + (Y + b) ^ 2 + (Z + c) ^ 2) ≤ r + 2 * e := by
      apply Real.sqrt_le_iff.mpr
      refine ⟨by linarith, ?_⟩
      rw [er]
      nlinarith
    linarith

/-- C92: every vertex of the sphere has nearly the distance `|r|` from the origin, and the normals have nearly unit length -/
theorem C92_sphere_distance (h : TrigAcc δ) (hδ : δ ≤ 1 / 2 ^ 20) (c : R3.Vector F64) (r : F64) (hr : RadOk r) (sc st : ℕ)
    (hsc : 1 ≤ sc) (hsc2 : sc ≤ 2 ^ 52) (hst2 : st ≤ 2 ^ 52) :
    ∃ m, Sphere.Construct ⟨c, r, sc, st⟩ = .ok m ∧
      (∀ v ∈ m.Vertices, abs (euclid (realV v) ⟨0, 0, 0⟩ - |(r.toQ : ℝ)|) ≤ |(r.toQ : ℝ)| * (140 * ur + 6 * δ)) ∧
      ∀ n ∈ m.Normals, |Real.sqrt ((n.1.toQ : ℝ) ^ 2 + (n.2.1.toQ : ℝ) ^ 2 + (n.2.2.toQ : ℝ) ^ 2) - 1| ≤ 148 * ur + 6 * δ := by
  obtain ⟨m, e, _, l1, l2, hm⟩ := C92_sphere h hδ c r hr sc st hsc hsc2 hst2
  have d0 := h.nonneg
  have u0 := ur_pos
  obtain ⟨r1, r2⟩ := hr.real
  have q0 : 0 < |(r.toQ : ℝ)| := lt_of_lt_of_le (by positivity) r1
  have b1 : 10 * (74 * ur + 3 * δ) ≤ 1 := by
    have : ur ≤ 1 / 2 ^ 50 := ur_le
    norm_num at *; linarith
  refine ⟨m, e, fun v hv => ?_, fun n hn => ?_⟩
  · obtain ⟨k, hk, rfl⟩ := List.mem_iff_getElem.mp hv
    obtain ⟨i, j, hi, hj, rfl⟩ := grid_index st (sc+1) k (by omega)
    obtain ⟨v, n, hv', _, _, _, _, _, x, y, z, _⟩ := hm i j hi (by omega)
    rw [List.getElem?_eq_getElem hk] at hv'
    injection hv' with hv'
    rw [hv']
    have z' := z.trans (mul_le_mul_of_nonneg_left (show 33 * ur + δ ≤ 70 * ur + 3 * δ by linarith) q0.le)
    have := length_near x y z' q0.le (by rw [sphere_sq, sq_abs]) (by
      have := mul_le_mul_of_nonneg_left (show 10 * (70 * ur + 3 * δ) ≤ 1 by linarith) q0.le
      linarith)
    unfold euclid realV
    simp only [sub_zero]
    refine this.trans (le_of_eq ?_); ring
  · obtain ⟨k, hk, rfl⟩ := List.mem_iff_getElem.mp hn
    obtain ⟨i, j, hi, hj, rfl⟩ := grid_index st (sc+1) k (by omega)
    obtain ⟨v, n, _, hn', _, _, _, _, _, _, _, x, y, z⟩ := hm i j hi (by omega)
    rw [List.getElem?_eq_getElem hk] at hn'
    injection hn' with hn'
    rw [hn']
    have z' := z.trans (show 37 * ur + δ ≤ 74 * ur + 3 * δ by linarith)
    have := length_near x y z' zero_le_one (by have := sphere_sq 1 (Real.pi/2 - i * (Real.pi / st)) (j * (2 * Real.pi / sc)); simpa using this) b1
    refine this.trans (le_of_eq ?_); ring

/-- major radius plus tube radius times a cosine -/
theorem torus_xy {R t w : F64} {Y : ℝ} (hR : RadOk R) (ht : RadOk t) (hw : Nr w Y (31 * ur + δ)) (hY : |Y| ≤ 1) (d0 : 0 ≤ δ)
    (ε1 : 31 * ur + δ ≤ 1 / 2 ^ 19) :
    Nr (R + t * w) (R.toQ + t.toQ * Y) ((|(R.toQ : ℝ)| + |(t.toQ : ℝ)|) * (31 * ur + δ + 4 * ur)) := by
  have u0 := ur_pos
  obtain ⟨r1, r2⟩ := hR.real
  obtain ⟨t1, t2⟩ := ht.real
  have q0 : 0 < |(R.toQ : ℝ)| := lt_of_lt_of_le (by positivity) r1
  have t0 : 0 < |(t.toQ : ℝ)| := lt_of_lt_of_le (by positivity) t1
  obtain ⟨w, wb⟩ := rad_mul ht hw hY ε1
  generalize hS : |(R.toQ : ℝ)| + |(t.toQ : ℝ)| = S at *
  have S1 : (1:ℝ) / 2 ^ 100 ≤ S := by
    have : (1:ℝ) / 2 ^ 100 ≤ 1 / 2 ^ 80 := by norm_num
    linarith
  have S2 : S ≤ 2 ^ 81 := by
    have : (2:ℝ) ^ 80 + 2 ^ 80 = 2 ^ 81 := by norm_num
    linarith
  have hu : ur ≤ 1 / 2 ^ 50 := ur_le
  have a0 : 0 ≤ 31 * ur + δ + 2 * ur := by linarith
  have a1 : 31 * ur + δ + 2 * ur ≤ 1 / 2 ^ 10 := by norm_num at *; linarith
  have tb : |(t.toQ : ℝ)| * (31 * ur + δ + 2 * ur) ≤ |(t.toQ : ℝ)| * (1 / 2 ^ 10) := mul_le_mul_of_nonneg_left a1 t0.le
  have xy0 := (Nr.exact hR.1).add w le_rfl wb (by
    have : (2:ℝ) ^ 81 + 2 ^ 81 ≤ 2 ^ 190 := by norm_num
    have : |(t.toQ : ℝ)| * (1 / 2 ^ 10) ≤ |(t.toQ : ℝ)| * 1 := mul_le_mul_of_nonneg_left (by norm_num) t0.le
    linarith)
  refine xy0.mono ?_
  have t3 := tau_scale S1
  have c2 : (1:ℝ) / 2 ^ 60 * (ur * S) ≤ 1 / 10 * (ur * S) := mul_le_mul_of_nonneg_right (by norm_num) (by positivity)
  have c3 : |(t.toQ : ℝ)| * (31 * ur + δ + 2 * ur) ≤ S * (31 * ur + δ + 2 * ur) := mul_le_mul_of_nonneg_right (by linarith) a0
  have c4 : ur * (|(R.toQ : ℝ)| + 0 + (|(t.toQ : ℝ)| + |(t.toQ : ℝ)| * (31 * ur + δ + 2 * ur))) ≤ ur * (11 / 10 * S) := by
    apply mul_le_mul_of_nonneg_left _ u0.le
    have : |(t.toQ : ℝ)| * (1 / 2 ^ 10) ≤ |(t.toQ : ℝ)| * (1 / 10) := mul_le_mul_of_nonneg_left (by norm_num) t0.le
    linarith
  have e : S * (31 * ur + δ + 4 * ur) = S * (31 * ur + δ + 2 * ur) + 2 * (ur * S) := by ring
  rw [e]
  linarith

/-- C92 for the torus -/
theorem C92_torus (h : TrigAcc δ) (hδ : δ ≤ 1 / 2 ^ 20) (c : R3.Vector F64) (R t : F64) (hR : RadOk R) (ht : RadOk t) (sc st : ℕ)
    (hsc : 1 ≤ sc) (hsc2 : sc ≤ 2 ^ 52) (hst2 : st ≤ 2 ^ 52) :
    ∃ m, Torus.Construct ⟨c, R, t, sc, st⟩ = .ok m ∧ m.Indices = gridIndices sc st ∧
      m.Vertices.length = st * (sc+1) ∧ m.Normals.length = st * (sc+1) ∧
      ∀ i j, i < st → j ≤ sc → ∃ v n, m.Vertices[i * (sc+1) + j]? = some v ∧ m.Normals[i * (sc+1) + j]? = some n ∧
        FinV v ∧ n.1.Finite ∧ n.2.1.Finite ∧ n.2.2.Finite ∧
        |(v.X.toQ : ℝ) - (R.toQ + t.toQ * Real.cos (Real.pi/2 - i * (2 * Real.pi / st))) * Real.cos (j * (2 * Real.pi / sc))| ≤
          (|(R.toQ : ℝ)| + |(t.toQ : ℝ)|) * (70 * ur + 3 * δ) ∧
        |(v.Y.toQ : ℝ) - (R.toQ + t.toQ * Real.cos (Real.pi/2 - i * (2 * Real.pi / st))) * Real.sin (j * (2 * Real.pi / sc))| ≤
          (|(R.toQ : ℝ)| + |(t.toQ : ℝ)|) * (70 * ur + 3 * δ) ∧
        |(v.Z.toQ : ℝ) - t.toQ * Real.sin (Real.pi/2 - i * (2 * Real.pi / st))| ≤ |(t.toQ : ℝ)| * (33 * ur + δ) ∧
        |(n.1.toQ : ℝ) - (R.toQ + t.toQ * Real.cos (Real.pi/2 - i * (2 * Real.pi / st))) * Real.cos (j * (2 * Real.pi / sc)) / R.toQ| ≤
          (|(R.toQ : ℝ)| + |(t.toQ : ℝ)|) / |(R.toQ : ℝ)| * (74 * ur + 3 * δ) ∧
        |(n.2.1.toQ : ℝ) - (R.toQ + t.toQ * Real.cos (Real.pi/2 - i * (2 * Real.pi / st))) * Real.sin (j * (2 * Real.pi / sc)) / R.toQ| ≤
          (|(R.toQ : ℝ)| + |(t.toQ : ℝ)|) / |(R.toQ : ℝ)| * (74 * ur + 3 * δ) ∧
        |(n.2.2.toQ : ℝ) - t.toQ * Real.sin (Real.pi/2 - i * (2 * Real.pi / st)) / R.toQ| ≤
          (|(R.toQ : ℝ)| + |(t.toQ : ℝ)|) / |(R.toQ : ℝ)| * (74 * ur + 3 * δ) := by
  obtain ⟨m, e, hi, l1, l2, _, hm⟩ := gTorus_construct c R t sc st hsc
  refine ⟨m, e, hi, l1, l2, fun i j hi hj => ?_⟩
  obtain ⟨m1, m2, _⟩ := hm i j hi hj
  refine ⟨_, _, m1, m2, ?_⟩
  have d0 := h.nonneg
  obtain ⟨ε0, ε1⟩ := eps_small h hδ
  have u0 := ur_pos
  have p1 := Real.pi_gt_three
  have p2 := Real.pi_lt_d2
  obtain ⟨r1, r2⟩ := hR.real
  obtain ⟨t1, t2⟩ := ht.real
  have q0 : 0 < |(R.toQ : ℝ)| := lt_of_lt_of_le (by positivity) r1
  have t0 : 0 < |(t.toQ : ℝ)| := lt_of_lt_of_le (by positivity) t1
  -- angles
  have st1 : 1 ≤ st := by omega
  have A := angle_down h 2 (by norm_num) le_rfl st i st1 hst2 hi.le
  obtain ⟨_, A1, A2⟩ := angle_near h 2 (by norm_num) le_rfl st i st1 hst2 hi.le
  obtain ⟨B, B1, B2⟩ := angle_near h 2 (by norm_num) le_rfl sc j hsc hsc2 hj
  simp only [Rat.cast_ofNat] at A A1 A2 B B1 B2
  obtain ⟨ca, sa⟩ := trig_near h A (by rw [abs_le]; constructor <;> linarith)
  obtain ⟨cb, sb⟩ := trig_near h (B.mono (f := 31 * ur) (by linarith)) (by rw [abs_le]; constructor <;> linarith)
  generalize Real.pi/2 - (i:ℝ) * (2 * Real.pi / st) = α at *
  generalize (j:ℝ) * (2 * Real.pi / sc) = β at *
  -- stack
  obtain ⟨w, wb⟩ := rad_mul ht ca (Real.abs_cos_le_one α) ε1
  obtain ⟨z, zb⟩ := rad_mul ht sa (Real.abs_sin_le_one α) ε1
  generalize hS : |(R.toQ : ℝ)| + |(t.toQ : ℝ)| = S at *
  have S1 : (1:ℝ) / 2 ^ 100 ≤ S := by
    have : (1:ℝ) / 2 ^ 100 ≤ 1 / 2 ^ 80 := by norm_num
    linarith
  have S2 : S ≤ 2 ^ 81 := by
    have : (2:ℝ) ^ 80 + 2 ^ 80 = 2 ^ 81 := by norm_num
    linarith
  have S0 : 0 < S := by linarith
  have hu : ur ≤ 1 / 2 ^ 50 := ur_le
  have a0 : 0 ≤ 31 * ur + δ + 2 * ur := by linarith
  have a1 : 31 * ur + δ + 2 * ur ≤ 1 / 2 ^ 10 := by norm_num at *; linarith
  have xy := torus_xy hR ht ca (Real.abs_cos_le_one α) d0 ε1
  rw [hS] at xy
  have xyb : |(R.toQ : ℝ) + t.toQ * Real.cos α| ≤ S := (abs_add_le _ _).trans (by linarith)
  have a0' : 0 ≤ 31 * ur + δ + 4 * ur := by linarith
  have a1' : 31 * ur + δ + 4 * ur ≤ 1 / 2 ^ 10 := by norm_num at *; linarith
  have hK := ring_err (k := 4) rfl d0 ε1 (by norm_num)
  have x := (scale_mul xy xyb cb (Real.abs_cos_le_one β) S1 (S2.trans (by norm_num)) a0' a1' (ε1.trans (by norm_num))).mono
    (mul_le_mul_of_nonneg_left hK S0.le)
  have y := (scale_mul xy xyb sb (Real.abs_sin_le_one β) S1 (S2.trans (by norm_num)) a0' a1' (ε1.trans (by norm_num))).mono
    (mul_le_mul_of_nonneg_left hK S0.le)
  have xb : |((R.toQ : ℝ) + t.toQ * Real.cos α) * Real.cos β| ≤ S := by
    rw [abs_mul]; exact (mul_le_of_le_one_right (abs_nonneg _) (Real.abs_cos_le_one β)).trans xyb
  have yb : |((R.toQ : ℝ) + t.toQ * Real.cos α) * Real.sin β| ≤ S := by
    rw [abs_mul]; exact (mul_le_of_le_one_right (abs_nonneg _) (Real.abs_sin_le_one β)).trans xyb
  have b0 : 0 ≤ 70 * ur + 3 * δ := by positivity
  have b1 : 70 * ur + 3 * δ ≤ 1 / 2 ^ 10 := by norm_num at *; linarith
  have zS : Nr (t * GoTrig.sin (GoTrig.piMul (1/2) - GoOfInt.ofInt (i : ℤ) * (GoTrig.piMul 2 / GoOfInt.ofInt (st : ℤ))))
      (t.toQ * Real.sin α) (S * (70 * ur + 3 * δ)) := z.mono (mul_le_mul (by linarith) (by linarith) a0 S0.le)
  have nx := scale_inv x xb hR.1 r1 r2 (by linarith) S2 b0 b1
  have ny := scale_inv y yb hR.1 r1 r2 (by linarith) S2 b0 b1
  have nz := scale_inv zS (zb.trans (by linarith)) hR.1 r1 r2 (by linarith) S2 b0 b1
  rw [mul_one_div] at nx ny nz
  have ek : 70 * ur + 3 * δ + 4 * ur = 74 * ur + 3 * δ := by ring
  rw [ek] at nx ny nz
  have ez : 31 * ur + δ + 2 * ur = 33 * ur + δ := by ring
  rw [ez] at z
  exact ⟨⟨x.fin, y.fin, z.fin⟩, nx.fin, ny.fin, nz.fin, x.err, y.err, z.err, nx.err, ny.err, nz.err⟩

/-- radius times cosine or sine, plus a coordinate of the center -/
theorem center_add {a w c : F64} {Y : ℝ} (ha : RadOk a) (hw : Nr w Y (31 * ur + δ)) (hY : |Y| ≤ 1) (ε1 : 31 * ur + δ ≤ 1 / 2 ^ 19)
    (hc : c.Finite) (hc2 : |c.toQ| ≤ 2 ^ 80) :
    Nr (a * w + c) (a.toQ * Y + c.toQ) (|(a.toQ : ℝ)| * (35 * ur + δ) + ur * |(c.toQ : ℝ)|) := by
  obtain ⟨r1, r2⟩ := ha.real
  have q0 : 0 < |(a.toQ : ℝ)| := lt_of_lt_of_le (by positivity) r1
  have u0 := ur_pos
  have hu : ur ≤ 1 / 2 ^ 50 := ur_le
  have hc3 : |(c.toQ : ℝ)| ≤ 2 ^ 80 := by
    have := (Rat.cast_le (K := ℝ)).mpr hc2
    push_cast at this
    exact this
  obtain ⟨x, xb⟩ := rad_mul ha hw hY ε1
  have b1 : 31 * ur + δ + 2 * ur ≤ 1 / 10 := by norm_num at *; linarith
  have b2 : |(a.toQ : ℝ)| * (31 * ur + δ + 2 * ur) ≤ |(a.toQ : ℝ)| * (1 / 10) := mul_le_mul_of_nonneg_left b1 q0.le
  have s := x.add (Nr.exact hc) xb le_rfl (by
    have : (2:ℝ) ^ 80 + 2 ^ 80 + 2 ^ 80 ≤ 2 ^ 190 := by norm_num
    linarith)
  refine s.mono ?_
  have t := tau_scale (S := |(a.toQ : ℝ)|) (le_trans (by norm_num) r1)
  have c1 : (1:ℝ) / 2 ^ 60 * (ur * |(a.toQ : ℝ)|) ≤ 1 / 10 * (ur * |(a.toQ : ℝ)|) := mul_le_mul_of_nonneg_right (by norm_num) (by positivity)
  have c2 := mul_le_mul_of_nonneg_left b2 u0.le
  have e1 : |(a.toQ : ℝ)| * (35 * ur + δ) = |(a.toQ : ℝ)| * (31 * ur + δ + 2 * ur) + 2 * (ur * |(a.toQ : ℝ)|) := by ring
  rw [e1]
  have e2 : ur * (|(a.toQ : ℝ)| + |(a.toQ : ℝ)| * (31 * ur + δ + 2 * ur) + (|(c.toQ : ℝ)| + 0)) =
    ur * |(a.toQ : ℝ)| + ur * (|(a.toQ : ℝ)| * (31 * ur + δ + 2 * ur)) + ur * |(c.toQ : ℝ)| := by ring
  rw [e2]
  linarith

/-- C92 for the ellipse -/
theorem C92_ellipse (h : TrigAcc δ) (hδ : δ ≤ 1 / 2 ^ 20) (c : R3.Vector F64) (hc : FinV c) (cx : |c.X.toQ| ≤ 2 ^ 80) (cy : |c.Y.toQ| ≤ 2 ^ 80)
    (a b : F64) (ha : RadOk a) (hb : RadOk b) (n : ℕ) (hn : n ≤ 2 ^ 52) :
    (Ellipse.Construct ⟨c, a, b, n⟩).Vertices.length = n + 1 ∧ (Ellipse.Construct ⟨c, a, b, n⟩).Vertices[0]? = some c ∧
    ∀ k, k < n → ∃ v, (Ellipse.Construct ⟨c, a, b, n⟩).Vertices[k+1]? = some v ∧ FinV v ∧ v.Z.toQ = c.Z.toQ ∧
      |(v.X.toQ : ℝ) - (c.X.toQ + a.toQ * Real.sin (k * (2 * Real.pi / n)))| ≤ |(a.toQ : ℝ)| * (35 * ur + δ) + ur * |(c.X.toQ : ℝ)| ∧
      |(v.Y.toQ : ℝ) - (c.Y.toQ + b.toQ * Real.cos (k * (2 * Real.pi / n)))| ≤ |(b.toQ : ℝ)| * (35 * ur + δ) + ur * |(c.Y.toQ : ℝ)| := by
  have hV : (Ellipse.Construct ⟨c, a, b, n⟩).Vertices = c :: (List.range n).map (fun k : ℕ =>
      (⟨a * GoTrig.cos (GoTrig.piMul (1/2) - GoOfInt.ofInt (k : ℤ) * (GoTrig.piMul 2 / GoOfInt.ofInt (n : ℤ)) : F64) + c.X,
        b * GoTrig.sin (GoTrig.piMul (1/2) - GoOfInt.ofInt (k : ℤ) * (GoTrig.piMul 2 / GoOfInt.ofInt (n : ℤ)) : F64) + c.Y,
        0 + c.Z⟩ : R3.Vector F64)) := by
    show Ellipse.generateVertices ⟨c, a, b, n⟩ = _
    unfold Ellipse.generateVertices
    dsimp only
    rw [loopTo_nat, List.map_map]
    rfl
  rw [hV]
  refine ⟨by simp, rfl, fun k hk => ?_⟩
  rw [List.getElem?_cons_succ, List.getElem?_map, List.getElem?_range hk]
  refine ⟨_, rfl, ?_⟩
  obtain ⟨ε0, ε1⟩ := eps_small h hδ
  have p1 := Real.pi_gt_three
  have p2 := Real.pi_lt_d2
  have A := angle_down h 2 (by norm_num) le_rfl n k (by omega) hn hk.le
  obtain ⟨_, A1, A2⟩ := angle_near h 2 (by norm_num) le_rfl n k (by omega) hn hk.le
  simp only [Rat.cast_ofNat] at A A1 A2
  obtain ⟨ca, sa⟩ := trig_near h A (by rw [abs_le]; constructor <;> linarith)
  rw [Real.cos_pi_div_two_sub] at ca
  rw [Real.sin_pi_div_two_sub] at sa
  have x := center_add ha ca (Real.abs_sin_le_one _) ε1 hc.1 cx
  have y := center_add hb sa (Real.abs_cos_le_one _) ε1 hc.2.1 cy
  have z : (0 + c.Z).Finite ∧ (0 + c.Z).toQ = c.Z.toQ := by
    have e : (0 : F64).toQ + c.Z.toQ = c.Z.toQ := by
      have : (0 : F64).toQ = 0 := rfl
      rw [this, zero_add]
    have hf := add_fin (x := (0 : F64)) trivial hc.2.2 (by
      rw [e, rnd_toQ]
      exact Verif.F64.IsBin64.lt (toQ_bin c.Z))
    rw [e, rnd_toQ] at hf
    exact hf
  refine ⟨⟨x.fin, y.fin, z.1⟩, z.2, ?_, ?_⟩
  · rw [add_comm (c.X.toQ : ℝ)]; exact x.err
  · rw [add_comm (c.Y.toQ : ℝ)]; exact y.err

/-- C92 for the circle -/
theorem C92_circle (h : TrigAcc δ) (hδ : δ ≤ 1 / 2 ^ 20) (c : R3.Vector F64) (hc : FinV c) (cx : |c.X.toQ| ≤ 2 ^ 80) (cy : |c.Y.toQ| ≤ 2 ^ 80)
    (r : F64) (hr : RadOk r) (n : ℕ) (hn : n ≤ 2 ^ 52) :
    (Circle.Construct ⟨c, r, n⟩).Vertices.length = n + 1 ∧ (Circle.Construct ⟨c, r, n⟩).Vertices[0]? = some c ∧
    ∀ k, k < n → ∃ v, (Circle.Construct ⟨c, r, n⟩).Vertices[k+1]? = some v ∧ FinV v ∧ v.Z.toQ = c.Z.toQ ∧
      |(v.X.toQ : ℝ) - (c.X.toQ + r.toQ * Real.sin (k * (2 * Real.pi / n)))| ≤ |(r.toQ : ℝ)| * (35 * ur + δ) + ur * |(c.X.toQ : ℝ)| ∧
      |(v.Y.toQ : ℝ) - (c.Y.toQ + r.toQ * Real.cos (k * (2 * Real.pi / n)))| ≤ |(r.toQ : ℝ)| * (35 * ur + δ) + ur * |(c.Y.toQ : ℝ)| :=
  C92_ellipse h hδ c hc cx cy r r hr hr n hn

/-! ## The seam -/

/-- no float is close to 2π -/
theorem two_pi_gap (x : F64) (h1 : 4 ≤ x.toQ) : 2 * ur < |(x.toQ : ℝ) - 2 * Real.pi| - 1 / 10 * ur := by
  obtain ⟨N, hN⟩ : ∃ N : ℤ, x.toQ = N / 2 ^ 50 := by
    obtain ⟨m, e, hm, _, _, hq⟩ := toQ_bin x
    have he : -50 ≤ e := by
      by_contra hc
      have h3 : (2:ℚ) ^ e ≤ 2 ^ (-51 : ℤ) := zpow_le_zpow_right₀ (by norm_num) (by omega)
      have h4 : |(m:ℚ)| < 2 ^ 53 := by exact_mod_cast hm
      have h5 : x.toQ ≤ |(m:ℚ)| * 2 ^ e := by
        rw [hq]; exact mul_le_mul_of_nonneg_right (le_abs_self _) (two_zpow_pos e).le
      have h6 : |(m:ℚ)| * 2 ^ e < 2 ^ 53 * 2 ^ (-51 : ℤ) := by
        calc |(m:ℚ)| * 2 ^ e ≤ |(m:ℚ)| * 2 ^ (-51 : ℤ) := mul_le_mul_of_nonneg_left h3 (abs_nonneg _)
          _ < _ := mul_lt_mul_of_pos_right h4 (by positivity)
      have h7 : (2:ℚ) ^ 53 * 2 ^ (-51 : ℤ) = 4 := by norm_num
      linarith
    obtain ⟨k, hk⟩ := Int.eq_ofNat_of_zero_le (show 0 ≤ e + 50 by omega)
    refine ⟨m * 2 ^ k, ?_⟩
    rw [hq, show e = (k:ℤ) - 50 by omega, zpow_sub₀ (by norm_num)]
    push_cast
    rw [zpow_natCast]
    norm_num [mul_div_assoc]
  have hx : (x.toQ : ℝ) = N / 2 ^ 50 := by rw [hN]; push_cast; rfl
  rw [hx]
  have g1 := Real.pi_gt_d20
  have g2 := Real.pi_lt_d20
  have hu : ur = 1 / 2 ^ 53 := rfl
  rw [hu]
  rcases le_or_gt N 7074237752028440 with hc | hc
  · have : (N:ℝ) ≤ 7074237752028440 := by exact_mod_cast hc
    have h5 : (N:ℝ) / 2 ^ 50 ≤ 7074237752028440 / 2 ^ 50 := div_le_div_of_nonneg_right this (by norm_num)
    rw [abs_of_neg (by norm_num at *; linarith)]
    norm_num at *; linarith
  · have : (7074237752028441:ℝ) ≤ N := by exact_mod_cast hc
    have h5 : (7074237752028441:ℝ) / 2 ^ 50 ≤ N / 2 ^ 50 := div_le_div_of_nonneg_right this (by norm_num)
    rw [abs_of_pos (by norm_num at *; linarith)]
    norm_num at *; linarith

/-- the sine of the last sector angle is not zero -/
theorem seam_sin (h : TrigAcc δ) (hδ : δ ≤ 2 * ur) (sc : ℕ) (hsc : 1 ≤ sc) (hsc2 : sc ≤ 2 ^ 52) :
    (GoTrig.sin (GoOfInt.ofInt (sc : ℤ) * (GoTrig.piMul 2 / GoOfInt.ofInt (sc : ℤ)) : F64)).Finite ∧
    1 / 20 * ur ≤ |((GoTrig.sin (GoOfInt.ofInt (sc : ℤ) * (GoTrig.piMul 2 / GoOfInt.ofInt (sc : ℤ)) : F64)).toQ : ℝ)| := by
  obtain ⟨B, _, _⟩ := angle_near h 2 (by norm_num) le_rfl sc sc hsc hsc2 le_rfl
  have n0 : (sc : ℝ) ≠ 0 := by exact_mod_cast (by omega : sc ≠ 0)
  rw [show (sc : ℝ) * (((2 : ℚ) : ℝ) * Real.pi / sc) = 2 * Real.pi by push_cast; field_simp] at B
  generalize (GoOfInt.ofInt (sc : ℤ) * (GoTrig.piMul 2 / GoOfInt.ofInt (sc : ℤ)) : F64) = a at *
  have p1 := Real.pi_gt_three
  have p2 := Real.pi_lt_d2
  have u0 := ur_pos
  have hu : ur = 1 / 2 ^ 53 := rfl
  have hB := abs_le.mp B.err
  have a4 : (4:ℝ) ≤ a.toQ := by rw [hu] at hB; norm_num at hB; linarith [hB.1]
  have a8 : (a.toQ : ℝ) ≤ 8 := by rw [hu] at hB; norm_num at hB; linarith [hB.2]
  have gap := two_pi_gap a (by exact_mod_cast a4)
  obtain ⟨f, hs⟩ := h.sin a B.fin (by rw [abs_of_nonneg (by have : (4:ℚ) ≤ a.toQ := by exact_mod_cast a4
                                                            linarith)]; exact_mod_cast a8)
  refine ⟨f, ?_⟩
  have err := B.err
  have hsin : Real.sin (a.toQ : ℝ) = Real.sin ((a.toQ : ℝ) - 2 * Real.pi) := (Real.sin_sub_two_pi _).symm
  rw [hsin] at hs
  generalize (a.toQ : ℝ) - 2 * Real.pi = d at *
  -- sine of a small angle
  have low : ∀ x : ℝ, 2 * ur < x - 1 / 10 * ur → x ≤ 21 * ur → 205 / 100 * ur ≤ Real.sin x := by
    intro x h1 h2
    have x0 : 0 < x := by linarith
    have h3 := Real.sin_gt_sub_cube x0
    have h4 : x ^ 3 ≤ (21 * ur) ^ 3 := pow_le_pow_left₀ x0.le h2 3
    have h5 : (21 * ur) ^ 3 ≤ 1 / 100 * ur := by rw [hu]; norm_num
    linarith
  have ha : 205 / 100 * ur ≤ |Real.sin d| := by
    rcases le_total 0 d with hd | hd
    · rw [abs_of_nonneg hd] at gap err
      exact (low d gap err).trans (le_abs_self _)
    · rw [abs_of_nonpos hd] at gap err
      have := low (-d) gap err
      rw [Real.sin_neg] at this
      exact this.trans (neg_le_abs _)
  have := abs_sub_abs_le_abs_sub (Real.sin d) ((GoTrig.sin a : F64).toQ : ℝ)
  rw [abs_sub_comm] at this
  linarith

/-- a product of floats that are not too small is not zero -/
theorem mul_ne_zero_float {v w : F64} (hv : v.Finite) (hw : w.Finite) (v1 : (1:ℝ) / 2 ^ 130 ≤ |(v.toQ : ℝ)|) (v2 : |(v.toQ : ℝ)| ≤ 2 ^ 100)
    (w1 : (1:ℝ) / 2 ^ 60 ≤ |(w.toQ : ℝ)|) (w2 : |(w.toQ : ℝ)| ≤ 2) : (v * w).Finite ∧ (v * w).toQ ≠ 0 := by
  have lo : (1:ℝ) / 2 ^ 190 ≤ |((v.toQ * w.toQ : ℚ) : ℝ)| := by
    push_cast; rw [abs_mul]
    calc (1:ℝ) / 2 ^ 190 ≤ 1 / 2 ^ 130 * (1 / 2 ^ 60) := by norm_num
      _ ≤ _ := mul_le_mul v1 w1 (by positivity) (abs_nonneg _)
  have hi : |((v.toQ * w.toQ : ℚ) : ℝ)| ≤ 2 ^ 190 := by
    push_cast; rw [abs_mul]
    calc |(v.toQ : ℝ)| * |(w.toQ : ℝ)| ≤ 2 ^ 100 * 2 := mul_le_mul v2 w2 (abs_nonneg _) (by positivity)
      _ ≤ _ := by norm_num
  obtain ⟨f1, f2⟩ := mul_fin hv hw (rnd_small_real hi)
  refine ⟨f1, fun h0 => ?_⟩
  rw [f2] at h0
  have r := rnd_err_real (v.toQ * w.toQ)
  rw [h0] at r
  rw [Rat.cast_zero, zero_sub, abs_neg] at r
  have t := tau_tiny
  have c1 : (1:ℝ) / 2 ^ 250 ≤ 1 / 4 * (1 / 2 ^ 190) := by norm_num
  have hu : ur ≤ 1 / 2 := ur_le.trans (by norm_num)
  have := mul_le_mul_of_nonneg_right hu (abs_nonneg ((v.toQ * w.toQ : ℚ) : ℝ))
  have p : (0:ℝ) < 1 / 2 ^ 190 := by positivity
  linarith

/-- the first vertex of a ring has second coordinate 0 -/
theorem seam_first (h : TrigAcc δ) (hz : ∀ s, (GoTrig.sin (F64.zero s)).toQ = 0) (sc : ℕ) (hsc : 1 ≤ sc) (hsc2 : sc ≤ 2 ^ 52)
    {v : F64} (hv : v.Finite) :
    (v * GoTrig.sin (GoOfInt.ofInt ((0 : ℕ) : ℤ) * (GoTrig.piMul 2 / GoOfInt.ofInt (sc : ℤ)) : F64)).toQ = 0 := by
  obtain ⟨B, _, _⟩ := angle_near h 2 (by norm_num) le_rfl sc 0 hsc hsc2 (by omega)
  have hstep : (GoTrig.piMul 2 / GoOfInt.ofInt (sc : ℤ) : F64).Finite := by
    obtain ⟨C, _, _⟩ := angle_near h 2 (by norm_num) le_rfl sc 1 hsc hsc2 hsc
    have := C.fin
    generalize (GoTrig.piMul 2 / GoOfInt.ofInt (sc : ℤ) : F64) = x at this
    rw [show (GoOfInt.ofInt ((1 : ℕ) : ℤ) : F64) = 1 by decide +kernel] at this
    cases x with
    | nan => exact this
    | inf s => exact this
    | zero s => trivial
    | fin q hq => trivial
  have e0 : (GoOfInt.ofInt ((0 : ℕ) : ℤ) : F64) = .zero false := by decide +kernel
  have hzero : ∃ s, (GoOfInt.ofInt ((0 : ℕ) : ℤ) * (GoTrig.piMul 2 / GoOfInt.ofInt (sc : ℤ)) : F64) = .zero s := by
    have hm := mul_fin (x := F64.zero false) (y := (GoTrig.piMul 2 / GoOfInt.ofInt (sc : ℤ) : F64)) trivial hstep (by
      rw [show (F64.zero false).toQ = 0 from rfl, zero_mul, rnd_zero, abs_zero]; positivity)
    rw [show (F64.zero false).toQ = 0 from rfl, zero_mul, rnd_zero] at hm
    rw [e0]
    generalize (F64.zero false * (GoTrig.piMul 2 / GoOfInt.ofInt (sc : ℤ)) : F64) = x at hm
    cases x with
    | nan => exact hm.1.elim
    | inf s => exact hm.1.elim
    | zero s => exact ⟨s, rfl⟩
    | fin q hq => exact absurd hm.2 hq.1
  obtain ⟨s, hs⟩ := hzero
  rw [hs]
  have hf := (h.sin (.zero s) trivial (by show |(0:ℚ)| ≤ 8; norm_num)).1
  have := mul_fin hv hf (by rw [hz s, mul_zero, rnd_zero, abs_zero]; positivity)
  rw [this.2, hz s, mul_zero, rnd_zero]

/-- C92: the comment in sphere.go:46 is false at float64: with `math.Sin(0) = 0` and an error of the sine below one unit
in the last place (2 * 2^-53), the first and the last vertex of every ring below the pole are different points -/
theorem C92_seam_refuted (h : TrigAcc δ) (hδ : δ ≤ 2 * ur) (hz : ∀ s, (GoTrig.sin (F64.zero s)).toQ = 0)
    (c : R3.Vector F64) (r : F64) (hr : RadOk r) (sc st : ℕ) (hsc : 1 ≤ sc) (hsc2 : sc ≤ 2 ^ 52) (hst2 : st ≤ 2 ^ 40)
    (i : ℕ) (hi1 : 1 ≤ i) (hi2 : i < st) :
    ∃ m v w, Sphere.Construct ⟨c, r, sc, st⟩ = .ok m ∧ m.Vertices[i * (sc+1)]? = some v ∧ m.Vertices[i * (sc+1) + sc]? = some w ∧
      v.Y.toQ = 0 ∧ w.Y.toQ ≠ 0 := by
  obtain ⟨m, e, _, _, _, _, hm⟩ := gSphere_construct c r sc st hsc
  have m1 := (hm i 0 hi2 (by omega)).1
  have m2 := (hm i sc hi2 le_rfl).1
  have u0 := ur_pos
  have hu : ur = 1 / 2 ^ 53 := rfl
  have hδ' : δ ≤ 1 / 2 ^ 20 := hδ.trans (by rw [hu]; norm_num)
  obtain ⟨ε0, ε1⟩ := eps_small h hδ'
  have p1 := Real.pi_gt_three
  have p2 := Real.pi_lt_d2
  obtain ⟨r1, r2⟩ := hr.real
  have q0 : 0 < |(r.toQ : ℝ)| := lt_of_lt_of_le (by positivity) r1
  have A := angle_down h 1 le_rfl (by norm_num) st i (by omega) (hst2.trans (by norm_num)) hi2.le
  obtain ⟨_, A1, A2⟩ := angle_near h 1 le_rfl (by norm_num) st i (by omega) (hst2.trans (by norm_num)) hi2.le
  simp only [Rat.cast_one, one_mul] at A A1 A2
  obtain ⟨ca, sa⟩ := trig_near h A (by rw [abs_le]; constructor <;> linarith)
  obtain ⟨xy, xyb⟩ := rad_mul hr ca (Real.abs_cos_le_one _) ε1
  have hcos : (1:ℝ) / 2 ^ 39 ≤ Real.cos (Real.pi / 2 - i * (Real.pi / st)) := by
    rw [Real.cos_pi_div_two_sub]
    have s0 : (0:ℝ) < st := by exact_mod_cast (by omega : 0 < st)
    have s1 : (st:ℝ) ≤ 2 ^ 40 := by exact_mod_cast hst2
    have i1 : (1:ℝ) ≤ i := by exact_mod_cast hi1
    have i2 : (i:ℝ) ≤ st - 1 := by
      have : i + 1 ≤ st := hi2
      have : ((i + 1 : ℕ) : ℝ) ≤ st := by exact_mod_cast this
      push_cast at this; linarith
    have s2 : (1:ℝ) / 2 ^ 40 ≤ 1 / st := one_div_le_one_div_of_le s0 s1
    have pw : 0 < Real.pi := Real.pi_pos
    have k : ∀ y : ℝ, 1 / st * Real.pi ≤ y → y ≤ Real.pi / 2 → (1:ℝ) / 2 ^ 39 ≤ Real.sin y := by
      intro y y1 y2
      have y0 : 0 ≤ y := le_trans (by positivity) y1
      have := Real.mul_le_sin y0 y2
      have c1 : 2 / Real.pi * (1 / st * Real.pi) ≤ 2 / Real.pi * y := mul_le_mul_of_nonneg_left y1 (by positivity)
      have c2 : 2 / Real.pi * (1 / st * Real.pi) = 2 * (1 / st) := by field_simp
      have c3 : (1:ℝ) / 2 ^ 39 = 2 * (1 / 2 ^ 40) := by norm_num
      linarith
    have e1 : (i:ℝ) * (Real.pi / st) = i / st * Real.pi := by ring
    have g1 : 1 / st * Real.pi ≤ i * (Real.pi / st) := by
      rw [e1]; exact mul_le_mul_of_nonneg_right (div_le_div_of_nonneg_right i1 s0.le) pw.le
    have g2 : (i:ℝ) * (Real.pi / st) ≤ Real.pi - 1 / st * Real.pi := by
      rw [e1]
      have : (i:ℝ) / st ≤ (st - 1) / st := div_le_div_of_nonneg_right i2 s0.le
      have e2 : ((st:ℝ) - 1) / st = 1 - 1 / st := by field_simp
      rw [e2] at this
      have := mul_le_mul_of_nonneg_right this pw.le
      linarith
    rcases le_total ((i:ℝ) * (Real.pi / st)) (Real.pi / 2) with hc | hc
    · exact k _ g1 hc
    · rw [← Real.sin_pi_sub]
      exact k _ (by linarith) (by linarith)
  generalize Real.pi / 2 - (i:ℝ) * (Real.pi / st) = α at *
  have hxy1 : (1:ℝ) / 2 ^ 130 ≤ |((r * GoTrig.cos (GoTrig.piMul (1/2) - GoOfInt.ofInt (i : ℤ) * (GoTrig.piMul 1 / GoOfInt.ofInt (st : ℤ)))).toQ : ℝ)| := by
    have h1 := abs_sub_abs_le_abs_sub ((r.toQ : ℝ) * Real.cos α) ((r * GoTrig.cos (GoTrig.piMul (1/2) - GoOfInt.ofInt (i : ℤ) * (GoTrig.piMul 1 / GoOfInt.ofInt (st : ℤ)))).toQ : ℝ)
    rw [abs_sub_comm] at h1
    have h2 := xy.err
    have h3 : |(r.toQ : ℝ)| * (1 / 2 ^ 39) ≤ |(r.toQ : ℝ) * Real.cos α| := by
      rw [abs_mul]; exact mul_le_mul_of_nonneg_left (hcos.trans (le_abs_self _)) q0.le
    have h4 : |(r.toQ : ℝ)| * (31 * ur + δ + 2 * ur) ≤ |(r.toQ : ℝ)| * (1 / 2 ^ 40) := by
      apply mul_le_mul_of_nonneg_left _ q0.le
      rw [hu] at hδ ⊢; norm_num at *; linarith
    have h5 : |(r.toQ : ℝ)| * (1 / 2 ^ 39) - |(r.toQ : ℝ)| * (1 / 2 ^ 40) = |(r.toQ : ℝ)| * (1 / 2 ^ 40) := by ring
    have h6 : (1:ℝ) / 2 ^ 80 * (1 / 2 ^ 40) ≤ |(r.toQ : ℝ)| * (1 / 2 ^ 40) := mul_le_mul_of_nonneg_right r1 (by positivity)
    have h7 : (1:ℝ) / 2 ^ 130 ≤ 1 / 2 ^ 80 * (1 / 2 ^ 40) := by norm_num
    linarith
  have hxy2 := xy.abs_le xyb
  have h8 : |(r.toQ : ℝ)| * (31 * ur + δ + 2 * ur) ≤ |(r.toQ : ℝ)| * 1 := by
    apply mul_le_mul_of_nonneg_left _ q0.le
    rw [hu] at hδ ⊢; norm_num at *; linarith
  obtain ⟨f, sl⟩ := seam_sin h hδ sc hsc hsc2
  have sh : |((GoTrig.sin (GoOfInt.ofInt (sc : ℤ) * (GoTrig.piMul 2 / GoOfInt.ofInt (sc : ℤ)) : F64)).toQ : ℝ)| ≤ 2 := by
    obtain ⟨B, B1, B2⟩ := angle_near h 2 (by norm_num) le_rfl sc sc hsc hsc2 le_rfl
    push_cast at B1 B2
    obtain ⟨_, sb⟩ := trig_near h (B.mono (f := 31 * ur) (by linarith)) (by push_cast; rw [abs_le]; constructor <;> linarith)
    have := sb.abs_le (Real.abs_sin_le_one _)
    have : (1:ℝ) / 2 ^ 19 ≤ 1 := by norm_num
    linarith
  refine ⟨m, _, _, e, m1, m2, seam_first h hz sc hsc hsc2 xy.fin, ?_⟩
  refine (mul_ne_zero_float xy.fin f hxy1 ?_ (le_trans ?_ sl) sh).2
  · have : (2:ℝ) ^ 80 + 2 ^ 80 ≤ 2 ^ 100 := by norm_num
    linarith
  · rw [hu]; norm_num

/-! ## The hypotheses can be met -/

/-- correctly rounded functions -/
@[reducible] noncomputable def roundedTrig : GoTrig F64 :=
  ⟨fun x => F64.round false (Real.cos x.toQ), fun x => F64.round false (Real.sin x.toQ), fun q => F64.round false ((q : ℝ) * Real.pi)⟩

theorem round_unit {x : ℝ} (h : |x| ≤ 1) : Nr (F64.round false x) x ur := by
  have he : expo x ≤ -52 := by
    unfold expo
    apply max_le _ (by norm_num)
    have : Int.log 2 |x| < 1 := by
      rcases eq_or_ne x 0 with rfl | h0
      · simp
      · rw [← Int.lt_zpow_iff_log_lt (by norm_num) (abs_pos.mpr h0)]
        norm_num; linarith
    omega
  have hr := rnd_err (K := ℝ) x
  have h2 : (2:ℝ) ^ expo x / 2 ≤ ur := by
    have := zpow_le_zpow_right₀ (a := (2:ℝ)) (by norm_num) he
    have e : ur = 2 ^ (-52 : ℤ) / 2 := by unfold ur; norm_num
    rw [e]
    exact div_le_div_of_nonneg_right this (by norm_num)
  have hr2 := hr.trans h2
  have hb : |rnd x| < 2 ^ 1024 := by
    have h3 : |((rnd x : ℚ) : ℝ)| ≤ 2 := by
      have e : ((rnd x : ℚ) : ℝ) = ((rnd x : ℚ) - x) + x := by ring
      rw [e]
      refine (abs_add_le _ _).trans ?_
      have : ur ≤ 1 := ur_le.trans (by norm_num)
      linarith
    have h4 : |rnd x| ≤ 2 := by exact_mod_cast h3
    exact lt_of_le_of_lt (h4.trans (by norm_num : (2:ℚ) ≤ 2 ^ 1)) (pow_lt_pow_right₀ (by norm_num) (by norm_num))
  obtain ⟨f1, f2⟩ := round_fin (s := false) hb
  exact ⟨f1, by rw [f2]; exact hr2⟩

theorem roundedTrig_acc : @TrigAcc roundedTrig ur :=
  letI := roundedTrig
  ⟨fun _ => rfl, fun _ _ _ => ⟨(round_unit (Real.abs_cos_le_one _)).fin, (round_unit (Real.abs_cos_le_one _)).err⟩,
    fun _ _ _ => ⟨(round_unit (Real.abs_sin_le_one _)).fin, (round_unit (Real.abs_sin_le_one _)).err⟩⟩

theorem roundedTrig_zero (s : Bool) : (@GoTrig.sin F64 roundedTrig (F64.zero s)).toQ = 0 := by
  show (F64.round false (Real.sin (((0:ℚ) : ℝ)))).toQ = 0
  rw [Rat.cast_zero, Real.sin_zero]
  have := round_fin (s := false) (x := (0:ℝ)) (by rw [rnd_zero, abs_zero]; positivity)
  rw [this.2, rnd_zero]

theorem radOk_one : RadOk (1 : F64) := by
  refine ⟨trivial, ?_, ?_⟩
  · show (1:ℚ) / 2 ^ 80 ≤ |(1:ℚ)|; norm_num
  · show |(1:ℚ)| ≤ 2 ^ 80; norm_num

example (c : R3.Vector F64) : letI := roundedTrig
    ∃ m, ConstructSphere c (1 : F64) = .ok m ∧
      ∀ v ∈ m.Vertices, |euclid (realV v) ⟨0, 0, 0⟩ - 1| ≤ 146 * ur := by
  letI := roundedTrig
  obtain ⟨m, e, h, _⟩ := C92_sphere_distance roundedTrig_acc (ur_le.trans (by norm_num)) c 1 radOk_one 300 300 (by norm_num) (by norm_num) (by norm_num)
  refine ⟨m, e, fun v hv => ?_⟩
  have := h v hv
  have e1 : ((1 : F64).toQ : ℝ) = 1 := by
    have : (1 : F64).toQ = 1 := rfl
    rw [this]; norm_num
  rw [e1, abs_one, one_mul] at this
  exact this.trans (by linarith)

example (c : R3.Vector F64) : letI := roundedTrig
    ∃ m v w, ConstructSphere c (1 : F64) = .ok m ∧ m.Vertices[150 * 301]? = some v ∧ m.Vertices[150 * 301 + 300]? = some w ∧ v ≠ w := by
  letI := roundedTrig
  obtain ⟨m, v, w, e, h1, h2, h3, h4⟩ := C92_seam_refuted roundedTrig_acc (by linarith [ur_pos]) roundedTrig_zero c 1 radOk_one 300 300
    (by norm_num) (by norm_num) (by norm_num) 150 (by norm_num) (by norm_num)
  exact ⟨m, v, w, e, h1, h2, fun e => h4 (e ▸ h3)⟩

example : letI := roundedTrig
    (ConstructCircle ⟨0, 0, 0⟩ (1 : F64)).Vertices.length = 101 :=
  letI := roundedTrig
  (C92_circle roundedTrig_acc (ur_le.trans (by norm_num)) ⟨0, 0, 0⟩ ⟨trivial, trivial, trivial⟩ (by show |(0:ℚ)| ≤ 2 ^ 80; norm_num)
    (by show |(0:ℚ)| ≤ 2 ^ 80; norm_num) 1 radOk_one 100 (by norm_num)).1

end Verif.Props
