import Verif.Proofs.VolFloat
import Verif.Props.DelaunatorFloat
/-!
# C82: the 3-D orientation, in-sphere and point-in-tetrahedron tests at binary64
-/
namespace Verif.Props
open Verif Verif.F64 Verif.Proofs Verif.Predicates Verif.Tri3 Verif.R3

section
variable {M : ℚ} (h1 : 1 / 2 ^ 34 ≤ M) (h2 : M ≤ 2 ^ 34)
include h1 h2

/-- C82: the float64 orientation determinant is finite, within `426 * 2^-53 * M^3` of the exact one, and has its sign when the exact one is larger than that -/
theorem C82_orient {a b c d : R3.Vector F64} (h : ∀ v ∈ [a, b, c, d], Bounded3 M v) :
    let r := orient3dfast a b c d
    let D := orient3dfast (exactV a) (exactV b) (exactV c) (exactV d)
    r.Finite ∧ |r.toQ - D| ≤ 426 / 2 ^ 53 * M ^ 3 ∧ (426 / 2 ^ 53 * M ^ 3 < |D| → (0 < r ↔ 0 < D) ∧ (r < 0 ↔ D < 0)) := by
  intro r D
  have A := orient_app h1 h2 (h a (by simp)) (h b (by simp)) (h c (by simp)) (h d (by simp))
  have e : 426 * (uro * M ^ 3) = 426 / 2 ^ 53 * M ^ 3 := by unfold uro; ring
  refine ⟨A.fin, e ▸ A.err, fun hD => ?_⟩
  obtain ⟨s1, s2⟩ := A.sign (by rw [e]; exact hD)
  exact ⟨s2, s1⟩

/-- C82: the same for the in-sphere determinant, with the bound `40038 * 2^-53 * M^5` -/
theorem C82_insphere {a b c d e : R3.Vector F64} (h : ∀ v ∈ [a, b, c, d, e], Bounded3 M v) :
    let r := InSphereFast a b c d e
    let D := InSphereFast (exactV a) (exactV b) (exactV c) (exactV d) (exactV e)
    r.Finite ∧ |r.toQ - D| ≤ 40038 / 2 ^ 53 * M ^ 5 ∧ (40038 / 2 ^ 53 * M ^ 5 < |D| → (0 < r ↔ 0 < D) ∧ (r < 0 ↔ D < 0)) := by
  intro r D
  have A := insphere_app h1 h2 (h a (by simp)) (h b (by simp)) (h c (by simp)) (h d (by simp)) (h e (by simp))
  have e : 40038 * (uro * M ^ 5) = 40038 / 2 ^ 53 * M ^ 5 := by unfold uro; ring
  refine ⟨A.fin, e ▸ A.err, fun hD => ?_⟩
  obtain ⟨s1, s2⟩ := A.sign (by rw [e]; exact hD)
  exact ⟨s2, s1⟩

/-- C82: when no four of the five points are within the error of a plane, the float64 test is membership in the exact tetrahedron -/
theorem C82_tetrahedron {a b c d p : R3.Vector F64} (h : ∀ v ∈ [a, b, c, d, p], Bounded3 M v)
    (hv : ∀ t ∈ [(a, b, c, d), (a, b, c, p), (b, c, d, p), (c, d, a, p), (d, a, b, p)],
      426 / 2 ^ 53 * M ^ 3 < |orient3dfast (exactV t.1) (exactV t.2.1) (exactV t.2.2.1) (exactV t.2.2.2)|) :
    VectorInTetrahedron a b c d p = true ↔ InTet (exactV a) (exactV b) (exactV c) (exactV d) (exactV p) := by
  have e : 426 * (uro * M ^ 3) = 426 / 2 ^ 53 * M ^ 3 := by unfold uro; ring
  have ha := h a (by simp)
  have hb := h b (by simp)
  have hc := h c (by simp)
  have hd := h d (by simp)
  have hp := h p (by simp)
  have w : ∀ x y z t : R3.Vector ℚ, |vol6 x y z t| = |orient3dfast x y z t| := by
    intro x y z t
    rw [show vol6 x y z t = - orient3dfast x y z t by rw [vol6_eq]; simp only [orient3dfast]; ring, abs_neg]
  have v0 := hv (a, b, c, d) (by simp)
  have v1 := hv (a, b, c, p) (by simp)
  have v2 := hv (b, c, d, p) (by simp)
  have v3 := hv (c, d, a, p) (by simp)
  have v4 := hv (d, a, b, p) (by simp)
  rw [← w, ← e] at v0 v1 v2 v3 v4
  dsimp only at v0 v1 v2 v3 v4
  have hnc : ¬ Coplanar4 (exactV a) (exactV b) (exactV c) (exactV d) := by
    rw [← vol6_zero_iff]
    intro h0
    rw [h0, abs_zero] at v0
    have : 0 ≤ 426 * (uro * M ^ 3) := mul_nonneg (by norm_num) (mul_nonneg uro_pos.le (scale5 h1 h2 (by norm_num)).pos.le)
    linarith
  have r1 : |vol6 (exactV b) (exactV c) (exactV d) (exactV a)| = |vol6 (exactV a) (exactV b) (exactV c) (exactV d)| := by
    rw [show vol6 (exactV b) (exactV c) (exactV d) (exactV a) = - vol6 (exactV a) (exactV b) (exactV c) (exactV d) by simp only [vol6_eq]; ring, abs_neg]
  have r2 : |vol6 (exactV c) (exactV d) (exactV a) (exactV b)| = |vol6 (exactV a) (exactV b) (exactV c) (exactV d)| := by
    rw [show vol6 (exactV c) (exactV d) (exactV a) (exactV b) = vol6 (exactV a) (exactV b) (exactV c) (exactV d) by simp only [vol6_eq]; ring]
  have r3 : |vol6 (exactV d) (exactV a) (exactV b) (exactV c)| = |vol6 (exactV a) (exactV b) (exactV c) (exactV d)| := by
    rw [show vol6 (exactV d) (exactV a) (exactV b) (exactV c) = - vol6 (exactV a) (exactV b) (exactV c) (exactV d) by simp only [vol6_eq]; ring, abs_neg]
  have key : ∀ {x y z t : R3.Vector F64}, Bounded3 M x → Bounded3 M y → Bounded3 M z → Bounded3 M t →
      426 * (uro * M ^ 3) < |vol6 (exactV x) (exactV y) (exactV z) (exactV t)| → 426 * (uro * M ^ 3) < |vol6 (exactV x) (exactV y) (exactV z) (exactV p)| →
      (SameSide x y z t p = true ↔ SameSide (exactV x) (exactV y) (exactV z) (exactV t) (exactV p) = true) := by
    intro x y z t hx hy hz ht q1 q2
    rw [sameSide_iff]
    exact sameSide_of_signs ((side_app h1 h2 hx hy hz ht).sign_le q1) ((side_app h1 h2 hx hy hz hp).sign_le q2)
  rw [← C27_membership _ _ _ _ _ hnc]
  unfold VectorInTetrahedron
  simp only [Bool.and_eq_true]
  rw [key ha hb hc hd v0 v1, key hb hc hd ha (by rw [r1]; exact v0) v2, key hc hd ha hb (by rw [r2]; exact v0) v3, key hd ha hb hc (by rw [r3]; exact v0) v4]

end

/-- the coordinates are multiples of `2^e` by integers of size at most `B` -/
def Grid3 (B : ℕ) (e : ℤ) (v : R3.Vector F64) : Prop :=
  ∀ x ∈ [v.X, v.Y, v.Z], x.Finite ∧ ∃ n : ℤ, |n| ≤ B ∧ x.toQ = n * 2 ^ e

theorem Grid3.pt {B : ℕ} {e : ℤ} {v : R3.Vector F64} (h : Grid3 B e v) : ∃ a, DPt3 B e v a := by
  obtain ⟨f1, n1, b1, e1⟩ := h v.X (by simp)
  obtain ⟨f2, n2, b2, e2⟩ := h v.Y (by simp)
  obtain ⟨f3, n3, b3, e3⟩ := h v.Z (by simp)
  exact ⟨⟨n1, n2, n3⟩, ⟨f1, e1, b1⟩, ⟨f2, e2, b2⟩, ⟨f3, e3, b3⟩⟩

theorem dpt3_exact {B : ℕ} {e : ℤ} {v : R3.Vector F64} {a : R3.Vector ℤ} (h : DPt3 B e v a) :
    exactV v = ⟨a.X * 2 ^ e, a.Y * 2 ^ e, a.Z * 2 ^ e⟩ := by
  unfold exactV; rw [h.1.val, h.2.1.val, h.2.2.val]

section
variable {e : ℤ} (h1 : -200 ≤ e) (h2 : e ≤ 160)
include h1 h2

/-- C82: on a dyadic grid of 2^16 steps the orientation determinant is computed without error -/
theorem C82_orient_grid {a b c d : R3.Vector F64} (h : ∀ v ∈ [a, b, c, d], Grid3 32768 e v) :
    (orient3dfast a b c d).Finite ∧ (orient3dfast a b c d).toQ = orient3dfast (exactV a) (exactV b) (exactV c) (exactV d) := by
  obtain ⟨a', ha⟩ := (h a (by simp)).pt
  obtain ⟨b', hb⟩ := (h b (by simp)).pt
  obtain ⟨c', hc⟩ := (h c (by simp)).pt
  obtain ⟨d', hd⟩ := (h d (by simp)).pt
  obtain ⟨C, H⟩ := dpt3_orient h1 h2 ha hb hc hd
  refine ⟨H.fin, ?_⟩
  rw [H.val, dpt3_exact ha, dpt3_exact hb, dpt3_exact hc, dpt3_exact hd, zpow_add₀ (by norm_num), zpow_add₀ (by norm_num)]
  simp only [orient3dfast]; push_cast; ring

set_option maxRecDepth 10000 in
/-- C82: on a dyadic grid of 512 steps the in-sphere determinant is computed without error -/
theorem C82_insphere_grid {a b c d f : R3.Vector F64} (h : ∀ v ∈ [a, b, c, d, f], Grid3 256 e v) :
    (InSphereFast a b c d f).Finite ∧ (InSphereFast a b c d f).toQ = InSphereFast (exactV a) (exactV b) (exactV c) (exactV d) (exactV f) := by
  obtain ⟨a', ha⟩ := (h a (by simp)).pt
  obtain ⟨b', hb⟩ := (h b (by simp)).pt
  obtain ⟨c', hc⟩ := (h c (by simp)).pt
  obtain ⟨d', hd⟩ := (h d (by simp)).pt
  obtain ⟨f', hf⟩ := (h f (by simp)).pt
  obtain ⟨C, H⟩ := dpt3_insphere h1 h2 ha hb hc hd hf
  refine ⟨H.fin, ?_⟩
  rw [H.val, dpt3_exact ha, dpt3_exact hb, dpt3_exact hc, dpt3_exact hd, dpt3_exact hf]
  simp only [zpow_add₀ (two_ne_zero : (2:ℚ) ≠ 0)]
  generalize (2:ℚ) ^ e = E
  simp only [InSphereFast]; push_cast; ring

/-- C82: on a dyadic grid of 2^16 steps the float64 point-in-tetrahedron test is the exact test: membership in the convex hull (boundary included) when the
four vertices are not in a plane, and always true when they are -/
theorem C82_tetrahedron_grid {a b c d p : R3.Vector F64} (h : ∀ v ∈ [a, b, c, d, p], Grid3 32768 e v) :
    (¬ Coplanar4 (exactV a) (exactV b) (exactV c) (exactV d) →
      (VectorInTetrahedron a b c d p = true ↔ InTet (exactV a) (exactV b) (exactV c) (exactV d) (exactV p))) ∧
    (Coplanar4 (exactV a) (exactV b) (exactV c) (exactV d) → VectorInTetrahedron a b c d p = true) := by
  have ha := h a (by simp)
  have hb := h b (by simp)
  have hc := h c (by simp)
  have hd := h d (by simp)
  have hp := h p (by simp)
  have h0 : (0 : F64).toQ = 0 := rfl
  have z0 : (0 : F64).Finite := trivial
  have vol : ∀ {x y z t : R3.Vector F64}, Grid3 32768 e x → Grid3 32768 e y → Grid3 32768 e z → Grid3 32768 e t →
      (Dot (Cross (R3.Sub y x) (R3.Sub z x)) (R3.Sub t x) ≤ 0 ↔ vol6 (exactV x) (exactV y) (exactV z) (exactV t) ≤ 0) ∧
      (0 ≤ Dot (Cross (R3.Sub y x) (R3.Sub z x)) (R3.Sub t x) ↔ 0 ≤ vol6 (exactV x) (exactV y) (exactV z) (exactV t)) := by
    intro x y z t hx hy hz ht
    obtain ⟨x', hx⟩ := hx.pt
    obtain ⟨y', hy⟩ := hy.pt
    obtain ⟨z', hz⟩ := hz.pt
    obtain ⟨t', ht⟩ := ht.pt
    obtain ⟨C, H⟩ := dpt3_side h1 h2 hx hy hz ht
    have ev : (Dot (Cross (R3.Sub y x) (R3.Sub z x)) (R3.Sub t x)).toQ = vol6 (exactV x) (exactV y) (exactV z) (exactV t) := by
      rw [H.val, dpt3_exact hx, dpt3_exact hy, dpt3_exact hz, dpt3_exact ht, vol6_eq, zpow_add₀ (by norm_num), zpow_add₀ (by norm_num)]
      simp only [Dot, Cross, R3.Sub]; push_cast; ring
    rw [le_fin H.fin z0, le_fin z0 H.fin, ev, h0]
    exact ⟨Iff.rfl, Iff.rfl⟩
  have key : ∀ {x y z t : R3.Vector F64}, Grid3 32768 e x → Grid3 32768 e y → Grid3 32768 e z → Grid3 32768 e t →
      (SameSide x y z t p = true ↔ SameSide (exactV x) (exactV y) (exactV z) (exactV t) (exactV p) = true) := by
    intro x y z t hx hy hz ht
    rw [sameSide_iff]
    exact sameSide_of_signs (vol hx hy hz ht) (vol hx hy hz hp)
  have all : VectorInTetrahedron a b c d p = true ↔ VectorInTetrahedron (exactV a) (exactV b) (exactV c) (exactV d) (exactV p) = true := by
    unfold VectorInTetrahedron
    simp only [Bool.and_eq_true]
    rw [key ha hb hc hd, key hb hc hd ha, key hc hd ha hb, key hd ha hb hc]
  constructor
  · intro hn
    rw [all, C27_membership _ _ _ _ _ hn]
  · intro hn
    rw [all]
    exact C27_degenerate _ _ _ _ _ hn

end

/-- C82: beyond the grid the test can reject a vertex of the tetrahedron itself, here with integer coordinates below 2^18; the exact test never does (`C27_inside`) -/
theorem C82_vertex_refuted :
    let a : R3.Vector F64 := ⟨flt 210649 0, flt 151410 0, flt (-185968) 0⟩
    let b : R3.Vector F64 := ⟨flt 97957 0, flt (-16723) 0, flt 148798 0⟩
    let c : R3.Vector F64 := ⟨flt (-204700) 0, flt (-250467) 0, flt (-122623) 0⟩
    let d : R3.Vector F64 := ⟨flt 195479 0, flt (-25456) 0, flt (-29177) 0⟩
    VectorInTetrahedron a b c d b = false ∧ VectorInTetrahedron a b c d c = false ∧
    VectorInTetrahedron (exactV a) (exactV b) (exactV c) (exactV d) (exactV b) = true ∧
    VectorInTetrahedron (exactV a) (exactV b) (exactV c) (exactV d) (exactV c) = true ∧
    orient3dfast (exactV a) (exactV b) (exactV c) (exactV d) ≠ 0 := by decide +kernel

/-- C82: the hypotheses of `C82_tetrahedron` and of `C82_tetrahedron_grid` hold for a point inside and a point outside of the corner tetrahedron of a cube -/
example : let a : R3.Vector F64 := ⟨flt 0 0, flt 0 0, flt 0 0⟩
    let b : R3.Vector F64 := ⟨flt 8 0, flt 0 0, flt 0 0⟩
    let c : R3.Vector F64 := ⟨flt 0 0, flt 8 0, flt 0 0⟩
    let d : R3.Vector F64 := ⟨flt 0 0, flt 0 0, flt 8 0⟩
    let p : R3.Vector F64 := ⟨flt 1 0, flt 2 0, flt 3 0⟩
    let q : R3.Vector F64 := ⟨flt 3 0, flt 3 0, flt 3 0⟩
    (∀ v ∈ [a, b, c, d, p, q], ∀ x ∈ [v.X, v.Y, v.Z], x.Finite ∧ |x.toQ| ≤ 8 ∧ x.toQ.den = 1) ∧
    (∀ r ∈ [p, q], ∀ t ∈ [(a, b, c, d), (a, b, c, r), (b, c, d, r), (c, d, a, r), (d, a, b, r)],
      426 / 2 ^ 53 * 8 ^ 3 < |orient3dfast (exactV t.1) (exactV t.2.1) (exactV t.2.2.1) (exactV t.2.2.2)|) ∧
    VectorInTetrahedron a b c d p = true ∧ VectorInTetrahedron a b c d q = false := by decide +kernel

end Verif.Props
