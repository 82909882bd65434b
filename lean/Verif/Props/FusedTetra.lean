import Verif.Model.FusedTetra
import Verif.Props.FusedHull
import Verif.Props.VolFloat
/-!
# C126: the point-in-tetrahedron test, however fused
-/
namespace Verif.Props
set_option linter.unusedSectionVars false
open Verif Verif.F64 Verif.Proofs Verif.Predicates Verif.Tri3 Verif.R3 Verif.Tri2

theorem side_val (a b c q : R3.Vector F64) : valE (Dot (Cross (R3.Sub (lf b) (lf a)) (R3.Sub (lf c) (lf a))) (R3.Sub (lf q) (lf a))) =
    vol6 (exactV a) (exactV b) (exactV c) (exactV q) := by
  have e : vol6 (exactV a) (exactV b) (exactV c) (exactV q) =
      Dot (Cross (R3.Sub (exactV b) (exactV a)) (R3.Sub (exactV c) (exactV a))) (R3.Sub (exactV q) (exactV a)) := by
    rw [vol6_eq]; simp only [Dot, Cross, R3.Sub]; ring
  rw [e]; rfl

theorem side_leaves {P : F64 → Prop} {a b c q : R3.Vector F64} (h : ∀ v ∈ [a, b, c, q], ∀ x ∈ [v.X, v.Y, v.Z], P x) :
    LeavesE P (Dot (Cross (R3.Sub (lf b) (lf a)) (R3.Sub (lf c) (lf a))) (R3.Sub (lf q) (lf a))) := by
  have ha := h a (by simp); have hb := h b (by simp); have hc := h c (by simp); have hd := h q (by simp)
  have a1 := ha a.X (by simp); have a2 := ha a.Y (by simp); have a3 := ha a.Z (by simp)
  have b1 := hb b.X (by simp); have b2 := hb b.Y (by simp); have b3 := hb b.Z (by simp)
  have c1 := hc c.X (by simp); have c2 := hc c.Y (by simp); have c3 := hc c.Z (by simp)
  have d1 := hd q.X (by simp); have d2 := hd q.Y (by simp); have d3 := hd q.Z (by simp)
  repeat' first | exact a1 | exact a2 | exact a3 | exact b1 | exact b2 | exact b3 | exact c1 | exact c2 | exact c3 | exact d1 | exact d2 | exact d3 | constructor

theorem side_hom (a b c q : R3.Vector F64) : homE (Dot (Cross (R3.Sub (lf b) (lf a)) (R3.Sub (lf c) (lf a))) (R3.Sub (lf q) (lf a))) = some (48, 3) := rfl

/-- C126: the side of a point, however computed: finite and within `432 * 2^-53 * M^3` of six times the signed volume -/
theorem C126_side {M : ℚ} (hM : (2:ℚ) ^ (-200 : ℤ) ≤ M) (hM' : M ≤ 2 ^ 190) {a b c q : R3.Vector F64} (h : ∀ v ∈ [a, b, c, q], BoundedV M v) {d : F64}
    (hd : SideEv a b c q d) : d.Finite ∧ |d.toQ - vol6 (exactV a) (exactV b) (exactV c) (exactV q)| ≤ 432 / 2 ^ 53 * M ^ 3 := by
  have := C100_bound hM hM' (k := 8) (side_hom a b c q) (by norm_num) (by norm_num) rfl (by norm_num) (side_leaves h) hd
  rw [side_val] at this
  refine ⟨this.1, this.2.trans (le_of_eq ?_)⟩
  unfold uro; push_cast; ring

/-- C126: on integers of size at most 2^15 it is exact -/
theorem C126_side_grid {a b c q : R3.Vector F64} (h : ∀ v ∈ [a, b, c, q], Grid3 32768 0 v) {d : F64} (hd : SideEv a b c q d) :
    d.Finite ∧ d.toQ = vol6 (exactV a) (exactV b) (exactV c) (exactV q) := by
  have := hom_exact (M := 32768) (by norm_num) (side_hom a b c q) (by norm_num) (side_leaves (fun v hv x hx => by
    obtain ⟨f, n, hn, e⟩ := h v hv x hx
    rw [zpow_zero, mul_one] at e
    refine ⟨⟨f, n, e⟩, ?_⟩
    rw [e]; exact_mod_cast hn)) hd
  rwa [side_val] at this

/-- the signs decide the answer -/
theorem same_of_signs {a b c d p : R3.Vector F64}
    (hA : ∀ x, SideEv a b c d x → (x ≤ 0 ↔ vol6 (exactV a) (exactV b) (exactV c) (exactV d) ≤ 0) ∧ (0 ≤ x ↔ 0 ≤ vol6 (exactV a) (exactV b) (exactV c) (exactV d)))
    (hB : ∀ x, SideEv a b c p x → (x ≤ 0 ↔ vol6 (exactV a) (exactV b) (exactV c) (exactV p) ≤ 0) ∧ (0 ≤ x ↔ 0 ≤ vol6 (exactV a) (exactV b) (exactV c) (exactV p)))
    {r : Bool} (h : SameSideEv a b c d p r) : r = SameSide (exactV a) (exactV b) (exactV c) (exactV d) (exactV p) := by
  obtain ⟨x, y, hx, hy, rfl⟩ := h
  rw [Bool.eq_iff_iff, sameSide_iff, ← (hA x hx).1, ← (hA x hx).2, ← (hB y hy).1, ← (hB y hy).2]
  split_ifs <;> simp_all

theorem tetra_of_signs {a b c d p : R3.Vector F64}
    (key : ∀ x y z t, ([x, y, z, t] : List (R3.Vector F64)) ∈ [[a, b, c, d], [b, c, d, a], [c, d, a, b], [d, a, b, c]] → ∀ r, SameSideEv x y z t p r →
      r = SameSide (exactV x) (exactV y) (exactV z) (exactV t) (exactV p)) {r : Bool} (h : VectorInTetrahedronEv a b c d p r) :
    r = VectorInTetrahedron (exactV a) (exactV b) (exactV c) (exactV d) (exactV p) := by
  obtain ⟨b1, b2, b3, b4, h1, h2, h3, h4, rfl⟩ := h
  rw [key a b c d (by simp) _ h1, key b c d a (by simp) _ h2, key c d a b (by simp) _ h3, key d a b c (by simp) _ h4]
  rfl

/-- C126: when no four of the five points are within the error of a plane, every answer is membership in the exact tetrahedron -/
theorem C126_tetrahedron {M : ℚ} (hM : (2:ℚ) ^ (-200 : ℤ) ≤ M) (hM' : M ≤ 2 ^ 190) {a b c d p : R3.Vector F64} (h : ∀ v ∈ [a, b, c, d, p], BoundedV M v)
    (hv : ∀ t ∈ [(a, b, c, d), (a, b, c, p), (b, c, d, p), (c, d, a, p), (d, a, b, p)],
      432 / 2 ^ 53 * M ^ 3 < |vol6 (exactV t.1) (exactV t.2.1) (exactV t.2.2.1) (exactV t.2.2.2)|) {r : Bool} (hr : VectorInTetrahedronEv a b c d p r) :
    r = true ↔ InTet (exactV a) (exactV b) (exactV c) (exactV d) (exactV p) := by
  have M0 : 0 < M := lt_of_lt_of_le (by positivity) hM
  have v0 := hv (a, b, c, d) (by simp)
  have v1 := hv (a, b, c, p) (by simp)
  have v2 := hv (b, c, d, p) (by simp)
  have v3 := hv (c, d, a, p) (by simp)
  have v4 := hv (d, a, b, p) (by simp)
  dsimp only at v0 v1 v2 v3 v4
  have hnc : ¬ Coplanar4 (exactV a) (exactV b) (exactV c) (exactV d) := by
    rw [← vol6_zero_iff]
    intro h0
    rw [h0, abs_zero] at v0
    have : 0 ≤ 432 / 2 ^ 53 * M ^ 3 := by positivity
    linarith
  have r1 : |vol6 (exactV b) (exactV c) (exactV d) (exactV a)| = |vol6 (exactV a) (exactV b) (exactV c) (exactV d)| := by
    rw [show vol6 (exactV b) (exactV c) (exactV d) (exactV a) = - vol6 (exactV a) (exactV b) (exactV c) (exactV d) by simp only [vol6_eq]; ring, abs_neg]
  have r2 : |vol6 (exactV c) (exactV d) (exactV a) (exactV b)| = |vol6 (exactV a) (exactV b) (exactV c) (exactV d)| := by
    rw [show vol6 (exactV c) (exactV d) (exactV a) (exactV b) = vol6 (exactV a) (exactV b) (exactV c) (exactV d) by simp only [vol6_eq]; ring]
  have r3 : |vol6 (exactV d) (exactV a) (exactV b) (exactV c)| = |vol6 (exactV a) (exactV b) (exactV c) (exactV d)| := by
    rw [show vol6 (exactV d) (exactV a) (exactV b) (exactV c) = - vol6 (exactV a) (exactV b) (exactV c) (exactV d) by simp only [vol6_eq]; ring, abs_neg]
  have sign : ∀ {x y z q : R3.Vector F64}, (∀ v ∈ [x, y, z, q], BoundedV M v) → 432 / 2 ^ 53 * M ^ 3 < |vol6 (exactV x) (exactV y) (exactV z) (exactV q)| →
      ∀ w, SideEv x y z q w → (w ≤ 0 ↔ vol6 (exactV x) (exactV y) (exactV z) (exactV q) ≤ 0) ∧ (0 ≤ w ↔ 0 ≤ vol6 (exactV x) (exactV y) (exactV z) (exactV q)) := by
    intro x y z q hb hq w hw
    obtain ⟨f, e⟩ := C126_side hM hM' hb hw
    have h0 : (0 : F64).toQ = 0 := rfl
    have z0 : (0 : F64).Finite := trivial
    rw [le_fin f z0, le_fin z0 f, h0]
    generalize vol6 (exactV x) (exactV y) (exactV z) (exactV q) = V at *
    generalize 432 / 2 ^ 53 * M ^ 3 = E at *
    have e := abs_le.mp e
    rcases abs_cases V with ⟨g1, g2⟩ | ⟨g1, g2⟩ <;> rw [g1] at hq <;> constructor <;> constructor <;> intro <;> linarith [e.1, e.2]
  have all : ∀ {x y z q : R3.Vector F64}, x ∈ [a, b, c, d, p] → y ∈ [a, b, c, d, p] → z ∈ [a, b, c, d, p] → q ∈ [a, b, c, d, p] →
      ∀ v ∈ [x, y, z, q], BoundedV M v := by
    intro x y z q hx hy hz hq v hv
    simp only [List.mem_cons, List.not_mem_nil, or_false] at hv
    rcases hv with rfl | rfl | rfl | rfl
    · exact h _ hx
    · exact h _ hy
    · exact h _ hz
    · exact h _ hq
  rw [← C27_membership _ _ _ _ _ hnc]
  rw [tetra_of_signs (fun x y z t hm s hs => ?_) hr]
  simp only [List.mem_cons, List.not_mem_nil, or_false, List.cons.injEq, and_true] at hm
  rcases hm with ⟨rfl, rfl, rfl, rfl⟩ | ⟨rfl, rfl, rfl, rfl⟩ | ⟨rfl, rfl, rfl, rfl⟩ | ⟨rfl, rfl, rfl, rfl⟩
  · exact same_of_signs (sign (all (by simp) (by simp) (by simp) (by simp)) v0) (sign (all (by simp) (by simp) (by simp) (by simp)) v1) hs
  · exact same_of_signs (sign (all (by simp) (by simp) (by simp) (by simp)) (by rw [r1]; exact v0)) (sign (all (by simp) (by simp) (by simp) (by simp)) v2) hs
  · exact same_of_signs (sign (all (by simp) (by simp) (by simp) (by simp)) (by rw [r2]; exact v0)) (sign (all (by simp) (by simp) (by simp) (by simp)) v3) hs
  · exact same_of_signs (sign (all (by simp) (by simp) (by simp) (by simp)) (by rw [r3]; exact v0)) (sign (all (by simp) (by simp) (by simp) (by simp)) v4) hs

/-- C126: on integers of size at most 2^15 every answer is that of the exact test: membership, boundary included, when the vertices are not in a plane, and always true when
they are -/
theorem C126_tetrahedron_grid {a b c d p : R3.Vector F64} (h : ∀ v ∈ [a, b, c, d, p], Grid3 32768 0 v) {r : Bool} (hr : VectorInTetrahedronEv a b c d p r) :
    (¬ Coplanar4 (exactV a) (exactV b) (exactV c) (exactV d) → (r = true ↔ InTet (exactV a) (exactV b) (exactV c) (exactV d) (exactV p))) ∧
    (Coplanar4 (exactV a) (exactV b) (exactV c) (exactV d) → r = true) := by
  have sign : ∀ {x y z q : R3.Vector F64}, (∀ v ∈ [x, y, z, q], Grid3 32768 0 v) →
      ∀ w, SideEv x y z q w → (w ≤ 0 ↔ vol6 (exactV x) (exactV y) (exactV z) (exactV q) ≤ 0) ∧ (0 ≤ w ↔ 0 ≤ vol6 (exactV x) (exactV y) (exactV z) (exactV q)) := by
    intro x y z q hb w hw
    obtain ⟨f, e⟩ := C126_side_grid hb hw
    have h0 : (0 : F64).toQ = 0 := rfl
    have z0 : (0 : F64).Finite := trivial
    rw [le_fin f z0, le_fin z0 f, h0, e]
    exact ⟨Iff.rfl, Iff.rfl⟩
  have hrv : r = VectorInTetrahedron (exactV a) (exactV b) (exactV c) (exactV d) (exactV p) := by
    refine tetra_of_signs (fun x y z t hm s hs => ?_) hr
    have hx : x ∈ [a, b, c, d] ∧ y ∈ [a, b, c, d] ∧ z ∈ [a, b, c, d] ∧ t ∈ [a, b, c, d] := by
      simp only [List.mem_cons, List.not_mem_nil, or_false, List.cons.injEq, and_true] at hm
      rcases hm with ⟨rfl, rfl, rfl, rfl⟩ | ⟨rfl, rfl, rfl, rfl⟩ | ⟨rfl, rfl, rfl, rfl⟩ | ⟨rfl, rfl, rfl, rfl⟩ <;> simp
    have up : ∀ {v : R3.Vector F64}, v ∈ [a, b, c, d] → v ∈ [a, b, c, d, p] := fun hv => by
      simp only [List.mem_cons, List.not_mem_nil, or_false] at hv ⊢; tauto
    have all : ∀ {q : R3.Vector F64}, q ∈ [a, b, c, d, p] → ∀ v ∈ [x, y, z, q], Grid3 32768 0 v := by
      intro q hq v hv
      simp only [List.mem_cons, List.not_mem_nil, or_false] at hv
      rcases hv with rfl | rfl | rfl | rfl
      · exact h _ (up hx.1)
      · exact h _ (up hx.2.1)
      · exact h _ (up hx.2.2.1)
      · exact h _ hq
    exact same_of_signs (sign (all (up hx.2.2.2))) (sign (all (by simp))) hs
  rw [hrv]
  exact ⟨fun hn => C27_membership _ _ _ _ _ hn, fun hn => C27_degenerate _ _ _ _ _ hn⟩

theorem same_plain (a b c d p : R3.Vector F64) : SameSideEv a b c d p (SameSide a b c d p) := ⟨_, _, Ev.eval _, Ev.eval _, rfl⟩

/-- C126: the answer without fusing is one of them -/
theorem C126_plain (a b c d p : R3.Vector F64) : VectorInTetrahedronEv a b c d p (VectorInTetrahedron a b c d p) :=
  ⟨_, _, _, _, same_plain _ _ _ _ _, same_plain _ _ _ _ _, same_plain _ _ _ _ _, same_plain _ _ _ _ _, rfl⟩

/-- five decimal points that meet the hypotheses of `C126_tetrahedron`, the last one inside -/
example : let a : R3.Vector F64 := ⟨GoConst.const (1 / 10), 0, 0⟩; let b : R3.Vector F64 := ⟨1, GoConst.const (1 / 10), 0⟩
    let c : R3.Vector F64 := ⟨0, 1, GoConst.const (1 / 10)⟩; let d : R3.Vector F64 := ⟨GoConst.const (1 / 10), GoConst.const (1 / 10), 1⟩
    let p : R3.Vector F64 := ⟨GoConst.const (3 / 10), GoConst.const (3 / 10), GoConst.const (3 / 10)⟩
    (∀ v ∈ [a, b, c, d, p], ∀ x ∈ [v.X, v.Y, v.Z], x.Finite ∧ |x.toQ| ≤ 1) ∧
    (∀ t ∈ [(a, b, c, d), (a, b, c, p), (b, c, d, p), (c, d, a, p), (d, a, b, p)],
      432 / 2 ^ 53 * (1:ℚ) ^ 3 < |vol6 (exactV t.1) (exactV t.2.1) (exactV t.2.2.1) (exactV t.2.2.2)|) ∧ VectorInTetrahedron a b c d p = true := by
  simp only [vol6_eq]
  decide +kernel

/-- five integer points that meet the hypothesis of `C126_tetrahedron_grid`, the last one on a face -/
example : (∀ v ∈ ([⟨0, 0, 0⟩, ⟨2, 0, 0⟩, ⟨0, 2, 0⟩, ⟨0, 0, 2⟩, ⟨1, 1, 0⟩] : List (R3.Vector F64)), Grid3 32768 0 v) ∧
    VectorInTetrahedron (⟨0, 0, 0⟩ : R3.Vector F64) ⟨2, 0, 0⟩ ⟨0, 2, 0⟩ ⟨0, 0, 2⟩ ⟨1, 1, 0⟩ = true ∧
    VectorInTetrahedron (⟨0, 0, 0⟩ : R3.Vector F64) ⟨2, 0, 0⟩ ⟨0, 2, 0⟩ ⟨0, 0, 2⟩ ⟨1, 1, -1⟩ = false := by
  refine ⟨?_, by decide +kernel, by decide +kernel⟩
  intro v hv x hx
  simp only [List.mem_cons, List.not_mem_nil, or_false] at hv
  rcases hv with rfl | rfl | rfl | rfl | rfl <;> simp only [List.mem_cons, List.not_mem_nil, or_false] at hx <;> rcases hx with rfl | rfl | rfl
  all_goals first
    | exact ⟨trivial, 0, by norm_num, by decide +kernel⟩
    | exact ⟨by decide +kernel, 1, by norm_num, by decide +kernel⟩
    | exact ⟨by decide +kernel, 2, by norm_num, by decide +kernel⟩

end Verif.Props
