import Mathlib.Algebra.BigOperators.Group.Finset.Basic
import Mathlib.Algebra.BigOperators.Intervals
import Mathlib.Tactic.Ring
import Verif.Proofs.Core
/-!
# Sums over the half-edges of the mesh
-/
namespace Verif.Proofs
open Verif Verif.Tri2 Finset

variable {K : Type} [Field K] [LinearOrder K] [IsStrictOrderedRing K]
variable {A : Type} [AddCommGroup A]

/-- an antisymmetric quantity summed over all half-edges is its sum over the hull edges -/
theorem mesh_sum {κ₀ : ℕ → ℕ → K} {Ex : Prop} {c n i0 i1 i2 T : ℕ} {V : Finset ℕ} {R : List ℕ} {s : St}
    (I : RInv κ₀ Ex c n i0 i1 i2 T V R s) (κ : ℕ → ℕ → A) (anti : ∀ x y, κ x y = - κ y x) (h0 : ∀ x, κ x x = 0) :
    ∑ k ∈ range (3*T), κ (tr s k).toNat (tr s (nx k)).toNat = (R.map fun x => κ x ((nd s x).next.getD 0)).sum := by
  set f : ℕ → A := fun k => κ (tr s k).toNat (tr s (nx k)).toNat with hf
  rw [← Finset.sum_filter_add_sum_filter_not (range (3*T)) (fun k => he s k = -1) f]
  have h2 : ∑ k ∈ (range (3*T)).filter (fun k => ¬ he s k = -1), f k = 0 := by
    refine Finset.sum_involution (fun k _ => (he s k).toNat) ?_ ?_ ?_ ?_
    · intro k hk
      obtain ⟨hk1, hk2⟩ := mem_filter.mp hk
      rw [mem_range] at hk1
      rcases I.mesh.inv k hk1 with h | ⟨j, j1, j2, j3, j4, j5⟩
      · exact absurd h hk2
      · rw [j2, Int.toNat_natCast, hf]
        simp only
        rw [j4, j5, anti]; simp
    · intro k hk _
      obtain ⟨hk1, hk2⟩ := mem_filter.mp hk
      rw [mem_range] at hk1
      rcases I.mesh.inv k hk1 with h | ⟨j, j1, j2, j3, j4, j5⟩
      · exact absurd h hk2
      · rw [j2, Int.toNat_natCast]
        rintro rfl
        exact I.mesh.dst _ hk1 j4
    · intro k hk
      obtain ⟨hk1, hk2⟩ := mem_filter.mp hk
      rw [mem_range] at hk1
      rcases I.mesh.inv k hk1 with h | ⟨j, j1, j2, j3, j4, j5⟩
      · exact absurd h hk2
      · rw [j2, Int.toNat_natCast, mem_filter, mem_range]
        exact ⟨j1, by omega⟩
    · intro k hk
      obtain ⟨hk1, hk2⟩ := mem_filter.mp hk
      rw [mem_range] at hk1
      rcases I.mesh.inv k hk1 with h | ⟨j, j1, j2, j3, j4, j5⟩
      · exact absurd h hk2
      · simp only [j2, Int.toNat_natCast, j3]
  rw [h2, add_zero, ← List.sum_toFinset _ I.nodup]
  symm
  refine Finset.sum_bij (fun x _ => (nd s x).t.toNat) ?_ ?_ ?_ ?_
  · intro x hx
    obtain ⟨t, y, q1, q2, q3, q4, q5, q6⟩ := I.own x (List.mem_toFinset.mp hx)
    rw [q1, Int.toNat_natCast, mem_filter, mem_range]
    exact ⟨q3, q4⟩
  · intro x hx x' hx' e
    obtain ⟨t, y, q1, q2, q3, q4, q5, q6⟩ := I.own x (List.mem_toFinset.mp hx)
    obtain ⟨t', y', r1, r2, r3, r4, r5, r6⟩ := I.own x' (List.mem_toFinset.mp hx')
    rw [q1, r1, Int.toNat_natCast, Int.toNat_natCast] at e
    subst e
    rw [q5] at r5
    exact_mod_cast r5
  · intro k hk
    obtain ⟨hk1, hk2⟩ := mem_filter.mp hk
    rw [mem_range] at hk1
    obtain ⟨x, hx, ht⟩ := I.cov k hk1 hk2
    exact ⟨x, List.mem_toFinset.mpr hx, by rw [ht, Int.toNat_natCast]⟩
  · intro x hx
    obtain ⟨t, y, q1, q2, q3, q4, q5, q6⟩ := I.own x (List.mem_toFinset.mp hx)
    rw [hf]
    simp only
    rw [q1, q2, Int.toNat_natCast, q5, q6]
    rfl

/-- sums over slots, three at a time -/
theorem sum_slots (f : ℕ → A) (T : ℕ) :
    ∑ k ∈ range (3*T), f k = ∑ m ∈ range T, (f (3*m) + f (3*m+1) + f (3*m+2)) := by
  induction T with
  | zero => simp
  | succ T ih =>
    rw [show 3*(T+1) = 3*T+1+1+1 by ring, sum_range_succ, sum_range_succ, sum_range_succ, ih, sum_range_succ]
    simp only [add_assoc]

theorem nx0 (m : ℕ) : nx (3*m) = 3*m+1 := by unfold nx; omega
theorem nx1 (m : ℕ) : nx (3*m+1) = 3*m+2 := by unfold nx; omega
theorem nx2 (m : ℕ) : nx (3*m+2) = 3*m := by unfold nx; omega

/-- successive nodes of the ring -/
theorem path_map_next {N : ℕ → Node} {x z : ℕ} {l : List ℕ} (h : Path N x l z) : (x :: l).map (fun y => (N y).next.getD 0) = l ++ [z] := by
  induction l generalizing x with
  | nil => simp [Path, Lk] at h; simp [h.1]
  | cons y l ih =>
    have h1 := h.1.1
    have := ih h.2
    rw [List.map_cons, this, h1]; rfl

end Verif.Proofs
