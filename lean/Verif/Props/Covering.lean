import Verif.Props.FaceCount
import Mathlib.LinearAlgebra.Dimension.Constructions
import Mathlib.LinearAlgebra.Dimension.Finite
import Mathlib.Algebra.BigOperators.Field
/-!
# C115: the tetrahedra of `bowyerWatson` and the super-tetrahedron
-/
set_option linter.unusedSectionVars false

namespace Verif.Props
open Verif Verif.R3 Verif.Proofs Verif.Meshing

/-! ## Five points and one more -/

section five
variable {K : Type} [Field K] [LinearOrder K] [IsStrictOrderedRing K]

/-- `b` is the combination with weights `w` of the columns in `A` -/
def CombOf (c : Fin 4 → ℤ → K) (A : Finset ℤ) (w : ℤ → K) (b : Fin 4 → K) : Prop := ∀ k, ∑ i ∈ A, w i * c k i = b k

/-- `b` is a combination with positive weights -/
def PosComb (c : Fin 4 → ℤ → K) (A : Finset ℤ) (b : Fin 4 → K) : Prop := ∃ w : ℤ → K, (∀ i ∈ A, 0 < w i) ∧ CombOf c A w b

theorem five_rel (c : Fin 4 → ℤ → K) {A : Finset ℤ} (hA : A.card = 5) : ∃ v : ℤ → K, CombOf c A v 0 ∧ ∃ i ∈ A, v i ≠ 0 := by
  have hdep : ¬ LinearIndependent K (fun (i : A) (k : Fin 4) => c k i) := by
    intro h
    have := h.fintype_card_le_finrank
    rw [Module.finrank_fin_fun, Fintype.card_coe, hA] at this
    omega
  obtain ⟨g, hg, ⟨i, hi⟩, hne⟩ := Fintype.not_linearIndependent_iff.mp hdep
  refine ⟨fun j => if h : j ∈ A then g ⟨j, h⟩ else 0, fun k => ?_, i, hi, by simpa [hi] using hne⟩
  have := congrFun hg k
  rw [Finset.sum_apply] at this
  rw [← Finset.sum_coe_sort]
  simpa using this

theorem comb_sub {c : Fin 4 → ℤ → K} {A A' : Finset ℤ} (h : A' ⊆ A) {w : ℤ → K} {b : Fin 4 → K} (h0 : ∀ i ∈ A, i ∉ A' → w i = 0) :
    CombOf c A' w b ↔ CombOf c A w b := by
  unfold CombOf
  refine forall_congr' fun k => ?_
  rw [Finset.sum_subset h fun i hi hn => by rw [h0 i hi hn, zero_mul]]

theorem comb_add {c : Fin 4 → ℤ → K} {A : Finset ℤ} {w v : ℤ → K} {b d : Fin 4 → K} (h : CombOf c A w b) (h' : CombOf c A v d) (s : K) :
    CombOf c A (fun i => w i + s * v i) (fun k => b k + s * d k) := by
  intro k
  dsimp only
  rw [← h k, ← h' k, Finset.mul_sum, ← Finset.sum_add_distrib]
  exact Finset.sum_congr rfl fun i _ => by ring

/-- if `b` is a positive combination of four of five columns and not a combination of three of them, there is exactly one other choice of four -/
theorem five_other {c : Fin 4 → ℤ → K} (hc : ∀ i, c 0 i = 1) {A : Finset ℤ} (hA : A.card = 5) {b : Fin 4 → K}
    (gen : ∀ A' ⊆ A, A'.card = 3 → ∀ w, ¬ CombOf c A' w b) {x : ℤ} (hx : x ∈ A) (h : PosComb c (A.erase x) b) :
    ∃! y, (y ∈ A ∧ PosComb c (A.erase y) b) ∧ y ≠ x := by
  obtain ⟨w', hw', hb'⟩ := h
  -- weights on all five, zero at x
  set w : ℤ → K := fun i => if i = x then 0 else w' i with hwdef
  have wx : w x = 0 := by simp [hwdef]
  have wpos : ∀ i ∈ A, i ≠ x → 0 < w i := fun i hi hne => by
    simp only [hwdef, if_neg hne]; exact hw' i (Finset.mem_erase.mpr ⟨hne, hi⟩)
  have hb : CombOf c A w b := by
    rw [← comb_sub (Finset.erase_subset x A) (fun i hi hn => ?_)]
    · intro k
      rw [← hb' k]
      exact Finset.sum_congr rfl fun i hi => by simp only [hwdef, if_neg (Finset.mem_erase.mp hi).1]
    · have : i = x := by by_contra hne; exact hn (Finset.mem_erase.mpr ⟨hne, hi⟩)
      rw [this, wx]
  -- two zeros are impossible
  have two : ∀ u : ℤ → K, CombOf c A u b → ∀ i ∈ A, ∀ j ∈ A, u i = 0 → u j = 0 → i = j := by
    intro u hu i hi j hj h1 h2
    by_contra hne
    refine gen ((A.erase i).erase j) ((Finset.erase_subset _ _).trans (Finset.erase_subset _ _)) ?_ u ?_
    · rw [Finset.card_erase_of_mem (Finset.mem_erase.mpr ⟨fun h => hne h.symm, hj⟩), Finset.card_erase_of_mem hi, hA]
    · rw [comb_sub ((Finset.erase_subset _ _).trans (Finset.erase_subset _ _))]
      · exact hu
      · intro l hl hn
        rw [Finset.mem_erase, Finset.mem_erase] at hn
        by_cases h3 : l = j
        · rw [h3, h2]
        · by_cases h4 : l = i
          · rw [h4, h1]
          · exact absurd ⟨h3, h4, hl⟩ hn
  -- relations are determined by their value at x
  have det : ∀ d : ℤ → K, CombOf c A d 0 → d x = 0 → ∀ i ∈ A, d i = 0 := by
    intro d hd d0 i hi
    by_contra hne
    have hix : i ≠ x := fun h => hne (h ▸ d0)
    have h1 := comb_add hb hd (-(w i / d i))
    have h2 : (fun k => b k + -(w i / d i) * (0 : Fin 4 → K) k) = b := by funext k; simp
    rw [h2] at h1
    exact hix (two _ h1 i hi x hx (by field_simp; ring) (by rw [wx, d0]; ring))
  obtain ⟨v', hv', i0, hi0, hne0⟩ := five_rel c hA
  have hv'x : v' x ≠ 0 := fun h0 => hne0 (det v' hv' h0 i0 hi0)
  set v : ℤ → K := fun i => v' i / v' x with hvdef
  have vx : v x = 1 := div_self hv'x
  have hv : CombOf c A v 0 := by
    intro k
    have := hv' k
    simp only [hvdef, div_mul_eq_mul_div, ← Finset.sum_div]
    rw [this]; simp
  have vsum : ∑ i ∈ A, v i = 0 := by
    have := hv 0
    simpa [hc] using this
  -- the candidates
  have hneg : (A.filter fun i => v i < 0).Nonempty := by
    by_contra hne
    rw [Finset.not_nonempty_iff_eq_empty, Finset.filter_eq_empty_iff] at hne
    have := Finset.sum_pos' (s := A) (f := v) (fun i hi => not_lt.mp (hne hi)) ⟨x, hx, by rw [vx]; exact one_pos⟩
    rw [vsum] at this
    exact lt_irrefl _ this
  obtain ⟨y, hy, hmin⟩ := Finset.exists_min_image _ (fun i => w i / -v i) hneg
  obtain ⟨hyA, hyv⟩ := Finset.mem_filter.mp hy
  have hyx : y ≠ x := fun h => by rw [h, vx] at hyv; exact absurd hyv (not_lt.mpr zero_le_one)
  have hcomb : ∀ s : K, CombOf c A (fun i => w i + s * v i) b := by
    intro s
    have h1 := comb_add hb hv s
    have h2 : (fun k => b k + s * (0 : Fin 4 → K) k) = b := by funext k; simp
    rwa [h2] at h1
  set s0 := w y / -v y with hs0
  have hs0pos : 0 < s0 := div_pos (wpos y hyA hyx) (neg_pos.mpr hyv)
  have zero_y : w y + s0 * v y = 0 := by
    have : v y ≠ 0 := ne_of_lt hyv
    rw [hs0]; field_simp; ring
  refine ⟨y, ⟨⟨hyA, fun i => w i + s0 * v i, ?_, ?_⟩, hyx⟩, ?_⟩
  · intro i hi
    obtain ⟨hiy, hiA⟩ := Finset.mem_erase.mp hi
    have hge : 0 ≤ w i + s0 * v i := by
      by_cases hvi : v i < 0
      · have h1 := hmin i (Finset.mem_filter.mpr ⟨hiA, hvi⟩)
        have h2 := (le_div_iff₀ (neg_pos.mpr hvi)).mp h1
        linarith
      · have h1 : 0 ≤ w i := by
          by_cases hix : i = x
          · rw [hix, wx]
          · exact (wpos i hiA hix).le
        have := mul_nonneg hs0pos.le (not_lt.mp hvi)
        linarith
    exact lt_of_le_of_ne hge fun h0 => hiy (two _ (hcomb s0) i hiA y hyA h0.symm zero_y)
  · rw [comb_sub (Finset.erase_subset _ _)]
    · exact hcomb s0
    · intro i hi hn
      have : i = y := by by_contra hne; exact hn (Finset.mem_erase.mpr ⟨hne, hi⟩)
      rw [this, zero_y]
  · rintro z ⟨⟨hzA, u', hu', hub'⟩, hzx⟩
    set u : ℤ → K := fun i => if i = z then 0 else u' i with hudef
    have uz : u z = 0 := by simp [hudef]
    have upos : ∀ i ∈ A, i ≠ z → 0 < u i := fun i hi hne => by
      simp only [hudef, if_neg hne]; exact hu' i (Finset.mem_erase.mpr ⟨hne, hi⟩)
    have hub : CombOf c A u b := by
      rw [← comb_sub (Finset.erase_subset z A) (fun i hi hn => ?_)]
      · intro k
        rw [← hub' k]
        exact Finset.sum_congr rfl fun i hi => by simp only [hudef, if_neg (Finset.mem_erase.mp hi).1]
      · have : i = z := by by_contra hne; exact hn (Finset.mem_erase.mpr ⟨hne, hi⟩)
        rw [this, uz]
    -- u = w + (u x) v
    have hd : CombOf c A (fun i => u i + (-1) * (w i + u x * v i)) 0 := by
      have := comb_add hub (hcomb (u x)) (-1)
      have h2 : (fun k => b k + -1 * b k) = (0 : Fin 4 → K) := by funext k; simp
      rwa [h2] at this
    have key : ∀ i ∈ A, u i = w i + u x * v i := by
      intro i hi
      have := det _ hd (by rw [wx, vx]; ring) i hi
      linarith
    have uxpos : 0 < u x := upos x hx hzx.symm
    have hz0 := key z hzA
    rw [uz] at hz0
    have hzv : v z < 0 := by
      by_contra hcon
      have := mul_nonneg uxpos.le (not_lt.mp hcon)
      have := wpos z hzA hzx
      linarith
    have huxz : u x = w z / -v z := by
      have : v z ≠ 0 := ne_of_lt hzv
      field_simp
      linarith
    have h1 := hmin z (Finset.mem_filter.mpr ⟨hzA, hzv⟩)
    change s0 ≤ _ at h1
    rw [← huxz] at h1
    by_contra hne
    have h2 := upos y hyA fun h => hne h.symm
    rw [key y hyA] at h2
    have h3 : 0 ≤ (u x - s0) * -v y := mul_nonneg (sub_nonneg.mpr h1) (neg_pos.mpr hyv).le
    linarith

open Classical in
/-- an even number of the five choices of four contain the point -/
theorem five_even {c : Fin 4 → ℤ → K} (hc : ∀ i, c 0 i = 1) {A : Finset ℤ} (hA : A.card = 5) {b : Fin 4 → K}
    (gen : ∀ A' ⊆ A, A'.card = 3 → ∀ w, ¬ CombOf c A' w b) : Even (A.filter fun x => PosComb c (A.erase x) b).card := by
  rcases (A.filter fun x => PosComb c (A.erase x) b).eq_empty_or_nonempty with h | ⟨x, hx⟩
  · rw [h]; exact Even.zero
  · obtain ⟨h1, h2⟩ := Finset.mem_filter.mp hx
    obtain ⟨y, hy, huniq⟩ := five_other hc hA gen h1 h2
    have : (A.filter fun x => PosComb c (A.erase x) b) = {x, y} := by
      ext z
      rw [Finset.mem_filter, Finset.mem_insert, Finset.mem_singleton]
      constructor
      · intro hz
        by_cases hzx : z = x
        · exact Or.inl hzx
        · exact Or.inr (huniq z ⟨hz, hzx⟩)
      · rintro (rfl | rfl)
        · exact ⟨h1, h2⟩
        · exact hy.1
    rw [this, Finset.card_pair hy.2.symm]
    exact even_two

end five

/-! ## Tetrahedra -/

section cover
variable {K : Type} [Field K] [LinearOrder K] [IsStrictOrderedRing K]

/-- `q` is strictly inside the tetrahedron `a b c d` -/
def StrictlyIn (a b c d q : R3.Vector K) : Prop := ∃ x y z u : K, 0 < x ∧ 0 < y ∧ 0 < z ∧ 0 < u ∧ x + y + z + u = 1 ∧
  q.X = x * a.X + y * b.X + z * c.X + u * d.X ∧ q.Y = x * a.Y + y * b.Y + z * c.Y + u * d.Y ∧ q.Z = x * a.Z + y * b.Z + z * c.Z + u * d.Z

/-- `q` is strictly inside the tetrahedron with these indices -/
def InsideOf (E : List (R3.Vector K)) (q : R3.Vector K) (v : Tetra) : Prop :=
  ∃ a b c d, E[v.ia.toNat]? = some a ∧ E[v.ib.toNat]? = some b ∧ E[v.ic.toNat]? = some c ∧ E[v.id.toNat]? = some d ∧ StrictlyIn a b c d q

/-- `q` is not on a plane through three of the points (or on a line, or at a place, if they are on one) -/
def OffPlanes (E : List (R3.Vector K)) (q : R3.Vector K) : Prop := ∀ i j k : ℕ, i ≠ j → i ≠ k → j ≠ k → ∀ a b c, E[i]? = some a → E[j]? = some b → E[k]? = some c →
  ∀ x y z : K, x + y + z = 1 →
    ¬ (q.X = x * a.X + y * b.X + z * c.X ∧ q.Y = x * a.Y + y * b.Y + z * c.Y ∧ q.Z = x * a.Z + y * b.Z + z * c.Z)

/-- 1 and the coordinates -/
def hom (p : R3.Vector K) : Fin 4 → K := ![1, p.X, p.Y, p.Z]

def colOf (E : List (R3.Vector K)) (k : Fin 4) (i : ℤ) : K := hom (E.getD i.toNat ⟨0, 0, 0⟩) k

theorem colOf_zero (E : List (R3.Vector K)) (i : ℤ) : colOf E 0 i = 1 := rfl

theorem comb_hom (E : List (R3.Vector K)) (A : Finset ℤ) (w : ℤ → K) (q : R3.Vector K) : CombOf (colOf E) A w (hom q) ↔
    ∑ i ∈ A, w i = 1 ∧ ∑ i ∈ A, w i * (E.getD i.toNat ⟨0, 0, 0⟩).X = q.X ∧ ∑ i ∈ A, w i * (E.getD i.toNat ⟨0, 0, 0⟩).Y = q.Y ∧
      ∑ i ∈ A, w i * (E.getD i.toNat ⟨0, 0, 0⟩).Z = q.Z := by
  unfold CombOf
  constructor
  · intro h
    have h0 := h 0
    have h1 := h 1
    have h2 := h 2
    have h3 := h 3
    simp only [colOf, hom, Matrix.cons_val] at h0 h1 h2 h3
    refine ⟨by simpa using h0, h1, h2, h3⟩
  · rintro ⟨h0, h1, h2, h3⟩ k
    fin_cases k
    · simpa [colOf, hom] using h0
    · simpa [colOf, hom] using h1
    · simpa [colOf, hom] using h2
    · simpa [colOf, hom] using h3

theorem getD_some {E : List (R3.Vector K)} {i : ℕ} (h : i < E.length) : E[i]? = some (E.getD i ⟨0, 0, 0⟩) := by
  rw [List.getD_eq_getElem?_getD, List.getElem?_eq_getElem h]; rfl

/-- the two ways to say that a point is inside a tetrahedron -/
theorem inTet_iff {n : ℕ} (E : List (R3.Vector K)) (hn : n ≤ E.length) (q : R3.Vector K) {v : Tetra} (hv : ValidTetra n v) :
    InsideOf E q v ↔ PosComb (colOf E) (vset v) (hom q) := by
  obtain ⟨hr, hd⟩ := hv
  simp only [List.mem_cons, List.not_mem_nil, or_false, forall_eq_or_imp, forall_eq, List.nodup_cons, not_or, List.nodup_nil, and_true,
    not_false_eq_true] at hr hd
  obtain ⟨⟨h1, h2, h3⟩, ⟨h4, h5⟩, h6⟩ := hd
  have sum4 : ∀ g : ℤ → K, ∑ i ∈ vset v, g i = g v.ia + (g v.ib + (g v.ic + g v.id)) := by
    intro g
    unfold vset
    rw [Finset.sum_insert (by simp [h1, h2, h3]), Finset.sum_insert (by simp [h4, h5]), Finset.sum_insert (by simp [h6]), Finset.sum_singleton]
  have ga := getD_some (E := E) (i := v.ia.toNat) (by omega)
  have gb := getD_some (E := E) (i := v.ib.toNat) (by omega)
  have gc := getD_some (E := E) (i := v.ic.toNat) (by omega)
  have gd := getD_some (E := E) (i := v.id.toNat) (by omega)
  constructor
  · rintro ⟨a, b, c, d, ha, hb, hc, hd, x, y, z, u, px, py, pz, pu, hs, e1, e2, e3⟩
    rw [ga] at ha; rw [gb] at hb; rw [gc] at hc; rw [gd] at hd
    injection ha with ha; injection hb with hb; injection hc with hc; injection hd with hd
    refine ⟨fun i => if i = v.ia then x else if i = v.ib then y else if i = v.ic then z else u, ?_, ?_⟩
    · intro i _
      dsimp only
      split_ifs <;> assumption
    · rw [comb_hom]
      simp only [sum4, if_true, if_neg (Ne.symm h1), if_neg (Ne.symm h2), if_neg (Ne.symm h3), if_neg (Ne.symm h4), if_neg (Ne.symm h5), if_neg (Ne.symm h6),
        ha, hb, hc, hd]
      refine ⟨by linarith, by linarith, by linarith, by linarith⟩
  · rintro ⟨w, hw, hc⟩
    rw [comb_hom] at hc
    simp only [sum4] at hc
    obtain ⟨e0, e1, e2, e3⟩ := hc
    exact ⟨_, _, _, _, ga, gb, gc, gd, w v.ia, w v.ib, w v.ic, w v.id, hw _ (by simp [vset]), hw _ (by simp [vset]), hw _ (by simp [vset]), hw _ (by simp [vset]),
      by linarith, by linarith, by linarith, by linarith⟩

theorem offPlanes_gen {E : List (R3.Vector K)} {q : R3.Vector K} (h : OffPlanes E q) {A : Finset ℤ} (hA : A.card = 3)
    (hr : ∀ i ∈ A, 0 ≤ i ∧ i < E.length) (w : ℤ → K) : ¬ CombOf (colOf E) A w (hom q) := by
  obtain ⟨i, j, k, h1, h2, h3, rfl⟩ := Finset.card_eq_three.mp hA
  simp only [Finset.mem_insert, Finset.mem_singleton, forall_eq_or_imp, forall_eq] at hr
  intro hc
  rw [comb_hom] at hc
  have sum3 : ∀ g : ℤ → K, ∑ i ∈ ({i, j, k} : Finset ℤ), g i = g i + (g j + g k) := by
    intro g
    rw [Finset.sum_insert (by simp [h1, h2]), Finset.sum_insert (by simp [h3]), Finset.sum_singleton]
  simp only [sum3] at hc
  obtain ⟨e0, e1, e2, e3⟩ := hc
  exact h i.toNat j.toNat k.toNat (by omega) (by omega) (by omega) _ _ _ (getD_some (by omega)) (getD_some (by omega)) (getD_some (by omega))
    (w i) (w j) (w k) (by linarith) ⟨by linarith, by linarith, by linarith⟩

open Classical in
/-- the number of tetrahedra that contain `b` keeps its parity if `b` is not a combination of three columns -/
theorem cover_parity_hom {P : Type} (test : P → P → P → P → P → Bool) (s : Sched) (hs : s.WF) (englobed points : List P)
    (hl : englobed.length = points.length + 4) (h : EachCavity test s englobed points Tidy) (E : List (R3.Vector K)) (b : Fin 4 → K)
    (hb : ∀ A : Finset ℤ, A.card = 3 → (∀ i ∈ A, 0 ≤ i ∧ i < (points.length + 4 : ℕ)) → ∀ w, ¬ CombOf (colOf E) A w b) :
    ∃ t, meshAfter test s englobed points points.length = .ok t ∧ FineMesh (points.length + 4) t ∧
      (Odd ((tets t).countP fun v => decide (PosComb (colOf E) (vset v) b)) ↔ PosComb (colOf E) superSet b) := by
  obtain ⟨t, e, fm, i⟩ := mesh_inv test s hs englobed points hl
    (fun S => ∑ σ ∈ S, (if PosComb (colOf E) σ b then (1 : ZMod 2) else 0) =
      if PosComb (colOf E) superSet b then 1 else 0) (by rw [Finset.sum_singleton]; rfl) (by
      intro j p t hp e fm i
      have hn := set_new fm
      push_cast at hn
      have hj : j < points.length := (List.getElem?_eq_some_iff.mp hp).1
      rw [← i]
      refine swap_sum _ (cavity_sub test englobed t p) (fun σ hσ => (fine_sets fm σ hσ).1) hn (h j p t hp e) ?_
      intro σ hσ
      have hσ' := cavity_sub test englobed t p hσ
      have hp' := hn σ hσ'
      obtain ⟨h4, hr⟩ := fine_sets fm σ hσ'
      have h5 : (insert ((j : ℤ) + 4) σ).card = 5 := by rw [Finset.card_insert_of_notMem hp', h4]
      have hev := five_even (colOf_zero E) h5 (b := b) (fun A' hA' hc' => hb A' hc' (fun l hl' => by
        rcases Finset.mem_insert.mp (hA' hl') with rfl | hm
        · push_cast; omega
        · have := hr l hm
          push_cast at this ⊢; omega))
      have hsum : ∑ x ∈ insert ((j : ℤ) + 4) σ, (if PosComb (colOf E) ((insert ((j : ℤ) + 4) σ).erase x) b then (1 : ZMod 2) else 0) = 0 := by
        rw [← Finset.sum_filter, Finset.sum_const, nsmul_eq_mul, mul_one]
        exact ZMod.natCast_eq_zero_iff_even.mpr hev
      rw [Finset.sum_insert hp', Finset.erase_insert hp'] at hsum
      have hrest : ∑ x ∈ σ, (if PosComb (colOf E) ((insert ((j : ℤ) + 4) σ).erase x) b then (1 : ZMod 2) else 0) =
          ∑ x ∈ σ, (if PosComb (colOf E) (insert ((j : ℤ) + 4) (σ.erase x)) b then (1 : ZMod 2) else 0) := by
        refine Finset.sum_congr rfl fun x hx => ?_
        rw [Finset.erase_insert_of_ne (ne_of_mem_of_not_mem hx hp').symm]
      rw [hrest] at hsum
      rw [eq_neg_of_add_eq_zero_left hsum]
      exact ZMod.neg_eq_self_mod_two _) _ le_rfl
  refine ⟨t, e, fm, ?_⟩
  have hcount : ((tets t).countP fun v => decide (PosComb (colOf E) (vset v) b)) = ((setsOf (tets t)).filter fun σ => PosComb (colOf E) σ b).card := by
    rw [setsOf, List.filter_toFinset, List.toFinset_card_of_nodup (fm.nodup.filter _), ← List.countP_eq_length_filter, List.countP_map]
    rfl
  rw [← Finset.sum_filter, Finset.sum_const, nsmul_eq_mul, mul_one, ← hcount] at i
  rw [← Nat.not_even_iff_odd, ← ZMod.natCast_eq_zero_iff_even, i]
  split_ifs with hi <;> simp [hi]

open Classical in
/-- the number of tetrahedra around a point off all planes keeps its parity -/
theorem cover_parity {P : Type} (test : P → P → P → P → P → Bool) (s : Sched) (hs : s.WF) (englobed points : List P)
    (hl : englobed.length = points.length + 4) (h : EachCavity test s englobed points Tidy) (f : P → R3.Vector K) (q : R3.Vector K)
    (hq : OffPlanes (englobed.map f) q) :
    ∃ t, meshAfter test s englobed points points.length = .ok t ∧
      (Odd ((tets t).countP fun v => decide (InsideOf (englobed.map f) q v)) ↔ InsideOf (englobed.map f) q initialTetra) := by
  have hlen : (englobed.map f).length = points.length + 4 := by rw [List.length_map, hl]
  obtain ⟨t, e, fm, i⟩ := cover_parity_hom test s hs englobed points hl h (englobed.map f) (hom q)
    (fun A hA hr => offPlanes_gen hq hA (fun l hl' => by rw [hlen]; exact hr l hl'))
  refine ⟨t, e, ?_⟩
  have hini : InsideOf (englobed.map f) q initialTetra ↔ PosComb (colOf (englobed.map f)) superSet (hom q) :=
    inTet_iff (n := 4) _ (by rw [hlen]; omega) q (by constructor <;> decide)
  rw [hini, ← i]
  have : ((tets t).countP fun v => decide (InsideOf (englobed.map f) q v)) = ((tets t).countP fun v => decide (PosComb (colOf (englobed.map f)) (vset v) (hom q))) :=
    List.countP_congr fun v hv => by simp [inTet_iff _ (by rw [hlen]) q (tets_valid fm.valid hv)]
  rw [this]

end cover

/-! ## Deciding the cases -/

section decide
open Predicates

theorem orient_first {a b c d q : R3.Vector ℚ} {x y z u : ℚ} (hs : x + y + z + u = 1) (e1 : q.X = x * a.X + y * b.X + z * c.X + u * d.X)
    (e2 : q.Y = x * a.Y + y * b.Y + z * c.Y + u * d.Y) (e3 : q.Z = x * a.Z + y * b.Z + z * c.Z + u * d.Z) :
    orient3dfast q b c d = x * orient3dfast a b c d ∧ orient3dfast a q c d = y * orient3dfast a b c d ∧
      orient3dfast a b q d = z * orient3dfast a b c d ∧ orient3dfast a b c q = u * orient3dfast a b c d := by
  obtain rfl : u = 1 - x - y - z := by linarith
  unfold orient3dfast
  simp only [e1, e2, e3]
  refine ⟨?_, ?_, ?_, ?_⟩ <;> ring

/-- all four parts of the volume have the sign of the whole -/
def insideB (a b c d q : R3.Vector ℚ) : Bool :=
  decide (0 < orient3dfast a b c d * orient3dfast q b c d) && decide (0 < orient3dfast a b c d * orient3dfast a q c d) &&
    decide (0 < orient3dfast a b c d * orient3dfast a b q d) && decide (0 < orient3dfast a b c d * orient3dfast a b c q)

theorem strictlyIn_iff {a b c d q : R3.Vector ℚ} (h : orient3dfast q b c d ≠ 0) : StrictlyIn a b c d q ↔ insideB a b c d q = true := by
  unfold insideB
  simp only [Bool.and_eq_true, decide_eq_true_eq]
  constructor
  · rintro ⟨x, y, z, u, px, py, pz, pu, hs, e1, e2, e3⟩
    obtain ⟨o1, o2, o3, o4⟩ := orient_first hs e1 e2 e3
    have ho : orient3dfast a b c d ≠ 0 := fun h0 => h (by rw [o1, h0, mul_zero])
    have hsq : 0 < orient3dfast a b c d * orient3dfast a b c d := mul_self_pos.mpr ho
    rw [o1, o2, o3, o4]
    refine ⟨⟨⟨?_, ?_⟩, ?_⟩, ?_⟩ <;> rw [mul_left_comm]
    · exact mul_pos px hsq
    · exact mul_pos py hsq
    · exact mul_pos pz hsq
    · exact mul_pos pu hsq
  · rintro ⟨⟨⟨h1, h2⟩, h3⟩, h4⟩
    have ho : orient3dfast a b c d ≠ 0 := fun h0 => by rw [h0, zero_mul] at h1; exact lt_irrefl _ h1
    have dpos : ∀ r : ℚ, 0 < orient3dfast a b c d * r → 0 < r / orient3dfast a b c d := by
      intro r hr
      rw [div_eq_mul_inv, ← mul_pos_iff_of_pos_left (mul_self_pos.mpr ho)]
      have : orient3dfast a b c d * orient3dfast a b c d * (r * (orient3dfast a b c d)⁻¹) = orient3dfast a b c d * r := by
        field_simp
      rwa [this]
    refine ⟨_, _, _, _, dpos _ h1, dpos _ h2, dpos _ h3, dpos _ h4, ?_, ?_, ?_, ?_⟩
    · rw [← add_div, ← add_div, ← add_div, div_eq_one_iff_eq ho]
      unfold orient3dfast; ring
    all_goals
      rw [div_mul_eq_mul_div, div_mul_eq_mul_div, div_mul_eq_mul_div, div_mul_eq_mul_div, ← add_div, ← add_div, ← add_div, eq_div_iff ho]
      unfold orient3dfast; ring

/-- `none` when the point is on the plane of the last three corners -/
def aroundB (E : List (R3.Vector ℚ)) (q : R3.Vector ℚ) (v : Tetra) : Option Bool :=
  match E[v.ia.toNat]?, E[v.ib.toNat]?, E[v.ic.toNat]?, E[v.id.toNat]? with
  | some a, some b, some c, some d => if orient3dfast q b c d = 0 then none else some (insideB a b c d q)
  | _, _, _, _ => some false

theorem aroundB_iff {E : List (R3.Vector ℚ)} {q : R3.Vector ℚ} {v : Tetra} {r : Bool} (h : aroundB E q v = some r) : InsideOf E q v ↔ r = true := by
  unfold aroundB at h
  unfold InsideOf
  split at h
  · rename_i a b c d ha hb hc hd
    split_ifs at h with h0
    injection h with h
    rw [← h, ← strictlyIn_iff h0]
    constructor
    · rintro ⟨a', b', c', d', ha', hb', hc', hd', hs⟩
      rw [ha] at ha'; rw [hb] at hb'; rw [hc] at hc'; rw [hd] at hd'
      injection ha' with ha'; injection hb' with hb'; injection hc' with hc'; injection hd' with hd'
      subst ha' hb' hc' hd'
      exact hs
    · exact fun hs => ⟨a, b, c, d, ha, hb, hc, hd, hs⟩
  · rename_i hne
    injection h with h
    rw [← h]
    constructor
    · rintro ⟨a, b, c, d, ha, hb, hc, hd, _⟩
      exact absurd hd (hne a b c d ha hb hc)
    · intro hf; exact absurd hf (by decide)

/-- the point is on no plane through three of the points -/
def offB (E : List (R3.Vector ℚ)) (q : R3.Vector ℚ) : Bool :=
  (List.range E.length).all fun i => (List.range E.length).all fun j => (List.range E.length).all fun k =>
    i = j || i = k || j = k || match E[i]?, E[j]?, E[k]? with
      | some a, some b, some c => decide (orient3dfast a b c q ≠ 0)
      | _, _, _ => true

theorem offB_spec {E : List (R3.Vector ℚ)} {q : R3.Vector ℚ} (h : offB E q = true) : OffPlanes E q := by
  intro i j k h1 h2 h3 a b c ha hb hc x y z hs hcon
  have lt : ∀ {l : ℕ} {p : R3.Vector ℚ}, E[l]? = some p → l ∈ List.range E.length := fun hp => List.mem_range.mpr (List.getElem?_eq_some_iff.mp hp).1
  have := List.all_eq_true.mp (List.all_eq_true.mp (List.all_eq_true.mp h i (lt ha)) j (lt hb)) k (lt hc)
  simp only [ha, hb, hc, h1, h2, h3, decide_false, Bool.false_or, decide_eq_true_eq] at this
  apply this
  obtain ⟨e1, e2, e3⟩ := hcon
  obtain rfl : z = 1 - x - y := by linarith
  unfold orient3dfast
  simp only [e1, e2, e3]
  ring

end decide

/-! ## C115 -/

/-- the points of a float64 run, super-tetrahedron first, with their exact coordinates -/
def exactAll (points : List (R3.Vector F64)) : List (R3.Vector ℚ) := (englobe points).1.map exactV

open Classical in
/-- a computed run decides for every order of the maps -/
theorem around_order (s : Sched) (hs : s.WF) (points : List (R3.Vector F64)) (q : R3.Vector ℚ) (m : ℕ)
    (h : (match meshAfter sphere64 schedId (englobe points).1 points points.length with
      | .ok t => decide ((∀ v ∈ tets t, aroundB (exactAll points) q v ≠ none) ∧ (tets t).countP (fun v => aroundB (exactAll points) q v = some true) = m)
      | _ => false) = true) :
    ∃ t, meshAfter sphere64 s (englobe points).1 points points.length = .ok t ∧ (tets t).countP (fun v => decide (InsideOf (exactAll points) q v)) = m := by
  have wf : schedId.WF := ⟨fun _ _ => List.Perm.refl _, fun _ _ => List.Perm.refl _, fun _ => List.Perm.refl _⟩
  obtain ⟨u, u', e1, e2, hu⟩ := bwLoop_perm sphere64 schedId s wf hs (englobe points).1 points 0 _ _ good_initial valid_initial
    (List.Perm.refl _) (by change _ ≤ points.length + 4; omega)
  have e1' : meshAfter sphere64 schedId (englobe points).1 points points.length = .ok u := by
    unfold meshAfter; rw [List.take_length]; exact e1
  have e2' : meshAfter sphere64 s (englobe points).1 points points.length = .ok u' := by
    unfold meshAfter; rw [List.take_length]; exact e2
  rw [e1'] at h
  obtain ⟨h1, h2⟩ := of_decide_eq_true h
  refine ⟨u', e2', ?_⟩
  have hq : (tets u).Perm (tets u') := hu.map Prod.snd
  rw [← hq.countP_eq, ← h2]
  refine List.countP_congr fun v hv => ?_
  cases hr : aroundB (exactAll points) q v with
  | none => exact absurd hr (h1 v hv)
  | some r => simp [aroundB_iff hr]

open Classical in
/-- C115, what holds: for every sphere test and every reading `f` of the positions, if each face of the tetrahedra that one insertion deletes belongs to one or
to an even number of them, then a point on no plane through three of the vertices is strictly inside an odd number of the tetrahedra at the end when it is strictly inside
the super-tetrahedron, and inside an even number of them otherwise. Missing from C115: that the odd number is one, and the hypothesis; both are false of some inputs
(`C115_refuted_hole`, `C115_refuted_overlap`). -/
theorem C115_odd_partial {K : Type} [Field K] [LinearOrder K] [IsStrictOrderedRing K] {P : Type} (test : P → P → P → P → P → Bool) (s : Sched) (hs : s.WF)
    (englobed points : List P) (hl : englobed.length = points.length + 4) (h : EachCavity test s englobed points Tidy) (f : P → R3.Vector K) (q : R3.Vector K)
    (hq : OffPlanes (englobed.map f) q) :
    ∃ t, meshAfter test s englobed points points.length = .ok t ∧
      (Odd ((tets t).countP fun v => decide (InsideOf (englobed.map f) q v)) ↔ InsideOf (englobed.map f) q initialTetra) :=
  cover_parity test s hs englobed points hl h f q hq

open Classical in
/-- C115 is false: for four corners of a cube a point on no plane through three vertices, strictly inside the super-tetrahedron, is inside no tetrahedron at the end, for every
order in which Go visits its maps -/
theorem C115_refuted_hole (s : Sched) (hs : s.WF) : ∃ q : R3.Vector ℚ, OffPlanes (exactAll [⟨1, 1, 1⟩, ⟨1, 1, 0⟩, ⟨0, 1, 1⟩, ⟨1, 0, 1⟩]) q ∧
    InsideOf (exactAll [⟨1, 1, 1⟩, ⟨1, 1, 0⟩, ⟨0, 1, 1⟩, ⟨1, 0, 1⟩]) q initialTetra ∧
    ∃ t, meshAfter sphere64 s (englobe [⟨1, 1, 1⟩, ⟨1, 1, 0⟩, ⟨0, 1, 1⟩, ⟨1, 0, 1⟩]).1 [⟨1, 1, 1⟩, ⟨1, 1, 0⟩, ⟨0, 1, 1⟩, ⟨1, 0, 1⟩] 4 = .ok t ∧
      ∀ v ∈ tets t, ¬ InsideOf (exactAll [⟨1, 1, 1⟩, ⟨1, 1, 0⟩, ⟨0, 1, 1⟩, ⟨1, 0, 1⟩]) q v := by
  refine ⟨⟨36/93, 117/93, 75/93⟩, offB_spec (by decide +kernel), (aroundB_iff (r := true) (by decide +kernel)).mpr rfl, ?_⟩
  obtain ⟨t, e, hc⟩ := around_order s hs [⟨1, 1, 1⟩, ⟨1, 1, 0⟩, ⟨0, 1, 1⟩, ⟨1, 0, 1⟩] ⟨36/93, 117/93, 75/93⟩ 0 (by decide +kernel)
  refine ⟨t, e, fun v hv hi => ?_⟩
  rw [List.countP_eq_zero] at hc
  exact hc v hv (by simpa using hi)

open Classical in
/-- C115 is false even when the boundary of each cavity is simple: for three corners of a cube a point on no plane through three vertices is strictly inside three of the
tetrahedra at the end -/
theorem C115_refuted_overlap (s : Sched) (hs : s.WF) :
    EachCavity sphere64 s (englobe [⟨1, 1, 0⟩, ⟨0, 1, 1⟩, ⟨1, 0, 1⟩]).1 [⟨1, 1, 0⟩, ⟨0, 1, 1⟩, ⟨1, 0, 1⟩] SimpleRim ∧
    ∃ q : R3.Vector ℚ, OffPlanes (exactAll [⟨1, 1, 0⟩, ⟨0, 1, 1⟩, ⟨1, 0, 1⟩]) q ∧
    InsideOf (exactAll [⟨1, 1, 0⟩, ⟨0, 1, 1⟩, ⟨1, 0, 1⟩]) q initialTetra ∧
    ∃ t, meshAfter sphere64 s (englobe [⟨1, 1, 0⟩, ⟨0, 1, 1⟩, ⟨1, 0, 1⟩]).1 [⟨1, 1, 0⟩, ⟨0, 1, 1⟩, ⟨1, 0, 1⟩] 3 = .ok t ∧
      (tets t).countP (fun v => decide (InsideOf (exactAll [⟨1, 1, 0⟩, ⟨0, 1, 1⟩, ⟨1, 0, 1⟩]) q v)) = 3 := by
  refine ⟨eachCavity_order sphere64 schedId s ⟨fun _ _ => List.Perm.refl _, fun _ _ => List.Perm.refl _, fun _ => List.Perm.refl _⟩ hs _ _ rfl
    (eachCavity_check _ _ _ _ _ (by decide +kernel)), ⟨105/87, 9/87, 90/87⟩, offB_spec (by decide +kernel),
    (aroundB_iff (r := true) (by decide +kernel)).mpr rfl, ?_⟩
  exact around_order s hs [⟨1, 1, 0⟩, ⟨0, 1, 1⟩, ⟨1, 0, 1⟩] ⟨105/87, 9/87, 90/87⟩ 3 (by decide +kernel)

end Verif.Props
