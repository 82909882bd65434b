import Verif.Props.Covering
import Verif.Props.Tri3
import Mathlib.Algebra.Polynomial.Roots
import Mathlib.LinearAlgebra.FiniteDimensional.Basic
import Mathlib.LinearAlgebra.FiniteDimensional.Lemmas
/-!
# C115: tidy cavities leave no hole in the super-tetrahedron
-/
set_option linter.unusedSectionVars false

namespace Verif.Props
open Verif Verif.R3 Verif.Proofs Verif.Meshing

section closed
variable {K : Type} [Field K] [LinearOrder K] [IsStrictOrderedRing K]

/-- a linear form that vanishes on three columns -/
theorem form_three (c : Fin 4 → ℤ → K) {A : Finset ℤ} (hA : A.card = 3) : ∃ g : Fin 4 → K, g ≠ 0 ∧ ∀ j ∈ A, ∑ k, g k * c k j = 0 := by
  have hdep : ¬ LinearIndependent K (fun (k : Fin 4) (j : A) => c k j) := by
    intro h
    have := h.fintype_card_le_finrank
    rw [Module.finrank_fintype_fun_eq_card, Fintype.card_coe, hA, Fintype.card_fin] at this
    omega
  obtain ⟨g, hg, k, hne⟩ := Fintype.not_linearIndependent_iff.mp hdep
  refine ⟨g, fun h => hne (congrFun h k), fun j hj => ?_⟩
  have := congrFun hg ⟨j, hj⟩
  rw [Finset.sum_apply] at this
  simpa using this

/-- a curve of columns that starts at a combination of the first four -/
def curveAt (c : Fin 4 → ℤ → K) (l : Fin 4 → K) (s : K) (k : Fin 4) : K := ∑ i : Fin 4, (l i + s ^ (i.val + 1)) * c k i.val

/-- the first four columns are independent -/
def FourFree (c : Fin 4 → ℤ → K) : Prop := ∀ g : Fin 4 → K, (∀ i : Fin 4, ∑ k, g k * c k i.val = 0) → g = 0

/-- only finitely many places of the curve are combinations of three given columns -/
theorem curve_bad (c : Fin 4 → ℤ → K) (hf : FourFree c) (l : Fin 4 → K) {A : Finset ℤ} (hA : A.card = 3) :
    {s : K | ∃ w, CombOf c A w (curveAt c l s)}.Finite := by
  obtain ⟨g, hg, hz⟩ := form_three c hA
  set G : Fin 4 → K := fun i => ∑ k, g k * c k i.val with hG
  have hGne : ∃ i, G i ≠ 0 := by
    by_contra h
    push Not at h
    exact hg (hf g h)
  set p : Polynomial K := ∑ i : Fin 4, (Polynomial.C (l i * G i) + Polynomial.C (G i) * Polynomial.X ^ (i.val + 1)) with hp
  have hp0 : p ≠ 0 := by
    obtain ⟨i, hi⟩ := hGne
    intro h0
    apply hi
    have : p.coeff (i.val + 1) = G i := by
      rw [hp, Polynomial.finsetSum_coeff, Finset.sum_eq_single i]
      · rw [Polynomial.coeff_add, Polynomial.coeff_C_mul, Polynomial.coeff_X_pow_self, mul_one, Polynomial.coeff_C_succ, zero_add]
      · intro j _ hj
        rw [Polynomial.coeff_add, Polynomial.coeff_C_mul, Polynomial.coeff_X_pow, Polynomial.coeff_C_succ, if_neg, mul_zero, zero_add]
        intro h; exact hj (Fin.ext (by omega))
      · intro h; exact absurd (Finset.mem_univ i) h
    rw [← this, h0, Polynomial.coeff_zero]
  refine (p.roots.toFinset.finite_toSet).subset ?_
  rintro s ⟨w, hw⟩
  rw [Finset.mem_coe, Multiset.mem_toFinset, Polynomial.mem_roots hp0, Polynomial.IsRoot.def]
  have h1 : ∑ k, g k * curveAt c l s k = 0 := by
    have : ∀ k, g k * curveAt c l s k = ∑ i ∈ A, w i * (g k * c k i) := by
      intro k
      rw [← hw k, Finset.mul_sum]
      exact Finset.sum_congr rfl fun i _ => by ring
    simp only [this]
    rw [Finset.sum_comm]
    refine Finset.sum_eq_zero fun i hi => ?_
    rw [← Finset.mul_sum, hz i hi, mul_zero]
  have h2 : p.eval s = ∑ k, g k * curveAt c l s k := by
    rw [hp, Polynomial.eval_finsetSum]
    unfold curveAt
    simp only [Polynomial.eval_add, Polynomial.eval_mul, Polynomial.eval_C, Polynomial.eval_pow, Polynomial.eval_X, Finset.mul_sum]
    rw [Finset.sum_comm]
    refine Finset.sum_congr rfl fun i _ => ?_
    simp only [hG]
    rw [Finset.mul_sum, Finset.sum_mul, ← Finset.sum_add_distrib]
    exact Finset.sum_congr rfl fun k _ => by ring
  rw [h2, h1]

/-- close to the start there is a place that is a combination of no three columns -/
theorem curve_good (c : Fin 4 → ℤ → K) (hf : FourFree c) (l : Fin 4 → K) (n : ℕ) {ε : K} (hε : 0 < ε) :
    ∃ s, 0 < s ∧ s < ε ∧ ∀ A : Finset ℤ, A.card = 3 → (∀ i ∈ A, 0 ≤ i ∧ i < (n : ℕ)) → ∀ w, ¬ CombOf c A w (curveAt c l s) := by
  have hfin : (⋃ A ∈ ((Finset.Ico (0:ℤ) n).powersetCard 3 : Finset (Finset ℤ)), {s : K | ∃ w, CombOf c A w (curveAt c l s)}).Finite :=
    Set.Finite.biUnion (Finset.finite_toSet _) fun A hA => curve_bad c hf l (Finset.mem_powersetCard.mp hA).2
  obtain ⟨s, hs, hn⟩ := (Set.Ioo_infinite hε).exists_notMem_finite hfin
  refine ⟨s, hs.1, hs.2, fun A hA hr w hw => hn ?_⟩
  rw [Set.mem_iUnion₂]
  exact ⟨A, Finset.mem_powersetCard.mpr ⟨fun i hi => Finset.mem_Ico.mpr (hr i hi), hA⟩, w, hw⟩

/-- a polynomial that is positive arbitrarily close to zero is not negative at zero -/
theorem small_nonneg {m0 : K} {m : Fin 4 → K} (h : ∀ ε : K, 0 < ε → ∃ s, 0 < s ∧ s < ε ∧ 0 < m0 + ∑ j : Fin 4, s ^ (j.val + 1) * m j) : 0 ≤ m0 := by
  by_contra hneg
  push Not at hneg
  set B : K := 1 + ∑ j, |m j| with hB
  have hBpos : 0 < B := by
    have : 0 ≤ ∑ j, |m j| := Finset.sum_nonneg fun j _ => abs_nonneg _
    linarith
  obtain ⟨s, h0, h1, h2⟩ := h (min 1 (-m0 / B)) (lt_min one_pos (div_pos (neg_pos.mpr hneg) hBpos))
  have hs1 : s < 1 := lt_of_lt_of_le h1 (min_le_left _ _)
  have hs2 : s < -m0 / B := lt_of_lt_of_le h1 (min_le_right _ _)
  rw [lt_div_iff₀ hBpos] at hs2
  have h3 : ∑ j : Fin 4, s ^ (j.val + 1) * m j ≤ ∑ j : Fin 4, s * |m j| := by
    refine Finset.sum_le_sum fun j _ => ?_
    have hp : s ^ (j.val + 1) ≤ s := by
      rw [pow_succ]
      calc s ^ j.val * s ≤ 1 * s := mul_le_mul_of_nonneg_right (pow_le_one₀ h0.le hs1.le) h0.le
        _ = s := one_mul s
    calc s ^ (j.val + 1) * m j ≤ s ^ (j.val + 1) * |m j| := mul_le_mul_of_nonneg_left (le_abs_self _) (pow_nonneg h0.le _)
      _ ≤ s * |m j| := mul_le_mul_of_nonneg_right hp (abs_nonneg _)
  rw [← Finset.mul_sum] at h3
  have h4 : s * B = s + s * ∑ j, |m j| := by rw [hB]; ring
  linarith

/-- what holds for one of finitely many members arbitrarily close to zero holds for a fixed member arbitrarily close to zero -/
theorem pigeon {α : Type} (l : List α) (Q : α → K → Prop) (h : ∀ ε : K, 0 < ε → ∃ s, 0 < s ∧ s < ε ∧ ∃ v ∈ l, Q v s) :
    ∃ v ∈ l, ∀ ε : K, 0 < ε → ∃ s, 0 < s ∧ s < ε ∧ Q v s := by
  by_contra hcon
  push Not at hcon
  have : ∀ l' : List α, (∀ v ∈ l', v ∈ l) → ∃ ε : K, 0 < ε ∧ ∀ v ∈ l', ∀ s, 0 < s → s < ε → ¬ Q v s := by
    intro l'
    induction l' with
    | nil => intro _; exact ⟨1, one_pos, by simp⟩
    | cons v l' ih =>
      intro hl
      obtain ⟨ε, h1, h2⟩ := ih fun w hw => hl w (List.mem_cons_of_mem _ hw)
      obtain ⟨δ, h3, h4⟩ := hcon v (hl v List.mem_cons_self)
      refine ⟨min ε δ, lt_min h1 h3, fun w hw s hs hs' => ?_⟩
      rcases List.mem_cons.mp hw with rfl | hw
      · exact h4 s hs (lt_of_lt_of_le hs' (min_le_right _ _))
      · exact h2 w hw s hs (lt_of_lt_of_le hs' (min_le_left _ _))
  obtain ⟨ε, h1, h2⟩ := this l fun _ h => h
  obtain ⟨s, h3, h4, v, hv, hq⟩ := h ε h1
  exact h2 v hv s h3 h4 hq

/-- four columns that contain the curve arbitrarily close to its start contain the start -/
theorem curve_limit (c : Fin 4 → ℤ → K) (l : Fin 4 → K) {σ : Finset ℤ} (hσ : σ.card = 4)
    (h : ∀ ε : K, 0 < ε → ∃ s, 0 < s ∧ s < ε ∧ (∀ A ⊆ σ, A.card = 3 → ∀ w, ¬ CombOf c A w (curveAt c l s)) ∧ PosComb c σ (curveAt c l s)) :
    ∃ w : ℤ → K, (∀ i ∈ σ, 0 ≤ w i) ∧ CombOf c σ w (fun k => ∑ i : Fin 4, l i * c k i.val) := by
  have ind : LinearIndependent K (fun (i : σ) (k : Fin 4) => c k i) := by
    obtain ⟨s, _, _, hgen, w, hw, hc⟩ := h 1 one_pos
    by_contra hdep
    obtain ⟨g, hg, ⟨i, hi⟩, hne⟩ := Fintype.not_linearIndependent_iff.mp hdep
    set d : ℤ → K := fun j => if h : j ∈ σ then g ⟨j, h⟩ else 0 with hd
    have hd0 : CombOf c σ d 0 := by
      intro k
      have := congrFun hg k
      rw [Finset.sum_apply] at this
      rw [← Finset.sum_coe_sort]
      simpa [hd] using this
    have hdi : d i ≠ 0 := by simpa [hd, hi] using hne
    have h1 := comb_add hc hd0 (-(w i / d i))
    have h2 : (fun k => curveAt c l s k + -(w i / d i) * (0 : Fin 4 → K) k) = curveAt c l s := by funext k; simp
    rw [h2] at h1
    refine hgen (σ.erase i) (Finset.erase_subset _ _) (by rw [Finset.card_erase_of_mem hi, hσ]) _ ((comb_sub (Finset.erase_subset _ _) ?_).mpr h1)
    intro j hj hn
    have : j = i := by by_contra hne'; exact hn (Finset.mem_erase.mpr ⟨hne', hj⟩)
    rw [this]; field_simp; ring
  have hcard : Fintype.card σ = Module.finrank K (Fin 4 → K) := by rw [Fintype.card_coe, hσ, Module.finrank_fin_fun]
  have : Nonempty σ := by
    have : σ.Nonempty := Finset.card_pos.mp (by omega)
    exact this.to_subtype
  set B := basisOfLinearIndependentOfCardEqFinrank ind hcard with hBdef
  have hBi : ∀ i : σ, B i = fun k => c k i := fun i => by rw [hBdef, coe_basisOfLinearIndependentOfCardEqFinrank]
  have hcoord : ∀ (w : ℤ → K) (b : Fin 4 → K), CombOf c σ w b → ∀ i : σ, B.repr b i = w i := by
    intro w b hb i
    have e : b = ∑ j : σ, w j • B j := by
      funext k
      rw [← hb k, Finset.sum_apply, ← Finset.sum_coe_sort]
      exact Finset.sum_congr rfl fun j _ => by rw [hBi]; rfl
    rw [e, Module.Basis.repr_sum_self]
  set b0 : Fin 4 → K := fun k => ∑ i : Fin 4, l i * c k i.val with hb0
  refine ⟨fun j => if h : j ∈ σ then B.repr b0 ⟨j, h⟩ else 0, ?_, ?_⟩
  · intro i hi
    simp only [hi, dif_pos]
    set m : Fin 4 → K := fun j => B.repr (fun k => c k j.val) ⟨i, hi⟩ with hm
    refine small_nonneg (m := m) fun ε hε => ?_
    obtain ⟨s, h0, h1, _, w, hw, hc⟩ := h ε hε
    refine ⟨s, h0, h1, ?_⟩
    have e : curveAt c l s = b0 + ∑ j : Fin 4, s ^ (j.val + 1) • (fun k => c k j.val) := by
      funext k
      rw [Pi.add_apply, Finset.sum_apply]
      unfold curveAt
      rw [hb0, ← Finset.sum_add_distrib]
      exact Finset.sum_congr rfl fun j _ => by rw [Pi.smul_apply, smul_eq_mul]; ring
    have h2 := hcoord w _ hc ⟨i, hi⟩
    rw [e, map_add, map_sum, Finsupp.add_apply, Finsupp.finsetSum_apply] at h2
    simp only [map_smul, Finsupp.smul_apply, smul_eq_mul] at h2
    rw [h2]
    exact hw i hi
  · intro k
    have := congrFun (B.sum_repr b0) k
    rw [Finset.sum_apply] at this
    rw [← this, ← Finset.sum_coe_sort]
    exact Finset.sum_congr rfl fun j _ => by simp [hBi]

theorem fourFree_of {E : List (R3.Vector K)} {a b c d : R3.Vector K} (ha : E[0]? = some a) (hb : E[1]? = some b) (hc : E[2]? = some c) (hd : E[3]? = some d)
    (h : ¬ Coplanar4 a b c d) : FourFree (colOf E) := by
  intro g hg
  rw [← C09_zero_iff] at h
  have get : ∀ {i : ℕ} {p : R3.Vector K}, E[i]? = some p → E.getD i ⟨0, 0, 0⟩ = p := fun hp => by rw [List.getD_eq_getElem?_getD, hp]; rfl
  have eq : ∀ (i : Fin 4) (p : R3.Vector K), E[i.val]? = some p → g 0 + g 1 * p.X + g 2 * p.Y + g 3 * p.Z = 0 := by
    intro i p hp
    have := hg i
    simp only [Fin.sum_univ_four, colOf, Int.toNat_natCast, get hp, hom, Matrix.cons_val] at this
    linarith
  have ea := eq 0 a ha
  have eb := eq 1 b hb
  have ec := eq 2 c hc
  have ed := eq 3 d hd
  have g1 : g 1 = 0 := by
    have : g 1 * Predicates.orient3dfast a b c d = 0 := by
      unfold Predicates.orient3dfast
      linear_combination ((b.Y-d.Y)*(c.Z-d.Z)-(b.Z-d.Z)*(c.Y-d.Y))*(ea-ed) + ((c.Y-d.Y)*(a.Z-d.Z)-(c.Z-d.Z)*(a.Y-d.Y))*(eb-ed) + ((a.Y-d.Y)*(b.Z-d.Z)-(a.Z-d.Z)*(b.Y-d.Y))*(ec-ed)
    exact (mul_eq_zero.mp this).resolve_right h
  have g2 : g 2 = 0 := by
    have : g 2 * Predicates.orient3dfast a b c d = 0 := by
      unfold Predicates.orient3dfast
      linear_combination ((b.Z-d.Z)*(c.X-d.X)-(b.X-d.X)*(c.Z-d.Z))*(ea-ed) + ((c.Z-d.Z)*(a.X-d.X)-(c.X-d.X)*(a.Z-d.Z))*(eb-ed) + ((a.Z-d.Z)*(b.X-d.X)-(a.X-d.X)*(b.Z-d.Z))*(ec-ed)
    exact (mul_eq_zero.mp this).resolve_right h
  have g3 : g 3 = 0 := by
    have : g 3 * Predicates.orient3dfast a b c d = 0 := by
      unfold Predicates.orient3dfast
      linear_combination ((b.X-d.X)*(c.Y-d.Y)-(b.Y-d.Y)*(c.X-d.X))*(ea-ed) + ((c.X-d.X)*(a.Y-d.Y)-(c.Y-d.Y)*(a.X-d.X))*(eb-ed) + ((a.X-d.X)*(b.Y-d.Y)-(a.Y-d.Y)*(b.X-d.X))*(ec-ed)
    exact (mul_eq_zero.mp this).resolve_right h
  have g0 : g 0 = 0 := by rw [g1, g2, g3] at ea; linarith
  funext k
  fin_cases k
  · exact g0
  · exact g1
  · exact g2
  · exact g3

/-- the point is in the closed tetrahedron with these indices -/
def ClosedIn (E : List (R3.Vector K)) (q : R3.Vector K) (v : Tetra) : Prop :=
  ∃ a b c d, E[v.ia.toNat]? = some a ∧ E[v.ib.toNat]? = some b ∧ E[v.ic.toNat]? = some c ∧ E[v.id.toNat]? = some d ∧ InTet a b c d q

theorem closedIn_of {n : ℕ} (E : List (R3.Vector K)) (hn : n ≤ E.length) (q : R3.Vector K) {v : Tetra} (hv : ValidTetra n v)
    (h : ∃ w : ℤ → K, (∀ i ∈ vset v, 0 ≤ w i) ∧ CombOf (colOf E) (vset v) w (hom q)) : ClosedIn E q v := by
  obtain ⟨hr, hd⟩ := hv
  simp only [List.mem_cons, List.not_mem_nil, or_false, forall_eq_or_imp, forall_eq, List.nodup_cons, not_or, List.nodup_nil, and_true,
    not_false_eq_true] at hr hd
  obtain ⟨⟨h1, h2, h3⟩, ⟨h4, h5⟩, h6⟩ := hd
  have sum4 : ∀ g : ℤ → K, ∑ i ∈ vset v, g i = g v.ia + (g v.ib + (g v.ic + g v.id)) := by
    intro g
    unfold vset
    rw [Finset.sum_insert (by simp [h1, h2, h3]), Finset.sum_insert (by simp [h4, h5]), Finset.sum_insert (by simp [h6]), Finset.sum_singleton]
  obtain ⟨w, hw, hc⟩ := h
  rw [comb_hom] at hc
  simp only [sum4] at hc
  obtain ⟨e0, e1, e2, e3⟩ := hc
  exact ⟨_, _, _, _, getD_some (by omega), getD_some (by omega), getD_some (by omega), getD_some (by omega), w v.ia, w v.ib, w v.ic, w v.id,
    hw _ (by simp [vset]), hw _ (by simp [vset]), hw _ (by simp [vset]), hw _ (by simp [vset]), by linarith, by linarith, by linarith, by linarith⟩

/-- C115, what holds: for every sphere test and every reading `f` of the positions, if each face of the tetrahedra that one insertion deletes belongs to one or
to an even number of them, and the super-tetrahedron is not flat, then the tetrahedra at the end cover the super-tetrahedron: each of its points is in one of them.
Missing from C115: that the tetrahedra do not overlap, and the hypothesis; both are false of some inputs. -/
theorem C115_cover_partial {P : Type} (test : P → P → P → P → P → Bool) (s : Sched) (hs : s.WF)
    (englobed points : List P) (hl : englobed.length = points.length + 4) (h : EachCavity test s englobed points Tidy) (f : P → R3.Vector K)
    {a b c d : R3.Vector K} (ha : (englobed.map f)[0]? = some a) (hb : (englobed.map f)[1]? = some b) (hc : (englobed.map f)[2]? = some c)
    (hd : (englobed.map f)[3]? = some d) (hflat : ¬ Coplanar4 a b c d) :
    ∃ t, meshAfter test s englobed points points.length = .ok t ∧ ∀ q, InTet a b c d q → ∃ v ∈ tets t, ClosedIn (englobed.map f) q v := by
  classical
  set E := englobed.map f with hE
  have hlen : E.length = points.length + 4 := by rw [hE, List.length_map, hl]
  have hfree := fourFree_of ha hb hc hd hflat
  obtain ⟨t, e, fm, _⟩ := mesh_inv test s hs englobed points hl (fun _ => True) trivial (fun _ _ _ _ _ _ _ => trivial) points.length le_rfl
  refine ⟨t, e, fun q hq => ?_⟩
  obtain ⟨x, y, z, u, px, py, pz, pu, hsum, e1, e2, e3⟩ := hq
  set l : Fin 4 → K := ![x, y, z, u] with hldef
  have hl0 : ∀ i, 0 ≤ l i := by intro i; fin_cases i <;> assumption
  have get : ∀ {i : ℕ} {p : R3.Vector K}, E[i]? = some p → E.getD i ⟨0, 0, 0⟩ = p := fun hp => by rw [List.getD_eq_getElem?_getD, hp]; rfl
  have hstart : (fun k => ∑ i : Fin 4, l i * colOf E k i.val) = hom q := by
    have c0 : ∀ k, colOf E k ((0 : Fin 4).val) = hom a k := fun k => by
      unfold colOf; rw [show (((0 : Fin 4).val : ℤ)).toNat = 0 from rfl, get ha]
    have c1 : ∀ k, colOf E k ((1 : Fin 4).val) = hom b k := fun k => by
      unfold colOf; rw [show (((1 : Fin 4).val : ℤ)).toNat = 1 from rfl, get hb]
    have c2 : ∀ k, colOf E k ((2 : Fin 4).val) = hom c k := fun k => by
      unfold colOf; rw [show (((2 : Fin 4).val : ℤ)).toNat = 2 from rfl, get hc]
    have c3 : ∀ k, colOf E k ((3 : Fin 4).val) = hom d k := fun k => by
      unfold colOf; rw [show (((3 : Fin 4).val : ℤ)).toNat = 3 from rfl, get hd]
    funext k
    rw [Fin.sum_univ_four, c0, c1, c2, c3]
    fin_cases k
    · simp [hom, hldef]; linarith
    · simp [hom, hldef]; linarith
    · simp [hom, hldef]; linarith
    · simp [hom, hldef]; linarith
  have hsuper : ∀ s : K, 0 < s → PosComb (colOf E) superSet (curveAt (colOf E) l s) := by
    intro s hs0
    refine ⟨fun i => if i = 0 then l 0 + s ^ 1 else if i = 1 then l 1 + s ^ 2 else if i = 2 then l 2 + s ^ 3 else l 3 + s ^ 4, ?_, ?_⟩
    · intro i _
      dsimp only
      split_ifs
      · have := hl0 0; positivity
      · have := hl0 1; positivity
      · have := hl0 2; positivity
      · have := hl0 3; positivity
    · intro k
      unfold superSet curveAt
      rw [Finset.sum_insert (by decide), Finset.sum_insert (by decide), Finset.sum_insert (by decide), Finset.sum_singleton, Fin.sum_univ_four]
      simp
      ring
  have key : ∃ v ∈ tets t, ∀ ε : K, 0 < ε → ∃ s, 0 < s ∧ s < ε ∧
      ((∀ A ⊆ vset v, A.card = 3 → ∀ w, ¬ CombOf (colOf E) A w (curveAt (colOf E) l s)) ∧ PosComb (colOf E) (vset v) (curveAt (colOf E) l s)) := by
    refine pigeon (tets t) _ fun ε hε => ?_
    obtain ⟨r, h0, h1, hgood⟩ := curve_good (colOf E) hfree l (points.length + 4) hε
    obtain ⟨t', e', fm', i⟩ := cover_parity_hom test s hs englobed points hl h E (curveAt (colOf E) l r) hgood
    have : Res.ok t = Res.ok t' := e.symm.trans e'
    injection this with this
    subst this
    have hodd := i.mpr (hsuper r h0)
    obtain ⟨v, hv, hp⟩ := List.countP_pos_iff.mp hodd.pos
    exact ⟨r, h0, h1, v, hv, fun A hA hA3 => hgood A hA3 fun i hi => (tets_valid fm.valid hv).1 i (by simpa [vset] using hA hi), of_decide_eq_true hp⟩
  obtain ⟨v, hv, hlim⟩ := key
  have hval := tets_valid fm.valid hv
  refine ⟨v, hv, closedIn_of E (by rw [hlen]) q hval ?_⟩
  have := curve_limit (colOf E) l (vset_card hval) hlim
  rwa [hstart] at this

/-- off all planes, closed and open tetrahedra are the same -/
theorem closed_off {n : ℕ} {E : List (R3.Vector K)} {q : R3.Vector K} (h : OffPlanes E q) {v : Tetra} (hv : ValidTetra n v) (hc : ClosedIn E q v) : InsideOf E q v := by
  obtain ⟨hr, hd⟩ := hv
  simp only [List.mem_cons, List.not_mem_nil, or_false, forall_eq_or_imp, forall_eq, List.nodup_cons, not_or, List.nodup_nil, and_true,
    not_false_eq_true] at hr hd
  obtain ⟨⟨h1, h2, h3⟩, ⟨h4, h5⟩, h6⟩ := hd
  obtain ⟨a, b, c, d, ga, gb, gc, gd, x, y, z, u, px, py, pz, pu, hs, e1, e2, e3⟩ := hc
  refine ⟨a, b, c, d, ga, gb, gc, gd, x, y, z, u, lt_of_le_of_ne px ?_, lt_of_le_of_ne py ?_, lt_of_le_of_ne pz ?_, lt_of_le_of_ne pu ?_, hs, e1, e2, e3⟩
  · rintro rfl
    exact h _ _ _ (by omega) (by omega) (by omega) b c d gb gc gd y z u (by linarith) ⟨by linarith, by linarith, by linarith⟩
  · rintro rfl
    exact h _ _ _ (by omega) (by omega) (by omega) a c d ga gc gd x z u (by linarith) ⟨by linarith, by linarith, by linarith⟩
  · rintro rfl
    exact h _ _ _ (by omega) (by omega) (by omega) a b d ga gb gd x y u (by linarith) ⟨by linarith, by linarith, by linarith⟩
  · rintro rfl
    exact h _ _ _ (by omega) (by omega) (by omega) a b c ga gb gc x y z (by linarith) ⟨by linarith, by linarith, by linarith⟩

/-- a combination of points that are combinations of four points is a combination of the four -/
theorem comb_into {v1 v2 v3 v4 : R3.Vector K} : ∀ (l : List (R3.Vector K)), (∀ v ∈ l, InTet v1 v2 v3 v4 v) → ∀ s p, Comb l s p → Comb [v1, v2, v3, v4] s p := by
  intro l
  induction l with
  | nil =>
    rintro - s p ⟨rfl, rfl⟩
    refine ⟨0, le_rfl, 0, le_rfl, 0, le_rfl, 0, le_rfl, ?_⟩
    simp [Comb]
  | cons v l ih =>
    rintro hl s p ⟨x, hx, h⟩
    obtain ⟨a, ha, b, hb, c, hc, d, hd, e0, e1⟩ := ih (fun w hw => hl w (List.mem_cons_of_mem _ hw)) _ _ h
    obtain ⟨a', b', c', d', ha', hb', hc', hd', hs, eX, eY, eZ⟩ := hl v List.mem_cons_self
    have e2 := congrArg R3.Vector.X e1
    have e3 := congrArg R3.Vector.Y e1
    have e4 := congrArg R3.Vector.Z e1
    dsimp only at e2 e3 e4
    refine ⟨a + x * a', by positivity, b + x * b', by positivity, c + x * c', by positivity, d + x * d', by positivity, ?_, ?_⟩
    · linear_combination e0 - x * hs
    · rw [R3.Vector.mk.injEq]
      refine ⟨?_, ?_, ?_⟩
      · linear_combination e2 + x * eX
      · linear_combination e3 + x * eY
      · linear_combination e4 + x * eZ

/-- C115, what holds for `bowyerWatson` in exact arithmetic: if the points do not all have the same coordinate in any of the three directions, and each face of the
tetrahedra that one insertion deletes belongs to one or to an even number of them, then the tetrahedra at the end cover the convex hull of the points.
Missing from C115: that the tetrahedra do not overlap, and the hypothesis on the deleted tetrahedra; both are false of some inputs. -/
theorem C115_hull_partial (s : Sched) (hs : s.WF) (points : List (R3.Vector K))
    (hX : ∃ p ∈ points, ∃ q ∈ points, p.X < q.X) (hY : ∃ p ∈ points, ∃ q ∈ points, p.Y < q.Y) (hZ : ∃ p ∈ points, ∃ q ∈ points, p.Z < q.Z)
    (h : EachCavity (fun a b c d e => decide ((0 : K) ≤ Predicates.InSphereFast a b c d e)) s (englobe points).1 points Tidy) :
    ∃ t, finalTetras s points = .ok t ∧ ∀ q, Comb points 1 q → ∃ v ∈ tets t, ClosedIn (englobe points).1 q v := by
  have hin := C34_englobe points
  obtain ⟨p1, p2, p3, p4, e, hc⟩ := hin
  have hE : (englobe points).1 = p1 :: p2 :: p3 :: p4 :: points := by rw [e]
  have hflat : ¬ Coplanar4 p1 p2 p3 p4 := by
    rintro ⟨n, k, hn, hk⟩
    have e' := hE
    unfold englobe computerInitialTetraPoints at e'
    dsimp only at e'
    simp only [List.cons.injEq] at e'
    obtain ⟨rfl, rfl, rfl, rfl, -⟩ := e'
    have k1 := hk _ (List.mem_cons_self)
    have k2 := hk _ (List.mem_cons_of_mem _ List.mem_cons_self)
    have k3 := hk _ (List.mem_cons_of_mem _ (List.mem_cons_of_mem _ List.mem_cons_self))
    have k4 := hk _ (List.mem_cons_of_mem _ (List.mem_cons_of_mem _ (List.mem_cons_of_mem _ List.mem_cons_self)))
    dsimp only at k1 k2 k3 k4
    have wide : ∀ g : R3.Vector K → K, (∃ p ∈ points, ∃ q ∈ points, g p < g q) →
        maxFrom (-maxFloat64 : K) (points.map g) - minFrom (maxFloat64 : K) (points.map g) ≠ 0 := by
      rintro g ⟨p, hp, q, hq, hlt⟩
      have h1 := (minFrom_spec (points.map g) (maxFloat64 : K)).2.1 _ (List.mem_map_of_mem hp)
      have h2 := (maxFrom_spec (points.map g) (-maxFloat64 : K)).2.1 _ (List.mem_map_of_mem hq)
      have : 0 < maxFrom (-maxFloat64 : K) (points.map g) - minFrom (maxFloat64 : K) (points.map g) := by linarith
      exact this.ne'
    have wX := wide (·.X) hX
    have wY := wide (·.Y) hY
    have wZ := wide (·.Z) hZ
    rw [C28_extremas] at k1 k2 k3 k4
    dsimp only at k1 k2 k3 k4
    have three : (3 : K) ≠ 0 := by norm_num
    have nX : n.X = 0 := by
      refine (mul_eq_zero.mp (?_ : n.X * (3 * _) = 0)).resolve_right (mul_ne_zero three wX)
      linear_combination k2 - k1
    have nY : n.Y = 0 := by
      refine (mul_eq_zero.mp (?_ : n.Y * (3 * _) = 0)).resolve_right (mul_ne_zero three wY)
      linear_combination k3 - k1
    have nZ : n.Z = 0 := by
      refine (mul_eq_zero.mp (?_ : n.Z * (3 * _) = 0)).resolve_right (mul_ne_zero three wZ)
      linear_combination k4 - k1
    exact hn (by cases n; simp_all)
  obtain ⟨t, et, ht⟩ := C115_cover_partial _ s hs (englobe points).1 points (by rw [hE]; rfl) h id (a := p1) (b := p2) (c := p3) (d := p4)
    (by rw [hE]; rfl) (by rw [hE]; rfl) (by rw [hE]; rfl) (by rw [hE]; rfl) hflat
  rw [List.map_id] at ht
  refine ⟨t, ?_, fun q hq => ht q ((inTet_iff_comb _ _ _ _ _).mpr (comb_into points hc 1 q hq))⟩
  rw [← et]
  unfold finalTetras meshAfter
  rw [List.take_length]

end closed

/-- C115 is false: for four corners of a cube the tetrahedra at the end leave a hole in the super-tetrahedron: a point strictly inside it is in none of the closed
tetrahedra, for every order in which Go visits its maps -/
theorem C115_refuted_uncovered (s : Sched) (hs : s.WF) : ∃ q : R3.Vector ℚ,
    InsideOf (exactAll [⟨1, 1, 1⟩, ⟨1, 1, 0⟩, ⟨0, 1, 1⟩, ⟨1, 0, 1⟩]) q initialTetra ∧
    ∃ t, meshAfter sphere64 s (englobe [⟨1, 1, 1⟩, ⟨1, 1, 0⟩, ⟨0, 1, 1⟩, ⟨1, 0, 1⟩]).1 [⟨1, 1, 1⟩, ⟨1, 1, 0⟩, ⟨0, 1, 1⟩, ⟨1, 0, 1⟩] 4 = .ok t ∧
      ∀ v ∈ tets t, ¬ ClosedIn (exactAll [⟨1, 1, 1⟩, ⟨1, 1, 0⟩, ⟨0, 1, 1⟩, ⟨1, 0, 1⟩]) q v := by
  obtain ⟨q, hoff, hin, t, e, hno⟩ := C115_refuted_hole s hs
  refine ⟨q, hin, t, e, fun v hv hc => hno v hv (closed_off (n := 8) hoff ?_ hc)⟩
  obtain ⟨t', e', _, hv'⟩ := bwLoop_spec sphere64 s hs (englobe [⟨1, 1, 1⟩, ⟨1, 1, 0⟩, ⟨0, 1, 1⟩, ⟨1, 0, 1⟩]).1 [⟨1, 1, 1⟩, ⟨1, 1, 0⟩, ⟨0, 1, 1⟩, ⟨1, 0, 1⟩] 0 _
    good_initial valid_initial (by change 8 ≤ 8; omega)
  have : Res.ok t = Res.ok t' := e.symm.trans e'
  injection this with this
  subst this
  exact tets_valid hv' hv

/-- four corners of a tetrahedron, with a triangle that is returned four times: the super-tetrahedron is covered all the same -/
example (s : Sched) (hs : s.WF) : ∃ t, meshAfter sphere64 s (englobe [⟨0, 0, 0⟩, ⟨0, 0, 1⟩, ⟨1, 0, 0⟩, ⟨0, 1, 0⟩]).1 [⟨0, 0, 0⟩, ⟨0, 0, 1⟩, ⟨1, 0, 0⟩, ⟨0, 1, 0⟩] 4 = .ok t ∧
    ∀ q : R3.Vector ℚ, InTet ⟨0, 0, 0⟩ ⟨3, 0, 0⟩ ⟨0, 3, 0⟩ ⟨0, 0, 3⟩ q → ∃ v ∈ tets t, ClosedIn (exactAll [⟨0, 0, 0⟩, ⟨0, 0, 1⟩, ⟨1, 0, 0⟩, ⟨0, 1, 0⟩]) q v := by
  have hE : EachCavity sphere64 s (englobe ([⟨0, 0, 0⟩, ⟨0, 0, 1⟩, ⟨1, 0, 0⟩, ⟨0, 1, 0⟩] : List (R3.Vector F64))).1
      [⟨0, 0, 0⟩, ⟨0, 0, 1⟩, ⟨1, 0, 0⟩, ⟨0, 1, 0⟩] Tidy :=
    eachCavity_order sphere64 schedId s ⟨fun _ _ => List.Perm.refl _, fun _ _ => List.Perm.refl _, fun _ => List.Perm.refl _⟩ hs _ _ rfl
      (eachCavity_check _ _ _ _ _ (by decide +kernel))
  exact C115_cover_partial sphere64 s hs _ _ rfl hE exactV (by decide +kernel) (by decide +kernel) (by decide +kernel) (by decide +kernel)
    (by rw [← C09_zero_iff]; norm_num [Predicates.orient3dfast])

/-- four points in exact arithmetic -/
def fourQ : List (R3.Vector ℚ) := [⟨0, 0, 0⟩, ⟨0, 0, 1⟩, ⟨1, 0, 0⟩, ⟨0, 1, 0⟩]

/-- the hypotheses of `C115_hull_partial` hold for four points in exact arithmetic -/
example (s : Sched) (hs : s.WF) : ∃ t, finalTetras s fourQ = .ok t ∧ ∀ q, Comb fourQ 1 q → ∃ v ∈ tets t, ClosedIn (englobe fourQ).1 q v :=
  C115_hull_partial s hs fourQ ⟨⟨0, 0, 0⟩, by simp [fourQ], ⟨1, 0, 0⟩, by simp [fourQ], by norm_num⟩
    ⟨⟨0, 0, 0⟩, by simp [fourQ], ⟨0, 1, 0⟩, by simp [fourQ], by norm_num⟩ ⟨⟨0, 0, 0⟩, by simp [fourQ], ⟨0, 0, 1⟩, by simp [fourQ], by norm_num⟩
    (eachCavity_order _ schedId s ⟨fun _ _ => List.Perm.refl _, fun _ _ => List.Perm.refl _, fun _ => List.Perm.refl _⟩ hs _ _ rfl
      (eachCavity_check _ _ _ _ _ (by decide +kernel)))

end Verif.Props
