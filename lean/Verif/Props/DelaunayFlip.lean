import Verif.Props.Delaunay
/-!
# C24: flips
-/
namespace Verif.Props
open Verif Verif.Tri2 Verif.Proofs Verif.Spec

variable {K : Type} [Field K] [LinearOrder K] [IsStrictOrderedRing K]

/-- C24: a flip is only done for a convex quadrilateral; the new triangles are clockwise again -/
theorem C24_orientation {p r l o : R3.Vector K} (h1 : orient p r l < 0) (h2 : orient o l r < 0) (hin : inCircle p r l o = true) :
    orient o l p < 0 ∧ orient p r o < 0 := by
  have hD : inCircleDet p r l o < 0 := of_decide_eq_true hin
  obtain ⟨a, b⟩ := flip_pos (p := p) (r := r) (l := l) (o := o) (by rw [area_orient]; linarith) (by rw [area_orient]; linarith) hD
  rw [area_orient] at a b
  exact ⟨by linarith, by linarith⟩

omit [LinearOrder K] [IsStrictOrderedRing K] in
/-- C24: the total area does not change (for any four points) -/
theorem C24_area (p r l o : R3.Vector K) : area p r l + area o l r = area o l p + area p r o := area_quad p r l o

/-- C24: the old and the new triangles cover the same points -/
theorem C24_cover {p r l o : R3.Vector K} (h1 : orient p r l < 0) (h2 : orient o l r < 0) (hin : inCircle p r l o = true) (x : R3.Vector K) :
    (InTri p r l x ∨ InTri o l r x) ↔ (InTri o l p x ∨ InTri p r o x) := by
  obtain ⟨h3, h4⟩ := C24_orientation h1 h2 hin
  unfold InTri
  -- barycentric identities
  have b1 : ∀ a b c u v : R3.Vector K, orient a b c * orient u v x = orient b c x * orient u v a + orient c a x * orient u v b + orient a b x * orient u v c := by
    intro a b c u v; unfold orient; ring
  have inherit : ∀ {a b c u v : R3.Vector K}, orient a b c < 0 → orient a b x ≤ 0 → orient b c x ≤ 0 → orient c a x ≤ 0 →
      orient u v a ≤ 0 → orient u v b ≤ 0 → orient u v c ≤ 0 → orient u v x ≤ 0 := by
    intro a b c u v h e1 e2 e3 f1 f2 f3
    have k := b1 a b c u v
    have m1 := mul_nonneg_of_nonpos_of_nonpos e2 f1
    have m2 := mul_nonneg_of_nonpos_of_nonpos e3 f2
    have m3 := mul_nonneg_of_nonpos_of_nonpos e1 f3
    by_contra hpos
    rw [not_le] at hpos
    have : orient a b c * orient u v x < 0 := mul_neg_of_neg_of_pos h hpos
    linarith
  have z1 : ∀ a b : R3.Vector K, orient a b a = 0 := fun a b => by unfold orient; ring
  have z2 : ∀ a b : R3.Vector K, orient a b b = 0 := fun a b => by unfold orient; ring
  have c1 : ∀ a b c : R3.Vector K, orient b c a = orient a b c := fun a b c => by unfold orient; ring
  have sw : ∀ a b c : R3.Vector K, orient b a c = - orient a b c := fun a b c => by unfold orient; ring
  -- the quadrilateral p r o l
  have q : (orient p r x ≤ 0 ∧ orient r o x ≤ 0 ∧ orient o l x ≤ 0 ∧ orient l p x ≤ 0) ↔
      ((orient p r x ≤ 0 ∧ orient r l x ≤ 0 ∧ orient l p x ≤ 0) ∨ (orient o l x ≤ 0 ∧ orient l r x ≤ 0 ∧ orient r o x ≤ 0)) := by
    constructor
    · rintro ⟨e1, e2, e3, e4⟩
      rcases le_total (orient r l x) 0 with h | h
      · exact Or.inl ⟨e1, h, e4⟩
      · exact Or.inr ⟨e3, by rw [sw]; linarith, e2⟩
    · rintro (⟨e1, e2, e3⟩ | ⟨e1, e2, e3⟩)
      · exact ⟨e1, inherit h1 e1 e2 e3 (by rw [c1]; exact h4.le) (by rw [z1]) (by rw [c1, c1]; exact h2.le),
          inherit h1 e1 e2 e3 h3.le h2.le (by rw [z2]), e3⟩
      · exact ⟨inherit h2 e1 e2 e3 h4.le h1.le (by rw [z2]), e3, e1,
          inherit h2 e1 e2 e3 (by rw [c1]; exact h3.le) (by rw [z1]) (by rw [c1, c1]; exact h1.le)⟩
  have q' : (orient p r x ≤ 0 ∧ orient r o x ≤ 0 ∧ orient o l x ≤ 0 ∧ orient l p x ≤ 0) ↔
      ((orient o l x ≤ 0 ∧ orient l p x ≤ 0 ∧ orient p o x ≤ 0) ∨ (orient p r x ≤ 0 ∧ orient r o x ≤ 0 ∧ orient o p x ≤ 0)) := by
    constructor
    · rintro ⟨e1, e2, e3, e4⟩
      rcases le_total (orient p o x) 0 with h | h
      · exact Or.inl ⟨e3, e4, h⟩
      · exact Or.inr ⟨e1, e2, by rw [sw]; linarith⟩
    · rintro (⟨e1, e2, e3⟩ | ⟨e1, e2, e3⟩)
      · exact ⟨inherit h3 e1 e2 e3 h4.le h1.le (by rw [z1]), inherit h3 e1 e2 e3 (by rw [z2]) (by rw [c1, c1]; exact h2.le) (by rw [c1]; exact h4.le),
          e1, e2⟩
      · exact ⟨e1, e2, inherit h4 e1 e2 e3 h3.le h2.le (by rw [z1]), inherit h4 e1 e2 e3 (by rw [z2]) (by rw [c1, c1]; exact h1.le) (by rw [c1]; exact h3.le)⟩
  rw [← q, ← q']

omit [IsStrictOrderedRing K] in
/-- C24: the new diagonal is legal: the in-circle test fails for both new triangles -/
theorem C24_legal [IsStrictOrderedRing K] {p r l o : R3.Vector K} (hin : inCircle p r l o = true) : inCircle o l p r = false ∧ inCircle p r o l = false := by
  have hD : inCircleDet p r l o < 0 := of_decide_eq_true hin
  have e1 : inCircleDet o l p r = - inCircleDet p r l o := by simp only [inCircleDet]; ring
  have e2 : inCircleDet p r o l = - inCircleDet p r l o := by simp only [inCircleDet]; ring
  constructor
  · show decide (inCircleDet o l p r < 0) = false
    rw [e1, decide_eq_false_iff_not]; linarith
  · show decide (inCircleDet p r o l < 0) = false
    rw [e2, decide_eq_false_iff_not]; linarith

omit [IsStrictOrderedRing K] in
theorem InTri_cyc {a b c x : R3.Vector K} : InTri a b c x ↔ InTri b c a x := by
  unfold InTri
  exact ⟨fun ⟨h1, h2, h3⟩ => ⟨h2, h3, h1⟩, fun ⟨h1, h2, h3⟩ => ⟨h3, h1, h2⟩⟩

section table
variable {pz : ℤ → R3.Vector K} {n T : ℕ}

/-- triangle of slot `k` -/
def inSlot (pz : ℤ → R3.Vector K) (tr : ℕ → ℤ) (x : R3.Vector K) (k : ℕ) : Prop := 0 ≤ side pz tr x k ∧ 0 ≤ side pz tr x (nx k) ∧ 0 ≤ side pz tr x (pv k)

omit [IsStrictOrderedRing K] in
theorem inSlot_nx {tr : ℕ → ℤ} {x : R3.Vector K} {k : ℕ} : inSlot pz tr x (nx k) ↔ inSlot pz tr x k := by
  unfold inSlot; rw [nx_nx, pv_nx]; tauto

omit [IsStrictOrderedRing K] in
theorem inSlot_pv {tr : ℕ → ℤ} {x : R3.Vector K} {k : ℕ} : inSlot pz tr x (pv k) ↔ inSlot pz tr x k := by
  unfold inSlot; rw [nx_pv, pv_pv]; tauto

theorem inSlot_iff {tr : ℕ → ℤ} {x : R3.Vector K} {k : ℕ} :
    inSlot pz tr x k ↔ InTri (pz (tr (pv k))) (pz (tr k)) (pz (tr (nx k))) x := by
  unfold inSlot InTri side
  rw [nx_nx, nx_pv]
  have e : ∀ p q : R3.Vector K, 0 ≤ area x p q ↔ orient p q x ≤ 0 := by
    intro p q
    rw [← area_cyc, area_orient]; constructor <;> intro h <;> linarith
  rw [e, e, e]; tauto

/-- one flip in the half-edge table: all triangles stay clockwise and the covered points stay the same -/
theorem flip_table {tr he : ℕ → ℤ} (M : MeshF n T tr he) {a b : ℕ} (ha : a < 3*T) (hab : he a = (b:ℤ)) (pos : ∀ k < 3*T, 0 < tArea pz tr k)
    (hin : tDet pz tr a (pz (tr (pv b))) < 0) :
    (∀ k < 3*T, 0 < tArea pz (flipTr tr a b) k) ∧ ∀ x, (∃ k < 3*T, inSlot pz (flipTr tr a b) x k) ↔ (∃ k < 3*T, inSlot pz tr x k) := by
  obtain ⟨hb, hba, t1, t2, hd⟩ := M.twin ha hab
  have hd' : a / 3 ≠ b / 3 := fun e => hd e.symm
  have na := nx_div a
  have pa := pv_div a
  have nb := nx_div b
  have pb := pv_div b
  have n1 : nx a ≠ a := nx_ne a
  have n2 : pv a ≠ a := pv_ne a
  have n3 : nx b ≠ b := nx_ne b
  have n4 : pv b ≠ b := pv_ne b
  have d1 : ∀ {u v : ℕ}, u / 3 = a / 3 → v / 3 = b / 3 → u ≠ v := fun h1 h2 e => hd' (by rw [← h1, ← h2, e])
  have ft : ∀ k, flipTr tr a b k = if k = b then tr (pv a) else if k = a then tr (pv b) else tr k := fun k => rfl
  have va : flipTr tr a b a = tr (pv b) := by rw [ft, if_neg (d1 rfl rfl), if_pos rfl]
  have vna : flipTr tr a b (nx a) = tr (nx a) := by rw [ft, if_neg (d1 na rfl), if_neg n1]
  have vpa : flipTr tr a b (pv a) = tr (pv a) := by rw [ft, if_neg (d1 pa rfl), if_neg n2]
  have vb : flipTr tr a b b = tr (pv a) := by rw [ft, if_pos rfl]
  have vnb : flipTr tr a b (nx b) = tr a := by rw [ft, if_neg n3, if_neg (d1 rfl nb).symm, t2]
  have vpb : flipTr tr a b (pv b) = tr (pv b) := by rw [ft, if_neg n4, if_neg (d1 rfl pb).symm]
  have vo : ∀ k, k / 3 ≠ a / 3 → k / 3 ≠ b / 3 → flipTr tr a b k = tr k := fun k h1 h2 => by
    rw [ft, if_neg (fun e => h2 (by rw [e])), if_neg (fun e => h1 (by rw [e]))]
  have vo3 : ∀ k, k / 3 ≠ a / 3 → k / 3 ≠ b / 3 → flipTr tr a b k = tr k ∧ flipTr tr a b (nx k) = tr (nx k) ∧ flipTr tr a b (pv k) = tr (pv k) := fun k h1 h2 =>
    ⟨vo k h1 h2, vo _ (by rw [nx_div]; exact h1) (by rw [nx_div]; exact h2), vo _ (by rw [pv_div]; exact h1) (by rw [pv_div]; exact h2)⟩
  have A1 := pos a ha
  have A2 := pos b hb
  unfold tArea at A1 A2
  unfold tDet at hin
  rw [t1, t2] at A2
  obtain ⟨B1, B2⟩ := flip_pos A1 A2 hin
  have ha1 : 0 < tArea pz (flipTr tr a b) a := by
    unfold tArea; rw [va, vna, vpa, area_cyc']; exact B1
  have hb1 : 0 < tArea pz (flipTr tr a b) b := by
    unfold tArea; rw [vb, vnb, vpb, area_cyc']; exact B2
  refine ⟨?_, ?_⟩
  · intro k hk
    by_cases h1 : k / 3 = a / 3
    · rcases same_div h1 with rfl | rfl | rfl
      · exact ha1
      · rw [tArea_nx]; exact ha1
      · rw [tArea_pv]; exact ha1
    by_cases h2 : k / 3 = b / 3
    · rcases same_div h2 with rfl | rfl | rfl
      · exact hb1
      · rw [tArea_nx]; exact hb1
      · rw [tArea_pv]; exact hb1
    obtain ⟨e1, e2, e3⟩ := vo3 k h1 h2
    have := pos k hk
    unfold tArea at this ⊢
    rwa [e1, e2, e3]
  · intro x
    -- the two triangles together
    have split : ∀ t : ℕ → ℤ, (∃ k < 3*T, inSlot pz t x k) ↔ ((inSlot pz t x a ∨ inSlot pz t x b) ∨ ∃ k < 3*T, k / 3 ≠ a / 3 ∧ k / 3 ≠ b / 3 ∧ inSlot pz t x k) := by
      intro t
      constructor
      · rintro ⟨k, hk, hk'⟩
        by_cases h1 : k / 3 = a / 3
        · left; left
          rcases same_div h1 with rfl | rfl | rfl
          · exact hk'
          · exact inSlot_nx.mp hk'
          · exact inSlot_pv.mp hk'
        by_cases h2 : k / 3 = b / 3
        · left; right
          rcases same_div h2 with rfl | rfl | rfl
          · exact hk'
          · exact inSlot_nx.mp hk'
          · exact inSlot_pv.mp hk'
        exact Or.inr ⟨k, hk, h1, h2, hk'⟩
      · rintro ((h | h) | ⟨k, hk, _, _, h⟩)
        · exact ⟨a, ha, h⟩
        · exact ⟨b, hb, h⟩
        · exact ⟨k, hk, h⟩
    have others : ∀ k, k / 3 ≠ a / 3 → k / 3 ≠ b / 3 → (inSlot pz (flipTr tr a b) x k ↔ inSlot pz tr x k) := by
      intro k h1 h2
      obtain ⟨e1, e2, e3⟩ := vo3 k h1 h2
      rw [inSlot_iff, inSlot_iff, e1, e2, e3]
    have two : (inSlot pz (flipTr tr a b) x a ∨ inSlot pz (flipTr tr a b) x b) ↔ (inSlot pz tr x a ∨ inSlot pz tr x b) := by
      rw [inSlot_iff, inSlot_iff, inSlot_iff, inSlot_iff, va, vna, vpa, vb, vnb, vpb, t1, t2]
      rw [area_orient] at A1 A2
      have := C24_cover (p := pz (tr (pv a))) (r := pz (tr a)) (l := pz (tr (nx a))) (o := pz (tr (pv b))) (by linarith) (by linarith) (decide_eq_true hin) x
      rw [this]
      exact or_congr (InTri_cyc (x := x)) (InTri_cyc (x := x))
    rw [split, split, two]
    constructor
    · rintro (h | ⟨k, hk, h1, h2, h⟩)
      · exact Or.inl h
      · exact Or.inr ⟨k, hk, h1, h2, (others k h1 h2).mp h⟩
    · rintro (h | ⟨k, hk, h1, h2, h⟩)
      · exact Or.inl h
      · exact Or.inr ⟨k, hk, h1, h2, (others k h1 h2).mpr h⟩

/-- all flips of one `legalize` -/
theorem leg_table {g : Geo (R3.Vector K)} {Vs : List (R3.Vector K)} (G : ExactGeo g Vs pz) {p a : ℕ} {x y : (ℕ → ℤ) × (ℕ → ℤ)} (L : Leg g Vs n T p a x y) :
    (∀ k < 3*T, 0 < tArea pz x.1 k) → (∀ k < 3*T, 0 < tArea pz y.1 k) ∧ ∀ w, (∃ k < 3*T, inSlot pz y.1 w k) ↔ (∃ k < 3*T, inSlot pz x.1 w k) := by
  induction L with
  | bd _ _ _ _ => exact fun h => ⟨h, fun _ => Iff.rfl⟩
  | legal _ => exact fun h => ⟨h, fun _ => Iff.rfl⟩
  | @flip a b x y z ht hne L1 L2 ih1 ih2 =>
    intro h
    obtain ⟨h1, _, h3, h4⟩ := ht.det G.inC G.pz h
    have M := ht.2.1
    have hin : tDet pz x.1 a (pz (x.1 (pv b))) < 0 := by simpa using h4.symm
    obtain ⟨f1, f2⟩ := flip_table M h1 h3 h hin
    obtain ⟨g1, g2⟩ := ih1 f1
    obtain ⟨k1, k2⟩ := ih2 g1
    exact ⟨k1, fun w => by rw [k2, g2, f2]⟩

end table

/-- C24: a call of `legalize` in exact arithmetic keeps all triangles clockwise and the set of covered points; the assumptions are those
under which the triangulator calls it -/
theorem C24_legalize [FloorRing K] {m : ℕ} {center : R3.Vector K} {Vs : List (R3.Vector K)} {c T p i0 i1 i2 : ℕ} {R : List ℕ} {exc : ℕ → Prop}
    (hps : p ≠ i0 ∧ p ≠ i1 ∧ p ≠ i2) (hsafe : Safe (Geo.ofScalar m center) Vs p i0 i1 i2) {fuel : ℕ} {s : St} {a : ℕ}
    (I : LegInv c Vs.length T p i0 i1 i2 R exc s) (ha : a < 3*T) (hpa : tr s (pv a) = p) (hexc : he s (pv a) = -1 → exc p) (hf : (nonP T p (tr s)).card < fuel)
    (hpos : ∀ k < 3*T, 0 < tArea (pz Vs) (tr s) k) :
    ∃ s' r, legalize (Geo.ofScalar m center) Vs fuel s a = .ok (s', r) ∧ (∀ k < 3*T, 0 < tArea (pz Vs) (tr s') k) ∧
      ∀ w, (∃ k < 3*T, inSlot (pz Vs) (tr s') w k) ↔ (∃ k < 3*T, inSlot (pz Vs) (tr s) w k) := by
  obtain ⟨s', σ, e, _, _, L, _⟩ := legalize_ok rfl hps hsafe fuel s a I ha hpa hexc hf
  obtain ⟨h1, h2⟩ := leg_table (exactGeo Vs m center) L hpos
  exact ⟨s', _, e, h1, h2⟩

/-- a quadrilateral that is flipped -/
example : orient (⟨0,0,0⟩ : R3.Vector ℚ) ⟨-1,3,0⟩ ⟨1,3,0⟩ < 0 ∧ orient (⟨0,3.1,0⟩ : R3.Vector ℚ) ⟨1,3,0⟩ ⟨-1,3,0⟩ < 0 ∧
    inCircle (⟨0,0,0⟩ : R3.Vector ℚ) ⟨-1,3,0⟩ ⟨1,3,0⟩ ⟨0,3.1,0⟩ = true := by
  refine ⟨by norm_num [orient], by norm_num [orient], ?_⟩
  show decide (_ < (0:ℚ)) = true
  norm_num [inCircleDet]

end Verif.Props
