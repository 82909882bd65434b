import Verif.Proofs.DelRing
/-!
# Every point is a vertex or (almost) coincides with one (exact arithmetic, sorted ids)
-/
namespace Verif.Proofs
open Verif Verif.Tri2 Verif.Props

variable {K : Type} [Field K] [LinearOrder K] [IsStrictOrderedRing K]

omit [LinearOrder K] [IsStrictOrderedRing K] in
theorem area_ccw (a b c : R3.Vector K) : area a b c = (b.Y-a.Y)*(c.X-a.X) - (b.X-a.X)*(c.Y-a.Y) := by unfold area; ring

/-- a point in a positively oriented triangle whose corners are not farther from `o` than the point is a corner -/
theorem corner_of_far {a b c v o : R3.Vector K} (hpos : 0 < area a b c) (h0 : 0 ≤ area v a b) (h1 : 0 ≤ area v b c) (h2 : 0 ≤ area v c a)
    (ha : dist2 a o ≤ dist2 v o) (hb : dist2 b o ≤ dist2 v o) (hc : dist2 c o ≤ dist2 v o) : SameXY a v ∨ SameXY b v ∨ SameXY c v := by
  have hsum : area v a b + area v b c + area v c a = area a b c := by simp only [area]; ring
  have key : area v a b * (dist2 v o - dist2 c o + dist2 v c) + area v b c * (dist2 v o - dist2 a o + dist2 v a)
      + area v c a * (dist2 v o - dist2 b o + dist2 v b) = 0 := by
    simp only [area, dist2]; ring
  have dn : ∀ p q : R3.Vector K, 0 ≤ dist2 p q := fun p q => by unfold dist2; positivity
  have same : ∀ {p : R3.Vector K}, dist2 v p ≤ 0 → SameXY p v := by
    intro p h
    unfold dist2 at h
    have h1 : (v.X - p.X)^2 = 0 := by nlinarith [sq_nonneg (v.X - p.X), sq_nonneg (v.Y - p.Y)]
    have h2 : (v.Y - p.Y)^2 = 0 := by nlinarith [sq_nonneg (v.X - p.X), sq_nonneg (v.Y - p.Y)]
    rw [sq_eq_zero_iff, sub_eq_zero] at h1 h2
    exact ⟨h1.symm, h2.symm⟩
  have t0 : 0 ≤ area v a b * (dist2 v o - dist2 c o + dist2 v c) := mul_nonneg h0 (by have := dn v c; linarith)
  have t1 : 0 ≤ area v b c * (dist2 v o - dist2 a o + dist2 v a) := mul_nonneg h1 (by have := dn v a; linarith)
  have t2 : 0 ≤ area v c a * (dist2 v o - dist2 b o + dist2 v b) := mul_nonneg h2 (by have := dn v b; linarith)
  have fin : ∀ {x : K} {p : R3.Vector K}, 0 < x → x * (dist2 v o - dist2 p o + dist2 v p) = 0 → dist2 p o ≤ dist2 v o → SameXY p v := by
    intro x p hx h hp
    have := (mul_eq_zero.mp h).resolve_left hx.ne'
    exact same (by linarith)
  rcases lt_or_eq_of_le h0 with g0 | g0
  · exact Or.inr (Or.inr (fin g0 (by linarith) hc))
  rcases lt_or_eq_of_le h1 with g1 | g1
  · exact Or.inl (fin g1 (by linarith) ha)
  rcases lt_or_eq_of_le h2 with g2 | g2
  · exact Or.inr (Or.inl (fin g2 (by linarith) hb))
  · linarith

variable {pz : ℤ → R3.Vector K} {κ : ℕ → ℕ → K} {c n i0 i1 i2 T : ℕ} {V : Finset ℕ} {R : List ℕ} {s : St}

/-- a point that sees no edge of the ring lies in a triangle -/
theorem located (F : Full pz κ c n i0 i1 i2 T V R s) {v : R3.Vector K}
    (hv : ∀ x ∈ R, ∀ y : ℕ, (nd s x).next = some y → 0 ≤ area v (pz x) (pz y)) :
    ∃ k < 3*T, 0 ≤ side pz (tr s) v k ∧ 0 ≤ side pz (tr s) v (nx k) ∧ 0 ≤ side pz (tr s) v (pv k) := by
  have h0 : 0 < 3*T := by have := F.inv.seed.1; omega
  obtain ⟨j, h1, _, h2⟩ := descent F.del.mesh V (fun _ => True) v F.del.pos (fun k hk _ => F.del.emp k hk) (fun k hk _ => F.del.vert k hk)
    (fun _ _ _ => trivial) (by
      intro k hk _ hneg
      rcases F.del.mesh.inv k hk with h | ⟨j, _, h, _⟩
      · exfalso
        obtain ⟨x, hx, hxk⟩ := F.inv.cov k hk h
        obtain ⟨t, z, o1, o2, _, _, o5, o6⟩ := F.inv.own x hx
        have htk : t = k := by
          rw [hxk] at o1; exact_mod_cast o1.symm
        subst htk
        have := hv x hx z o2
        unfold side at hneg
        rw [o5, o6] at hneg
        exact absurd hneg (not_lt.mpr this)
      · exact ⟨j, h, trivial⟩) h0 trivial
  exact ⟨j, h1, h2⟩

/-- the point `j` is a corner of every clockwise triangle that contains it and whose corners are before it in the order `E` -/
def OnlyCorners (pz : ℤ → R3.Vector K) (E : ℤ → ℤ → Prop) : Prop := ∀ a b d j : ℤ, E a j → E b j → E d j → 0 < area (pz a) (pz b) (pz d) →
  0 ≤ area (pz j) (pz a) (pz b) → 0 ≤ area (pz j) (pz b) (pz d) → 0 ≤ area (pz j) (pz d) (pz a) →
  SameXY (pz a) (pz j) ∨ SameXY (pz b) (pz j) ∨ SameXY (pz d) (pz j)

theorem onlyCorners_dist (pz : ℤ → R3.Vector K) (o : R3.Vector K) : OnlyCorners pz fun i j => dist2 (pz i) o ≤ dist2 (pz j) o :=
  fun _ _ _ _ ha hb hd hp h0 h1 h2 => corner_of_far hp h0 h1 h2 ha hb hd

/-- a hidden point coincides with a vertex if all vertices are before it in an order with `OnlyCorners` -/
theorem hidden_same (F : Full pz κ c n i0 i1 i2 T V R s) {j : ℤ} {E : ℤ → ℤ → Prop} (hE : OnlyCorners pz E)
    (hv : ∀ x ∈ R, ∀ y : ℕ, (nd s x).next = some y → 0 ≤ area (pz j) (pz x) (pz y)) (far : ∀ u ∈ V, E (u:ℕ) j) :
    ∃ u ∈ V, SameXY (pz (u:ℕ)) (pz j) := by
  obtain ⟨k, hk, s0, s1, s2⟩ := located F hv
  obtain ⟨a, ha, ea⟩ := F.del.vert k hk
  obtain ⟨b, hb, eb⟩ := F.del.vert (nx k) (nx_lt hk)
  obtain ⟨d, hd, ed⟩ := F.del.vert (pv k) (pv_lt hk)
  have hp := F.del.pos k hk
  unfold tArea at hp
  unfold side at s0 s1 s2
  rw [nx_nx] at s1
  rw [nx_pv] at s2
  rw [ea, eb, ed] at hp
  rw [ea, eb] at s0
  rw [eb, ed] at s1
  rw [ed, ea] at s2
  rw [← area_cyc] at hp
  rcases hE a b d j (far a ha) (far b hb) (far d hd) hp s0 s1 s2 with h | h | h
  · exact ⟨a, ha, h⟩
  · exact ⟨b, hb, h⟩
  · exact ⟨d, hd, h⟩

section cover
variable {g : Geo (R3.Vector K)} {Vs : List (R3.Vector K)}

/-- all points that the main loop has seen are covered by vertices; `E` is the order used for sorting -/
theorem run_cover (G : ExactGeo g Vs pz) (hκ : ∀ x y, κ x y = - κ y x) (hpl : ∀ i j : ℕ, i < n → j < n → (pz i).Z = (pz j).Z) (hn : Vs.length = n)
    {E : ℤ → ℤ → Prop} (hE : OnlyCorners pz E) {C : R3.Vector K → R3.Vector K → Prop} (Crefl : ∀ a, C a a) (hC : ∀ a b, g.near a b = true → C a b)
    {ids : List ℤ} {pp : Option (R3.Vector K)} {T' : ℕ} {V' : Finset ℕ} {R' : List ℕ} {s' : St}
    (J : Run g Vs κ True c n i0 i1 i2 ids pp T V R s T' V' R' s') : Full pz κ c n i0 i1 i2 T V R s →
      (∀ u ∈ V, ∀ j ∈ ids, E (u:ℕ) j) → ids.Pairwise E →
      (∀ q, pp = some q → ∃ u ∈ V, pz (u:ℕ) = q) → (i0 ∈ V ∧ i1 ∈ V ∧ i2 ∈ V) →
      V ⊆ V' ∧ ∀ j ∈ ids, ∃ u ∈ V', C (pz j) (pz (u:ℕ)) := by
  have eqOf : ∀ {a b : R3.Vector K}, SameXY a b → a.Z = b.Z → a = b := by
    rintro ⟨a1, a2, a3⟩ ⟨b1, b2, b3⟩ ⟨h1, h2⟩ h3
    simp only at h1 h2 h3
    subst h1 h2 h3; rfl
  induction J with
  | nil _ => exact fun _ _ _ _ _ => ⟨subset_rfl, by simp⟩
  | @near i ids q v T V R s T' V' R' s' hv hnear _ ih =>
    intro F h1 h2 h3 h4
    obtain ⟨g1, g2⟩ := ih F (fun u hu j hj => h1 u hu j (List.mem_cons_of_mem _ hj)) (List.pairwise_cons.mp h2).2 h3 h4
    refine ⟨g1, ?_⟩
    intro j hj
    rcases List.mem_cons.mp hj with rfl | hj
    · obtain ⟨u, hu, e⟩ := h3 q rfl
      exact ⟨u, g1 hu, by rw [e, G.pz _ _ hv]; exact hC _ _ hnear⟩
    · exact g2 j hj
  | @seed i ids v pp T V R s T' V' R' s' hv hs _ ih =>
    intro F h1 h2 h3 h4
    have hiV : i ∈ V := by rcases hs with rfl | rfl | rfl <;> tauto
    obtain ⟨g1, g2⟩ := ih F (fun u hu j hj => h1 u hu j (List.mem_cons_of_mem _ hj)) (List.pairwise_cons.mp h2).2
      (by rintro q ⟨⟩; exact ⟨i, hiV, G.pz _ _ hv⟩) h4
    refine ⟨g1, ?_⟩
    intro j hj
    rcases List.mem_cons.mp hj with rfl | hj
    · exact ⟨i, g1 hiV, Crefl _⟩
    · exact g2 j hj
  | @hidden i ids v pp T V R s T' V' R' s' hv I hh _ ih =>
    intro F h1 h2 h3 h4
    have hlt : i < n := by rw [← hn]; exact (List.getElem?_eq_some_iff.mp hv).1
    have hpz := G.pz _ _ hv
    have hget : ∀ x ∈ R, ∃ w, Vs[x]? = some w := fun x hx => ⟨Vs[x]'(by rw [hn]; exact F.inv.rlt hx), by simp⟩
    obtain ⟨u, hu, hsame⟩ := hidden_same (j := i) F hE (by
      intro x hx y hy
      obtain ⟨wx, ex⟩ := hget x hx
      obtain ⟨wy, ey⟩ := hget y (F.inv.next_mem hx hy)
      have := hh x hx y wx wy hy ex ey
      rw [G.ge _ (List.mem_of_getElem? hv) _ (List.mem_of_getElem? ex) _ (List.mem_of_getElem? ey), decide_eq_true_eq] at this
      rwa [hpz, G.pz _ _ ex, G.pz _ _ ey]) (fun u hu => h1 u hu i (by simp))
    have heq : pz (u:ℕ) = pz i := by
      exact eqOf hsame (hpl u i (F.inv.Vn u hu) hlt)
    obtain ⟨g1, g2⟩ := ih F (fun u hu j hj => h1 u hu j (List.mem_cons_of_mem _ hj)) (List.pairwise_cons.mp h2).2
      (by rintro q ⟨⟩; exact ⟨u, hu, by rw [heq, hpz]⟩) h4
    refine ⟨g1, ?_⟩
    intro j hj
    rcases List.mem_cons.mp hj with rfl | hj
    · exact ⟨u, g1 hu, by rw [heq]; exact Crefl _⟩
    · exact g2 j hj
  | @ins i ids v pp T V R s T1 R1 s1 T' V' R' s' hv hiV hins _ ih =>
    intro F h1 h2 h3 h4
    obtain ⟨g1, g2⟩ := ih (inserted_full G hκ F hiV hv hins) (by
        intro u hu j hj
        rcases Finset.mem_insert.mp hu with rfl | hu
        · exact (List.pairwise_cons.mp h2).1 j hj
        · exact h1 u hu j (List.mem_cons_of_mem _ hj)) (List.pairwise_cons.mp h2).2
      (by rintro q ⟨⟩; exact ⟨i, by simp, G.pz _ _ hv⟩)
      ⟨Finset.mem_insert_of_mem h4.1, Finset.mem_insert_of_mem h4.2.1, Finset.mem_insert_of_mem h4.2.2⟩
    refine ⟨fun u hu => g1 (Finset.mem_insert_of_mem hu), ?_⟩
    intro j hj
    rcases List.mem_cons.mp hj with rfl | hj
    · exact ⟨i, g1 (by simp), Crefl _⟩
    · exact g2 j hj

end cover

end Verif.Proofs
