import Verif.Proofs.DelCover
import Verif.Proofs.MeshSum
/-!
# The triangles do not overlap
-/
namespace Verif.Proofs
open Verif Verif.Tri2 Verif.Props

variable {K : Type} [Field K] [LinearOrder K] [IsStrictOrderedRing K]

/-- `u v` crosses the horizontal line through `x` upwards, to the left of `x` -/
def upc (x u v : R3.Vector K) : ℤ := if u.Y ≤ x.Y ∧ x.Y < v.Y ∧ 0 < area x u v then 1 else 0

/-- signed crossings of `u v` with the horizontal ray to the left of `x` -/
def crs (x u v : R3.Vector K) : ℤ := upc x u v - upc x v u

omit [IsStrictOrderedRing K] in
theorem upc_nonneg (x u v : R3.Vector K) : 0 ≤ upc x u v := by unfold upc; split_ifs <;> simp

theorem cross_l1 {a b c x : R3.Vector K} (h : 0 < area a b c) (ha : a.Y ≤ x.Y) (hb : x.Y < b.Y) (hc : x.Y < c.Y) (h1 : 0 < area x a c) : 0 < area x a b := by
  have key : area x a b * (c.Y - a.Y) = area x a c * (b.Y - a.Y) + (x.Y - a.Y) * area a b c := by unfold area; ring
  have e1 : 0 < area x a c * (b.Y - a.Y) := mul_pos h1 (by linarith)
  have e2 : 0 ≤ (x.Y - a.Y) * area a b c := mul_nonneg (by linarith) h.le
  exact pos_of_mul_pos_left (by rw [key]; linarith) (by linarith : (0:K) ≤ c.Y - a.Y)

theorem cross_l2 {a b c x : R3.Vector K} (h : 0 < area a b c) (ha : a.Y ≤ x.Y) (hb : b.Y ≤ x.Y) (hc : x.Y < c.Y) (h1 : 0 < area x a c) : 0 < area x b c := by
  have key : area x b c * (c.Y - a.Y) = area x a c * (c.Y - b.Y) + (c.Y - x.Y) * area a b c := by unfold area; ring
  have e1 : 0 < area x a c * (c.Y - b.Y) := mul_pos h1 (by linarith)
  have e2 : 0 ≤ (c.Y - x.Y) * area a b c := mul_nonneg (by linarith) h.le
  exact pos_of_mul_pos_left (by rw [key]; linarith) (by linarith : (0:K) ≤ c.Y - a.Y)

omit [IsStrictOrderedRing K] in
theorem upc_yes {x u v : R3.Vector K} (hu : u.Y ≤ x.Y) (hv : x.Y < v.Y) : upc x u v = if 0 < area x u v then 1 else 0 := by
  unfold upc; simp [hu, hv]

omit [IsStrictOrderedRing K] in
theorem upc_no1 {x u v : R3.Vector K} (hu : x.Y < u.Y) : upc x u v = 0 := by
  unfold upc; rw [if_neg]; intro h; exact absurd h.1 (not_le.mpr hu)

omit [IsStrictOrderedRing K] in
theorem upc_no2 {x u v : R3.Vector K} (hv : v.Y ≤ x.Y) : upc x u v = 0 := by
  unfold upc; rw [if_neg]; intro h; exact absurd h.2.1 (not_lt.mpr hv)

/-- strictly inside a clockwise triangle -/
def StrictIn (a b c x : R3.Vector K) : Prop := 0 < area x a b ∧ 0 < area x b c ∧ 0 < area x c a

/-- the crossings of a clockwise triangle, one low corner -/
theorem tri_low1 {a b c x : R3.Vector K} (h : 0 < area a b c) (ha : a.Y ≤ x.Y) (hb : x.Y < b.Y) (hc : x.Y < c.Y) :
    0 ≤ crs x a b + crs x b c + crs x c a ∧ (StrictIn a b c x → 1 ≤ crs x a b + crs x b c + crs x c a) := by
  unfold crs
  rw [upc_yes ha hb, upc_no1 hb, upc_no1 hb, upc_no1 hc, upc_no1 hc, upc_yes ha hc]
  constructor
  · split_ifs with h1 h2 h2 <;> norm_num
    exact h1 (cross_l1 h ha hb hc h2)
  · intro hin
    have h3 : ¬ 0 < area x a c := by rw [area_swap]; have := hin.2.2; linarith
    rw [if_pos hin.1, if_neg h3]; norm_num

/-- the crossings of a clockwise triangle, two low corners -/
theorem tri_low2 {a b c x : R3.Vector K} (h : 0 < area a b c) (ha : a.Y ≤ x.Y) (hb : b.Y ≤ x.Y) (hc : x.Y < c.Y) :
    0 ≤ crs x a b + crs x b c + crs x c a ∧ (StrictIn a b c x → 1 ≤ crs x a b + crs x b c + crs x c a) := by
  unfold crs
  rw [upc_no2 hb, upc_no2 ha, upc_yes hb hc, upc_no1 hc, upc_no1 hc, upc_yes ha hc]
  constructor
  · split_ifs with h1 h2 h2 <;> norm_num
    exact h1 (cross_l2 h ha hb hc h2)
  · intro hin
    have h3 : ¬ 0 < area x a c := by rw [area_swap]; have := hin.2.2; linarith
    rw [if_pos hin.2.1, if_neg h3]; norm_num

omit [LinearOrder K] [IsStrictOrderedRing K] in
theorem area_heights (a b c x : R3.Vector K) : area x b c * (a.Y - x.Y) + area x c a * (b.Y - x.Y) + area x a b * (c.Y - x.Y) = 0 := by
  unfold area; ring

theorem tri_crs {a b c x : R3.Vector K} (h : 0 < area a b c) :
    0 ≤ crs x a b + crs x b c + crs x c a ∧ (StrictIn a b c x → 1 ≤ crs x a b + crs x b c + crs x c a) := by
  have r1 : crs x a b + crs x b c + crs x c a = crs x b c + crs x c a + crs x a b := by ring
  have r2 : crs x a b + crs x b c + crs x c a = crs x c a + crs x a b + crs x b c := by ring
  have h1 : 0 < area b c a := by rw [area_cyc]; exact h
  have h2 : 0 < area c a b := by rw [area_cyc']; exact h
  have s1 : StrictIn a b c x → StrictIn b c a x := fun s => ⟨s.2.1, s.2.2, s.1⟩
  have s2 : StrictIn a b c x → StrictIn c a b x := fun s => ⟨s.2.2, s.1, s.2.1⟩
  rcases le_or_gt a.Y x.Y with ha | ha <;> rcases le_or_gt b.Y x.Y with hb | hb <;> rcases le_or_gt c.Y x.Y with hc | hc
  · refine ⟨by unfold crs; simp [upc_no2 ha, upc_no2 hb, upc_no2 hc], fun s => ?_⟩
    exfalso
    have k := area_heights a b c x
    have e1 : area x b c * (a.Y - x.Y) ≤ 0 := mul_nonpos_of_nonneg_of_nonpos s.2.1.le (by linarith)
    have e2 : area x c a * (b.Y - x.Y) ≤ 0 := mul_nonpos_of_nonneg_of_nonpos s.2.2.le (by linarith)
    have e3 : area x a b * (c.Y - x.Y) ≤ 0 := mul_nonpos_of_nonneg_of_nonpos s.1.le (by linarith)
    have f1 := (mul_eq_zero.mp (show area x b c * (a.Y - x.Y) = 0 by linarith)).resolve_left s.2.1.ne'
    have f2 := (mul_eq_zero.mp (show area x c a * (b.Y - x.Y) = 0 by linarith)).resolve_left s.2.2.ne'
    have f3 := (mul_eq_zero.mp (show area x a b * (c.Y - x.Y) = 0 by linarith)).resolve_left s.1.ne'
    have g1 : b.Y = a.Y := by linarith
    have g2 : c.Y = b.Y := by linarith
    have : area a b c = 0 := by unfold area; rw [g2, g1]; ring
    linarith
  · exact tri_low2 h ha hb hc
  · rw [r2]
    exact ⟨(tri_low2 h2 hc ha hb).1, fun s => (tri_low2 h2 hc ha hb).2 (s2 s)⟩
  · exact tri_low1 h ha hb hc
  · rw [r1]
    exact ⟨(tri_low2 h1 hb hc ha).1, fun s => (tri_low2 h1 hb hc ha).2 (s1 s)⟩
  · rw [r1]
    exact ⟨(tri_low1 h1 hb hc ha).1, fun s => (tri_low1 h1 hb hc ha).2 (s1 s)⟩
  · rw [r2]
    exact ⟨(tri_low1 h2 hc ha hb).1, fun s => (tri_low1 h2 hc ha hb).2 (s2 s)⟩
  · refine ⟨by unfold crs; simp [upc_no1 ha, upc_no1 hb, upc_no1 hc], fun s => ?_⟩
    exfalso
    have k := area_heights a b c x
    have e1 : 0 < area x b c * (a.Y - x.Y) := mul_pos s.2.1 (by linarith)
    have e2 : 0 < area x c a * (b.Y - x.Y) := mul_pos s.2.2 (by linarith)
    have e3 : 0 < area x a b * (c.Y - x.Y) := mul_pos s.1 (by linarith)
    linarith

/-- two edges with everything on the right that cross the same level upwards lie on one line -/
theorem up_collinear {a b c d x : R3.Vector K} (ha : a.Y ≤ x.Y) (hb : x.Y < b.Y) (hc : c.Y ≤ x.Y) (hd : x.Y < d.Y)
    (h1 : 0 ≤ area a c d) (h2 : 0 ≤ area b c d) (h3 : 0 ≤ area c a b) (h4 : 0 ≤ area d a b) : area a c d = 0 ∧ area c a b = 0 := by
  have key : (b.Y - x.Y) * area a c d + (x.Y - a.Y) * area b c d + (d.Y - x.Y) * area c a b + (x.Y - c.Y) * area d a b = 0 := by
    unfold area; ring
  have e1 : 0 ≤ (b.Y - x.Y) * area a c d := mul_nonneg (by linarith) h1
  have e2 : 0 ≤ (x.Y - a.Y) * area b c d := mul_nonneg (by linarith) h2
  have e3 : 0 ≤ (d.Y - x.Y) * area c a b := mul_nonneg (by linarith) h3
  have e4 : 0 ≤ (x.Y - c.Y) * area d a b := mul_nonneg (by linarith) h4
  exact ⟨(mul_eq_zero.mp (show (b.Y - x.Y) * area a c d = 0 by linarith)).resolve_left (by linarith),
    (mul_eq_zero.mp (show (d.Y - x.Y) * area c a b = 0 by linarith)).resolve_left (by linarith)⟩

theorem same_level {a b c : R3.Vector K} (h : area c a b = 0) (hab : a.Y < b.Y) (e : c.Y = a.Y) : SameXY c a := by
  refine ⟨?_, e⟩
  have : (c.X - a.X) * (b.Y - a.Y) = 0 := by
    unfold area at h; rw [e] at h; linear_combination h
  have := (mul_eq_zero.mp this).resolve_right (by linarith)
  linarith

variable {pz : ℤ → R3.Vector K} {κ : ℕ → ℕ → K} {c n i0 i1 i2 T : ℕ} {V : Finset ℕ} {R : List ℕ} {s : St}

theorem path_last {N : ℕ → Node} : ∀ (l : List ℕ) (x e : ℕ), Path N x l e → ∃ w ∈ x :: l, (N w).next = some e := by
  intro l
  induction l with
  | nil => intro x e h; exact ⟨x, by simp, h.1⟩
  | cons y l ih =>
    intro x e h
    obtain ⟨w, hw, e'⟩ := ih y e h.2
    exact ⟨w, List.mem_cons_of_mem _ hw, e'⟩

theorem RInv.pred {Ex : Prop} (I : RInv κ Ex c n i0 i1 i2 T V R s) {x : ℕ} (hx : x ∈ R) : ∃ w ∈ R, (nd s w).next = some x := by
  obtain ⟨t, y, _, hy, _⟩ := I.own x hx
  obtain ⟨l, hp, hpath⟩ := I.at hx hy
  obtain ⟨w, hw, e⟩ := path_last _ _ _ hpath
  exact ⟨w, hp.mem_iff.mp hw, e⟩

/-- no ring vertex lies in the interior of a rising ring edge -/
theorem ring_open (F : Full pz κ c n i0 i1 i2 T V R s) : ∀ w ∈ R, ∀ a ∈ R, ∀ b : ℕ, (nd s a).next = some b → (pz a).Y < (pz w).Y → (pz w).Y < (pz b).Y →
    area (pz w) (pz a) (pz b) ≠ 0 := by
  classical
  by_contra hcon
  push Not at hcon
  let W : Finset ℕ := R.toFinset.filter (fun w => ∃ a ∈ R, ∃ b : ℕ, (nd s a).next = some b ∧ (pz a).Y < (pz w).Y ∧ (pz w).Y < (pz b).Y ∧ area (pz w) (pz a) (pz b) = 0)
  have hW : W.Nonempty := by
    obtain ⟨w, hw, a, ha, b, h1, h2, h3, h4⟩ := hcon
    exact ⟨w, Finset.mem_filter.mpr ⟨List.mem_toFinset.mpr hw, a, ha, b, h1, h2, h3, h4⟩⟩
  obtain ⟨w, hwW, hmin⟩ := W.exists_min_image (fun w => (pz (w:ℕ)).Y) hW
  obtain ⟨hwR, a, haR, b, hab, haw, hwb, hcol⟩ := Finset.mem_filter.mp hwW
  rw [List.mem_toFinset] at hwR
  have hbR := F.inv.next_mem haR hab
  obtain ⟨e, heR, hew⟩ := F.inv.pred hwR
  have la := F.conv e heR w hew a (F.inv.rV a haR)
  have lb := F.conv e heR w hew b (F.inv.rV b hbR)
  have k1 : area (pz a) (pz e) (pz w) * ((pz b).Y - (pz w).Y) + area (pz b) (pz e) (pz w) * ((pz w).Y - (pz a).Y) = - ((pz w).Y - (pz e).Y) * area (pz w) (pz a) (pz b) := by
    unfold area; ring
  rw [hcol, mul_zero] at k1
  have t1 : 0 ≤ area (pz a) (pz e) (pz w) * ((pz b).Y - (pz w).Y) := mul_nonneg la (by linarith)
  have t2 : 0 ≤ area (pz b) (pz e) (pz w) * ((pz w).Y - (pz a).Y) := mul_nonneg lb (by linarith)
  have za : area (pz a) (pz e) (pz w) = 0 := (mul_eq_zero.mp (by linarith : area (pz a) (pz e) (pz w) * ((pz b).Y - (pz w).Y) = 0)).resolve_right (by linarith)
  -- the predecessor lies on the same line
  have ze : area (pz e) (pz a) (pz b) = 0 := by
    have k : area (pz e) (pz a) (pz b) * ((pz w).Y - (pz a).Y) = area (pz e) (pz a) (pz w) * ((pz b).Y - (pz a).Y) + ((pz e).Y - (pz a).Y) * area (pz w) (pz a) (pz b) * 1 := by
      unfold area; ring
    rw [hcol, area_swap' (pz a) (pz e) (pz w), za] at k
    simp only [neg_zero, zero_mul, mul_zero, add_zero] at k
    exact (mul_eq_zero.mp k).resolve_right (by linarith)
  have hne : e ≠ w := F.inv.next_ne heR hew
  have hY : (pz e).Y < (pz w).Y := by
    by_contra hge
    rw [not_lt] at hge
    obtain ⟨v0, hv0, hpos⟩ := third F.inv F.del heR hew
    have hv := F.conv a haR b hab v0 hv0
    have k : area (pz (v0:ℕ)) (pz e) (pz w) * ((pz b).Y - (pz a).Y) = area (pz (v0:ℕ)) (pz a) (pz b) * ((pz w).Y - (pz e).Y)
        + area (pz w) (pz a) (pz b) * ((pz e).Y - (pz (v0:ℕ)).Y) + area (pz e) (pz a) (pz b) * ((pz (v0:ℕ)).Y - (pz w).Y) := by
      unfold area; ring
    rw [hcol, ze, zero_mul, zero_mul, add_zero, add_zero] at k
    have p1 : 0 < area (pz (v0:ℕ)) (pz e) (pz w) * ((pz b).Y - (pz a).Y) := mul_pos hpos (by linarith)
    have p2 : area (pz (v0:ℕ)) (pz a) (pz b) * ((pz w).Y - (pz e).Y) ≤ 0 := mul_nonpos_of_nonneg_of_nonpos hv (by linarith)
    linarith
  have hea : e ≠ a := by
    rintro rfl
    rw [hab] at hew; injection hew with hew
    subst hew
    exact lt_irrefl _ hwb
  rcases lt_trichotomy (pz e).Y (pz a).Y with hlt | heq | hgt
  · have : a ∈ W := Finset.mem_filter.mpr ⟨List.mem_toFinset.mpr haR, e, heR, w, hew, hlt, haw, za⟩
    exact absurd (hmin a this) (not_le.mpr haw)
  · exact F.dist e (F.inv.rV e heR) a (F.inv.rV a haR) hea (same_level ze (by linarith) heq)
  · have : e ∈ W := Finset.mem_filter.mpr ⟨List.mem_toFinset.mpr heR, a, haR, b, hab, hgt, by linarith, ze⟩
    exact absurd (hmin e this) (not_le.mpr hY)

/-- at most one ring edge crosses a level upwards -/
theorem ring_up (F : Full pz κ c n i0 i1 i2 T V R s) {x : R3.Vector K} {a b a' b' : ℕ} (ha : a ∈ R) (ha' : a' ∈ R) (hab : (nd s a).next = some b)
    (hab' : (nd s a').next = some b') (h1 : (pz a).Y ≤ x.Y ∧ x.Y < (pz b).Y) (h2 : (pz a').Y ≤ x.Y ∧ x.Y < (pz b').Y) : a = a' := by
  have Va := F.inv.rV a ha
  have Va' := F.inv.rV a' ha'
  have Vb := F.inv.rV b (F.inv.next_mem ha hab)
  have Vb' := F.inv.rV b' (F.inv.next_mem ha' hab')
  obtain ⟨z1, z2⟩ := up_collinear h1.1 h1.2 h2.1 h2.2 (F.conv a' ha' b' hab' a Va) (F.conv a' ha' b' hab' b Vb) (F.conv a ha b hab a' Va') (F.conv a ha b hab b' Vb')
  by_contra hne
  rcases lt_trichotomy (pz a).Y (pz a').Y with hlt | heq | hgt
  · exact ring_open F a' ha' a ha b hab hlt (by linarith) z2
  · exact F.dist a Va a' Va' hne (same_level z1 (by linarith) heq)
  · exact ring_open F a ha a' ha' b' hab' hgt (by linarith) z1

/-- a point lies strictly inside at most one triangle -/
theorem tiles (F : Full pz κ c n i0 i1 i2 T V R s) (x : R3.Vector K) {j k : ℕ} (hj : j < T) (hk : k < T)
    (sj : StrictIn (pz (tr s (3*j))) (pz (tr s (3*j+1))) (pz (tr s (3*j+2))) x) (sk : StrictIn (pz (tr s (3*k))) (pz (tr s (3*k+1))) (pz (tr s (3*k+2))) x) :
    j = k := by
  classical
  by_contra hne
  have sum := mesh_sum F.inv (fun u v : ℕ => crs x (pz u) (pz v)) (fun u v => by unfold crs; ring) (fun u => by unfold crs; ring)
  have toN : ∀ k < 3*T, (((tr s k).toNat : ℕ) : ℤ) = tr s k := fun k hk => Int.toNat_of_nonneg (F.del.mesh.rng k hk).1
  rw [sum_slots] at sum
  -- the left side is at least 2
  set f : ℕ → ℤ := fun m => crs x (pz (tr s (3*m))) (pz (tr s (3*m+1))) + crs x (pz (tr s (3*m+1))) (pz (tr s (3*m+2))) + crs x (pz (tr s (3*m+2))) (pz (tr s (3*m))) with hf
  have hsum : ∑ m ∈ Finset.range T, f m = (R.map fun u => crs x (pz (u:ℕ)) (pz (((nd s u).next.getD 0 : ℕ) : ℤ))).sum := by
    rw [← sum]
    apply Finset.sum_congr rfl
    intro m hm
    have hm' := Finset.mem_range.mp hm
    rw [nx0, nx1, nx2, toN _ (by omega), toN _ (by omega), toN _ (by omega)]
  have area_m : ∀ m < T, 0 < area (pz (tr s (3*m))) (pz (tr s (3*m+1))) (pz (tr s (3*m+2))) := by
    intro m hm
    have := F.del.pos (3*m) (by omega)
    unfold tArea at this
    rw [nx_T0, pv_T0, ← area_cyc] at this
    exact this
  have fnn : ∀ m ∈ Finset.range T, 0 ≤ f m := fun m hm => (tri_crs (area_m m (Finset.mem_range.mp hm))).1
  have h2 : 2 ≤ ∑ m ∈ Finset.range T, f m := by
    have hsub : ({j, k} : Finset ℕ) ⊆ Finset.range T := by
      intro m hm
      rcases Finset.mem_insert.mp hm with rfl | hm
      · exact Finset.mem_range.mpr hj
      · rw [Finset.mem_singleton.mp hm]; exact Finset.mem_range.mpr hk
    have h1 := Finset.sum_le_sum_of_subset_of_nonneg hsub (fun m hm _ => fnn m hm)
    rw [Finset.sum_pair hne] at h1
    have g1 := (tri_crs (x := x) (area_m j hj)).2 sj
    have g2 := (tri_crs (x := x) (area_m k hk)).2 sk
    have g1' : 1 ≤ f j := g1
    have g2' : 1 ≤ f k := g2
    linarith
  -- the right side is at most 1
  have h1 : (R.map fun u => crs x (pz (u:ℕ)) (pz (((nd s u).next.getD 0 : ℕ) : ℤ))).sum ≤ 1 := by
    have e1 : (R.map fun u => crs x (pz (u:ℕ)) (pz (((nd s u).next.getD 0 : ℕ) : ℤ))).sum
        = ∑ u ∈ R.toFinset, crs x (pz (u:ℕ)) (pz (((nd s u).next.getD 0 : ℕ) : ℤ)) := by
      rw [List.sum_toFinset _ F.inv.nodup]
    rw [e1]
    have e2 : ∑ u ∈ R.toFinset, crs x (pz (u:ℕ)) (pz (((nd s u).next.getD 0 : ℕ) : ℤ)) ≤
        ∑ u ∈ R.toFinset, upc x (pz (u:ℕ)) (pz (((nd s u).next.getD 0 : ℕ) : ℤ)) := by
      apply Finset.sum_le_sum
      intro u _
      have := upc_nonneg x (pz (((nd s u).next.getD 0 : ℕ) : ℤ)) (pz (u:ℕ))
      unfold crs; linarith
    refine le_trans e2 ?_
    unfold upc
    rw [Finset.sum_ite, Finset.sum_const_zero, add_zero, Finset.sum_const, nsmul_eq_mul, mul_one]
    have : (R.toFinset.filter fun u => (pz (u:ℕ)).Y ≤ x.Y ∧ x.Y < (pz (((nd s u).next.getD 0 : ℕ) : ℤ)).Y ∧ 0 < area x (pz (u:ℕ)) (pz (((nd s u).next.getD 0 : ℕ) : ℤ))).card ≤ 1 := by
      rw [Finset.card_le_one]
      intro a ha b hb
      obtain ⟨ha1, ha2, ha3, _⟩ := Finset.mem_filter.mp ha
      obtain ⟨hb1, hb2, hb3, _⟩ := Finset.mem_filter.mp hb
      rw [List.mem_toFinset] at ha1 hb1
      obtain ⟨_, ya, _, na, _⟩ := F.inv.own a ha1
      obtain ⟨_, yb, _, nb, _⟩ := F.inv.own b hb1
      rw [na] at ha3
      rw [nb] at hb3
      exact ring_up F ha1 hb1 na nb ⟨ha2, ha3⟩ ⟨hb2, hb3⟩
    exact_mod_cast this
  linarith

end Verif.Proofs
