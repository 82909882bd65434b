import Verif.Proofs.CircumFloat
/-!
# The seed triangle at binary64 for points that are well spread
-/
namespace Verif.Proofs
open Verif Verif.F64 Verif.Tri2 Verif.Props

/-- the points are well spread: there are three or more, at different positions, with coordinates at most `M`; no three of them form a triangle that is
thinner than `κ` tells, no four of them are nearly on a circle; and the comparisons that choose the seed triangle and order the points are not close, that
is the compared quantities are in the right order or differ by more than `κ^3 M^2 / 2^35`. Compared are: the distances from a point; the radii of the
circles through a point, a point nearest to it and a third one; the distances from the centre of a circle through three points with none inside.
All of this is about the exact positions -/
structure WellSpread (Vs : List (R3.Vector ℚ)) (M κ : ℚ) : Prop where
  low : 1 / 2 ^ 14 ≤ M
  high : M ≤ 2 ^ 40
  one : 1 ≤ κ
  cap : κ ≤ 256
  three : 3 ≤ Vs.length
  distinct : Vs.Nodup
  size : ∀ v ∈ Vs, |v.X| ≤ M ∧ |v.Y| ≤ M
  shape : ∀ a ∈ Vs, ∀ b ∈ Vs, ∀ c ∈ Vs, a ≠ b → b ≠ c → c ≠ a → M ^ 2 ≤ κ * |area a b c|
  circle : ∀ a ∈ Vs, ∀ b ∈ Vs, ∀ c ∈ Vs, ∀ d ∈ Vs, a ≠ b → a ≠ c → a ≠ d → b ≠ c → b ≠ d → c ≠ d → 2350 / 2 ^ 53 * M ^ 4 < |inCircleDet a b c d|
  near : ∀ a ∈ Vs, ∀ v ∈ Vs, ∀ w ∈ Vs, dist2 v a ≤ dist2 w a ∨ κ ^ 3 * M ^ 2 / 2 ^ 35 < dist2 v a - dist2 w a
  radius : ∀ a ∈ Vs, ∀ b ∈ Vs, a ≠ b → (∀ p ∈ Vs, p ≠ a → dist2 b a ≤ dist2 p a) → ∀ v ∈ Vs, ∀ w ∈ Vs, v ≠ a → v ≠ b → w ≠ a → w ≠ b →
    dist2 a (circumcenter a b v) ≤ dist2 a (circumcenter a b w) ∨ κ ^ 3 * M ^ 2 / 2 ^ 35 < dist2 a (circumcenter a b v) - dist2 a (circumcenter a b w)
  order : ∀ a ∈ Vs, ∀ b ∈ Vs, ∀ c ∈ Vs, 0 < area a b c → (∀ p ∈ Vs, 0 ≤ inCircleDet a b c p) → ∀ v ∈ Vs, ∀ w ∈ Vs,
    dist2 v (circumcenter a b c) ≤ dist2 w (circumcenter a b c) ∨ κ ^ 3 * M ^ 2 / 2 ^ 35 < dist2 v (circumcenter a b c) - dist2 w (circumcenter a b c)

/-- quantities with the right computed order -/
theorem App.order {v w : F64} {X Y S k b k' b' g : ℚ} (h : App v X S k b) (h' : App w Y S k' b') (hg : (k + k') * (uro * S) ≤ g)
    (hXY : X ≤ Y ∨ g < X - Y) (hle : v.toQ ≤ w.toQ) : X ≤ Y := by
  rcases hXY with h0 | h0
  · exact h0
  · obtain ⟨e1, e2⟩ := abs_le.mp h.err
    obtain ⟨e3, e4⟩ := abs_le.mp h'.err
    have : (k + k') * (uro * S) = k * (uro * S) + k' * (uro * S) := by ring
    linarith

theorem dOf_le {a b c o : R3.Vector ℚ} (hb : dist2 b o = dist2 a o) (hc : dist2 c o = dist2 a o) : |dOf a b c| ≤ 4 * dist2 a o := by
  have key : ∀ s : ℚ, (s = 1 ∨ s = -1) → s * dOf a b c ≤ 4 * dist2 a o := by
    intro s hs
    have h2 : s * s = 1 := by rcases hs with rfl | rfl <;> norm_num
    have e1 : dist2 b a ≤ 2 * dist2 b o + 2 * dist2 a o := by
      unfold dist2; nlinarith [sq_nonneg (b.X - o.X + (a.X - o.X)), sq_nonneg (b.Y - o.Y + (a.Y - o.Y))]
    have e2 : dist2 c a ≤ 2 * dist2 c o + 2 * dist2 a o := by
      unfold dist2; nlinarith [sq_nonneg (c.X - o.X + (a.X - o.X)), sq_nonneg (c.Y - o.Y + (a.Y - o.Y))]
    have e3 : 2 * (s * dOf a b c) ≤ dist2 b a + dist2 c a := by
      unfold dist2 dOf
      rcases hs with rfl | rfl
      · nlinarith [sq_nonneg ((b.X - a.X) - (c.Y - a.Y)), sq_nonneg ((b.Y - a.Y) + (c.X - a.X))]
      · nlinarith [sq_nonneg ((b.X - a.X) + (c.Y - a.Y)), sq_nonneg ((b.Y - a.Y) - (c.X - a.X))]
    linarith
  refine abs_le.mpr ⟨?_, ?_⟩
  · have := key (-1) (Or.inr rfl); linarith
  · have := key 1 (Or.inl rfl); linarith

theorem dOf_sq_le {a b c : R3.Vector ℚ} : (dOf a b c) ^ 2 ≤ dist2 b a * dist2 c a := by
  unfold dist2 dOf
  nlinarith [sq_nonneg ((b.X - a.X) * (c.X - a.X) + (b.Y - a.Y) * (c.Y - a.Y))]

theorem center_equi {a b c : R3.Vector ℚ} (h : dOf a b c ≠ 0) :
    dist2 b (circumcenter a b c) = dist2 a (circumcenter a b c) ∧ dist2 c (circumcenter a b c) = dist2 a (circumcenter a b c) := by
  have := C13_circumcenter a b c (fun e => h ((ccw_zero_iff a b c).mpr e))
  obtain ⟨_, h1, h2⟩ := this
  exact ⟨h1, h2⟩

/-- the squared circumradius -/
theorem radius_eq {a b c : R3.Vector ℚ} (hp : 0 < dist2 b a) (h : dOf a b c ≠ 0) :
    dist2 a (circumcenter a b c) = dist2 b a / 4 * (1 + (fOf a b c / dOf a b c) ^ 2) := by
  have h1 := (C13_circumradius a b c).2 (fun e => h ((ccw_zero_iff a b c).mpr e)) _ _ (C13_circumcenter a b c (fun e => h ((ccw_zero_iff a b c).mpr e)))
  rw [(circumradius_spec hp).2 h] at h1
  exact (Option.some.inj h1).symm

/-- the corners of a triangle that is not thin are not close -/
theorem shape_far {M κ : ℚ} (hM : 0 < M) (hk1 : 1 ≤ κ) (hk2 : κ ≤ 256) {a b c : R3.Vector ℚ} (sa : |a.X| ≤ M ∧ |a.Y| ≤ M) (sc : |c.X| ≤ M ∧ |c.Y| ≤ M)
    (hs : M ^ 2 ≤ κ * |dOf a b c|) : M ^ 2 / 2 ^ 19 ≤ dist2 b a := by
  have hκ : 0 < κ := by linarith
  have hp : κ ^ 2 ≤ 2 ^ 16 := by
    have := pow_le_pow_left₀ hκ.le hk2 2
    norm_num at *; exact this
  have h1 : (M ^ 2) ^ 2 ≤ (κ * |dOf a b c|) ^ 2 := pow_le_pow_left₀ (by positivity) hs 2
  rw [mul_pow, sq_abs] at h1
  have h2 := dOf_sq_le (a := a) (b := b) (c := c)
  have hca : dist2 c a ≤ 8 * M ^ 2 := by
    obtain ⟨a1, a2⟩ := sa
    obtain ⟨c1, c2⟩ := sc
    have key : ∀ x y : ℚ, |x| ≤ M → |y| ≤ M → (x - y) ^ 2 ≤ 4 * M ^ 2 := by
      intro x y hx hy
      have := abs_sub x y
      have h3 : |x - y| ≤ 2 * M := by linarith
      have h4 := pow_le_pow_left₀ (abs_nonneg _) h3 2
      rw [sq_abs] at h4
      linarith
    unfold dist2
    have := key _ _ c1 a1
    have := key _ _ c2 a2
    linarith
  have hb0 : 0 ≤ dist2 b a := by unfold dist2; positivity
  have h3 : κ ^ 2 * (dOf a b c) ^ 2 ≤ 2 ^ 16 * (dist2 b a * (8 * M ^ 2)) :=
    mul_le_mul hp (h2.trans (mul_le_mul_of_nonneg_left hca hb0)) (sq_nonneg _) (by norm_num)
  have h4 : M ^ 2 * M ^ 2 ≤ M ^ 2 * (2 ^ 19 * dist2 b a) := by
    have e1 : (M ^ 2) ^ 2 = M ^ 2 * M ^ 2 := by ring
    have e2 : 2 ^ 16 * (dist2 b a * (8 * M ^ 2)) = M ^ 2 * (2 ^ 19 * dist2 b a) := by ring
    linarith
  have h5 := le_of_mul_le_mul_left h4 (by positivity)
  rw [div_le_iff₀ (by norm_num)]
  linarith

theorem shape_ne {M κ : ℚ} (hM : 0 < M) {a b c : R3.Vector ℚ} (hs : M ^ 2 ≤ κ * |dOf a b c|) : dOf a b c ≠ 0 := by
  intro e
  rw [e, abs_zero, mul_zero] at hs
  have : 0 < M ^ 2 := by positivity
  linarith

/-- circles through three points are not small -/
theorem shape_radius {M κ : ℚ} (hM : 0 < M) (hk1 : 1 ≤ κ) {a b c : R3.Vector ℚ} (hs : M ^ 2 ≤ κ * |dOf a b c|) :
    M ^ 2 ≤ 4 * κ * dist2 a (circumcenter a b c) := by
  obtain ⟨e1, e2⟩ := center_equi (shape_ne hM hs)
  have h1 := dOf_le e1 e2
  have h3 := mul_le_mul_of_nonneg_left h1 (show 0 ≤ κ by linarith)
  linarith

/-- `circumradius` for a triangle that is not thin -/
theorem shape_rad {M κ : ℚ} (l1 : 1 / 2 ^ 40 ≤ M) (l2 : M ≤ 2 ^ 40) (hk1 : 1 ≤ κ) (hk2 : κ ≤ 256) {a b c : R3.Vector F64} (ba : Bounded M a) (bb : Bounded M b)
    (bc : Bounded M c) (hs : M ^ 2 ≤ κ * |dOf (exactV a) (exactV b) (exactV c)|) :
    ∃ r, circumradius a b c = some r ∧ App r (dist2 (exactV a) (circumcenter (exactV a) (exactV b) (exactV c))) (M ^ 2) (101000 * κ ^ 3) (512 * κ ^ 2) := by
  have hM : 0 < M := lt_of_lt_of_le (by positivity) l1
  have hM2 : 0 < M ^ 2 := by positivity
  have hk2' : κ ≤ 1024 := hk2.trans (by norm_num)
  obtain ⟨hd0, qx, qy⟩ := circum_quots l1 l2 hk1 hk2' ba bb bc hs
  have hr := radius_app l1 l2 hk1 hk2' qx qy
  obtain ⟨_, bl, dd⟩ := circum_parts l1 l2 ba bb bc
  obtain ⟨_, cl, _⟩ := circum_parts l1 l2 ba bc bb
  have z0 : (0 : F64).Finite := trivial
  have h0 : (0 : F64).toQ = 0 := rfl
  have nz : ∀ {v : F64} {X k b : ℚ}, App v X (M ^ 2) k b → k * (uro * M ^ 2) < X → ¬ (v == (0 : F64)) = true := by
    intro v X k b h hX
    rw [beq_fin h.fin z0, h0]
    obtain ⟨e1, e2⟩ := abs_le.mp h.err
    intro e
    rw [e] at e1
    linarith
  have len : ∀ {X : ℚ}, M ^ 2 / 2 ^ 19 ≤ X → 39 * (uro * M ^ 2) < X := by
    intro X hX
    refine lt_of_lt_of_le ?_ hX
    rw [div_eq_mul_inv, mul_comm (M ^ 2)]
    have e : 39 * (uro * M ^ 2) = 39 * uro * M ^ 2 := by ring
    rw [e]
    exact mul_lt_mul_of_pos_right (by unfold uro; norm_num) hM2
  have hs' : M ^ 2 ≤ κ * |dOf (exactV a) (exactV c) (exactV b)| := by
    rw [show dOf (exactV a) (exactV c) (exactV b) = - dOf (exactV a) (exactV b) (exactV c) by unfold dOf; ring, abs_neg]; exact hs
  have sa : |(exactV a).X| ≤ M ∧ |(exactV a).Y| ≤ M := ba.2.2
  have sb : |(exactV b).X| ≤ M ∧ |(exactV b).Y| ≤ M := bb.2.2
  have sc : |(exactV c).X| ≤ M ∧ |(exactV c).Y| ≤ M := bc.2.2
  refine ⟨_, ?_, hr⟩
  simp only [circumradius]
  rw [if_neg]
  simp only [Bool.or_eq_true, not_or]
  refine ⟨⟨⟨nz bl (len (shape_far hM hk1 hk2 sa sc hs)), nz cl (len (shape_far hM hk1 hk2 sa sb hs'))⟩, ?_⟩, nz hr ?_⟩
  · rw [beq_fin dd.fin z0, h0]; exact hd0
  · have hl := shape_radius hM hk1 hs
    have hκ : 0 < κ := by linarith
    have hp : κ ^ 4 ≤ 2 ^ 32 := by
      have := pow_le_pow_left₀ hκ.le hk2 4
      norm_num at *; exact this
    have h4 : (0:ℚ) < 4 * κ := by linarith
    refine lt_of_mul_lt_mul_left (lt_of_lt_of_le ?_ hl) h4.le
    have e : 4 * κ * (101000 * κ ^ 3 * (uro * M ^ 2)) = 404000 * κ ^ 4 * uro * M ^ 2 := by ring
    rw [e]
    have h5 : 404000 * κ ^ 4 * uro < 1 := by
      calc 404000 * κ ^ 4 * uro ≤ 404000 * 2 ^ 32 * uro := mul_le_mul_of_nonneg_right (by linarith) uro_pos.le
        _ < 1 := by unfold uro; norm_num
    calc 404000 * κ ^ 4 * uro * M ^ 2 < 1 * M ^ 2 := mul_lt_mul_of_pos_right h5 hM2
      _ = M ^ 2 := one_mul _

/-- the circumcentre is the only point with equal distances -/
theorem center_unique {A B C o : R3.Vector ℚ} (hd : dOf A B C ≠ 0) (o1 : dist2 B o = dist2 A o) (o2 : dist2 C o = dist2 A o) :
    o.X = (circumcenter A B C).X ∧ o.Y = (circumcenter A B C).Y := by
  obtain ⟨q1, q2⟩ := center_equi hd
  generalize circumcenter A B C = o' at *
  have l1 : (B.X - A.X) * (o.X - o'.X) + (B.Y - A.Y) * (o.Y - o'.Y) = 0 := by
    simp only [dist2] at o1 q1; linarith
  have l2 : (C.X - A.X) * (o.X - o'.X) + (C.Y - A.Y) * (o.Y - o'.Y) = 0 := by
    simp only [dist2] at o2 q2; linarith
  constructor
  · have : dOf A B C * (o.X - o'.X) = 0 := by
      unfold dOf
      linear_combination (C.Y - A.Y) * l1 - (B.Y - A.Y) * l2
    rcases mul_eq_zero.mp this with h | h
    · exact absurd h hd
    · linarith
  · have : dOf A B C * (o.Y - o'.Y) = 0 := by
      unfold dOf
      linear_combination (B.X - A.X) * l2 - (C.X - A.X) * l1
    rcases mul_eq_zero.mp this with h | h
    · exact absurd h hd
    · linarith

section
variable {Vs : List (R3.Vector F64)} {M κ : ℚ} (hfin : FinitePlanar Vs) (hW : WellSpread (Vs.map exactV) M κ)
include hfin hW

omit hfin in
theorem WellSpread.low40 : 1 / 2 ^ 40 ≤ M := le_trans (by norm_num) hW.low

omit hfin in
theorem WellSpread.margin : Margin Vs M := by
  have hM : 0 < M := lt_of_lt_of_le (by norm_num) hW.low
  have hM2 : 0 < M ^ 2 := by positivity
  have mem : ∀ {v : R3.Vector F64}, v ∈ Vs → exactV v ∈ Vs.map exactV := fun h => List.mem_map_of_mem h
  refine ⟨hW.low40, hW.high, fun v hv => hW.size (exactV v) (mem hv), ?_, ?_⟩
  · intro a ha b hb c hc n1 n2 n3
    have h := hW.shape _ (mem ha) _ (mem hb) _ (mem hc) n1 n2 n3
    generalize area (exactV a) (exactV b) (exactV c) = X at h ⊢
    have h2 := mul_le_mul_of_nonneg_right hW.cap (abs_nonneg X)
    have h3 : 39 / 2 ^ 53 * M ^ 2 < 1 / 256 * M ^ 2 := mul_lt_mul_of_pos_right (by norm_num) hM2
    linarith
  · intro a ha b hb c hc d hd n1 n2 n3 n4 n5 n6
    exact hW.circle (exactV a) (mem ha) (exactV b) (mem hb) (exactV c) (mem hc) (exactV d) (mem hd) n1 n2 n3 n4 n5 n6

omit hfin in
theorem WellSpread.cap' : κ ≤ 1024 := hW.cap.trans (by norm_num)

omit hfin in
theorem WellSpread.mpos : 0 < M := lt_of_lt_of_le (by norm_num) hW.low

omit hfin in
theorem WellSpread.pow_bounds : κ ^ 2 ≤ 2 ^ 16 ∧ κ ^ 4 ≤ 2 ^ 32 := by
  have h0 : 0 ≤ κ := by linarith [hW.one]
  have := pow_le_pow_left₀ h0 hW.cap 2
  have := pow_le_pow_left₀ h0 hW.cap 4
  norm_num at *
  constructor <;> assumption

omit hfin in
/-- the gap is larger than twice the errors -/
theorem WellSpread.gap {m : ℚ} (hm : m ≤ 2 ^ 17) : (m * κ ^ 3 + m * κ ^ 3) * (uro * M ^ 2) ≤ κ ^ 3 * M ^ 2 / 2 ^ 35 := by
  have hκ : 0 < κ := by linarith [hW.one]
  have hM := hW.mpos
  have h3 : 0 ≤ κ ^ 3 * M ^ 2 := by positivity
  have e : (m * κ ^ 3 + m * κ ^ 3) * (uro * M ^ 2) = 2 * uro * m * (κ ^ 3 * M ^ 2) := by ring
  rw [e, div_eq_mul_inv, mul_comm (κ ^ 3 * M ^ 2)]
  refine mul_le_mul_of_nonneg_right ?_ h3
  calc 2 * uro * m ≤ 2 * uro * 2 ^ 17 := mul_le_mul_of_nonneg_left hm (by have := uro_pos; positivity)
    _ ≤ (2 ^ 35)⁻¹ := by unfold uro; norm_num

omit hfin in
theorem WellSpread.shape' {a b c : R3.Vector ℚ} (ha : a ∈ Vs.map exactV) (hb : b ∈ Vs.map exactV) (hc : c ∈ Vs.map exactV) (n1 : a ≠ b) (n2 : b ≠ c) (n3 : c ≠ a) :
    M ^ 2 ≤ κ * |dOf a b c| := by
  have := hW.shape a ha b hb c hc n1 n2 n3
  rwa [area_dOf, abs_neg] at this

omit hfin in
theorem WellSpread.dOf_ne {a b c : R3.Vector ℚ} (ha : a ∈ Vs.map exactV) (hb : b ∈ Vs.map exactV) (hc : c ∈ Vs.map exactV) (n1 : a ≠ b) (n2 : b ≠ c) (n3 : c ≠ a) :
    dOf a b c ≠ 0 := shape_ne hW.mpos (hW.shape' ha hb hc n1 n2 n3)

omit hfin in
theorem WellSpread.third (a b : R3.Vector ℚ) : ∃ c ∈ Vs.map exactV, c ≠ a ∧ c ≠ b := by
  by_contra h
  push Not at h
  have hsub : Vs.map exactV ⊆ [a, b] := by
    intro c hc
    by_cases e : c = a
    · simp [e]
    · simp [h c hc e]
  have := (hW.distinct.subperm hsub).length_le
  have h3 := hW.three
  simp only [List.length_cons, List.length_nil] at this
  omega

omit hfin in
/-- different points are not close -/
theorem WellSpread.far {a b : R3.Vector ℚ} (ha : a ∈ Vs.map exactV) (hb : b ∈ Vs.map exactV) (hab : a ≠ b) : M ^ 2 / 2 ^ 19 ≤ dist2 b a := by
  obtain ⟨c, hc, ca, cb⟩ := hW.third a b
  exact shape_far hW.mpos hW.one hW.cap (hW.size a ha) (hW.size c hc) (hW.shape' ha hb hc hab cb.symm ca)

omit hW in
theorem planar_z {v : R3.Vector F64} (hv : v ∈ Vs) : v.Z = 0 := (hfin v hv).2.2

/-- `SquaredDistance` between the points -/
theorem WellSpread.sq {v w : R3.Vector F64} (hv : v ∈ Vs) (hw : w ∈ Vs) : App (R3.SquaredDistance v w) (dist2 (exactV v) (exactV w)) (M ^ 2) 48 8 :=
  sqdist_app hW.low40 hW.high (hW.margin.bounded hfin hv) (hW.margin.bounded hfin hw) (planar_z hfin hv) (planar_z hfin hw)

theorem WellSpread.sq_pos {v w : R3.Vector F64} (hv : v ∈ Vs) (hw : w ∈ Vs) : 0 < R3.SquaredDistance v w ↔ exactV v ≠ exactV w := by
  have h := hW.sq hfin hv hw
  have z0 : (0 : F64).Finite := trivial
  have h0 : (0 : F64).toQ = 0 := rfl
  constructor
  · intro hp e
    rw [lt_fin z0 h.fin, h0] at hp
    have hs : SameZ v w := ⟨eqZ_of_toQ (hfin v hv).1 (hfin w hw).1 (congrArg R3.Vector.X e), eqZ_of_toQ (hfin v hv).2.1 (hfin w hw).2.1 (congrArg R3.Vector.Y e)⟩
    have := dist_eqZ hs.1 hs.2 ((planar_z hfin hv).trans (planar_z hfin hw).symm) (EqZ.refl w.X) (EqZ.refl w.Y) rfl
    rw [this] at hp
    have hz : (R3.SquaredDistance w w).toQ = 0 := by
      obtain ⟨x, y, z⟩ := w
      have hx : x.Finite := (hfin _ hw).1
      have hy : y.Finite := (hfin _ hw).2.1
      have hz : z = 0 := planar_z hfin hw
      subst hz
      simp only [R3.SquaredDistance, R3.Vector.Norm2, R3.Dot, R3.Sub]
      exact zn_toQ (((((zn_self x).mul _).add ((zn_self y).mul _))).add ((zn_self 0).mul _))
    rw [hz] at hp
    exact lt_irrefl _ hp
  · intro hne
    have hM := hW.mpos
    have hM2 : 0 < M ^ 2 := by positivity
    have hf := hW.far (List.mem_map_of_mem hw) (List.mem_map_of_mem hv) hne.symm
    refine (h.sign ?_).2.mpr (lt_of_lt_of_le (by positivity) hf)
    refine lt_of_lt_of_le ?_ (hf.trans (le_abs_self _))
    rw [div_eq_mul_inv, mul_comm (M ^ 2)]
    have e : 48 * (uro * M ^ 2) = 48 * uro * M ^ 2 := by ring
    rw [e]
    exact mul_lt_mul_of_pos_right (by unfold uro; norm_num) hM2

theorem WellSpread.sq_order {a v w : R3.Vector F64} (ha : a ∈ Vs) (hv : v ∈ Vs) (hw : w ∈ Vs)
    (h : (R3.SquaredDistance v a).toQ ≤ (R3.SquaredDistance w a).toQ) : dist2 (exactV v) (exactV a) ≤ dist2 (exactV w) (exactV a) := by
  have hM := hW.mpos
  have hM2 : 0 < M ^ 2 := by positivity
  obtain ⟨_, _, _, k4, _⟩ := kappa_pow hW.one hW.cap'
  refine (hW.sq hfin hv ha).order (hW.sq hfin hw ha) (le_trans ?_ (hW.gap (m := 48) (by norm_num)))
    (hW.near _ (List.mem_map_of_mem ha) _ (List.mem_map_of_mem hv) _ (List.mem_map_of_mem hw)) h
  refine mul_le_mul_of_nonneg_right (by linarith) (mul_nonneg uro_pos.le hM2.le)

/-- no two points count as duplicates -/
theorem WellSpread.not_near {v w : R3.Vector F64} (hv : v ∈ Vs) (hw : w ∈ Vs) (h : R3.SquaredDistance v w < eps) : exactV v = exactV w := by
  by_contra hne
  have ha := hW.sq hfin hv hw
  have ef : (eps : F64).Finite ∧ (eps : F64).toQ = 1 / 2 ^ 52 := by
    constructor <;> decide +kernel
  rw [lt_fin ha.fin ef.1, ef.2] at h
  have hf := hW.far (List.mem_map_of_mem hw) (List.mem_map_of_mem hv) (Ne.symm hne)
  obtain ⟨e1, e2⟩ := abs_le.mp ha.err
  have hM := hW.low
  have hM2 : (1 / 2 ^ 14) ^ 2 ≤ M ^ 2 := pow_le_pow_left₀ (by norm_num) hM 2
  have hu : uro = 1 / 2 ^ 53 := rfl
  rw [hu] at e1
  norm_num at *
  linarith

omit hfin in
/-- circles through three points are not small -/
theorem WellSpread.radius_low {a b c : R3.Vector ℚ} (ha : a ∈ Vs.map exactV) (hb : b ∈ Vs.map exactV) (hc : c ∈ Vs.map exactV) (n1 : a ≠ b) (n2 : b ≠ c) (n3 : c ≠ a) :
    M ^ 2 ≤ 4 * κ * dist2 a (circumcenter a b c) := shape_radius hW.mpos hW.one (hW.shape' ha hb hc n1 n2 n3)

/-- `circumradius` for three points at different positions -/
theorem WellSpread.rad {a b c : R3.Vector F64} (ha : a ∈ Vs) (hb : b ∈ Vs) (hc : c ∈ Vs) (n1 : exactV a ≠ exactV b) (n2 : exactV b ≠ exactV c)
    (n3 : exactV c ≠ exactV a) :
    ∃ r, circumradius a b c = some r ∧ App r (dist2 (exactV a) (circumcenter (exactV a) (exactV b) (exactV c))) (M ^ 2) (101000 * κ ^ 3) (512 * κ ^ 2) :=
  shape_rad hW.low40 hW.high hW.one hW.cap (hW.margin.bounded hfin ha) (hW.margin.bounded hfin hb) (hW.margin.bounded hfin hc)
    (hW.shape' (List.mem_map_of_mem ha) (List.mem_map_of_mem hb) (List.mem_map_of_mem hc) n1 n2 n3)

/-- the computed circumcentre is not one of the points outside the circle -/
theorem WellSpread.centre_other {a b c v : R3.Vector F64} (ha : a ∈ Vs) (hb : b ∈ Vs) (hc : c ∈ Vs) (n1 : exactV a ≠ exactV b)
    (n2 : exactV b ≠ exactV c) (n3 : exactV c ≠ exactV a)
    (hv : dist2 (exactV a) (circumcenter (exactV a) (exactV b) (exactV c)) ≤ dist2 (exactV v) (circumcenter (exactV a) (exactV b) (exactV c))) :
    v.X.toQ ≠ (circumcenter a b c).X.toQ ∨ v.Y.toQ ≠ (circumcenter a b c).Y.toQ := by
  have hM := hW.mpos
  have hM2 : 0 < M ^ 2 := by positivity
  have ma := List.mem_map_of_mem (f := exactV) ha
  have mb := List.mem_map_of_mem (f := exactV) hb
  have mc := List.mem_map_of_mem (f := exactV) hc
  obtain ⟨cx, cy⟩ := center_app hW.low40 hW.high hW.one hW.cap' (hW.margin.bounded hfin ha) (hW.margin.bounded hfin hb) (hW.margin.bounded hfin hc)
    (hW.shape' ma mb mc n1 n2 n3)
  have hl := hW.radius_low ma mb mc n1 n2 n3
  by_contra hcon
  push Not at hcon
  have e1 := cx.err
  have e2 := cy.err
  rw [← hcon.1, pow_one] at e1
  rw [← hcon.2, pow_one] at e2
  have s1 := pow_le_pow_left₀ (abs_nonneg _) e1 2
  have s2 := pow_le_pow_left₀ (abs_nonneg _) e2 2
  rw [sq_abs] at s1 s2
  have hd : dist2 (exactV v) (circumcenter (exactV a) (exactV b) (exactV c)) ≤ 2 * (1579 * κ ^ 2 * (uro * M)) ^ 2 := by
    unfold dist2
    have ex : (exactV v).X = v.X.toQ := rfl
    have ey : (exactV v).Y = v.Y.toQ := rfl
    rw [ex, ey]; linarith
  have hκ : 0 < κ := by linarith [hW.one]
  have h3 : M ^ 2 ≤ 4 * κ * (2 * (1579 * κ ^ 2 * (uro * M)) ^ 2) := hl.trans (mul_le_mul_of_nonneg_left (hv.trans hd) (by linarith))
  have e : 4 * κ * (2 * (1579 * κ ^ 2 * (uro * M)) ^ 2) = 8 * 1579 ^ 2 * (κ * κ ^ 4) * uro ^ 2 * M ^ 2 := by ring
  rw [e] at h3
  have h5 : κ * κ ^ 4 ≤ 256 * 2 ^ 32 := mul_le_mul hW.cap hW.pow_bounds.2 (by positivity) (by norm_num)
  have h6 : 8 * 1579 ^ 2 * (κ * κ ^ 4) * uro ^ 2 < 1 := by
    calc 8 * 1579 ^ 2 * (κ * κ ^ 4) * uro ^ 2 ≤ 8 * 1579 ^ 2 * (256 * 2 ^ 32) * uro ^ 2 :=
          mul_le_mul_of_nonneg_right (by linarith) (sq_nonneg _)
      _ < 1 := by unfold uro; norm_num
  have := mul_lt_mul_of_pos_right h6 hM2
  linarith

omit hfin in
/-- points with different ids are at different positions -/
theorem WellSpread.ne {i j : ℕ} {x y : R3.Vector F64} (hij : i ≠ j) (hx : Vs[i]? = some x) (hy : Vs[j]? = some y) : exactV x ≠ exactV y := by
  intro e
  have hx' : (Vs.map exactV)[i]? = some (exactV x) := by simp [hx]
  have hy' : (Vs.map exactV)[j]? = some (exactV y) := by simp [hy]
  obtain ⟨li, ei⟩ := List.getElem?_eq_some_iff.mp hx'
  obtain ⟨lj, ej⟩ := List.getElem?_eq_some_iff.mp hy'
  exact hij ((List.Nodup.getElem_inj_iff hW.distinct).mp (ei.trans (e.trans ej.symm)))

/-- triangulator.go:92-105: the second seed is a point nearest to the first -/
theorem WellSpread.seed1 {i0 : ℕ} {p0 : R3.Vector F64} (h0 : Vs[i0]? = some p0) :
    ∃ p1, Vs[seed1 Vs i0 p0]? = some p1 ∧ seed1 Vs i0 p0 ≠ i0 ∧ ∀ i v, Vs[i]? = some v → i ≠ i0 → dist2 (exactV p1) (exactV p0) ≤ dist2 (exactV v) (exactV p0) := by
  have mem : ∀ {i : ℕ} {v : R3.Vector F64}, Vs[i]? = some v → v ∈ Vs := fun h => List.mem_of_getElem? h
  set f : R3.Vector F64 × ℕ → Option F64 := fun pi => if pi.2 = i0 then none else if 0 < R3.SquaredDistance pi.1 p0 then some (R3.SquaredDistance pi.1 p0) else none with hf
  have e : Tri2.seed1 Vs i0 p0 = (Vs.zipIdx.foldl (aminF f) (0, none)).1 := by
    unfold Tri2.seed1
    congr 2
    funext acc pi
    unfold aminF
    simp only [hf]
    by_cases h1 : pi.2 = i0
    · simp [h1]
    · by_cases h2 : 0 < R3.SquaredDistance pi.1 p0
      · simp [h1, h2]
      · simp [h1, h2]
  rw [e]
  have hpos : ∀ {i : ℕ} {v : R3.Vector F64}, Vs[i]? = some v → i ≠ i0 → 0 < R3.SquaredDistance v p0 := fun hv hi =>
    (hW.sq_pos hfin (mem hv) (mem h0)).mpr (hW.ne hi hv h0)
  rcases aminF_spec f Vs.zipIdx (by
      intro x hx d hd
      rw [mem_zipIdx'] at hx
      simp only [hf] at hd
      split_ifs at hd
      injection hd with hd; rw [← hd]; exact (hW.sq hfin (mem hx) (mem h0)).fin) with ⟨h, h'⟩ | ⟨x, hx, d, h, hfx, hmin⟩
  · exfalso
    obtain ⟨j, hj, hji⟩ : ∃ j, j < Vs.length ∧ j ≠ i0 := by
      have := hW.three
      rw [List.length_map] at this
      by_cases c : i0 = 0
      · exact ⟨1, by omega, by omega⟩
      · exact ⟨0, by omega, fun e => c e.symm⟩
    have hv : Vs[j]? = some Vs[j] := by simp
    have := h' (Vs[j], j) (by rw [mem_zipIdx']; exact hv)
    have hp := hpos hv hji
    simp only [hf, if_neg hji, if_pos hp] at this
    cases this
  · rw [h]
    rw [mem_zipIdx'] at hx
    have hx0 : x.2 ≠ i0 := by intro e; simp [hf, e] at hfx
    refine ⟨x.1, hx, hx0, fun i v hv hi => ?_⟩
    have hp := hpos hv hi
    have hpx := hpos hx hx0
    have := hmin (v, i) (by rw [mem_zipIdx']; exact hv) (R3.SquaredDistance v p0) (by simp only [hf, if_neg hi, if_pos hp])
    simp only [hf, if_neg hx0, if_pos hpx, Option.some.injEq] at hfx
    rw [← hfx] at this
    exact hW.sq_order hfin (mem h0) (mem hx) (mem hv) this

/-- triangulator.go:107-118: the third seed gives the smallest circle -/
theorem WellSpread.seed2 {i0 i1 : ℕ} {p0 p1 : R3.Vector F64} (h0 : Vs[i0]? = some p0) (h1 : Vs[i1]? = some p1) (h10 : i1 ≠ i0)
    (hnear : ∀ i v, Vs[i]? = some v → i ≠ i0 → dist2 (exactV p1) (exactV p0) ≤ dist2 (exactV v) (exactV p0)) :
    ∃ i2 p2 r, seed2 Vs i0 i1 p0 p1 = (i2, some r) ∧ Vs[i2]? = some p2 ∧ i2 ≠ i0 ∧ i2 ≠ i1 ∧
      ∀ i v, Vs[i]? = some v → i ≠ i0 → i ≠ i1 → dist2 (exactV p0) (circumcenter (exactV p0) (exactV p1) (exactV p2)) ≤
        dist2 (exactV p0) (circumcenter (exactV p0) (exactV p1) (exactV v)) := by
  have mem : ∀ {i : ℕ} {v : R3.Vector F64}, Vs[i]? = some v → v ∈ Vs := fun h => List.mem_of_getElem? h
  have memQ : ∀ {i : ℕ} {v : R3.Vector F64}, Vs[i]? = some v → exactV v ∈ Vs.map exactV := fun h => List.mem_map_of_mem (mem h)
  have hrad : ∀ {i : ℕ} {v : R3.Vector F64}, Vs[i]? = some v → i ≠ i0 → i ≠ i1 → ∃ r, circumradius p0 p1 v = some r ∧
      App r (dist2 (exactV p0) (circumcenter (exactV p0) (exactV p1) (exactV v))) (M ^ 2) (101000 * κ ^ 3) (512 * κ ^ 2) :=
    fun hv hi hi' => hW.rad hfin (mem h0) (mem h1) (mem hv) (hW.ne h10.symm h0 h1) (hW.ne hi'.symm h1 hv) (hW.ne hi hv h0)
  set f : R3.Vector F64 × ℕ → Option F64 := fun pi => if pi.2 = i0 ∨ pi.2 = i1 then none else circumradius p0 p1 pi.1 with hf
  have e : Tri2.seed2 Vs i0 i1 p0 p1 = (Vs.zipIdx.foldl (aminF f) (0, none)) := by
    unfold Tri2.seed2
    congr 1
    funext acc pi
    unfold aminF
    simp only [hf]
    by_cases h1 : pi.2 = i0 ∨ pi.2 = i1
    · simp [h1]
    · simp only [h1, if_false]
      cases circumradius p0 p1 pi.1 <;> rfl
  rw [e]
  rcases aminF_spec f Vs.zipIdx (by
      intro x hx d hd
      rw [mem_zipIdx'] at hx
      simp only [hf] at hd
      split_ifs at hd with hc
      push Not at hc
      obtain ⟨r, hr, happ⟩ := hrad hx hc.1 hc.2
      rw [hr] at hd; injection hd with hd; rw [← hd]; exact happ.fin) with ⟨h, h'⟩ | ⟨x, hx, d, h, hfx, hmin⟩
  · exfalso
    obtain ⟨j, hj, hj0, hj1⟩ : ∃ j, j < Vs.length ∧ j ≠ i0 ∧ j ≠ i1 := by
      have := hW.three
      rw [List.length_map] at this
      by_cases c : 0 ≠ i0 ∧ 0 ≠ i1
      · exact ⟨0, by omega, c⟩
      by_cases c' : 1 ≠ i0 ∧ 1 ≠ i1
      · exact ⟨1, by omega, c'⟩
      · exact ⟨2, by omega, by omega, by omega⟩
    have hv : Vs[j]? = some Vs[j] := by simp
    have := h' (Vs[j], j) (by rw [mem_zipIdx']; exact hv)
    obtain ⟨r, hr, _⟩ := hrad hv hj0 hj1
    have hc : ¬ (j = i0 ∨ j = i1) := by tauto
    simp only [hf, if_neg hc, hr] at this
    cases this
  · rw [mem_zipIdx'] at hx
    have hx0 : ¬ (x.2 = i0 ∨ x.2 = i1) := by intro e; simp only [hf, if_pos e] at hfx; cases hfx
    simp only [hf, if_neg hx0] at hfx
    push Not at hx0
    refine ⟨x.2, x.1, d, h, hx, hx0.1, hx0.2, fun i v hv hi hi' => ?_⟩
    obtain ⟨r2, hr2, app2⟩ := hrad hx hx0.1 hx0.2
    obtain ⟨rv, hrv, appv⟩ := hrad hv hi hi'
    rw [hr2] at hfx; injection hfx with hfx; subst hfx
    have hc : ¬ (i = i0 ∨ i = i1) := by tauto
    have := hmin (v, i) (by rw [mem_zipIdx']; exact hv) rv (by simp only [hf, if_neg hc]; exact hrv)
    refine app2.order appv (hW.gap (by norm_num)) ?_ this
    refine hW.radius _ (memQ h0) _ (memQ h1) (hW.ne h10.symm h0 h1) ?_ _ (memQ hx) _ (memQ hv) (hW.ne hx0.1 hx h0) (hW.ne hx0.2 hx h1) (hW.ne hi hv h0) (hW.ne hi' hv h1)
    intro p hp hne
    obtain ⟨w, hw, rfl⟩ := List.mem_map.mp hp
    obtain ⟨j, hj, ej⟩ := List.mem_iff_getElem.mp hw
    have hwj : Vs[j]? = some w := by rw [← ej]; simp
    refine hnear j w hwj ?_
    rintro rfl
    rw [h0] at hwj; injection hwj with hwj; subst hwj
    exact hne rfl

/-- triangulator.go:50-128: the seed triangle of the call is right -/
theorem WellSpread.seeds : ∃ i0 i1 i2 p0 p1 p2, Vs[i0]? = some p0 ∧ Vs[i1]? = some p1 ∧ Vs[i2]? = some p2 ∧
    Seeds (Vs.map exactV) i0 i1 i2 (exactV p0) (exactV p1) (exactV p2) ∧ seedsOf Vs = .ok (some (i0, i1, i2, circumcenter p0 p1 p2)) := by
  have hn : 3 ≤ Vs.length := by have := hW.three; rwa [List.length_map] at this
  obtain ⟨⟨x0, x1, y0, y1⟩, hb⟩ := bounds_okF (Vs := Vs) (by omega)
  have hne : Vs ≠ [] := by rintro rfl; simp at hn
  have mem : ∀ {i : ℕ} {v : R3.Vector F64}, Vs[i]? = some v → v ∈ Vs := fun h => List.mem_of_getElem? h
  have memQ : ∀ v ∈ Vs.map exactV, ∃ (i : ℕ) (w : R3.Vector F64), Vs[i]? = some w ∧ v = exactV w := by
    intro v hv
    obtain ⟨w, hw, rfl⟩ := List.mem_map.mp hv
    obtain ⟨i, hi, e⟩ := List.mem_iff_getElem.mp hw
    exact ⟨i, w, by rw [← e]; simp, rfl⟩
  have hget : ∀ {i : ℕ} {v : R3.Vector F64}, Vs[i]? = some v → (Vs.map exactV)[i]? = some (exactV v) := fun h => by rw [List.getElem?_map, h]; rfl
  have memE : ∀ {i : ℕ} {v : R3.Vector F64}, Vs[i]? = some v → exactV v ∈ Vs.map exactV := fun h => List.mem_map_of_mem (mem h)
  set i0 := seed0 Vs ⟨(x0 + x1) / 2, (y0 + y1) / 2, 0⟩ with hi0
  have h0 : i0 < Vs.length := seed0_ltF _ _ hne
  obtain ⟨p0, hp0⟩ : ∃ p0, Vs[i0]? = some p0 := ⟨Vs[i0], by simp⟩
  obtain ⟨p1, hp1, hne1, hmin1⟩ := hW.seed1 hfin hp0
  set i1 := Tri2.seed1 Vs i0 p0 with hi1
  obtain ⟨i2, p2, r, e2, hp2, hne20, hne21, hmin2⟩ := hW.seed2 hfin hp0 hp1 hne1 hmin1
  have hd : ∀ {i : ℕ} {v : R3.Vector F64}, Vs[i]? = some v → i ≠ i0 → i ≠ i1 → dOf (exactV p0) (exactV p1) (exactV v) ≠ 0 := fun hv hi hi' =>
    hW.dOf_ne (memE hp0) (memE hp1) (memE hv) (hW.ne hne1.symm hp0 hp1) (hW.ne hi'.symm hp1 hv) (hW.ne hi hv hp0)
  have hM := hW.mpos
  have hpos1 : 0 < dist2 (exactV p1) (exactV p0) := lt_of_lt_of_le (by positivity) (hW.far (memE hp0) (memE hp1) (hW.ne hne1.symm hp0 hp1))
  have hm1 : ∀ v ∈ Vs.map exactV, 0 < dist2 v (exactV p0) → dist2 (exactV p1) (exactV p0) ≤ dist2 v (exactV p0) := by
    intro v hv hl
    obtain ⟨i, w, hw, rfl⟩ := memQ v hv
    by_cases c : i = i0
    · subst c; rw [hp0] at hw; injection hw with hw; subst hw
      simp [dist2] at hl
    · exact hmin1 i w hw c
  have hm2 : ∀ v ∈ Vs.map exactV, dOf (exactV p0) (exactV p1) v ≠ 0 → (fOf (exactV p0) (exactV p1) (exactV p2) / dOf (exactV p0) (exactV p1) (exactV p2)) ^ 2 ≤
      (fOf (exactV p0) (exactV p1) v / dOf (exactV p0) (exactV p1) v) ^ 2 := by
    intro v hv hl
    obtain ⟨i, w, hw, rfl⟩ := memQ v hv
    by_cases c0 : i = i0
    · subst c0; rw [hp0] at hw; injection hw with hw; subst hw
      exact absurd (by unfold dOf; ring) hl
    by_cases c1 : i = i1
    · subst c1; rw [hp1] at hw; injection hw with hw; subst hw
      exact absurd (by unfold dOf; ring) hl
    have h := hmin2 i w hw c0 c1
    rw [radius_eq hpos1 (hd hp2 hne20 hne21), radius_eq hpos1 hl] at h
    have h4 : 0 < dist2 (exactV p1) (exactV p0) / 4 := by positivity
    have := le_of_mul_le_mul_left h h4
    linarith
  obtain ⟨_, s1, s2⟩ := seeds_of (hget hp0) (hget hp1) (hget hp2) hne1 hne20 hne21 hpos1 (hd hp2 hne20 hne21) hm1 hm2
  have harea : area p0 p1 p2 < 0 ↔ area (exactV p0) (exactV p1) (exactV p2) < 0 :=
    ((hW.margin.signs hfin).areas _ (mem hp0) _ (mem hp1) _ (mem hp2)).2.1
  by_cases ha : area p0 p1 p2 < 0
  · refine ⟨i0, i2, i1, p0, p2, p1, hp0, hp2, hp1, s1 (harea.mp ha), ?_⟩
    unfold seedsOf
    rw [hb, Res.bind_ok]
    dsimp only
    rw [← hi0, goGet_eq rfl hp0, Res.bind_ok, ← hi1, goGet_eq rfl hp1, Res.bind_ok, e2]
    dsimp only
    rw [goGet_eq rfl hp2, Res.bind_ok, if_pos ha]
    dsimp only
    rw [goGet_eq rfl hp2, Res.bind_ok, goGet_eq rfl hp1, Res.bind_ok]
    rfl
  · refine ⟨i0, i1, i2, p0, p1, p2, hp0, hp1, hp2, s2 (fun h => ha (harea.mpr h)), ?_⟩
    unfold seedsOf
    rw [hb, Res.bind_ok]
    dsimp only
    rw [← hi0, goGet_eq rfl hp0, Res.bind_ok, ← hi1, goGet_eq rfl hp1, Res.bind_ok, e2]
    dsimp only
    rw [goGet_eq rfl hp2, Res.bind_ok, if_neg ha]
    dsimp only
    rw [goGet_eq rfl hp1, Res.bind_ok, goGet_eq rfl hp2, Res.bind_ok]
    rfl

omit hfin hW in
theorem det_center {a b c v : R3.Vector ℚ} (h : dOf a b c ≠ 0) :
    inCircleDet a b c v = area a b c * (dist2 v (circumcenter a b c) - dist2 a (circumcenter a b c)) := by
  obtain ⟨e1, e2⟩ := center_equi h
  generalize circumcenter a b c = o at *
  have e : inCircleDet a b c v = area a b c * (dist2 v o - dist2 a o) + area a v c * (dist2 a o - dist2 b o) + area a b v * (dist2 a o - dist2 c o) := by
    simp only [inCircleDet, area, dist2]; ring
  rw [e, e1, e2]; ring

/-- the hypotheses of C77 hold for the seed triangle of the call -/
theorem WellSpread.right : ∃ i0 i1 i2 o, SeedRight Vs i0 i1 i2 o ∧ OrderRight Vs i0 i1 i2 o := by
  obtain ⟨i0, i1, i2, p0, p1, p2, h0, h1, h2, S, hs⟩ := hW.seeds hfin
  have mem : ∀ {i : ℕ} {v : R3.Vector F64}, Vs[i]? = some v → v ∈ Vs := fun h => List.mem_of_getElem? h
  have memE : ∀ {v : R3.Vector F64}, v ∈ Vs → exactV v ∈ Vs.map exactV := fun h => List.mem_map_of_mem h
  have n01 := hW.ne S.d01 h0 h1
  have n12 := hW.ne S.d12 h1 h2
  have n20 := hW.ne S.d20 h2 h0
  have hD := hW.shape' (memE (mem h0)) (memE (mem h1)) (memE (mem h2)) n01 n12 n20
  have hD0 := hW.dOf_ne (memE (mem h0)) (memE (mem h1)) (memE (mem h2)) n01 n12 n20
  obtain ⟨cx, cy⟩ := center_app hW.low40 hW.high hW.one hW.cap' (hW.margin.bounded hfin (mem h0)) (hW.margin.bounded hfin (mem h1))
    (hW.margin.bounded hfin (mem h2)) hD
  have sub : ∀ {P : R3.Vector F64 → R3.Vector F64 → R3.Vector F64 → Prop}, P p0 p1 p2 → ∀ q0 q1 q2, Vs[i0]? = some q0 → Vs[i1]? = some q1 → Vs[i2]? = some q2 → P q0 q1 q2 := by
    intro P hP q0 q1 q2 g0 g1 g2
    rw [h0] at g0; rw [h1] at g1; rw [h2] at g2
    injection g0 with g0; injection g1 with g1; injection g2 with g2
    subst g0; subst g1; subst g2; exact hP
  have hemp : ∀ v ∈ Vs, 0 ≤ inCircleDet (exactV p0) (exactV p1) (exactV p2) (exactV v) := fun v hv => S.empty _ (memE hv)
  have hM := hW.mpos
  have hbig : ∀ {x : F64} {X : ℚ}, App x X (M ^ 1) (1579 * κ ^ 2) (17 * κ) → |x.toQ| ≤ 2 ^ 1022 := by
    intro x X h
    obtain ⟨k1, _, _, _, k5, _, _⟩ := kappa_pow hW.one hW.cap'
    have e : x.toQ = X + (x.toQ - X) := by ring
    have a1 : |x.toQ| ≤ |X| + |x.toQ - X| := by
      calc |x.toQ| = |X + (x.toQ - X)| := by rw [← e]
        _ ≤ _ := abs_add_le _ _
    have a2 := h.err
    have a3 := h.le
    rw [pow_one] at a2 a3
    have a4 : 17 * κ * M ≤ 17 * 256 * 2 ^ 40 := mul_le_mul (by linarith [hW.cap]) hW.high hM.le (by norm_num)
    have a5 : 1579 * κ ^ 2 * (uro * M) ≤ 1579 * 2 ^ 20 * (uro * 2 ^ 40) :=
      mul_le_mul (by linarith) (mul_le_mul_of_nonneg_left hW.high uro_pos.le) (mul_nonneg uro_pos.le hM.le) (by norm_num)
    have a6 : (1579 * 2 ^ 20 * (uro * 2 ^ 40) : ℚ) ≤ 2 ^ 60 := by unfold uro; norm_num
    have a7 : (17 * 256 * 2 ^ 40 : ℚ) ≤ 2 ^ 60 := by norm_num
    have a8 : |x.toQ| ≤ 2 ^ 61 := by
      have : (2 : ℚ) ^ 61 = 2 ^ 60 + 2 ^ 60 := by norm_num
      linarith
    exact a8.trans (pow_le_pow_right₀ (by norm_num) (by norm_num))
  have hsz : ∀ x : ℚ, |x| ≤ M → |x| ≤ 2 ^ 1022 := fun x hx => (hx.trans hW.high).trans (pow_le_pow_right₀ (by norm_num) (by norm_num))
  refine ⟨i0, i1, i2, circumcenter p0 p1 p2, ⟨hs, sub (P := fun p0 p1 p2 => 0 < area (exactV p0) (exactV p1) (exactV p2)) S.pos,
    sub (P := fun p0 p1 p2 => ∀ v ∈ Vs, 0 ≤ inCircleDet (exactV p0) (exactV p1) (exactV p2) (exactV v)) hemp, ?_, ⟨cx.fin, cy.fin⟩, ⟨hbig cx, hbig cy⟩, ?_, ?_⟩, ?_⟩
  · exact hW.margin.emptySeed hfin hW.distinct S.d01 S.d12 S.d20
      (sub (P := fun p0 p1 p2 => ∀ v ∈ Vs, 0 ≤ inCircleDet (exactV p0) (exactV p1) (exactV p2) (exactV v)) hemp)
  · intro v hv
    obtain ⟨s1, s2⟩ := hW.margin.size v hv
    exact ⟨hsz _ s1, hsz _ s2⟩
  · intro v hv
    refine hW.centre_other hfin (mem h0) (mem h1) (mem h2) n01 n12 n20 ?_
    have := hemp v hv
    rw [det_center hD0] at this
    have := nonneg_of_mul_nonneg_right this S.pos
    linarith
  · refine sub (P := fun p0 p1 p2 => ∀ v ∈ Vs, ∀ w ∈ Vs, ¬ R3.SquaredDistance w _ < R3.SquaredDistance v _ →
      dist2 (exactV v) (circumcenter (exactV p0) (exactV p1) (exactV p2)) ≤ dist2 (exactV w) (circumcenter (exactV p0) (exactV p1) (exactV p2))) ?_
    intro v hv w hw hlt
    have av := centre_dist_app hW.low40 hW.high hW.one hW.cap' (hW.margin.bounded hfin hv) (planar_z hfin hv) (o := circumcenter p0 p1 p2) rfl cx cy
    have aw := centre_dist_app hW.low40 hW.high hW.one hW.cap' (hW.margin.bounded hfin hw) (planar_z hfin hw) (o := circumcenter p0 p1 p2) rfl cx cy
    rw [lt_fin aw.fin av.fin, not_lt] at hlt
    exact av.order aw (hW.gap (by norm_num)) (hW.order _ (memE (mem h0)) _ (memE (mem h1)) _ (memE (mem h2)) S.pos S.empty _ (memE hv) _ (memE hw)) hlt

end

end Verif.Proofs
