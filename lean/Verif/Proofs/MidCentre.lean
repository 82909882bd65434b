import Verif.Proofs.MidFloat
import Verif.Proofs.MidOrder
/-!
# Distances from the computed centre at binary64 for integer coordinates of size at most 512
-/
namespace Verif.Proofs
open Verif Verif.F64 Verif.Tri2 Verif.Props

/-! ## Exact relations -/

/-- the exact centre relative to the first corner -/
def cX (a b c : R3.Vector ℤ) : ℚ := (nxZ a b c : ℚ) * (1/2) / dZ a b c
def cY (a b c : R3.Vector ℤ) : ℚ := (nyZ a b c : ℚ) * (1/2) / dZ a b c

/-- the slope that gives the size of the circle -/
def kOf (a b c : R3.Vector ℤ) : ℚ := (fZ a b c : ℚ) / dZ a b c

/-- the power of a point with respect to the circle -/
def powr (a b c v : R3.Vector ℤ) : ℚ := fZ a b v - kOf a b c * dZ a b v

theorem cen_pow {a b c : R3.Vector ℤ} (hd : dZ a b c ≠ 0) (v : R3.Vector ℤ) :
    ((v.X:ℚ) - (a.X + cX a b c)) ^ 2 + ((v.Y:ℚ) - (a.Y + cY a b c)) ^ 2 = cX a b c ^ 2 + cY a b c ^ 2 + powr a b c v := by
  have hq : (dZ a b c : ℚ) ≠ 0 := by exact_mod_cast hd
  unfold cX cY powr kOf
  field_simp
  simp only [nxZ, nyZ, dZ, fZ]
  push_cast
  ring

theorem cen_rad {a b c : R3.Vector ℤ} (hd : dZ a b c ≠ 0) : cX a b c ^ 2 + cY a b c ^ 2 = (lZ a b : ℚ) / 4 * (1 + kOf a b c ^ 2) := by
  have hq : (dZ a b c : ℚ) ≠ 0 := by exact_mod_cast hd
  unfold cX cY kOf
  field_simp
  simp only [nxZ, nyZ, dZ, fZ, lZ]
  push_cast
  ring

theorem cen_swap (a b c : R3.Vector ℤ) : cX a c b = cX a b c ∧ cY a c b = cY a b c := by
  have e1 : nxZ a c b = - nxZ a b c := by simp only [nxZ]; ring
  have e2 : nyZ a c b = - nyZ a b c := by simp only [nyZ]; ring
  have e3 : dZ a c b = - dZ a b c := by simp only [dZ]; ring
  unfold cX cY
  rw [e1, e2, e3]
  push_cast
  exact ⟨by rw [neg_mul, neg_div_neg_eq], by rw [neg_mul, neg_div_neg_eq]⟩

/-! ## The computed centre -/

/-- `(ox, oy)` is as close to the exact centre as the computed one -/
structure NearC (a b c : R3.Vector ℤ) (ox oy : ℚ) : Prop where
  ex : |ox - (a.X + cX a b c)| ≤ 3 * uro * (|cX a b c| + 256)
  ey : |oy - (a.Y + cY a b c)| ≤ 3 * uro * (|cY a b c| + 256)

def tdist (ox oy : ℚ) (v : R3.Vector ℤ) : ℚ := ((v.X:ℚ) - ox) ^ 2 + ((v.Y:ℚ) - oy) ^ 2

theorem amgm (x : ℚ) : |x| ≤ x ^ 2 / 2 ^ 10 + 2 ^ 8 := by
  rw [← sq_abs x]
  nlinarith [sq_nonneg (|x| / 2 ^ 5 - 2 ^ 4)]

section
variable {a b c : R3.Vector ℤ} {ox oy : ℚ}

theorem NearC.diff (h : NearC a b c ox oy) (hd : dZ a b c ≠ 0) (hL : (lZ a b : ℚ) ≤ 2 ^ 21) {p q : R3.Vector ℤ} (hx : |q.X - p.X| ≤ 1024) (hy : |q.Y - p.Y| ≤ 1024) :
    |(tdist ox oy q - tdist ox oy p) - (powr a b c q - powr a b c p)| ≤ 3 / 2 * uro * lZ a b * kOf a b c ^ 2 + 1 / 2 ^ 28 := by
  have hup := uro_pos
  have hx' : |(q.X:ℚ) - p.X| ≤ 1024 := by exact_mod_cast hx
  have hy' : |(q.Y:ℚ) - p.Y| ≤ 1024 := by exact_mod_cast hy
  have e1 := cen_pow hd q
  have e2 := cen_pow hd p
  have e3 : (tdist ox oy q - tdist ox oy p) - (powr a b c q - powr a b c p)
      = -(2 * (((q.X:ℚ) - p.X) * (ox - (a.X + cX a b c)))) - 2 * (((q.Y:ℚ) - p.Y) * (oy - (a.Y + cY a b c))) := by
    unfold tdist
    linear_combination e1 - e2
  have m1 : |((q.X:ℚ) - p.X) * (ox - (a.X + cX a b c))| ≤ 1024 * (3 * uro * (|cX a b c| + 256)) := by
    rw [abs_mul]; exact mul_le_mul hx' h.ex (abs_nonneg _) (by norm_num)
  have m2 : |((q.Y:ℚ) - p.Y) * (oy - (a.Y + cY a b c))| ≤ 1024 * (3 * uro * (|cY a b c| + 256)) := by
    rw [abs_mul]; exact mul_le_mul hy' h.ey (abs_nonneg _) (by norm_num)
  have hr := cen_rad hd
  have g1 := amgm (cX a b c)
  have g2 := amgm (cY a b c)
  have hs : |cX a b c| + |cY a b c| ≤ ((lZ a b : ℚ) / 4 * (1 + kOf a b c ^ 2)) / 2 ^ 10 + 2 ^ 9 := by
    rw [← hr]; linarith
  rw [e3]
  refine (abs_sub _ _).trans ?_
  rw [abs_neg, abs_mul 2, abs_mul 2, abs_of_pos (show (0:ℚ) < 2 by norm_num)]
  have hs2 := mul_le_mul_of_nonneg_left hs (show 0 ≤ 6144 * uro by positivity)
  have hs3 : 3 / 2 * uro * (lZ a b : ℚ) ≤ 3 / 2 * uro * 2 ^ 21 := mul_le_mul_of_nonneg_left hL (by positivity)
  have hc : 3 / 2 * uro * 2 ^ 21 + 6144 * uro * 2 ^ 9 + 6144 * uro * 512 ≤ 1 / 2 ^ 28 := by unfold uro; norm_num
  have e5 : 6144 * uro * ((lZ a b : ℚ) / 4 * (1 + kOf a b c ^ 2) / 2 ^ 10 + 2 ^ 9) = 3 / 2 * uro * (lZ a b : ℚ) + 3 / 2 * uro * lZ a b * kOf a b c ^ 2 + 6144 * uro * 2 ^ 9 := by ring
  rw [e5] at hs2
  linarith

theorem NearC.le (h : NearC a b c ox oy) (hd : dZ a b c ≠ 0) (hL : (lZ a b : ℚ) ≤ 2 ^ 21) {v : R3.Vector ℤ} (hv : powr a b c v ≤ 2 ^ 22) :
    tdist ox oy v ≤ 101 / 100 * ((lZ a b : ℚ) / 4 * (1 + kOf a b c ^ 2)) + 3 * 2 ^ 21 := by
  have hup := uro_pos
  have e1 := cen_pow hd v
  have hr := cen_rad hd
  obtain ⟨X, hX⟩ : ∃ X, X = cX a b c := ⟨_, rfl⟩
  obtain ⟨Y, hY⟩ : ∃ Y, Y = cY a b c := ⟨_, rfl⟩
  have h1 := h.ex
  have h2 := h.ey
  rw [← hr]
  rw [← hX] at e1 h1 ⊢
  rw [← hY] at e1 h2 ⊢
  obtain ⟨e, he⟩ : ∃ e, e = ox - (a.X + X) := ⟨_, rfl⟩
  obtain ⟨g, hg⟩ : ∃ g, g = oy - (a.Y + Y) := ⟨_, rfl⟩
  rw [← he] at h1
  rw [← hg] at h2
  have sqb : ∀ {z w : ℚ}, |w| ≤ 3 * uro * (|z| + 256) → w ^ 2 ≤ 1 / 2 ^ 30 * (z ^ 2 + 2 ^ 16) := by
    intro z w hw
    have h3 : w ^ 2 ≤ (3 * uro * (|z| + 256)) ^ 2 := by
      rw [← sq_abs w]; exact pow_le_pow_left₀ (abs_nonneg _) hw 2
    have h4 : (|z| + 256) ^ 2 ≤ 2 * (z ^ 2 + 2 ^ 16) := by
      rw [← sq_abs z]; nlinarith [sq_nonneg (|z| - 256)]
    calc w ^ 2 ≤ (3 * uro) ^ 2 * (|z| + 256) ^ 2 := by rw [← mul_pow]; exact h3
      _ ≤ (3 * uro) ^ 2 * (2 * (z ^ 2 + 2 ^ 16)) := mul_le_mul_of_nonneg_left h4 (by positivity)
      _ = ((3 * uro) ^ 2 * 2) * (z ^ 2 + 2 ^ 16) := by ring
      _ ≤ 1 / 2 ^ 30 * (z ^ 2 + 2 ^ 16) := mul_le_mul_of_nonneg_right (by unfold uro; norm_num) (by positivity)
  have s1 := sqb h1
  have s2 := sqb h2
  have two : ∀ s t : ℚ, (s - t) ^ 2 ≤ (1 + 1 / 2 ^ 10) * s ^ 2 + 2 ^ 11 * t ^ 2 := by
    intro s t
    nlinarith [sq_nonneg (s / 2 ^ 5 + 2 ^ 5 * t), sq_nonneg t]
  have t1 := two ((v.X:ℚ) - (a.X + X)) e
  have t2 := two ((v.Y:ℚ) - (a.Y + Y)) g
  have q1 : (v.X:ℚ) - ox = ((v.X:ℚ) - (a.X + X)) - e := by rw [he]; ring
  have q2 : (v.Y:ℚ) - oy = ((v.Y:ℚ) - (a.Y + Y)) - g := by rw [hg]; ring
  unfold tdist
  rw [q1, q2]
  have p1 := sq_nonneg X
  have p2 := sq_nonneg Y
  generalize ((v.X:ℚ) - (a.X + X)) ^ 2 = A at *
  generalize ((v.Y:ℚ) - (a.Y + Y)) ^ 2 = B at *
  norm_num at hv s1 s2 t1 t2 e1 ⊢
  linarith

end

/-! ## The computed distance -/

theorem rnd_abs_err2 (x : ℚ) : |rnd x - x| ≤ uro * |x| + 1 / 2 ^ 200 :=
  (rnd_abs_err x).trans (add_le_add le_rfl (one_div_le_one_div_of_le (by positivity) (pow_le_pow_right₀ (by norm_num) (by norm_num))))

/-- the computed square of a difference -/
theorem sq_err {x y : F64} (hx : x.Finite) (hy : y.Finite) (hb : |x.toQ - y.toQ| ≤ 2 ^ 40) :
    ((x - y) * (x - y)).Finite ∧ |((x - y) * (x - y)).toQ - (x.toQ - y.toQ) ^ 2| ≤ 31 / 10 * uro * (x.toQ - y.toQ) ^ 2 + 1 / 2 ^ 100 := by
  have hup := uro_pos
  have hu1 : uro ≤ 1 / 2 ^ 53 := uro_small
  obtain ⟨D, hD⟩ : ∃ D, D = x.toQ - y.toQ := ⟨_, rfl⟩
  rw [← hD] at hb ⊢
  obtain ⟨f1, v1⟩ := sub_fin hx hy (by rw [← hD]; exact rnd_small (hb.trans (pow_le_pow_right₀ (by norm_num) (by norm_num))))
  rw [← hD] at v1
  have r1 := rnd_abs_err2 D
  rw [← v1] at r1
  obtain ⟨Y, hY⟩ : ∃ Y, Y = (x - y).toQ := ⟨_, rfl⟩
  rw [← hY] at r1
  have hD0 := abs_nonneg D
  have b1 : |Y + D| ≤ (2 + uro) * |D| + 1 / 2 ^ 200 := by
    have e : Y + D = (Y - D) + D + D := by ring
    rw [e]
    refine (abs_add_three _ _ _).trans ?_
    linarith
  have t0 : (0:ℚ) < 1 / 2 ^ 200 := by positivity
  obtain ⟨t, ht⟩ : ∃ t : ℚ, t = 1 / 2 ^ 200 := ⟨_, rfl⟩
  rw [← ht] at r1 b1 t0
  have d1 : |Y * Y - D ^ 2| ≤ 201 / 100 * uro * D ^ 2 + 1 / 2 ^ 150 := by
    have e : Y * Y - D ^ 2 = (Y - D) * (Y + D) := by ring
    rw [e, abs_mul]
    refine (mul_le_mul r1 b1 (abs_nonneg _) (by positivity)).trans ?_
    have e2 : (uro * |D| + t) * ((2 + uro) * |D| + t) = (uro * (2 + uro)) * |D| ^ 2 + t * ((2 + 2 * uro) * |D| + t) := by ring
    rw [e2, sq_abs]
    have h1 : uro * (2 + uro) * D ^ 2 ≤ 201 / 100 * uro * D ^ 2 := by
      apply mul_le_mul_of_nonneg_right _ (sq_nonneg _)
      rw [mul_comm]
      apply mul_le_mul_of_nonneg_right _ hup.le
      norm_num at hu1 ⊢; linarith
    have h2 : (2 + 2 * uro) * |D| + t ≤ 2 ^ 43 := by
      have : (2 + 2 * uro) * |D| ≤ 3 * 2 ^ 40 := mul_le_mul (by norm_num at hu1 ⊢; linarith) hb hD0 (by norm_num)
      have h3 : t ≤ 1 := by rw [ht]; norm_num
      norm_num at this ⊢; linarith
    have h4 : t * ((2 + 2 * uro) * |D| + t) ≤ t * 2 ^ 43 := mul_le_mul_of_nonneg_left h2 t0.le
    have h5 : t * 2 ^ 43 ≤ 1 / 2 ^ 150 := by rw [ht]; norm_num
    linarith
  have hDD : D ^ 2 ≤ 2 ^ 80 := by
    rw [← sq_abs]
    calc |D| ^ 2 ≤ (2 ^ 40) ^ 2 := pow_le_pow_left₀ hD0 hb 2
      _ = 2 ^ 80 := by norm_num
  have hD2 := sq_nonneg D
  have b2 : |Y * Y| ≤ 101 / 100 * D ^ 2 + 1 / 2 ^ 150 := by
    have e : Y * Y = (Y * Y - D ^ 2) + D ^ 2 := by ring
    rw [e]
    refine (abs_add_le _ _).trans ?_
    rw [abs_of_nonneg hD2]
    have : 201 / 100 * uro * D ^ 2 ≤ 1 / 100 * D ^ 2 := mul_le_mul_of_nonneg_right (by norm_num at hu1 ⊢; linarith) hD2
    linarith
  obtain ⟨f2, v2⟩ := mul_fin f1 f1 (by
    rw [← hY]
    apply rnd_small
    refine b2.trans ?_
    norm_num at hDD ⊢; linarith)
  refine ⟨f2, ?_⟩
  rw [v2, ← hY]
  have r2 := rnd_abs_err2 (Y * Y)
  have e : rnd (Y * Y) - D ^ 2 = (rnd (Y * Y) - Y * Y) + (Y * Y - D ^ 2) := by ring
  rw [e]
  refine (abs_add_le _ _).trans ?_
  have h6 : uro * |Y * Y| ≤ uro * (101 / 100 * D ^ 2 + 1 / 2 ^ 150) := mul_le_mul_of_nonneg_left b2 hup.le
  have h7 : uro * (101 / 100 * D ^ 2 + 1 / 2 ^ 150) = 101 / 100 * (uro * D ^ 2) + uro * (1 / 2 ^ 150) := by ring
  have h8 : uro * (1 / 2 ^ 150) ≤ 1 * (1 / 2 ^ 150) := mul_le_mul_of_nonneg_right (by norm_num at hu1 ⊢; linarith) (by positivity)
  have h9 : 0 ≤ uro * D ^ 2 := by positivity
  have h10 : (1:ℚ) / 2 ^ 150 + 1 / 2 ^ 150 + 1 / 2 ^ 200 ≤ 1 / 2 ^ 100 := by norm_num
  linarith

/-- the computed squared distance from `o` -/
theorem dist_err {p o : R3.Vector F64} {e : R3.Vector ℤ} (hp : MPt p e) (hz : o.Z = 0) (fx : o.X.Finite) (fy : o.Y.Finite)
    (bx : |(e.X:ℚ) - o.X.toQ| ≤ 2 ^ 40) (bY : |(e.Y:ℚ) - o.Y.toQ| ≤ 2 ^ 40) :
    (R3.SquaredDistance p o).Finite ∧
      |(R3.SquaredDistance p o).toQ - tdist o.X.toQ o.Y.toQ e| ≤ 53 / 10 * uro * tdist o.X.toQ o.Y.toQ e + 1 / 2 ^ 90 := by
  have hup := uro_pos
  have hu1 : uro ≤ 1 / 2 ^ 53 := uro_small
  rw [← hp.x.val] at bx
  rw [← hp.y.val] at bY
  obtain ⟨f1, e1⟩ := sq_err hp.x.fin fx bx
  obtain ⟨f2, e2⟩ := sq_err hp.y.fin fy bY
  have hz0 : Ex (p.Z - o.Z) 0 0 := by
    have := hp.z.sub Ex.zero (by norm_num)
    rw [hz]
    rw [hp.z0, sub_zero] at this
    exact this
  have hz2 : Ex ((p.Z - o.Z) * (p.Z - o.Z)) 0 0 := by
    have := hz0.mul hz0 (by norm_num)
    simpa using this
  show ((p.X - o.X) * (p.X - o.X) + (p.Y - o.Y) * (p.Y - o.Y) + (p.Z - o.Z) * (p.Z - o.Z)).Finite ∧
    |((p.X - o.X) * (p.X - o.X) + (p.Y - o.Y) * (p.Y - o.Y) + (p.Z - o.Z) * (p.Z - o.Z)).toQ - _| ≤ _
  unfold tdist
  rw [← hp.x.val, ← hp.y.val]
  have sqx : (p.X.toQ - o.X.toQ) ^ 2 ≤ 2 ^ 80 := by
    rw [← sq_abs]
    calc |p.X.toQ - o.X.toQ| ^ 2 ≤ (2 ^ 40) ^ 2 := pow_le_pow_left₀ (abs_nonneg _) bx 2
      _ = 2 ^ 80 := by norm_num
  have sqy : (p.Y.toQ - o.Y.toQ) ^ 2 ≤ 2 ^ 80 := by
    rw [← sq_abs]
    calc |p.Y.toQ - o.Y.toQ| ^ 2 ≤ (2 ^ 40) ^ 2 := pow_le_pow_left₀ (abs_nonneg _) bY 2
      _ = 2 ^ 80 := by norm_num
  have px := sq_nonneg (p.X.toQ - o.X.toQ)
  have py := sq_nonneg (p.Y.toQ - o.Y.toQ)
  generalize (p.X.toQ - o.X.toQ) ^ 2 = A at *
  generalize (p.Y.toQ - o.Y.toQ) ^ 2 = B at *
  generalize (p.X - o.X) * (p.X - o.X) = x at *
  generalize (p.Y - o.Y) * (p.Y - o.Y) = y at *
  generalize (p.Z - o.Z) * (p.Z - o.Z) = z at *
  obtain ⟨T, hT⟩ : ∃ T, T = A + B := ⟨_, rfl⟩
  have hT0 : 0 ≤ T := by rw [hT]; linarith
  have hTb : T ≤ 2 ^ 81 := by rw [hT]; norm_num at *; linarith
  have s0 : |x.toQ + y.toQ - T| ≤ 31 / 10 * (uro * T) + 1 / 2 ^ 99 := by
    have e : x.toQ + y.toQ - T = (x.toQ - A) + (y.toQ - B) := by rw [hT]; ring
    rw [e]; refine (abs_add_le _ _).trans ?_
    have : (1:ℚ) / 2 ^ 99 = 1 / 2 ^ 100 + 1 / 2 ^ 100 := by norm_num
    rw [this, hT]; linarith
  have huT : uro * T ≤ 1 / 2 ^ 53 * T := mul_le_mul_of_nonneg_right hu1 hT0
  have huT0 : 0 ≤ uro * T := mul_nonneg hup.le hT0
  have step : ∀ {s : ℚ} {κ ε : ℚ}, κ ≤ 10 → 0 ≤ ε → ε ≤ 1 / 2 ^ 95 → |s - T| ≤ κ * (uro * T) + ε → |s| ≤ 2 ^ 100 ∧ |rnd s - T| ≤ (κ + 105 / 100) * (uro * T) + (2 * ε + 1 / 2 ^ 199) := by
    intro s κ ε hκ hε1 hε hs
    have hε0 : 0 ≤ κ * (uro * T) + ε := (abs_nonneg _).trans hs
    have hk : κ * (uro * T) ≤ 10 * (uro * T) := mul_le_mul_of_nonneg_right hκ huT0
    have hs1 : |s| ≤ T + (κ * (uro * T) + ε) := by
      have e : s = (s - T) + T := by ring
      rw [e]; refine (abs_add_le _ _).trans ?_
      rw [abs_of_nonneg hT0]; linarith
    refine ⟨by norm_num at hTb huT hε ⊢; linarith, ?_⟩
    have r := rnd_abs_err2 s
    have e : rnd s - T = (rnd s - s) + (s - T) := by ring
    rw [e]; refine (abs_add_le _ _).trans ?_
    have h1 : uro * |s| ≤ uro * T + uro * (κ * (uro * T) + ε) := by
      rw [← mul_add]; exact mul_le_mul_of_nonneg_left hs1 hup.le
    have h2 : uro * (κ * (uro * T) + ε) ≤ 1 / 2 ^ 53 * (κ * (uro * T) + ε) := mul_le_mul_of_nonneg_right hu1 hε0
    have h3 : (1:ℚ) / 2 ^ 200 ≤ 1 / 2 ^ 199 := by norm_num
    have h4 : 1 / 2 ^ 53 * (κ * (uro * T) + ε) ≤ 5 / 100 * (uro * T) + ε := by norm_num at hk ⊢; linarith
    linarith
  obtain ⟨c1, d1⟩ := step (by norm_num) (by positivity) (by norm_num) s0
  obtain ⟨f3, v3⟩ := add_fin f1 f2 (rnd_small (c1.trans (by norm_num)))
  rw [← v3] at d1
  have zv : z.toQ = 0 := by rw [hz2.val]; simp
  obtain ⟨c2, d2⟩ := step (by norm_num) (by positivity) (by norm_num) d1
  obtain ⟨f4, v4⟩ := add_fin f3 hz2.fin (by rw [zv, add_zero]; exact rnd_small (c2.trans (by norm_num)))
  rw [zv, add_zero] at v4
  refine ⟨f4, ?_⟩
  rw [v4, ← hT]
  refine d2.trans ?_
  norm_num
  linarith

end Verif.Proofs
