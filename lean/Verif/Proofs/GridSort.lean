import Verif.Proofs.GridSeeds
import Verif.Props.Delaunay
import Verif.Props.R3Float
/-!
# The centre, the hash keys and the order of the ids at binary64 for small integer coordinates
-/
namespace Verif.Proofs
open Verif Verif.F64 Verif.Tri2 Verif.Props

/-- the bound for the rounding of numbers below the normal range -/
theorem tiny_uro : (1:ℚ) / 2 ^ 1000 ≤ uro := by
  unfold uro
  exact one_div_le_one_div_of_le (by positivity) (pow_le_pow_right₀ (by norm_num) (by norm_num))

theorem rnd_abs_err' (x : ℚ) : |rnd x - x| ≤ uro * |x| + uro :=
  (rnd_abs_err x).trans (by have := tiny_uro; gcongr)

theorem uro_small : uro ≤ 1 / 2 ^ 53 := by unfold uro; norm_num

section
variable {M : ℚ}

theorem fin_of_le {x : ℚ} (h : |x| ≤ 2 ^ 60) : |rnd x| < 2 ^ 1024 := rnd_small (h.trans (pow_le_pow_right₀ (by norm_num) (by norm_num)))

/-- one coordinate of the centre -/
theorem ctr_coord {p q : F64} {n : ℤ} {x : ℚ} (hp : Ex p n 64) (hq : Rel q x 1) (hM : |x| + 256 ≤ M) (hM2 : M ≤ 2 ^ 23) :
    (p + q).Finite ∧ |(p + q).toQ - (n + x)| ≤ 3 * uro * M := by
  have hn : |(n:ℚ)| ≤ 64 := by exact_mod_cast hp.le
  have he := hq.err
  have hx := abs_nonneg x
  have hu : (1 + uro) ^ 1 - 1 = uro := by ring
  rw [hu] at he
  have hup := uro_pos
  have h1 : uro * |x| ≤ 1 * |x| := mul_le_mul_of_nonneg_right (by unfold uro; norm_num) hx
  have h2 : uro * |x| ≤ 1 := by
    calc uro * |x| ≤ uro * 2 ^ 23 := mul_le_mul_of_nonneg_left (by linarith) hup.le
      _ ≤ 1 := by unfold uro; norm_num
  have hs : |(n:ℚ) + q.toQ| ≤ M := by
    have e : (n:ℚ) + q.toQ = n + x + (q.toQ - x) := by ring
    rw [e]
    refine (abs_add_three _ _ _).trans ?_
    linarith
  obtain ⟨f, v⟩ := add_fin hp.fin hq.fin (by rw [hp.val]; exact fin_of_le (hs.trans (hM2.trans (by norm_num))))
  refine ⟨f, ?_⟩
  rw [v, hp.val]
  have hr := rnd_abs_err' ((n:ℚ) + q.toQ)
  have e : rnd ((n:ℚ) + q.toQ) - (n + x) = (rnd ((n:ℚ) + q.toQ) - (n + q.toQ)) + (q.toQ - x) := by ring
  rw [e]
  refine (abs_add_le _ _).trans ?_
  have h3 : uro * |(n:ℚ) + q.toQ| ≤ uro * M := mul_le_mul_of_nonneg_left hs hup.le
  have h4 : uro * (|x| + 1) ≤ uro * M := mul_le_mul_of_nonneg_left (by linarith) hup.le
  have h5 : 0 ≤ uro * M := mul_nonneg hup.le (by linarith)
  linarith

/-- squaring an approximation -/
theorem sq_coord {y : F64} {X : ℚ} (hy : y.Finite) (d1 : |y.toQ - X| ≤ 5 * uro * M) (hX : |X| ≤ M) (hM1 : 256 ≤ M) (hM2 : M ≤ 2 ^ 23) :
    (y * y).Finite ∧ |(y * y).toQ - X ^ 2| ≤ 13 * uro * M ^ 2 ∧ X ^ 2 ≤ M ^ 2 := by
  have hup := uro_pos
  have hM0 : 0 < M := by linarith
  have huM : uro * M ≤ 1 / 1000 := by
    calc uro * M ≤ uro * 2 ^ 23 := mul_le_mul_of_nonneg_left hM2 hup.le
      _ ≤ 1 / 1000 := by unfold uro; norm_num
  have huM0 : 0 < uro * M := mul_pos hup hM0
  obtain ⟨Y, hY⟩ : ∃ Y, Y = y.toQ := ⟨_, rfl⟩
  rw [← hY] at d1
  have hYX : |Y + X| ≤ 2 * M + 1 / 100 := by
    have e : Y + X = (Y - X) + X + X := by ring
    rw [e]
    have := abs_add_three (Y - X) X X
    linarith
  have hYb : |Y| ≤ M + 1 / 100 := by
    have := abs_add_le (Y - X) X
    rw [sub_add_cancel] at this
    linarith
  have d2 : |Y * Y - X ^ 2| ≤ 11 * uro * M ^ 2 := by
    have e : Y * Y - X ^ 2 = (Y - X) * (Y + X) := by ring
    rw [e, abs_mul]
    calc |Y - X| * |Y + X| ≤ (5 * uro * M) * (2 * M + 1 / 100) := mul_le_mul d1 hYX (abs_nonneg _) (by positivity)
      _ = (uro * M) * (10 * M + 1 / 20) := by ring
      _ ≤ (uro * M) * (11 * M) := mul_le_mul_of_nonneg_left (by linarith) huM0.le
      _ = 11 * uro * M ^ 2 := by ring
  have hYY : |Y * Y| ≤ M ^ 2 + M := by
    rw [abs_mul]
    calc |Y| * |Y| ≤ (M + 1 / 100) * (M + 1 / 100) := mul_le_mul hYb hYb (abs_nonneg _) (by linarith)
      _ = M ^ 2 + (1 / 50 * M + 1 / 10000) := by ring
      _ ≤ M ^ 2 + M := by linarith
  have hMM : M ^ 2 ≤ 2 ^ 46 := by
    calc M ^ 2 ≤ (2 ^ 23) ^ 2 := pow_le_pow_left₀ hM0.le hM2 2
      _ = 2 ^ 46 := by norm_num
  obtain ⟨f2, v2⟩ := mul_fin hy hy (by rw [← hY]; exact fin_of_le (hYY.trans (by linarith [show (2:ℚ) ^ 46 + 2 ^ 23 ≤ 2 ^ 60 by norm_num])))
  refine ⟨f2, ?_, ?_⟩
  · rw [v2, ← hY]
    have hr := rnd_abs_err' (Y * Y)
    have e : rnd (Y * Y) - X ^ 2 = (rnd (Y * Y) - Y * Y) + (Y * Y - X ^ 2) := by ring
    rw [e]
    refine (abs_add_le _ _).trans ?_
    have h3 : uro * |Y * Y| ≤ uro * (M ^ 2 + M) := mul_le_mul_of_nonneg_left hYY hup.le
    have h5 : M + 1 ≤ M ^ 2 := by rw [sq]; linarith [mul_le_mul_of_nonneg_right hM1 hM0.le]
    have h4 : uro * (M + 1) ≤ uro * M ^ 2 := mul_le_mul_of_nonneg_left h5 hup.le
    linarith
  · rw [← sq_abs X]; exact pow_le_pow_left₀ (abs_nonneg _) hX 2

/-- the square of the difference of a coordinate and that of the centre -/
theorem diff_sq {p c : F64} {n : ℤ} {C : ℚ} (hp : Ex p n 64) (hc : c.Finite) (he : |c.toQ - C| ≤ 3 * uro * M) (hM : |C| + 64 ≤ M) (hM1 : 256 ≤ M) (hM2 : M ≤ 2 ^ 23) :
    ((p - c) * (p - c)).Finite ∧ |((p - c) * (p - c)).toQ - (n - C) ^ 2| ≤ 13 * uro * M ^ 2 ∧ (n - C) ^ 2 ≤ M ^ 2 := by
  have hn : |(n:ℚ)| ≤ 64 := by exact_mod_cast hp.le
  have hup := uro_pos
  have hM0 : 0 < M := by linarith
  have huM : uro * M ≤ 1 / 1000 := by
    calc uro * M ≤ uro * 2 ^ 23 := mul_le_mul_of_nonneg_left hM2 hup.le
      _ ≤ 1 / 1000 := by unfold uro; norm_num
  have huM0 : 0 < uro * M := mul_pos hup hM0
  have hX : |(n:ℚ) - C| ≤ M := (abs_sub _ _).trans (by linarith)
  have hXc : |(n:ℚ) - c.toQ| ≤ M + 1 := by
    have e : (n:ℚ) - c.toQ = (n - C) - (c.toQ - C) := by ring
    rw [e]; refine (abs_sub _ _).trans ?_; linarith
  obtain ⟨f1, v1⟩ := sub_fin hp.fin hc (by rw [hp.val]; exact fin_of_le (hXc.trans (by linarith [show (2:ℚ) ^ 23 + 1 ≤ 2 ^ 60 by norm_num])))
  have d1 : |(p - c).toQ - (n - C)| ≤ 5 * uro * M := by
    rw [v1, hp.val]
    have hr := rnd_abs_err' ((n:ℚ) - c.toQ)
    have e : rnd ((n:ℚ) - c.toQ) - (n - C) = (rnd ((n:ℚ) - c.toQ) - (n - c.toQ)) - (c.toQ - C) := by ring
    rw [e]
    refine (abs_sub _ _).trans ?_
    have h3 : uro * |(n:ℚ) - c.toQ| ≤ uro * (M + 1) := mul_le_mul_of_nonneg_left hXc hup.le
    have h4 : uro * 2 ≤ uro * M := mul_le_mul_of_nonneg_left (by linarith) hup.le
    linarith
  exact sq_coord f1 d1 hX hM1 hM2

/-- adding two of them, and the square for `Z` -/
theorem add_sq {x y z : F64} {X Y : ℚ} (hx : x.Finite) (hy : y.Finite) (hz : Ex z 0 0) (ex : |x.toQ - X| ≤ 13 * uro * M ^ 2) (ey : |y.toQ - Y| ≤ 13 * uro * M ^ 2)
    (pX : 0 ≤ X) (pY : 0 ≤ Y) (bX : X ≤ M ^ 2) (bY : Y ≤ M ^ 2) (hM1 : 256 ≤ M) (hM2 : M ≤ 2 ^ 23) :
    (x + y + z).Finite ∧ |(x + y + z).toQ - (X + Y)| ≤ 34 * uro * M ^ 2 := by
  have hup := uro_pos
  have hMM : M ^ 2 ≤ 2 ^ 46 := by
    calc M ^ 2 ≤ (2 ^ 23) ^ 2 := pow_le_pow_left₀ (by linarith) hM2 2
      _ = 2 ^ 46 := by norm_num
  have hM0 : 1000 ≤ M ^ 2 := by nlinarith
  have hu1 : uro * M ^ 2 ≤ M ^ 2 / 1000 := by
    have := mul_le_mul_of_nonneg_right (show uro ≤ 1 / 1000 by unfold uro; norm_num) (show 0 ≤ M ^ 2 by positivity)
    linarith
  have s0 : |x.toQ + y.toQ - (X + Y)| ≤ 26 * uro * M ^ 2 := by
    have e : x.toQ + y.toQ - (X + Y) = (x.toQ - X) + (y.toQ - Y) := by ring
    rw [e]; refine (abs_add_le _ _).trans ?_; linarith
  have b0 : |x.toQ + y.toQ| ≤ 3 * M ^ 2 := by
    have e : x.toQ + y.toQ = (x.toQ + y.toQ - (X + Y)) + (X + Y) := by ring
    rw [e]; refine (abs_add_le _ _).trans ?_
    rw [abs_of_nonneg (add_nonneg pX pY)]; linarith
  obtain ⟨f1, v1⟩ := add_fin hx hy (fin_of_le (b0.trans (by linarith [show 3 * (2:ℚ) ^ 46 ≤ 2 ^ 60 by norm_num])))
  have hu2 : uro * 1000 ≤ uro * M ^ 2 := mul_le_mul_of_nonneg_left hM0 hup.le
  have s1 : |(x + y).toQ - (X + Y)| ≤ 29 * uro * M ^ 2 + uro := by
    rw [v1]
    have hr := rnd_abs_err' (x.toQ + y.toQ)
    have e : rnd (x.toQ + y.toQ) - (X + Y) = (rnd (x.toQ + y.toQ) - (x.toQ + y.toQ)) + (x.toQ + y.toQ - (X + Y)) := by ring
    rw [e]
    refine (abs_add_le _ _).trans ?_
    have h3 : uro * |x.toQ + y.toQ| ≤ uro * (3 * M ^ 2) := mul_le_mul_of_nonneg_left b0 hup.le
    linarith
  have b1 : |(x + y).toQ| ≤ 3 * M ^ 2 := by
    have e : (x + y).toQ = ((x + y).toQ - (X + Y)) + (X + Y) := by ring
    rw [e]; refine (abs_add_le _ _).trans ?_
    rw [abs_of_nonneg (add_nonneg pX pY)]; linarith
  have zv : z.toQ = 0 := by rw [hz.val]; simp
  obtain ⟨f2, v2⟩ := add_fin f1 hz.fin (by rw [zv, add_zero]; exact fin_of_le (b1.trans (by linarith [show 3 * (2:ℚ) ^ 46 ≤ 2 ^ 60 by norm_num])))
  refine ⟨f2, ?_⟩
  rw [v2, zv, add_zero]
  have hr := rnd_abs_err' ((x + y).toQ)
  have e : rnd (x + y).toQ - (X + Y) = (rnd (x + y).toQ - (x + y).toQ) + ((x + y).toQ - (X + Y)) := by ring
  rw [e]
  refine (abs_add_le _ _).trans ?_
  have h3 : uro * |(x + y).toQ| ≤ uro * (3 * M ^ 2) := mul_le_mul_of_nonneg_left b1 hup.le
  linarith

end

/-! ## The centre -/

/-- the size of the numbers computed from the centre -/
def Mz (d : ℤ) : ℚ := 2 ^ 22 / |(d:ℚ)| + 2 ^ 9

theorem Mz_bounds {d : ℤ} (hd : d ≠ 0) (hb : |d| ≤ 2 ^ 15) : 256 ≤ Mz d ∧ Mz d ≤ 2 ^ 23 ∧ 68 * uro * Mz d ^ 2 < 1 / |(d:ℚ)| := by
  have h1 : (1:ℚ) ≤ |(d:ℚ)| := by exact_mod_cast Int.one_le_abs hd
  have h2 : |(d:ℚ)| ≤ 2 ^ 15 := by exact_mod_cast hb
  unfold Mz
  set D : ℚ := |(d:ℚ)|
  have hD : 0 < D := by linarith
  have h3 : (2:ℚ) ^ 22 / D ≤ 2 ^ 22 := by
    rw [div_le_iff₀ hD]; nlinarith
  have h4 : 0 < (2:ℚ) ^ 22 / D := by positivity
  refine ⟨by linarith [show (256:ℚ) ≤ 2 ^ 9 by norm_num], by linarith [show (2:ℚ) ^ 22 + 2 ^ 9 ≤ 2 ^ 23 by norm_num], ?_⟩
  rw [lt_div_iff₀ hD]
  have e : 68 * uro * (2 ^ 22 / D + 2 ^ 9) ^ 2 * D = 68 * uro * (2 ^ 44 / D + 2 ^ 32 + 2 ^ 18 * D) := by field_simp; ring
  rw [e]
  have h5 : (2:ℚ) ^ 44 / D ≤ 2 ^ 44 := by
    rw [div_le_iff₀ hD]; nlinarith
  have h6 : 68 * uro * (2 ^ 44 / D + 2 ^ 32 + 2 ^ 18 * D) ≤ 68 * uro * (2 ^ 44 + 2 ^ 32 + 2 ^ 18 * 2 ^ 15) := by
    apply mul_le_mul_of_nonneg_left _ (by unfold uro; norm_num)
    linarith
  have h7 : 68 * uro * ((2:ℚ) ^ 44 + 2 ^ 32 + 2 ^ 18 * 2 ^ 15) < 1 := by unfold uro; norm_num
  linarith

theorem quot_bound {n d : ℤ} (hd : d ≠ 0) (hn : |n| ≤ 2 ^ 23) : |(n:ℚ) * (1/2) / d| + 512 ≤ Mz d := by
  have h1 : (1:ℚ) ≤ |(d:ℚ)| := by exact_mod_cast Int.one_le_abs hd
  have h2 : |(n:ℚ)| ≤ 2 ^ 23 := by exact_mod_cast hn
  unfold Mz
  rw [abs_div, abs_mul, abs_of_pos (show (0:ℚ) < 1/2 by norm_num)]
  have : |(n:ℚ)| * (1/2) / |(d:ℚ)| ≤ 2 ^ 22 / |(d:ℚ)| := by
    apply div_le_div_of_nonneg_right _ (by linarith)
    linarith
  norm_num at this ⊢; linarith

section
variable {u v w p q : R3.Vector F64} {a b c e f : R3.Vector ℤ}

/-- what is known about the computed centre `o` and the exact one -/
structure Ctr (a b c : R3.Vector ℤ) (o : R3.Vector F64) : Prop where
  d0 : dZ a b c ≠ 0
  db : |dZ a b c| ≤ 2 ^ 15
  z : o.Z = 0
  fx : o.X.Finite
  fy : o.Y.Finite
  ex : |o.X.toQ - (a.X + (nxZ a b c : ℚ) * (1/2) / dZ a b c)| ≤ 3 * uro * Mz (dZ a b c)
  ey : |o.Y.toQ - (a.Y + (nyZ a b c : ℚ) * (1/2) / dZ a b c)| ≤ 3 * uro * Mz (dZ a b c)
  bx : |a.X + (nxZ a b c : ℚ) * (1/2) / dZ a b c| + 64 ≤ Mz (dZ a b c)
  bY : |a.Y + (nyZ a b c : ℚ) * (1/2) / dZ a b c| + 64 ≤ Mz (dZ a b c)

theorem GPt.ctr (h0 : GPt u a) (h1 : GPt v b) (h2 : GPt w c) (hd : dZ a b c ≠ 0) : Ctr a b c (circumcenter u v w) := by
  have hb : |dZ a b c| ≤ 2 ^ 15 := (h0.dd h1 h2).le.trans (by norm_num)
  obtain ⟨m1, m2, _⟩ := Mz_bounds hd hb
  obtain ⟨⟨rx, _⟩, ry, _⟩ := h0.quots h1 h2 hd
  have qx := quot_bound hd ((h0.nx h1 h2).le.trans (by norm_num))
  have qy := quot_bound hd ((h0.ny h1 h2).le.trans (by norm_num))
  obtain ⟨f1, e1⟩ := ctr_coord h0.x rx (by linarith) m2
  obtain ⟨f2, e2⟩ := ctr_coord h0.y ry (by linarith) m2
  have n1 : |(a.X:ℚ)| ≤ 64 := by exact_mod_cast h0.x.le
  have n2 : |(a.Y:ℚ)| ≤ 64 := by exact_mod_cast h0.y.le
  refine ⟨hd, hb, rfl, f1, f2, e1, e2, ?_, ?_⟩
  · have := abs_add_le (a.X:ℚ) ((nxZ a b c : ℚ) * (1/2) / dZ a b c); linarith
  · have := abs_add_le (a.Y:ℚ) ((nyZ a b c : ℚ) * (1/2) / dZ a b c); linarith

theorem circumcenter_castQ : (circumcenter (castQ a) (castQ b) (castQ c)).X = a.X + (nxZ a b c : ℚ) * (1/2) / dZ a b c ∧
    (circumcenter (castQ a) (castQ b) (castQ c)).Y = a.Y + (nyZ a b c : ℚ) * (1/2) / dZ a b c := by
  simp only [circumcenter, castQ, goConst_field, nxZ, nyZ, dZ, Rat.cast_id]
  push_cast
  exact ⟨rfl, rfl⟩

/-- the squared distance from the computed centre -/
theorem Ctr.dist {o : R3.Vector F64} (C : Ctr a b c o) (hp : GPt p e) :
    (R3.SquaredDistance p o).Finite ∧ |(R3.SquaredDistance p o).toQ - dist2 (castQ e) (circumcenter (castQ a) (castQ b) (castQ c))| ≤ 34 * uro * Mz (dZ a b c) ^ 2 := by
  obtain ⟨m1, m2, _⟩ := Mz_bounds C.d0 C.db
  obtain ⟨f1, e1, b1⟩ := diff_sq hp.x C.fx C.ex C.bx m1 m2
  obtain ⟨f2, e2, b2⟩ := diff_sq hp.y C.fy C.ey C.bY m1 m2
  have hz : Ex (p.Z - o.Z) 0 0 := by
    have := hp.z.sub Ex.zero (by norm_num)
    rw [C.z]
    rw [hp.z0, sub_zero] at this
    exact this
  have hz2 : Ex ((p.Z - o.Z) * (p.Z - o.Z)) 0 0 := by
    have := hz.mul hz (by norm_num)
    simpa using this
  obtain ⟨f3, e3⟩ := add_sq f1 f2 hz2 e1 e2 (sq_nonneg _) (sq_nonneg _) b1 b2 m1 m2
  refine ⟨f3, ?_⟩
  have e4 : dist2 (castQ e) (circumcenter (castQ a) (castQ b) (castQ c)) = ((e.X:ℚ) - (a.X + (nxZ a b c : ℚ) * (1/2) / dZ a b c)) ^ 2 + ((e.Y:ℚ) - (a.Y + (nyZ a b c : ℚ) * (1/2) / dZ a b c)) ^ 2 := by
    unfold dist2; rw [circumcenter_castQ.1, circumcenter_castQ.2]; rfl
  rw [e4]
  exact e3

/-- the differences of the exact squared distances are multiples of `1/d` -/
theorem dist_gap (hd : dZ a b c ≠ 0) (h : dist2 (castQ e) (circumcenter (castQ a) (castQ b) (castQ c)) < dist2 (castQ f) (circumcenter (castQ a) (castQ b) (castQ c))) :
    1 / |(dZ a b c : ℚ)| ≤ dist2 (castQ f) (circumcenter (castQ a) (castQ b) (castQ c)) - dist2 (castQ e) (circumcenter (castQ a) (castQ b) (castQ c)) := by
  have hq : (dZ a b c : ℚ) ≠ 0 := by exact_mod_cast hd
  set k : ℤ := dZ a b c * (((f.X - a.X) ^ 2 + (f.Y - a.Y) ^ 2) - ((e.X - a.X) ^ 2 + (e.Y - a.Y) ^ 2)) - (f.X - e.X) * nxZ a b c - (f.Y - e.Y) * nyZ a b c with hk
  have key : (dist2 (castQ f) (circumcenter (castQ a) (castQ b) (castQ c)) - dist2 (castQ e) (circumcenter (castQ a) (castQ b) (castQ c))) * dZ a b c = k := by
    unfold dist2
    rw [circumcenter_castQ.1, circumcenter_castQ.2, hk]
    simp only [castQ]
    push_cast
    field_simp
    ring
  have hpos : 0 < dist2 (castQ f) (circumcenter (castQ a) (castQ b) (castQ c)) - dist2 (castQ e) (circumcenter (castQ a) (castQ b) (castQ c)) := by linarith
  generalize dist2 (castQ f) (circumcenter (castQ a) (castQ b) (castQ c)) - dist2 (castQ e) (circumcenter (castQ a) (castQ b) (castQ c)) = D at *
  have hk0 : k ≠ 0 := by
    intro h0
    rw [h0, Int.cast_zero] at key
    rcases mul_eq_zero.mp key with h | h
    · exact hpos.ne' h
    · exact hq h
  have h1 : (1:ℚ) ≤ |(k:ℚ)| := by exact_mod_cast Int.one_le_abs hk0
  rw [← key, abs_mul, abs_of_pos hpos] at h1
  rw [div_le_iff₀ (abs_pos.mpr hq)]; exact h1

/-- the order asked for by `Less` -/
theorem Ctr.order {o : R3.Vector F64} (C : Ctr a b c o) (hp : GPt p e) (hq : GPt q f) (h : idLess o q p = false) :
    dist2 (castQ e) (circumcenter (castQ a) (castQ b) (castQ c)) ≤ dist2 (castQ f) (circumcenter (castQ a) (castQ b) (castQ c)) := by
  obtain ⟨_, _, m3⟩ := Mz_bounds C.d0 C.db
  obtain ⟨fp, ep⟩ := C.dist hp
  obtain ⟨fq, eq⟩ := C.dist hq
  have hle : (R3.SquaredDistance p o).toQ ≤ (R3.SquaredDistance q o).toQ := by
    by_contra hlt
    rw [not_le] at hlt
    unfold idLess at h
    have h1 : (R3.SquaredDistance q o != R3.SquaredDistance p o) = true := by
      rw [bne, Bool.not_eq_true', ← Bool.not_eq_true, beq_fin fq fp]; exact hlt.ne
    simp only [h1, if_true, decide_eq_false_iff_not] at h
    exact h ((lt_fin fq fp).mpr hlt)
  by_contra hlt
  rw [not_le] at hlt
  have hg := dist_gap C.d0 hlt
  have h1 := (abs_le.mp ep).1
  have h2 := (abs_le.mp eq).2
  linarith

end

end Verif.Proofs
