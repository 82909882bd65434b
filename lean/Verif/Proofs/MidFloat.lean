import Verif.Proofs.GridSeeds
/-!
# The seed triangle at binary64 for integer coordinates of size at most 512 (triangulator.go:81-128)
-/
namespace Verif.Proofs
open Verif Verif.F64 Verif.Tri2 Verif.Props

/-- the point `v` has the integer coordinates `a`, of size at most 512, and `Z = 0` -/
structure MPt (v : R3.Vector F64) (a : R3.Vector ℤ) : Prop where
  x : Ex v.X a.X 512
  y : Ex v.Y a.Y 512
  z : Ex v.Z a.Z 0

theorem MPt.z0 {v : R3.Vector F64} {a : R3.Vector ℤ} (h : MPt v a) : a.Z = 0 := by
  have := h.z.le
  simpa using this

theorem MPt.exact {v : R3.Vector F64} {a : R3.Vector ℤ} (h : MPt v a) : exactV v = castQ a := by
  unfold exactV castQ
  rw [h.x.val, h.y.val, h.z.val]

section
variable {u v w p : R3.Vector F64} {a b c d : R3.Vector ℤ}

theorem MPt.dx (hu : MPt u a) (hv : MPt v b) : Ex (u.X - v.X) (a.X - b.X) 1024 := hu.x.sub hv.x (by norm_num)
theorem MPt.dy (hu : MPt u a) (hv : MPt v b) : Ex (u.Y - v.Y) (a.Y - b.Y) 1024 := hu.y.sub hv.y (by norm_num)

theorem MPt.area (hu : MPt u a) (hv : MPt v b) (hw : MPt w c) : Ex (area u v w) (area a b c) 2097152 :=
  ((hv.dy hu).mul (hw.dx hv) (by norm_num)).sub ((hv.dx hu).mul (hw.dy hv) (by norm_num)) (by norm_num)

theorem MPt.det (hu : MPt u a) (hv : MPt v b) (hw : MPt w c) (hp : MPt p d) : Ex (inCircleDet u v w p) (inCircleDet a b c d) 13194139533312 := by
  have dx := hu.dx hp
  have dy := hu.dy hp
  have ex := hv.dx hp
  have ey := hv.dy hp
  have fx := hw.dx hp
  have fy := hw.dy hp
  have ap := (dx.mul dx (by norm_num)).add (dy.mul dy (by norm_num)) (by norm_num)
  have bp := (ex.mul ex (by norm_num)).add (ey.mul ey (by norm_num)) (by norm_num)
  have cp := (fx.mul fx (by norm_num)).add (fy.mul fy (by norm_num)) (by norm_num)
  exact (((dx.mul ((ey.mul cp (by norm_num)).sub (bp.mul fy (by norm_num)) (by norm_num)) (by norm_num)).sub
    (dy.mul ((ex.mul cp (by norm_num)).sub (bp.mul fx (by norm_num)) (by norm_num)) (by norm_num)) (by norm_num)).add
    (ap.mul ((ex.mul fy (by norm_num)).sub (ey.mul fx (by norm_num)) (by norm_num)) (by norm_num)) (by norm_num))

theorem MPt.sq (hu : MPt u a) (hv : MPt v b) : Ex (R3.SquaredDistance u v) (R3.SquaredDistance a b) 2097152 := by
  have dx := hu.dx hv
  have dy := hu.dy hv
  have dz : Ex (u.Z - v.Z) (a.Z - b.Z) 0 := hu.z.sub hv.z (by norm_num)
  exact ((dx.mul dx (by norm_num)).add (dy.mul dy (by norm_num)) (by norm_num)).add (dz.mul dz (by norm_num)) (by norm_num)

end

/-- every point has integer coordinates of size at most 512 and `Z = 0` -/
def MidGrid (Vs : List (R3.Vector F64)) : Prop := ∀ v ∈ Vs, ∃ a, MPt v a

theorem quot_sizM {n m : ℤ} (hm : m ≠ 0) (hn : |n| ≤ 2 ^ 32) (hmm : |m| ≤ 2 ^ 21) : Siz 31 ((n:ℚ) * (1/2) / m) := by
  have hnq : |(n:ℚ)| ≤ 2 ^ 32 := by exact_mod_cast hn
  have hmq : |(m:ℚ)| ≤ 2 ^ 21 := by exact_mod_cast hmm
  have hm1 : (1:ℚ) ≤ |(m:ℚ)| := by exact_mod_cast Int.one_le_abs hm
  refine ⟨fun h0 => ?_, ?_⟩
  · have hn0 : n ≠ 0 := by rintro rfl; simp at h0
    have hn1 : (1:ℚ) ≤ |(n:ℚ)| := by exact_mod_cast Int.one_le_abs hn0
    rw [abs_div, abs_mul, abs_of_pos (show (0:ℚ) < 1/2 by norm_num), le_div_iff₀ (by linarith)]
    have : 1 / 2 ^ 31 * |(m:ℚ)| ≤ 1 / 2 ^ 31 * 2 ^ 21 := mul_le_mul_of_nonneg_left hmq (by positivity)
    have h3 : (1:ℚ) / 2 ^ 31 * 2 ^ 21 ≤ 1 * (1/2) := by norm_num
    linarith
  · rw [abs_div, abs_mul, abs_of_pos (show (0:ℚ) < 1/2 by norm_num), div_le_iff₀ (by linarith)]
    have h4 : (2:ℚ) ^ 31 * 1 ≤ 2 ^ 31 * |(m:ℚ)| := mul_le_mul_of_nonneg_left hm1 (by positivity)
    linarith

/-- the coordinates of the circumcentre relative to the first corner -/
theorem quot_relM {x y : F64} {n m : ℤ} {b c : ℕ} (hx : Ex x n b) (hy : Ex y m c) (hm : m ≠ 0) (hb : b ≤ 2 ^ 32) (hc : c ≤ 2 ^ 21) :
    Rel (x * GoConst.const (1/2) / y) ((n:ℚ) * (1/2) / m) 1 ∧ Siz 31 ((n:ℚ) * (1/2) / m) := by
  obtain ⟨h1, h2⟩ := half_float
  have hn : |n| ≤ 2 ^ 32 := hx.le.trans (by exact_mod_cast hb)
  have hmm : |m| ≤ 2 ^ 21 := hy.le.trans (by exact_mod_cast hc)
  have hnq : |(n:ℚ)| ≤ 2 ^ 32 := by exact_mod_cast hn
  have hm0 : (m:ℚ) ≠ 0 := by exact_mod_cast hm
  have e : rnd (x.toQ * (GoConst.const (1/2) : F64).toQ) = n * (1/2) := by
    rw [hx.val, h2]
    have := rnd_id (K := ℚ) (q := n * (1/2)) ⟨n, -1, by omega, by norm_num, by norm_num⟩
    simpa using this
  obtain ⟨f, v⟩ := mul_fin hx.fin h1 (by
    rw [e, abs_mul]
    have : |(n:ℚ)| * |(1/2:ℚ)| ≤ 2 ^ 53 := by
      rw [abs_of_pos (show (0:ℚ) < 1/2 by norm_num)]; linarith
    exact this.trans_lt (pow_lt_pow_right₀ (by norm_num) (by norm_num)))
  rw [e] at v
  have hs := quot_sizM hm hn hmm
  obtain ⟨r1, r2⟩ := rel_round (k := 0) (w := (n:ℚ) * (1/2) / m) (by norm_num) (hs.mod (by norm_num)) (by simp)
  obtain ⟨f', v'⟩ := div_fin f hy.fin (by rw [hy.val]; exact hm0) (by rw [v, hy.val]; exact r1)
  exact ⟨⟨f', by rw [v', v, hy.val]; exact r2⟩, hs⟩

section
variable {u v w : R3.Vector F64} {a b c : R3.Vector ℤ}

theorem MPt.len (h0 : MPt u a) (h1 : MPt v b) :
    Ex ((v.X - u.X) * (v.X - u.X) + (v.Y - u.Y) * (v.Y - u.Y)) (lZ a b) 2097152 :=
  ((h1.dx h0).mul (h1.dx h0) (by norm_num)).add ((h1.dy h0).mul (h1.dy h0) (by norm_num)) (by norm_num)

theorem MPt.dd (h0 : MPt u a) (h1 : MPt v b) (h2 : MPt w c) :
    Ex ((v.X - u.X) * (w.Y - u.Y) - (v.Y - u.Y) * (w.X - u.X)) (dZ a b c) 2097152 :=
  ((h1.dx h0).mul (h2.dy h0) (by norm_num)).sub ((h1.dy h0).mul (h2.dx h0) (by norm_num)) (by norm_num)

theorem MPt.nx (h0 : MPt u a) (h1 : MPt v b) (h2 : MPt w c) :
    Ex ((w.Y - u.Y) * ((v.X - u.X) * (v.X - u.X) + (v.Y - u.Y) * (v.Y - u.Y)) - (v.Y - u.Y) * ((w.X - u.X) * (w.X - u.X) + (w.Y - u.Y) * (w.Y - u.Y)))
      (nxZ a b c) 4294967296 :=
  ((h2.dy h0).mul (h0.len h1) (by norm_num)).sub ((h1.dy h0).mul (h0.len h2) (by norm_num)) (by norm_num)

theorem MPt.ny (h0 : MPt u a) (h1 : MPt v b) (h2 : MPt w c) :
    Ex ((v.X - u.X) * ((w.X - u.X) * (w.X - u.X) + (w.Y - u.Y) * (w.Y - u.Y)) - (w.X - u.X) * ((v.X - u.X) * (v.X - u.X) + (v.Y - u.Y) * (v.Y - u.Y)))
      (nyZ a b c) 4294967296 :=
  ((h1.dx h0).mul (h0.len h2) (by norm_num)).sub ((h2.dx h0).mul (h0.len h1) (by norm_num)) (by norm_num)

theorem MPt.quots (h0 : MPt u a) (h1 : MPt v b) (h2 : MPt w c) (hd : dZ a b c ≠ 0) :
    (Rel (((w.Y - u.Y) * ((v.X - u.X) * (v.X - u.X) + (v.Y - u.Y) * (v.Y - u.Y)) - (v.Y - u.Y) * ((w.X - u.X) * (w.X - u.X) + (w.Y - u.Y) * (w.Y - u.Y)))
      * GoConst.const (1/2) / ((v.X - u.X) * (w.Y - u.Y) - (v.Y - u.Y) * (w.X - u.X))) ((nxZ a b c : ℚ) * (1/2) / dZ a b c) 1 ∧
      Siz 31 ((nxZ a b c : ℚ) * (1/2) / dZ a b c)) ∧
    (Rel (((v.X - u.X) * ((w.X - u.X) * (w.X - u.X) + (w.Y - u.Y) * (w.Y - u.Y)) - (w.X - u.X) * ((v.X - u.X) * (v.X - u.X) + (v.Y - u.Y) * (v.Y - u.Y)))
      * GoConst.const (1/2) / ((v.X - u.X) * (w.Y - u.Y) - (v.Y - u.Y) * (w.X - u.X))) ((nyZ a b c : ℚ) * (1/2) / dZ a b c) 1 ∧
      Siz 31 ((nyZ a b c : ℚ) * (1/2) / dZ a b c)) :=
  ⟨quot_relM (h0.nx h1 h2) (h0.dd h1 h2) hd (by norm_num) (by norm_num), quot_relM (h0.ny h1 h2) (h0.dd h1 h2) hd (by norm_num) (by norm_num)⟩

/-- the squared circumradius at binary64 -/
theorem MPt.radius (h0 : MPt u a) (h1 : MPt v b) (h2 : MPt w c) (hp : 0 < dist2 (castQ b) (castQ a)) :
    (dOf (castQ a) (castQ b) (castQ c) = 0 → circumradius u v w = none) ∧
    (dOf (castQ a) (castQ b) (castQ c) ≠ 0 → ∃ r, circumradius u v w = some r ∧
      Rel r (dist2 (castQ b) (castQ a) / 4 * (1 + (fOf (castQ a) (castQ b) (castQ c) / dOf (castQ a) (castQ b) (castQ c))^2)) 4) := by
  constructor
  · intro h
    rw [dOf_castQ] at h
    have hd := h0.dd h1 h2
    simp only [circumradius]
    rw [if_pos]
    simp only [Bool.or_eq_true]
    left; right
    rw [beq_fin hd.fin Ex.zero.fin, hd.val, h, Ex.zero.val]; simp
  · intro h
    have hs := (circumradius_spec (v := castQ c) hp).2 h
    have hZ : dZ a b c ≠ 0 := by
      rw [dOf_castQ] at h; exact_mod_cast h
    obtain ⟨⟨rx, sx⟩, ry, sy⟩ := h0.quots h1 h2 hZ
    have hr := ((rx.mul rx (by norm_num) ((sx.mul sx).mod (by norm_num))).add_pos (ry.mul ry (by norm_num) ((sy.mul sy).mod (by norm_num)))
      (mul_self_nonneg _) (mul_self_nonneg _) (by norm_num) (((sx.mul sx).add_pos (sy.mul sy) (mul_self_nonneg _) (mul_self_nonneg _)).mod (by norm_num)))
    set R : ℚ := dist2 (castQ b) (castQ a) / 4 * (1 + (fOf (castQ a) (castQ b) (castQ c) / dOf (castQ a) (castQ b) (castQ c))^2) with hR
    have hRpos : 0 < R := by positivity
    have eR : R = (nxZ a b c : ℚ) * (1/2) / dZ a b c * ((nxZ a b c : ℚ) * (1/2) / dZ a b c) + (nyZ a b c : ℚ) * (1/2) / dZ a b c * ((nyZ a b c : ℚ) * (1/2) / dZ a b c) := by
      have := radius_aux (b.X - a.X : ℚ) (b.Y - a.Y) (c.X - a.X) (c.Y - a.Y) (by
        have : (dZ a b c : ℚ) ≠ 0 := by exact_mod_cast hZ
        simpa [dZ] using this)
      have e1 : ((nxZ a b c : ℤ) : ℚ) = ((c.Y - a.Y : ℚ))*((b.X - a.X)*(b.X - a.X)+(b.Y - a.Y)*(b.Y - a.Y)) - (b.Y - a.Y)*((c.X - a.X)*(c.X - a.X)+(c.Y - a.Y)*(c.Y - a.Y)) := by
        simp [nxZ]
      have e2 : ((nyZ a b c : ℤ) : ℚ) = ((b.X - a.X : ℚ))*((c.X - a.X)*(c.X - a.X)+(c.Y - a.Y)*(c.Y - a.Y)) - (c.X - a.X)*((b.X - a.X)*(b.X - a.X)+(b.Y - a.Y)*(b.Y - a.Y)) := by
        simp [nyZ]
      have e3 : ((dZ a b c : ℤ) : ℚ) = (b.X - a.X : ℚ)*(c.Y - a.Y) - (b.Y - a.Y)*(c.X - a.X) := by
        simp [dZ]
      rw [Rat.cast_id, ← e1, ← e2, ← e3] at this
      rw [this, hR]
      have e4 : dist2 (castQ b) (castQ a) = (b.X - a.X : ℚ)*(b.X - a.X)+(b.Y - a.Y)*(b.Y - a.Y) := by simp only [dist2, castQ]; ring
      have e5 : fOf (castQ a) (castQ b) (castQ c) = ((c.X - a.X)*((c.X - a.X) - (b.X - a.X)) + (c.Y - a.Y)*((c.Y - a.Y) - (b.Y - a.Y)) : ℚ) := by simp only [fOf, castQ]; ring
      rw [e4, e5, dOf_castQ]
    rw [← eR] at hr
    refine ⟨_, ?_, hr⟩
    have hl : (0:ℚ) < lZ a b := by
      have : dist2 (castQ b) (castQ a) = lZ a b := by simp only [dist2, castQ, lZ]; push_cast; ring
      rw [← this]; exact hp
    have hlc : lZ a c ≠ 0 := by
      intro e
      apply hZ
      have h1 : (c.X - a.X) = 0 ∧ (c.Y - a.Y) = 0 := by
        unfold lZ at e
        constructor <;> nlinarith [mul_self_nonneg (c.X - a.X), mul_self_nonneg (c.Y - a.Y)]
      unfold dZ; rw [h1.1, h1.2]; ring
    have hr0 := (hr.size (by norm_num)).1
    simp only [circumradius]
    rw [if_neg]
    simp only [Bool.or_eq_true, not_or]
    have hd := h0.dd h1 h2
    have hb := h0.len h1
    have hc := h0.len h2
    refine ⟨⟨⟨?_, ?_⟩, ?_⟩, ?_⟩
    · rw [beq_fin hb.fin Ex.zero.fin, hb.val, Ex.zero.val]; simpa using (by exact_mod_cast hl.ne' : lZ a b ≠ 0)
    · rw [beq_fin hc.fin Ex.zero.fin, hc.val, Ex.zero.val]; simpa using hlc
    · rw [beq_fin hd.fin Ex.zero.fin, hd.val, Ex.zero.val]; simpa using hZ
    · rw [beq_fin hr.fin Ex.zero.fin, Ex.zero.val]
      simp only [Int.cast_zero]
      intro e
      rw [e, abs_zero, abs_of_pos hRpos] at hr0
      linarith

end

theorem exact_sqM {u v : R3.Vector F64} {a b : R3.Vector ℤ} (hu : MPt u a) (hv : MPt v b) :
    (R3.SquaredDistance u v).Finite ∧ (R3.SquaredDistance u v).toQ = dist2 (exactV u) (exactV v) := by
  have h := hu.sq hv
  refine ⟨h.fin, ?_⟩
  rw [h.val, ← castQ_sq, hu.exact, hv.exact]
  exact sq_planar (by simp [castQ, hu.z0, hv.z0])

theorem MPt.fb {u v w : R3.Vector F64} {a b c : R3.Vector ℤ} (h0 : MPt u a) (h1 : MPt v b) (h2 : MPt w c) : |fZ a b c| ≤ 2 ^ 21 := by
  have := (((h2.dx h0).mul (h2.dx h1) (by norm_num)).add ((h2.dy h0).mul (h2.dy h1) (by norm_num)) (by norm_num)).le
  norm_num at this
  exact this

theorem gap_auxM {L a b e g : ℚ} (ha : 1 ≤ a) (hb : 0 ≤ b) (he : 0 < e) (hg : 0 < g) (ba : a ≤ 2 ^ 21) (bL : L ≤ 2 ^ 21) (be : e ^ 2 ≤ 2 * L * a) (bg : g ≤ 2 ^ 21)
    (hA : b * e + 1 ≤ a * g) : 10 * uro * (1 + (a / e) ^ 2) < (a / e) ^ 2 - (b / g) ^ 2 := by
  have k5 : a * g ≤ a ^ 2 * g ^ 2 - b ^ 2 * e ^ 2 := by
    have h1 : 0 ≤ b * e := mul_nonneg hb he.le
    have h2 : 1 ≤ a * g := by linarith
    have h3 : b * e ≤ a * g - 1 := by linarith
    have h4 : (b * e) * (b * e) ≤ (a * g - 1) * (a * g) := mul_le_mul h3 (by linarith) h1 (by linarith)
    have e1 : a ^ 2 * g ^ 2 - b ^ 2 * e ^ 2 = (a * g) * (a * g) - (b * e) * (b * e) := by ring
    rw [e1]; linarith
  have k6 : (e ^ 2 + a ^ 2) * g ^ 2 ≤ 3 * 2 ^ 21 * a * (2 ^ 21 * g) := by
    apply mul_le_mul _ _ (by positivity) (by positivity)
    · have h1 : L * a ≤ 2 ^ 21 * a := mul_le_mul_of_nonneg_right bL (by linarith)
      have h2 : a ^ 2 ≤ 2 ^ 21 * a := by rw [sq]; exact mul_le_mul_of_nonneg_right ba (by linarith)
      linarith
    · rw [sq]; exact mul_le_mul_of_nonneg_right bg hg.le
  have k7 : 10 * uro * ((e ^ 2 + a ^ 2) * g ^ 2) ≤ 10 * uro * (3 * 2 ^ 21 * a * (2 ^ 21 * g)) :=
    mul_le_mul_of_nonneg_left k6 (by unfold uro; norm_num)
  have k8 : 10 * uro * (3 * 2 ^ 21 * a * (2 ^ 21 * g)) = (30 * uro * 2 ^ 42) * (a * g) := by ring
  have k9 : 30 * uro * 2 ^ 42 < 1 := by unfold uro; norm_num
  have k10 : 0 < a * g := by positivity
  have k11 : (30 * uro * 2 ^ 42) * (a * g) < 1 * (a * g) := mul_lt_mul_of_pos_right k9 k10
  have t1 : a ^ 2 * g ^ 2 - b ^ 2 * e ^ 2 = ((a / e) ^ 2 - (b / g) ^ 2) * (e ^ 2 * g ^ 2) := by field_simp
  have t2 : 10 * uro * ((e ^ 2 + a ^ 2) * g ^ 2) = 10 * uro * (1 + (a / e) ^ 2) * (e ^ 2 * g ^ 2) := by field_simp
  have t3 : 10 * uro * (1 + (a / e) ^ 2) * (e ^ 2 * g ^ 2) < ((a / e) ^ 2 - (b / g) ^ 2) * (e ^ 2 * g ^ 2) := by
    rw [← t1, ← t2]; linarith
  exact lt_of_mul_lt_mul_right t3 (by positivity)

/-- if `b` is the nearest point to `a`, the triangle with any other point is not too flat -/
theorem flat_bound {a b c : R3.Vector ℤ} (h : lZ a b ≤ lZ a c) : dZ a b c ^ 2 ≤ 2 * lZ a b * fZ a b c := by
  obtain ⟨bx, hbx⟩ : ∃ z, z = b.X - a.X := ⟨_, rfl⟩
  obtain ⟨bz, hbz⟩ : ∃ z, z = b.Y - a.Y := ⟨_, rfl⟩
  obtain ⟨x, hx⟩ : ∃ z, z = c.X - a.X := ⟨_, rfl⟩
  obtain ⟨y, hy⟩ : ∃ z, z = c.Y - a.Y := ⟨_, rfl⟩
  have e1 : c.X - b.X = x - bx := by omega
  have e2 : c.Y - b.Y = y - bz := by omega
  unfold lZ dZ fZ at *
  rw [e1, e2]
  rw [← hbx, ← hbz, ← hx, ← hy] at h
  rw [← hbx, ← hbz, ← hx, ← hy]
  have h1 : (bx * y - bz * x) ^ 2 ≤ (bx * bx + bz * bz) * ((x - bx) ^ 2 + (y - bz) ^ 2) := by
    nlinarith [sq_nonneg (bx * (x - bx) + bz * (y - bz))]
  have h2 : (x - bx) ^ 2 + (y - bz) ^ 2 ≤ 2 * (x * (x - bx) + y * (y - bz)) := by nlinarith
  have h3 : 0 ≤ bx * bx + bz * bz := add_nonneg (mul_self_nonneg _) (mul_self_nonneg _)
  calc _ ≤ _ := h1
    _ ≤ (bx * bx + bz * bz) * (2 * (x * (x - bx) + y * (y - bz))) := mul_le_mul_of_nonneg_left h2 h3
    _ = _ := by ring

/-- comparing rounded circumradii -/
theorem radius_gapM {f2 d2 fv dv : ℤ} (hd2 : d2 ≠ 0) (hdv : dv ≠ 0) (bf2 : |f2| ≤ 2 ^ 21) (bdv : |dv| ≤ 2 ^ 21)
    {L : ℚ} (hL : 0 < L) (bL : L ≤ 2 ^ 21) (bd2 : (d2:ℚ) ^ 2 ≤ 2 * L * f2) {r2 rv : F64} (h2 : Rel r2 (L / 4 * (1 + ((f2:ℚ) / d2) ^ 2)) 4) (hv : Rel rv (L / 4 * (1 + ((fv:ℚ) / dv) ^ 2)) 4)
    (hle : r2.toQ ≤ rv.toQ) : ((f2:ℚ) / d2) ^ 2 ≤ ((fv:ℚ) / dv) ^ 2 := by
  by_contra hlt
  rw [not_le] at hlt
  have q2 : (0:ℚ) < |(d2:ℚ)| := abs_pos.mpr (by exact_mod_cast hd2)
  have qv : (0:ℚ) < |(dv:ℚ)| := abs_pos.mpr (by exact_mod_cast hdv)
  have hE : (1 + uro) ^ 4 - 1 ≤ 5 * uro := by unfold uro; norm_num
  have hb : ∀ {r : F64} {x : ℚ}, 0 ≤ x → Rel r (L / 4 * (1 + x)) 4 → |r.toQ - L / 4 * (1 + x)| ≤ 5 * uro * (L / 4 * (1 + x)) := by
    intro r x hx h
    have := h.err
    have hp : 0 ≤ L / 4 * (1 + x) := by positivity
    rw [abs_of_nonneg hp] at this
    exact this.trans (mul_le_mul_of_nonneg_right hE hp)
  have hgap := gap_aux2 hL hlt (hb (sq_nonneg _) h2) (hb (sq_nonneg _) hv) hle
  have hAB : |fv * d2| < |f2 * dv| := by
    rw [div_pow, div_pow, div_lt_div_iff₀ (by positivity) (by positivity), ← mul_pow, ← mul_pow, sq_lt_sq] at hlt
    exact_mod_cast hlt
  have hA : |(fv:ℚ)| * |(d2:ℚ)| + 1 ≤ |(f2:ℚ)| * |(dv:ℚ)| := by
    have : |fv * d2| + 1 ≤ |f2 * dv| := hAB
    have := (Int.cast_le (R := ℚ)).mpr this
    push_cast at this
    rwa [abs_mul, abs_mul] at this
  have ha : (1:ℚ) ≤ |(f2:ℚ)| := by
    have : f2 ≠ 0 := by
      rintro rfl
      rw [zero_mul, abs_zero] at hAB
      exact absurd hAB (not_lt.mpr (abs_nonneg _))
    exact_mod_cast Int.one_le_abs this
  have := gap_auxM ha (abs_nonneg (fv:ℚ)) q2 qv (by exact_mod_cast bf2) bL (by
    rw [sq_abs]; exact bd2.trans (mul_le_mul_of_nonneg_left (le_abs_self _) (by linarith))) (by exact_mod_cast bdv) hA
  rw [← abs_div, ← abs_div, sq_abs, sq_abs] at this
  linarith

theorem seed2_specM {Vs : List (R3.Vector F64)} (hg : MidGrid Vs) (i0 i1 : ℕ) {p0 p1 : R3.Vector F64} (h0 : p0 ∈ Vs) (h1 : p1 ∈ Vs)
    (hp : 0 < dist2 (exactV p1) (exactV p0))
    (hm : ∀ v ∈ Vs.map exactV, 0 < dist2 v (exactV p0) → dist2 (exactV p1) (exactV p0) ≤ dist2 v (exactV p0)) :
    ((seed2 Vs i0 i1 p0 p1) = (0, none) ∧ ∀ i v, Vs[i]? = some v → i ≠ i0 → i ≠ i1 → dOf (exactV p0) (exactV p1) (exactV v) = 0) ∨
    ∃ i2 p2 r, seed2 Vs i0 i1 p0 p1 = (i2, some r) ∧ Vs[i2]? = some p2 ∧ i2 ≠ i0 ∧ i2 ≠ i1 ∧ dOf (exactV p0) (exactV p1) (exactV p2) ≠ 0 ∧
      ∀ i v, Vs[i]? = some v → i ≠ i0 → i ≠ i1 → dOf (exactV p0) (exactV p1) (exactV v) ≠ 0 →
        (fOf (exactV p0) (exactV p1) (exactV p2) / dOf (exactV p0) (exactV p1) (exactV p2)) ^ 2 ≤
        (fOf (exactV p0) (exactV p1) (exactV v) / dOf (exactV p0) (exactV p1) (exactV v)) ^ 2 := by
  obtain ⟨a0, g0⟩ := hg p0 h0
  obtain ⟨a1, g1⟩ := hg p1 h1
  rw [g0.exact, g1.exact] at *
  have hrad : ∀ {i : ℕ} {v : R3.Vector F64}, Vs[i]? = some v → ∃ a, MPt v a ∧ exactV v = castQ a := by
    intro i v hv
    obtain ⟨a, ga⟩ := hg v (List.mem_of_getElem? hv)
    exact ⟨a, ga, ga.exact⟩
  set f : R3.Vector F64 × ℕ → Option F64 := fun pi => if pi.2 = i0 ∨ pi.2 = i1 then none else circumradius p0 p1 pi.1 with hf
  have e : seed2 Vs i0 i1 p0 p1 = (Vs.zipIdx.foldl (aminF f) (0, none)) := by
    unfold seed2
    congr 1
    funext acc pi
    unfold aminF
    simp only [hf]
    by_cases h1 : pi.2 = i0 ∨ pi.2 = i1
    · simp [h1]
    · simp only [h1, if_false]
      cases circumradius p0 p1 pi.1 <;> rfl
  rw [e]
  rcases aminF_spec f Vs.zipIdx (by
      intro x hx d hd
      rw [mem_zipIdx'] at hx
      obtain ⟨a, ga, ea⟩ := hrad hx
      simp only [hf] at hd
      split_ifs at hd
      by_cases hz : dOf (castQ a0) (castQ a1) (castQ a) = 0
      · rw [(g0.radius g1 ga hp).1 hz] at hd; cases hd
      · obtain ⟨r, hr, hrel⟩ := (g0.radius g1 ga hp).2 hz
        rw [hr] at hd; injection hd with hd; rw [← hd]; exact hrel.fin) with ⟨h, h'⟩ | ⟨x, hx, d, h, hfx, hmin⟩
  · left
    refine ⟨h, fun i v hv hi hi' => ?_⟩
    obtain ⟨a, ga, ea⟩ := hrad hv
    rw [ea]
    by_contra hz
    obtain ⟨r, hr, _⟩ := (g0.radius g1 ga hp).2 hz
    have := h' (v, i) (by rw [mem_zipIdx']; exact hv)
    simp [hf, hi, hi', hr] at this
  · right
    rw [mem_zipIdx'] at hx
    have hx0 : ¬ (x.2 = i0 ∨ x.2 = i1) := by intro e; simp only [hf, if_pos e] at hfx; cases hfx
    simp only [hf, if_neg hx0] at hfx
    push Not at hx0
    obtain ⟨a2, g2, e2⟩ := hrad hx
    have hd2 : dOf (castQ a0) (castQ a1) (castQ a2) ≠ 0 := by
      intro hz
      rw [(g0.radius g1 g2 hp).1 hz] at hfx; cases hfx
    refine ⟨x.2, x.1, d, h, hx, hx0.1, hx0.2, by rw [e2]; exact hd2, fun i v hv hi hi' hdv => ?_⟩
    obtain ⟨a, ga, ea⟩ := hrad hv
    rw [ea] at hdv
    rw [e2, ea]
    obtain ⟨r2, hr2, rel2⟩ := (g0.radius g1 g2 hp).2 hd2
    obtain ⟨rv, hrv, relv⟩ := (g0.radius g1 ga hp).2 hdv
    rw [hr2] at hfx; injection hfx with hfx; subst hfx
    have := hmin (v, i) (by rw [mem_zipIdx']; exact hv) rv (by simp only [hf]; rw [if_neg (by tauto)]; exact hrv)
    rw [fOf_castQ, fOf_castQ, dOf_castQ, dOf_castQ] at *
    have b2 := (g0.dd g1 ga).le
    have eL : ∀ a : R3.Vector ℤ, dist2 (castQ a) (castQ a0) = lZ a0 a := fun a => by simp only [dist2, castQ, lZ]; push_cast; ring
    have b3 : dist2 (castQ a1) (castQ a0) ≤ 2 ^ 21 := by
      rw [eL]
      have := (g0.len g1).le
      have h0 : (0:ℤ) ≤ lZ a0 a1 := add_nonneg (mul_self_nonneg _) (mul_self_nonneg _)
      rw [abs_of_nonneg h0] at this
      exact_mod_cast this
    have hl2 : 0 < lZ a0 a2 := by
      have h0 : (0:ℤ) ≤ lZ a0 a2 := add_nonneg (mul_self_nonneg _) (mul_self_nonneg _)
      refine lt_of_le_of_ne h0 fun e => hd2 ?_
      have h1 : (a2.X - a0.X) = 0 ∧ (a2.Y - a0.Y) = 0 := by
        unfold lZ at e
        constructor <;> nlinarith [mul_self_nonneg (a2.X - a0.X), mul_self_nonneg (a2.Y - a0.Y)]
      unfold dZ; rw [h1.1, h1.2]; simp
    have hle : lZ a0 a1 ≤ lZ a0 a2 := by
      have := hm (exactV x.1) (List.mem_map_of_mem (List.mem_of_getElem? hx)) (by rw [e2, eL]; exact_mod_cast hl2)
      rw [e2, eL, eL] at this
      exact_mod_cast this
    exact radius_gapM (by exact_mod_cast hd2) (by exact_mod_cast hdv) (g0.fb g1 g2) (b2.trans (by norm_num)) hp b3 (by
      rw [eL]; exact_mod_cast flat_bound hle) rel2 relv this

/-- triangulator.go:50-128 at binary64 for integer coordinates of size at most 512 -/
theorem mid_seeds {Vs : List (R3.Vector F64)} (hg : MidGrid Vs) (hn : 2 ≤ Vs.length) :
    (Collinear (Vs.map exactV) ∧ ∀ (srt : R3.Vector F64 → List ℤ → List ℤ) (hashSize : ℕ → ℕ) (fuel : ℕ), Triangulate srt hashSize fuel Vs = .ok .noTriangulation) ∨
    (¬ Collinear (Vs.map exactV) ∧ ∃ i0 i1 i2 p0 p1 p2, Vs[i0]? = some p0 ∧ Vs[i1]? = some p1 ∧ Vs[i2]? = some p2 ∧
      Seeds (Vs.map exactV) i0 i1 i2 (exactV p0) (exactV p1) (exactV p2) ∧ Found (Vs.map exactV) (exactV p0) (exactV p1) (exactV p2) ∧
      seedsOf Vs = .ok (some (i0, i1, i2, circumcenter p0 p1 p2))) := by
  exact float_seeds hn (fun i0 p0 h0 => seed1_exact i0 fun v hv => by
      obtain ⟨a0, g0⟩ := hg p0 h0
      obtain ⟨a, ga⟩ := hg v hv
      exact exact_sqM ga g0) (by
      intro p0 m0 p1 m1 v hv h01
      obtain ⟨a0, g0⟩ := hg _ m0
      obtain ⟨a1, g1⟩ := hg _ m1
      have hl := g0.len g1
      rw [g0.exact, g1.exact] at h01
      have z : lZ a0 a1 = 0 := by
        simp only [castQ] at h01
        have x1 : a1.X = a0.X := by exact_mod_cast h01.1
        have x2 : a1.Y = a0.Y := by exact_mod_cast h01.2
        unfold lZ; rw [x1, x2]; ring
      simp only [circumradius]
      rw [if_pos]
      simp only [Bool.or_eq_true]
      left; left; left
      rw [beq_fin hl.fin Ex.zero.fin, hl.val, z, Ex.zero.val]) (fun i0 i1 p0 p1 h0 h1 hp hm => seed2_specM hg i0 i1 h0 h1 hp hm) (by
      intro p0 m0 p1 m1 p2 m2
      obtain ⟨a0, g0⟩ := hg _ m0
      obtain ⟨a1, g1⟩ := hg _ m1
      obtain ⟨a2, g2⟩ := hg _ m2
      have := g0.area g1 g2
      rw [lt_fin this.fin Ex.zero.fin, this.val, Ex.zero.val, g0.exact, g1.exact, g2.exact, castQ_area]; simp)

end Verif.Proofs
