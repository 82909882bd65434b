import Verif.Proofs.FusedRun
/-!
# Fused multiply-adds on small integer coordinates
-/
namespace Verif.Proofs
open Verif Verif.F64 Verif.Tri2 Verif.Props Verif.Spec

section
variable {u v w p : R3.Vector F64} {a b c d : R3.Vector ℤ}

theorem GPt.ldx (hu : GPt u a) (hv : GPt v b) : All ((lf u).X - (lf v).X) (a.X - b.X) 128 := .sub (.leaf hu.x) (.leaf hv.x) (by norm_num)
theorem GPt.ldy (hu : GPt u a) (hv : GPt v b) : All ((lf u).Y - (lf v).Y) (a.Y - b.Y) 128 := .sub (.leaf hu.y) (.leaf hv.y) (by norm_num)

theorem GPt.larea (hu : GPt u a) (hv : GPt v b) (hw : GPt w c) : All (Tri2.area (lf u) (lf v) (lf w)) (Tri2.area a b c) 32768 :=
  .sub (.mul (hv.ldy hu) (hw.ldx hv) (by norm_num)) (.mul (hv.ldx hu) (hw.ldy hv) (by norm_num)) (by norm_num)

theorem GPt.ldet (hu : GPt u a) (hv : GPt v b) (hw : GPt w c) (hp : GPt p d) :
    All (inCircleDet (lf u) (lf v) (lf w) (lf p)) (inCircleDet a b c d) 3221225472 := by
  have dx := hu.ldx hp
  have dy := hu.ldy hp
  have ex := hv.ldx hp
  have ey := hv.ldy hp
  have fx := hw.ldx hp
  have fy := hw.ldy hp
  have ap := All.add (dx.mul dx (by norm_num)) (dy.mul dy (by norm_num)) (by norm_num)
  have bp := All.add (ex.mul ex (by norm_num)) (ey.mul ey (by norm_num)) (by norm_num)
  have cp := All.add (fx.mul fx (by norm_num)) (fy.mul fy (by norm_num)) (by norm_num)
  exact (((dx.mul ((ey.mul cp (by norm_num)).sub (bp.mul fy (by norm_num)) (by norm_num)) (by norm_num)).sub
    (dy.mul ((ex.mul cp (by norm_num)).sub (bp.mul fx (by norm_num)) (by norm_num)) (by norm_num)) (by norm_num)).add
    (ap.mul ((ex.mul fy (by norm_num)).sub (ey.mul fx (by norm_num)) (by norm_num)) (by norm_num)) (by norm_num))

theorem GPt.lsq (hu : GPt u a) (hv : GPt v b) : All (R3.SquaredDistance (lf u) (lf v)) (R3.SquaredDistance a b) 32768 := by
  have dx := hu.ldx hv
  have dy := hu.ldy hv
  have dz : All ((lf u).Z - (lf v).Z) (a.Z - b.Z) 0 := .sub (.leaf hu.z) (.leaf hv.z) (by norm_num)
  exact ((dx.mul dx (by norm_num)).add (dy.mul dy (by norm_num)) (by norm_num)).add (dz.mul dz (by norm_num)) (by norm_num)

theorem GPt.llen (h0 : GPt u a) (h1 : GPt v b) :
    All (((lf v).X - (lf u).X) * ((lf v).X - (lf u).X) + ((lf v).Y - (lf u).Y) * ((lf v).Y - (lf u).Y)) (lZ a b) 32768 :=
  ((h1.ldx h0).mul (h1.ldx h0) (by norm_num)).add ((h1.ldy h0).mul (h1.ldy h0) (by norm_num)) (by norm_num)

theorem GPt.ldd (h0 : GPt u a) (h1 : GPt v b) (h2 : GPt w c) :
    All (((lf v).X - (lf u).X) * ((lf w).Y - (lf u).Y) - ((lf v).Y - (lf u).Y) * ((lf w).X - (lf u).X)) (dZ a b c) 32768 :=
  ((h1.ldx h0).mul (h2.ldy h0) (by norm_num)).sub ((h1.ldy h0).mul (h2.ldx h0) (by norm_num)) (by norm_num)

theorem GPt.lnx (h0 : GPt u a) (h1 : GPt v b) (h2 : GPt w c) :
    All (((lf w).Y - (lf u).Y) * (((lf v).X - (lf u).X) * ((lf v).X - (lf u).X) + ((lf v).Y - (lf u).Y) * ((lf v).Y - (lf u).Y))
      - ((lf v).Y - (lf u).Y) * (((lf w).X - (lf u).X) * ((lf w).X - (lf u).X) + ((lf w).Y - (lf u).Y) * ((lf w).Y - (lf u).Y))) (nxZ a b c) 8388608 :=
  ((h2.ldy h0).mul (h0.llen h1) (by norm_num)).sub ((h1.ldy h0).mul (h0.llen h2) (by norm_num)) (by norm_num)

theorem GPt.lny (h0 : GPt u a) (h1 : GPt v b) (h2 : GPt w c) :
    All (((lf v).X - (lf u).X) * (((lf w).X - (lf u).X) * ((lf w).X - (lf u).X) + ((lf w).Y - (lf u).Y) * ((lf w).Y - (lf u).Y))
      - ((lf w).X - (lf u).X) * (((lf v).X - (lf u).X) * ((lf v).X - (lf u).X) + ((lf v).Y - (lf u).Y) * ((lf v).Y - (lf u).Y))) (nyZ a b c) 8388608 :=
  ((h1.ldx h0).mul (h0.llen h2) (by norm_num)).sub ((h2.ldx h0).mul (h0.llen h1) (by norm_num)) (by norm_num)

/-- every evaluation of the quotients of `circumradius` and `circumcenter` -/
theorem quot_ev {N D : Expr F64} {n m : ℤ} {b c : ℕ} (hN : All N n b) (hD : All D m c) (hm : m ≠ 0) (hb : b ≤ 2 ^ 23) (hc : c ≤ 2 ^ 15) {q : F64}
    (h : Ev (N * GoConst.const (1/2) / D) q) : Rel q ((n:ℚ) * (1/2) / m) 1 := by
  obtain ⟨x, y, hx, hy, rfl⟩ := h.div_inv
  obtain ⟨z, t, hz, ht, rfl⟩ := hx.mul_inv
  have ht' : t = (GoConst.const (1/2) : F64) := Ev.leaf_inv ht
  rw [ht']
  exact (quot_rel (hN.ex hz) (hD.ex hy) hm hb hc).1

end

/-- the sum of two squares with a fused product -/
theorem Rel.fma {x y z : F64} {X Y Z : ℚ} {k l n : ℕ} (hx : Rel x X k) (hy : Rel y Y l) (hz : Rel z Z n) (hk : k + l ≤ n) (hn : n ≤ 9)
    (hX : 0 ≤ X * Y) (hZ : 0 ≤ Z) (h : Mod (X * Y + Z)) : Rel (F64.fma x y z) (X * Y + Z) (n + 1) := by
  have h1 : |x.toQ * y.toQ - X * Y| ≤ ((1 + uro) ^ (k + l) - 1) * |X * Y| := by
    have e : x.toQ * y.toQ - X * Y = (x.toQ - X) * (y.toQ - Y) + (x.toQ - X) * Y + X * (y.toQ - Y) := by ring
    have a1 := hx.err
    have a2 := hy.err
    have p1 : 0 ≤ (1 + uro) ^ k - 1 := by linarith [one_le_powu k]
    have p2 : 0 ≤ (1 + uro) ^ l - 1 := by linarith [one_le_powu l]
    have b1 : |(x.toQ - X) * (y.toQ - Y)| ≤ (((1 + uro) ^ k - 1) * |X|) * (((1 + uro) ^ l - 1) * |Y|) := by
      rw [abs_mul]; exact mul_le_mul a1 a2 (abs_nonneg _) (mul_nonneg p1 (abs_nonneg _))
    have b2 : |(x.toQ - X) * Y| ≤ (((1 + uro) ^ k - 1) * |X|) * |Y| := by
      rw [abs_mul]; exact mul_le_mul_of_nonneg_right a1 (abs_nonneg _)
    have b3 : |X * (y.toQ - Y)| ≤ |X| * (((1 + uro) ^ l - 1) * |Y|) := by
      rw [abs_mul]; exact mul_le_mul_of_nonneg_left a2 (abs_nonneg _)
    rw [e]
    refine (abs_add_three _ _ _).trans ((add_le_add (add_le_add b1 b2) b3).trans (le_of_eq ?_))
    rw [pow_add, abs_mul]; ring
  have h2 : |x.toQ * y.toQ - X * Y| ≤ ((1 + uro) ^ n - 1) * |X * Y| := by
    refine h1.trans (mul_le_mul_of_nonneg_right ?_ (abs_nonneg _))
    have := pow_le_pow_right₀ (show (1:ℚ) ≤ 1 + uro by linarith [uro_pos]) hk
    linarith
  have h3 : |x.toQ * y.toQ + z.toQ - (X * Y + Z)| ≤ ((1 + uro) ^ n - 1) * |X * Y + Z| := by
    have a2 := hz.err
    rw [show x.toQ * y.toQ + z.toQ - (X * Y + Z) = (x.toQ * y.toQ - X * Y) + (z.toQ - Z) by ring]
    refine (abs_add_le _ _).trans ((add_le_add h2 a2).trans (le_of_eq ?_))
    rw [abs_of_nonneg hX, abs_of_nonneg hZ, abs_of_nonneg (add_nonneg hX hZ)]; ring
  obtain ⟨r1, r2⟩ := rel_round hn h h3
  obtain ⟨f, e⟩ := fma_fin hx.fin hy.fin hz.fin r1
  exact ⟨f, by rw [e]; exact r2⟩

/-- every evaluation of `x*x + y*y` -/
theorem norm_ev {x y : Expr F64} {X Y : ℚ} (hx : ∀ v, Ev x v → Rel v X 1) (hy : ∀ v, Ev y v → Rel v Y 1) (sX : Siz 22 X) (sY : Siz 22 Y) {r : F64}
    (h : Ev (x * x + y * y) r) : Rel r (X * X + Y * Y) 4 := by
  have mX := sX.mul sX
  have mY := sY.mul sY
  have mS := (mX.add_pos mY (mul_self_nonneg X) (mul_self_nonneg Y)).mod (by norm_num)
  have rX : ∀ v w, Ev x v → Ev x w → Rel (v * w) (X * X) 3 := fun v w hv hw => (hx v hv).mul (hx w hw) (by norm_num) (mX.mod (by norm_num))
  have rY : ∀ v w, Ev y v → Ev y w → Rel (v * w) (Y * Y) 3 := fun v w hv hw => (hy v hv).mul (hy w hw) (by norm_num) (mY.mod (by norm_num))
  rcases h.add_inv with ⟨s, t, hs, ht, rfl⟩ | ⟨a1, a2, s, t, z, e, hs, ht, hz, rfl⟩ | ⟨a1, a2, s, t, z, e, hs, ht, hz, rfl⟩
  · obtain ⟨s1, s2, h1, h2, rfl⟩ := hs.mul_inv
    obtain ⟨t1, t2, h3, h4, rfl⟩ := ht.mul_inv
    exact (rX _ _ h1 h2).add_pos (rY _ _ h3 h4) (mul_self_nonneg X) (mul_self_nonneg Y) (by norm_num) mS
  · injection e with e1 e2
    subst e1; subst e2
    obtain ⟨t1, t2, h3, h4, rfl⟩ := hz.mul_inv
    exact (hx _ hs).fma (hx _ ht) (rY _ _ h3 h4) (by norm_num) (by norm_num) (mul_self_nonneg X) (mul_self_nonneg Y) mS
  · injection e with e1 e2
    subst e1; subst e2
    obtain ⟨t1, t2, h3, h4, rfl⟩ := hz.mul_inv
    have := (hy _ hs).fma (hy _ ht) (rX _ _ h3 h4) (by norm_num) (by norm_num) (mul_self_nonneg Y) (mul_self_nonneg X) (by rwa [add_comm])
    rwa [add_comm (Y * Y)] at this

section
variable {u v w : R3.Vector F64} {a b c : R3.Vector ℤ}

/-- every evaluation of `circumradius` -/
theorem GPt.lradius (h0 : GPt u a) (h1 : GPt v b) (h2 : GPt w c) (hp : 0 < dist2 (castQ b) (castQ a)) {bl cl d r : F64}
    (hb : Ev (radiusTerms (lf u) (lf v) (lf w)).1 bl) (hc : Ev (radiusTerms (lf u) (lf v) (lf w)).2.1 cl)
    (hd : Ev (radiusTerms (lf u) (lf v) (lf w)).2.2.1 d) (hr : Ev (radiusTerms (lf u) (lf v) (lf w)).2.2.2 r) :
    (dOf (castQ a) (castQ b) (castQ c) = 0 → radiusOf bl cl d r = none) ∧
    (dOf (castQ a) (castQ b) (castQ c) ≠ 0 → ∃ r', radiusOf bl cl d r = some r' ∧
      Rel r' (dist2 (castQ b) (castQ a) / 4 * (1 + (fOf (castQ a) (castQ b) (castQ c) / dOf (castQ a) (castQ b) (castQ c))^2)) 4) := by
  have hb := (h0.llen h1).ex hb
  have hc := (h0.llen h2).ex hc
  have hd := (h0.ldd h1 h2).ex hd
  constructor
  · intro h
    rw [dOf_castQ] at h
    simp only [radiusOf]
    rw [if_pos]
    simp only [Bool.or_eq_true]
    left; right
    rw [beq_fin hd.fin Ex.zero.fin, hd.val, h, Ex.zero.val]; simp
  · intro h
    have hZ : dZ a b c ≠ 0 := by
      rw [dOf_castQ] at h; exact_mod_cast h
    obtain ⟨⟨_, sx⟩, _, sy⟩ := h0.quots h1 h2 hZ
    have hr := norm_ev (fun _ h => quot_ev (h0.lnx h1 h2) (h0.ldd h1 h2) hZ (by norm_num) (by norm_num) h)
      (fun _ h => quot_ev (h0.lny h1 h2) (h0.ldd h1 h2) hZ (by norm_num) (by norm_num) h) sx sy hr
    set R : ℚ := dist2 (castQ b) (castQ a) / 4 * (1 + (fOf (castQ a) (castQ b) (castQ c) / dOf (castQ a) (castQ b) (castQ c))^2) with hR
    have hRpos : 0 < R := by positivity
    have eR : R = (nxZ a b c : ℚ) * (1/2) / dZ a b c * ((nxZ a b c : ℚ) * (1/2) / dZ a b c) + (nyZ a b c : ℚ) * (1/2) / dZ a b c * ((nyZ a b c : ℚ) * (1/2) / dZ a b c) := by
      have := radius_aux (b.X - a.X : ℚ) (b.Y - a.Y) (c.X - a.X) (c.Y - a.Y) (by
        have : (dZ a b c : ℚ) ≠ 0 := by exact_mod_cast hZ
        simpa [dZ] using this)
      have e1 : ((nxZ a b c : ℤ) : ℚ) = ((c.Y - a.Y : ℚ))*((b.X - a.X)*(b.X - a.X)+(b.Y - a.Y)*(b.Y - a.Y)) - (b.Y - a.Y)*((c.X - a.X)*(c.X - a.X)+(c.Y - a.Y)*(c.Y - a.Y)) := by
        simp [nxZ]
      have e2 : ((nyZ a b c : ℤ) : ℚ) = ((b.X - a.X : ℚ))*((c.X - a.X)*(c.X - a.X)+(c.Y - a.Y)*(c.Y - a.Y)) - (c.X - a.X)*((b.X - a.X)*(b.X - a.X)+(b.Y - a.Y)*(b.Y - a.Y)) := by
        simp [nyZ]
      have e3 : ((dZ a b c : ℤ) : ℚ) = (b.X - a.X : ℚ)*(c.Y - a.Y) - (b.Y - a.Y)*(c.X - a.X) := by
        simp [dZ]
      rw [Rat.cast_id, ← e1, ← e2, ← e3] at this
      rw [this, hR]
      have e4 : dist2 (castQ b) (castQ a) = (b.X - a.X : ℚ)*(b.X - a.X)+(b.Y - a.Y)*(b.Y - a.Y) := by simp only [dist2, castQ]; ring
      have e5 : fOf (castQ a) (castQ b) (castQ c) = ((c.X - a.X)*((c.X - a.X) - (b.X - a.X)) + (c.Y - a.Y)*((c.Y - a.Y) - (b.Y - a.Y)) : ℚ) := by simp only [fOf, castQ]; ring
      rw [e4, e5, dOf_castQ]
    rw [← eR] at hr
    refine ⟨_, ?_, hr⟩
    have hl : (0:ℚ) < lZ a b := by
      have : dist2 (castQ b) (castQ a) = lZ a b := by simp only [dist2, castQ, lZ]; push_cast; ring
      rw [← this]; exact hp
    have hlc : lZ a c ≠ 0 := by
      intro e
      apply hZ
      have h1 : (c.X - a.X) = 0 ∧ (c.Y - a.Y) = 0 := by
        unfold lZ at e
        constructor <;> nlinarith [mul_self_nonneg (c.X - a.X), mul_self_nonneg (c.Y - a.Y)]
      unfold dZ; rw [h1.1, h1.2]; ring
    have hr0 := (hr.size (by norm_num)).1
    simp only [radiusOf]
    rw [if_neg]
    simp only [Bool.or_eq_true, not_or]
    refine ⟨⟨⟨?_, ?_⟩, ?_⟩, ?_⟩
    · rw [beq_fin hb.fin Ex.zero.fin, hb.val, Ex.zero.val]; simpa using (by exact_mod_cast hl.ne' : lZ a b ≠ 0)
    · rw [beq_fin hc.fin Ex.zero.fin, hc.val, Ex.zero.val]; simpa using hlc
    · rw [beq_fin hd.fin Ex.zero.fin, hd.val, Ex.zero.val]; simpa using hZ
    · rw [beq_fin hr.fin Ex.zero.fin, Ex.zero.val]
      simp only [Int.cast_zero]
      intro e
      rw [e, abs_zero, abs_of_pos hRpos] at hr0
      linarith

/-- every evaluation of `circumcenter` -/
theorem GPt.lctr (h0 : GPt u a) (h1 : GPt v b) (h2 : GPt w c) (hd : dZ a b c ≠ 0) {o : R3.Vector F64} (hx : Ev (circumcenter (lf u) (lf v) (lf w)).X o.X)
    (hy : Ev (circumcenter (lf u) (lf v) (lf w)).Y o.Y) (hz : Ev (circumcenter (lf u) (lf v) (lf w)).Z o.Z) : Ctr a b c o := by
  have hb : |dZ a b c| ≤ 2 ^ 15 := ((h0.ldd h1 h2).ex (Ev.eval _)).le.trans (by norm_num)
  obtain ⟨m1, m2, _⟩ := Mz_bounds hd hb
  have qx := quot_bound hd (((h0.lnx h1 h2).ex (Ev.eval _)).le.trans (by norm_num))
  have qy := quot_bound hd (((h0.lny h1 h2).ex (Ev.eval _)).le.trans (by norm_num))
  have n1 : |(a.X:ℚ)| ≤ 64 := by exact_mod_cast h0.x.le
  have n2 : |(a.Y:ℚ)| ≤ 64 := by exact_mod_cast h0.y.le
  have X : o.X.Finite ∧ |o.X.toQ - (a.X + (nxZ a b c : ℚ) * (1/2) / dZ a b c)| ≤ 3 * uro * Mz (dZ a b c) := by
    rcases hx.add_inv with ⟨s, t, hs, ht, e⟩ | ⟨a1, a2, s, t, z, e, _⟩ | ⟨a1, a2, s, t, z, e, _⟩
    · rw [e, hs.leaf_inv]
      exact ctr_coord h0.x (quot_ev (h0.lnx h1 h2) (h0.ldd h1 h2) hd (by norm_num) (by norm_num) ht) (by linarith) m2
    · cases e
    · cases e
  have Y : o.Y.Finite ∧ |o.Y.toQ - (a.Y + (nyZ a b c : ℚ) * (1/2) / dZ a b c)| ≤ 3 * uro * Mz (dZ a b c) := by
    rcases hy.add_inv with ⟨s, t, hs, ht, e⟩ | ⟨a1, a2, s, t, z, e, _⟩ | ⟨a1, a2, s, t, z, e, _⟩
    · rw [e, hs.leaf_inv]
      exact ctr_coord h0.y (quot_ev (h0.lny h1 h2) (h0.ldd h1 h2) hd (by norm_num) (by norm_num) ht) (by linarith) m2
    · cases e
    · cases e
  refine ⟨hd, hb, hz.leaf_inv, X.1, Y.1, X.2, Y.2, ?_, ?_⟩
  · have := abs_add_le (a.X:ℚ) ((nxZ a b c : ℚ) * (1/2) / dZ a b c); linarith
  · have := abs_add_le (a.Y:ℚ) ((nyZ a b c : ℚ) * (1/2) / dZ a b c); linarith

end

/-! ## The distances from the centre -/

section
variable {M : ℚ}

/-- the product of two approximations, not rounded -/
theorem sq_real {Y X : ℚ} (d1 : |Y - X| ≤ 5 * uro * M) (hX : |X| ≤ M) (hM1 : 256 ≤ M) (hM2 : M ≤ 2 ^ 23) : |Y * Y - X ^ 2| ≤ 13 * uro * M ^ 2 := by
  have hup := uro_pos
  have hM0 : 0 < M := by linarith
  have huM : uro * M ≤ 1 / 1000 := by
    calc uro * M ≤ uro * 2 ^ 23 := mul_le_mul_of_nonneg_left hM2 hup.le
      _ ≤ 1 / 1000 := by unfold uro; norm_num
  have huM0 : 0 < uro * M := mul_pos hup hM0
  have hYX : |Y + X| ≤ 2 * M + 1 / 100 := by
    have e : Y + X = (Y - X) + X + X := by ring
    rw [e]
    have := abs_add_three (Y - X) X X
    linarith
  have e : Y * Y - X ^ 2 = (Y - X) * (Y + X) := by ring
  rw [e, abs_mul]
  calc |Y - X| * |Y + X| ≤ (5 * uro * M) * (2 * M + 1 / 100) := mul_le_mul d1 hYX (abs_nonneg _) (by positivity)
    _ = (uro * M) * (10 * M + 1 / 20) := by ring
    _ ≤ (uro * M) * (13 * M) := mul_le_mul_of_nonneg_left (by linarith) huM0.le
    _ = 13 * uro * M ^ 2 := by ring

/-- the difference of a coordinate and that of the centre -/
theorem diff_coord {p c : F64} {n : ℤ} {C : ℚ} (hp : Ex p n 64) (hc : c.Finite) (he : |c.toQ - C| ≤ 3 * uro * M) (hM : |C| + 64 ≤ M) (hM1 : 256 ≤ M) (hM2 : M ≤ 2 ^ 23) :
    (p - c).Finite ∧ |(p - c).toQ - (n - C)| ≤ 5 * uro * M ∧ |(n:ℚ) - C| ≤ M := by
  have hn : |(n:ℚ)| ≤ 64 := by exact_mod_cast hp.le
  have hup := uro_pos
  have hM0 : 0 < M := by linarith
  have huM : uro * M ≤ 1 / 1000 := by
    calc uro * M ≤ uro * 2 ^ 23 := mul_le_mul_of_nonneg_left hM2 hup.le
      _ ≤ 1 / 1000 := by unfold uro; norm_num
  have huM0 : 0 < uro * M := mul_pos hup hM0
  have hX : |(n:ℚ) - C| ≤ M := (abs_sub _ _).trans (by linarith)
  have hXc : |(n:ℚ) - c.toQ| ≤ M + 1 := by
    have e : (n:ℚ) - c.toQ = (n - C) - (c.toQ - C) := by ring
    rw [e]; refine (abs_sub _ _).trans ?_; linarith
  obtain ⟨f1, v1⟩ := sub_fin hp.fin hc (by rw [hp.val]; exact fin_of_le (hXc.trans (by linarith [show (2:ℚ) ^ 23 + 1 ≤ 2 ^ 60 by norm_num])))
  refine ⟨f1, ?_, hX⟩
  rw [v1, hp.val]
  have hr := rnd_abs_err' ((n:ℚ) - c.toQ)
  have e : rnd ((n:ℚ) - c.toQ) - (n - C) = (rnd ((n:ℚ) - c.toQ) - (n - c.toQ)) - (c.toQ - C) := by ring
  rw [e]
  refine (abs_sub _ _).trans ?_
  have h3 : uro * |(n:ℚ) - c.toQ| ≤ uro * (M + 1) := mul_le_mul_of_nonneg_left hXc hup.le
  have h4 : uro * 2 ≤ uro * M := mul_le_mul_of_nonneg_left (by linarith) hup.le
  linarith

/-- rounding a sum of two squares -/
theorem sum_round {t S : ℚ} (h : |t - S| ≤ 26 * uro * M ^ 2) (h0 : 0 ≤ S) (h2 : S ≤ 2 * M ^ 2) (hM1 : 256 ≤ M) (hM2 : M ≤ 2 ^ 23) :
    |rnd t| < 2 ^ 1024 ∧ |rnd t - S| ≤ 29 * uro * M ^ 2 + uro ∧ |rnd (rnd t)| < 2 ^ 1024 ∧ |rnd (rnd t) - S| ≤ 34 * uro * M ^ 2 := by
  have hup := uro_pos
  have hMM : M ^ 2 ≤ 2 ^ 46 := by
    calc M ^ 2 ≤ (2 ^ 23) ^ 2 := pow_le_pow_left₀ (by linarith) hM2 2
      _ = 2 ^ 46 := by norm_num
  have hM0 : 1000 ≤ M ^ 2 := by nlinarith
  have hu1 : uro * M ^ 2 ≤ M ^ 2 / 1000 := by
    have := mul_le_mul_of_nonneg_right (show uro ≤ 1 / 1000 by unfold uro; norm_num) (show 0 ≤ M ^ 2 by positivity)
    linarith
  have hu2 : uro * 1000 ≤ uro * M ^ 2 := mul_le_mul_of_nonneg_left hM0 hup.le
  have b0 : |t| ≤ 3 * M ^ 2 := by
    have e : t = (t - S) + S := by ring
    rw [e]; refine (abs_add_le _ _).trans ?_
    rw [abs_of_nonneg h0]; linarith
  have s1 : |rnd t - S| ≤ 29 * uro * M ^ 2 + uro := by
    have hr := rnd_abs_err' t
    have e : rnd t - S = (rnd t - t) + (t - S) := by ring
    rw [e]
    refine (abs_add_le _ _).trans ?_
    have h3 : uro * |t| ≤ uro * (3 * M ^ 2) := mul_le_mul_of_nonneg_left b0 hup.le
    linarith
  have b1 : |rnd t| ≤ 3 * M ^ 2 := by
    have e : rnd t = (rnd t - S) + S := by ring
    rw [e]; refine (abs_add_le _ _).trans ?_
    rw [abs_of_nonneg h0]; linarith
  have big : 3 * M ^ 2 ≤ 2 ^ 60 := by linarith [show 3 * (2:ℚ) ^ 46 ≤ 2 ^ 60 by norm_num]
  refine ⟨fin_of_le (b0.trans big), s1, fin_of_le (b1.trans big), ?_⟩
  have hr := rnd_abs_err' (rnd t)
  have e : rnd (rnd t) - S = (rnd (rnd t) - rnd t) + (rnd t - S) := by ring
  rw [e]
  refine (abs_add_le _ _).trans ?_
  have h3 : uro * |rnd t| ≤ uro * (3 * M ^ 2) := mul_le_mul_of_nonneg_left b1 hup.le
  linarith

end

/-- the difference of two variables has one value -/
theorem Ev.diff_inv {x y v : F64} (h : Ev (Expr.leaf x - Expr.leaf y) v) : v = x - y := by
  rcases h.sub_inv with ⟨s, t, hs, ht, e⟩ | ⟨a1, a2, s, t, z, e, _⟩ | ⟨a1, a2, s, t, z, e, _⟩
  · rw [e, hs.leaf_inv, ht.leaf_inv]
  · cases e
  · cases e

/-- every evaluation of the squared distance from the computed centre -/
theorem Ctr.ldist {a b c e : R3.Vector ℤ} {o p : R3.Vector F64} (C : Ctr a b c o) (hp : GPt p e) {r : F64} (h : Ev (R3.SquaredDistance (lf p) (lf o)) r) :
    r.Finite ∧ |r.toQ - dist2 (castQ e) (circumcenter (castQ a) (castQ b) (castQ c))| ≤ 34 * uro * Mz (dZ a b c) ^ 2 := by
  obtain ⟨m1, m2, _⟩ := Mz_bounds C.d0 C.db
  obtain ⟨fx, dx, bx⟩ := diff_coord hp.x C.fx C.ex C.bx m1 m2
  obtain ⟨fy, dy, bY⟩ := diff_coord hp.y C.fy C.ey C.bY m1 m2
  have hz : Ex (p.Z - o.Z) 0 0 := by
    have := hp.z.sub Ex.zero (by norm_num)
    rw [C.z]
    rw [hp.z0, sub_zero] at this
    exact this
  obtain ⟨gx, qx, ux⟩ := sq_coord fx dx bx m1 m2
  obtain ⟨gy, qy, uy⟩ := sq_coord fy dy bY m1 m2
  have rx := sq_real dx bx m1 m2
  have ry := sq_real dy bY m1 m2
  have e4 : dist2 (castQ e) (circumcenter (castQ a) (castQ b) (castQ c)) = ((e.X:ℚ) - (a.X + (nxZ a b c : ℚ) * (1/2) / dZ a b c)) ^ 2 + ((e.Y:ℚ) - (a.Y + (nyZ a b c : ℚ) * (1/2) / dZ a b c)) ^ 2 := by
    unfold dist2; rw [circumcenter_castQ.1, circumcenter_castQ.2]; rfl
  rw [e4]
  generalize (e.X:ℚ) - (a.X + (nxZ a b c : ℚ) * (1/2) / dZ a b c) = X at *
  generalize (e.Y:ℚ) - (a.Y + (nyZ a b c : ℚ) * (1/2) / dZ a b c) = Y at *
  generalize Mz (dZ a b c) = M at *
  have hS0 : 0 ≤ X ^ 2 + Y ^ 2 := by positivity
  have hS2 : X ^ 2 + Y ^ 2 ≤ 2 * M ^ 2 := by linarith
  have tri : ∀ {s t : ℚ}, |s - X ^ 2| ≤ 13 * uro * M ^ 2 → |t - Y ^ 2| ≤ 13 * uro * M ^ 2 → |s + t - (X ^ 2 + Y ^ 2)| ≤ 26 * uro * M ^ 2 := by
    intro s t h1 h2
    have e : s + t - (X ^ 2 + Y ^ 2) = (s - X ^ 2) + (t - Y ^ 2) := by ring
    rw [e]; refine (abs_add_le _ _).trans ?_; linarith
  have one : ∀ v w, Ev ((lf p).X - (lf o).X) v → Ev ((lf p).X - (lf o).X) w → v = p.X - o.X ∧ w = p.X - o.X := fun v w h1 h2 => ⟨Ev.diff_inv h1, Ev.diff_inv h2⟩
  have two : ∀ v w, Ev ((lf p).Y - (lf o).Y) v → Ev ((lf p).Y - (lf o).Y) w → v = p.Y - o.Y ∧ w = p.Y - o.Y := fun v w h1 h2 => ⟨Ev.diff_inv h1, Ev.diff_inv h2⟩
  have thr : ∀ v w, Ev ((lf p).Z - (lf o).Z) v → Ev ((lf p).Z - (lf o).Z) w → v = p.Z - o.Z ∧ w = p.Z - o.Z := fun v w h1 h2 => ⟨Ev.diff_inv h1, Ev.diff_inv h2⟩
  -- the sum of the first two squares
  have inner : ∀ s, Ev (((lf p).X - (lf o).X) * ((lf p).X - (lf o).X) + ((lf p).Y - (lf o).Y) * ((lf p).Y - (lf o).Y)) s →
      ∃ t, |t - (X ^ 2 + Y ^ 2)| ≤ 26 * uro * M ^ 2 ∧ s.Finite ∧ s.toQ = rnd t := by
    intro s hs
    rcases hs.add_inv with ⟨x, y, hx, hy, rfl⟩ | ⟨a1, a2, x, y, z, e, hx, hy, hz, rfl⟩ | ⟨a1, a2, x, y, z, e, hx, hy, hz, rfl⟩
    · obtain ⟨x1, x2, h1, h2, rfl⟩ := hx.mul_inv
      obtain ⟨y1, y2, h3, h4, rfl⟩ := hy.mul_inv
      obtain ⟨rfl, rfl⟩ := one _ _ h1 h2
      obtain ⟨rfl, rfl⟩ := two _ _ h3 h4
      have ht := tri qx qy
      exact ⟨_, ht, add_fin gx gy (sum_round ht hS0 hS2 m1 m2).1⟩
    · injection e with e1 e2
      subst e1; subst e2
      obtain ⟨y1, y2, h3, h4, rfl⟩ := hz.mul_inv
      obtain ⟨rfl, rfl⟩ := one _ _ hx hy
      obtain ⟨rfl, rfl⟩ := two _ _ h3 h4
      have ht := tri rx qy
      exact ⟨_, ht, fma_fin fx fx gy (sum_round ht hS0 hS2 m1 m2).1⟩
    · injection e with e1 e2
      subst e1; subst e2
      obtain ⟨y1, y2, h3, h4, rfl⟩ := hz.mul_inv
      obtain ⟨rfl, rfl⟩ := two _ _ hx hy
      obtain ⟨rfl, rfl⟩ := one _ _ h3 h4
      have ht := tri qx ry
      rw [add_comm] at ht
      exact ⟨_, ht, fma_fin fy fy gx (sum_round ht hS0 hS2 m1 m2).1⟩
  have zv : (p.Z - o.Z).toQ = 0 := by rw [hz.val]; simp
  have hz2 : Ex ((p.Z - o.Z) * (p.Z - o.Z)) 0 0 := by
    have := hz.mul hz (by norm_num)
    simpa using this
  have zv2 : ((p.Z - o.Z) * (p.Z - o.Z)).toQ = 0 := by rw [hz2.val]; simp
  rcases (show Ev (_ + _) r from h).add_inv with ⟨x, y, hx, hy, rfl⟩ | ⟨a1, a2, x, y, z, e, _⟩ | ⟨a1, a2, x, y, z, e, hx, hy, hs, rfl⟩
  · obtain ⟨t, ht, fs, es⟩ := inner x hx
    obtain ⟨z1, z2, h1, h2, rfl⟩ := hy.mul_inv
    obtain ⟨rfl, rfl⟩ := thr _ _ h1 h2
    obtain ⟨_, _, k3, k4⟩ := sum_round ht hS0 hS2 m1 m2
    obtain ⟨f, v⟩ := add_fin fs hz2.fin (by rw [zv2, add_zero, es]; exact k3)
    exact ⟨f, by rw [v, zv2, add_zero, es]; exact k4⟩
  · cases e
  · injection e with e1 e2
    subst e1; subst e2
    obtain ⟨t, ht, fs, es⟩ := inner z hs
    obtain ⟨rfl, rfl⟩ := thr _ _ hx hy
    obtain ⟨_, _, k3, k4⟩ := sum_round ht hS0 hS2 m1 m2
    obtain ⟨f, v⟩ := fma_fin hz.fin hz.fin fs (by rw [zv, zero_mul, zero_add, es]; exact k3)
    exact ⟨f, by rw [v, zv, zero_mul, zero_add, es]; exact k4⟩

/-- any fusing is exact enough -/
theorem fused_faithful {A : Arith} (h : Fused A) : Faithful A where
  sqSeed hu hv := (hu.lsq hv).ex (h.sqSeed _ _)
  sqPrev hu hv := (hu.lsq hv).ex (h.sqPrev _ _)
  radius hu hv hw hp := by
    obtain ⟨bl, cl, d, r, h1, h2, h3, h4, e⟩ := h.radius _ _ _
    rw [e]
    exact hu.lradius hv hw hp h1 h2 h3 h4
  radius0 {u v w a b c} hu hv hw hz := by
    obtain ⟨bl, cl, d, r, h1, h2, h3, h4, e⟩ := h.radius u v w
    rw [e]
    have hb := (hu.llen hv).ex h1
    unfold radiusOf
    rw [if_pos]
    simp only [Bool.or_eq_true]
    left; left; left
    rw [beq_fin hb.fin Ex.zero.fin, hb.val, hz, Ex.zero.val]
  areaSwap hu hv hw := (hu.larea hv hw).ex (h.areaSwap _ _ _)
  areaGe hu hv hw := (hu.larea hv hw).ex (h.areaGe _ _ _)
  areaLt hu hv hw := (hu.larea hv hw).ex (h.areaLt _ _ _)
  inDet hu hv hw hp := (hu.ldet hv hw hp).ex (h.inDet _ _ _ _)
  center hu hv hw hd := hu.lctr hv hw hd (h.center _ _ _).1 (h.center _ _ _).2.1 (h.center _ _ _).2.2
  dist C hp := C.ldist hp (h.sqCenter _ _)

end Verif.Proofs
