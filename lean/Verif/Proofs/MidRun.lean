import Verif.Proofs.MidCentre
import Verif.Proofs.Margin
/-!
# The triangulator at binary64 for integer coordinates of size at most 512
-/
namespace Verif.Proofs
open Verif Verif.F64 Verif.Tri2 Verif.Props

theorem ctr_coordM {p q : F64} {n : ℤ} {x : ℚ} (hp : Ex p n 512) (hq : Rel q x 1) (hx : |x| ≤ 2 ^ 31) :
    (p + q).Finite ∧ |(p + q).toQ - (n + x)| ≤ 3 * uro * (|x| + 256) := by
  have hn : |(n:ℚ)| ≤ 512 := by exact_mod_cast hp.le
  have he := hq.err
  have hx0 := abs_nonneg x
  have hu : (1 + uro) ^ 1 - 1 = uro := by ring
  rw [hu] at he
  have hup := uro_pos
  have hu1 : uro ≤ 1 / 2 ^ 53 := uro_small
  have h2 : uro * |x| ≤ 1 / 2 := by
    calc uro * |x| ≤ 1 / 2 ^ 53 * 2 ^ 31 := mul_le_mul hu1 hx hx0 (by positivity)
      _ ≤ 1 / 2 := by norm_num
  have hs : |(n:ℚ) + q.toQ| ≤ |x| + 513 := by
    have e : (n:ℚ) + q.toQ = n + x + (q.toQ - x) := by ring
    rw [e]
    refine (abs_add_three _ _ _).trans ?_
    linarith
  obtain ⟨f, v⟩ := add_fin hp.fin hq.fin (by
    rw [hp.val]; apply rnd_small; refine hs.trans ?_
    norm_num at hx ⊢; linarith)
  refine ⟨f, ?_⟩
  rw [v, hp.val]
  have hr := rnd_abs_err' ((n:ℚ) + q.toQ)
  have e : rnd ((n:ℚ) + q.toQ) - (n + x) = (rnd ((n:ℚ) + q.toQ) - (n + q.toQ)) + (q.toQ - x) := by ring
  rw [e]
  refine (abs_add_le _ _).trans ?_
  have h3 : uro * |(n:ℚ) + q.toQ| ≤ uro * (|x| + 513) := mul_le_mul_of_nonneg_left hs hup.le
  have h5 : 0 ≤ uro * |x| := mul_nonneg hup.le hx0
  linarith

section
variable {u v w : R3.Vector F64} {a b c : R3.Vector ℤ}

/-- the computed centre -/
theorem MPt.ctr (h0 : MPt u a) (h1 : MPt v b) (h2 : MPt w c) (hd : dZ a b c ≠ 0) :
    (circumcenter u v w).Z = 0 ∧ (circumcenter u v w).X.Finite ∧ (circumcenter u v w).Y.Finite ∧
      NearC a b c (circumcenter u v w).X.toQ (circumcenter u v w).Y.toQ ∧ |cX a b c| ≤ 2 ^ 31 ∧ |cY a b c| ≤ 2 ^ 31 := by
  obtain ⟨⟨rx, sx⟩, ry, sy⟩ := h0.quots h1 h2 hd
  obtain ⟨f1, e1⟩ := ctr_coordM h0.x rx sx.2
  obtain ⟨f2, e2⟩ := ctr_coordM h0.y ry sy.2
  exact ⟨rfl, f1, f2, ⟨e1, e2⟩, sx.2, sy.2⟩

end

/-- what is known about an input point -/
structure Fit (a b c v : R3.Vector ℤ) : Prop where
  x : |v.X| ≤ 512
  y : |v.Y| ≤ 512
  f : |kOf a b c| * |(dZ a b v : ℚ)| ≤ fZ a b v
  m : fZ a b v ≤ 2 ^ 21

theorem Fit.pow_nonneg {a b c v : R3.Vector ℤ} (h : Fit a b c v) : 0 ≤ powr a b c v := by
  have := h.f
  rw [← abs_mul] at this
  have := le_abs_self (kOf a b c * dZ a b v)
  unfold powr; linarith

theorem Fit.pow_le {a b c v : R3.Vector ℤ} (h : Fit a b c v) : powr a b c v ≤ 2 ^ 22 := by
  have h1 := h.f
  rw [← abs_mul] at h1
  have h2 := neg_abs_le (kOf a b c * dZ a b v)
  have h3 : (fZ a b v : ℚ) ≤ 2 ^ 21 := by exact_mod_cast h.m
  unfold powr; norm_num at h3 ⊢; linarith

/-- in the order of the rounded distances, up to rounding -/
def Bef (a b c : R3.Vector ℤ) (ox oy : ℚ) (q p : R3.Vector ℤ) : Prop :=
  tdist ox oy q - tdist ox oy p ≤ slack (lZ a b) (kOf a b c) ∧ powr a b c q - powr a b c p ≤ 2 * slack (lZ a b) (kOf a b c)

section
variable {a b c : R3.Vector ℤ} {o : R3.Vector F64}

theorem kL_nonneg : 0 ≤ uro * (lZ a b : ℚ) * kOf a b c ^ 2 := by
  have h0 : (0:ℤ) ≤ lZ a b := add_nonneg (mul_self_nonneg _) (mul_self_nonneg _)
  have h1 : (0:ℚ) ≤ lZ a b := by exact_mod_cast h0
  have := uro_pos
  positivity

theorem slack_eq : slack (lZ a b) (kOf a b c) = 3 * (uro * (lZ a b : ℚ) * kOf a b c ^ 2) + 1 / 2 ^ 26 := by
  unfold slack; rw [sq_abs]; ring

theorem bef_seed (hN : NearC a b c o.X.toQ o.Y.toQ) (hd : dZ a b c ≠ 0) (hL : (lZ a b : ℚ) ≤ 2 ^ 21) {q p : R3.Vector ℤ} (hq : Fit a b c q) (hp : Fit a b c p)
    (h0 : powr a b c q = 0) : Bef a b c o.X.toQ o.Y.toQ q p := by
  have h1 := (abs_le.mp (hN.diff hd hL (p := p) (q := q) ((abs_sub _ _).trans (by linarith [hq.x, hp.x])) ((abs_sub _ _).trans (by linarith [hq.y, hp.y])))).2
  have h2 := hp.pow_nonneg
  have h3 := kL_nonneg (a := a) (b := b) (c := c)
  unfold Bef
  rw [slack_eq]
  have e : 3 / 2 * uro * (lZ a b : ℚ) * kOf a b c ^ 2 = 3 / 2 * (uro * (lZ a b : ℚ) * kOf a b c ^ 2) := by ring
  rw [e] at h1
  rw [h0] at h1 ⊢
  norm_num at h1 ⊢
  constructor <;> linarith

theorem bef_dist (hN : NearC a b c o.X.toQ o.Y.toQ) (hd : dZ a b c ≠ 0) (hL : (lZ a b : ℚ) ≤ 2 ^ 21) (hz : o.Z = 0) (fx : o.X.Finite) (fy : o.Y.Finite)
    (cx : |o.X.toQ| ≤ 2 ^ 39) (cy : |o.Y.toQ| ≤ 2 ^ 39)
    {q p : R3.Vector ℤ} {x y : R3.Vector F64} (hq : Fit a b c q) (hp : Fit a b c p) (mq : MPt x q) (mp : MPt y p)
    (h : ¬ R3.SquaredDistance y o < R3.SquaredDistance x o) : Bef a b c o.X.toQ o.Y.toQ q p := by
  have hup := uro_pos
  have h1 := (abs_le.mp (hN.diff hd hL (p := p) (q := q) ((abs_sub _ _).trans (by linarith [hq.x, hp.x])) ((abs_sub _ _).trans (by linarith [hq.y, hp.y])))).1
  have h3 := kL_nonneg (a := a) (b := b) (c := c)
  have bnd : ∀ {n : ℤ} {z : ℚ}, |n| ≤ 512 → |z| ≤ 2 ^ 39 → |(n:ℚ) - z| ≤ 2 ^ 40 := by
    intro n z hn hz
    have hn' : |(n:ℚ)| ≤ 512 := by exact_mod_cast hn
    refine (abs_sub _ _).trans ?_
    norm_num at hz ⊢; linarith
  obtain ⟨f1, e1⟩ := dist_err mq hz fx fy (bnd hq.x cx) (bnd hq.y cy)
  obtain ⟨f2, e2⟩ := dist_err mp hz fx fy (bnd hp.x cx) (bnd hp.y cy)
  rw [lt_fin f2 f1, not_lt] at h
  have t1 := hN.le hd hL hq.pow_le
  have t2 := hN.le hd hL hp.pow_le
  have g1 := (abs_le.mp e1).1
  have g2 := (abs_le.mp e2).2
  have s1 := mul_le_mul_of_nonneg_left t1 (show 0 ≤ 53 / 10 * uro by positivity)
  have s2 := mul_le_mul_of_nonneg_left t2 (show 0 ≤ 53 / 10 * uro by positivity)
  have eL : uro * (lZ a b : ℚ) ≤ uro * 2 ^ 21 := mul_le_mul_of_nonneg_left hL hup.le
  have e5 : 53 / 10 * uro * (101 / 100 * ((lZ a b : ℚ) / 4 * (1 + kOf a b c ^ 2)) + 3 * 2 ^ 21)
      = 5353 / 4000 * (uro * (lZ a b : ℚ)) + 5353 / 4000 * (uro * (lZ a b : ℚ) * kOf a b c ^ 2) + uro * (53 / 10 * (3 * 2 ^ 21)) := by ring
  rw [e5] at s1 s2
  have hc : 2 * (5353 / 4000 * (uro * 2 ^ 21)) + 2 * (uro * (53 / 10 * (3 * 2 ^ 21))) + 2 * (1 / 2 ^ 90) ≤ 1 / 2 ^ 26 := by unfold uro; norm_num
  have key : tdist o.X.toQ o.Y.toQ q - tdist o.X.toQ o.Y.toQ p ≤ slack (lZ a b) (kOf a b c) := by
    rw [slack_eq]; linarith
  refine ⟨key, ?_⟩
  have e : 3 / 2 * uro * (lZ a b : ℚ) * kOf a b c ^ 2 = 3 / 2 * (uro * (lZ a b : ℚ) * kOf a b c ^ 2) := by ring
  rw [e] at h1
  rw [slack_eq] at key ⊢
  norm_num at h1 key ⊢
  linarith

/-- three points before `p` do not have it between them -/
theorem none_between (ha : |a.X| ≤ 512 ∧ |a.Y| ≤ 512) (hb : |b.X| ≤ 512 ∧ |b.Y| ≤ 512) (hL0 : 0 < lZ a b) (hL : lZ a b ≤ 2 ^ 21) (hd : dZ a b c ≠ 0) (hfc : |fZ a b c| ≤ 2 ^ 21)
    {ox oy : ℚ} {p : R3.Vector ℤ} {q : Fin 3 → R3.Vector ℤ} (hp : Fit a b c p)
    (hq : ∀ i, Fit a b c (q i)) (hbef : ∀ i, Bef a b c ox oy (q i) p) (hne : ∀ i, (q i).X ≠ p.X ∨ (q i).Y ≠ p.Y)
    (hpos : 0 < area (q 0) (q 1) (q 2)) (w2 : 0 ≤ area p (q 0) (q 1)) (w0 : 0 ≤ area p (q 1) (q 2)) (w1 : 0 ≤ area p (q 2) (q 0)) : False := by
  have hW : area p (q 1) (q 2) + area p (q 2) (q 0) + area p (q 0) (q 1) = area (q 0) (q 1) (q 2) := by unfold area; ring
  have sx : area p (q 1) (q 2) * ((q 0).X - p.X) + area p (q 2) (q 0) * ((q 1).X - p.X) + area p (q 0) (q 1) * ((q 2).X - p.X) = 0 := by unfold area; ring
  have sy : area p (q 1) (q 2) * ((q 0).Y - p.Y) + area p (q 2) (q 0) * ((q 1).Y - p.Y) + area p (q 0) (q 1) * ((q 2).Y - p.Y) = 0 := by unfold area; ring
  have td : ∀ i, tdist ox oy (q i) - tdist ox oy p = ((((q i).X - p.X) ^ 2 + ((q i).Y - p.Y) ^ 2 : ℤ) : ℚ) + 2 * (((q i).X - p.X : ℤ) : ℚ) * (p.X - ox) + 2 * (((q i).Y - p.Y : ℤ) : ℚ) * (p.Y - oy) := by
    intro i; unfold tdist; push_cast; ring
  have eL : (b.X - a.X) ^ 2 + (b.Y - a.Y) ^ 2 = lZ a b := by unfold lZ; ring
  have edz : ∀ i, (b.X - a.X) * ((q i).Y - p.Y) - (b.Y - a.Y) * ((q i).X - p.X) = dZ a b (q i) - dZ a b p := by intro i; unfold dZ; ring
  have b4 : ∀ {x y z : ℤ}, |x| ≤ 512 → |y| ≤ 512 → |z| ≤ 512 → |2 * x - y - z| ≤ 2 ^ 11 := by
    intro x y z h1 h2 h3
    rw [abs_le] at *
    constructor <;> norm_num <;> omega
  refine none_around (bx := b.X - a.X) (bz := b.Y - a.Y) (yx := 2 * p.X - a.X - b.X) (yy := 2 * p.Y - a.Y - b.Y) (k := kOf a b c)
    (dx := fun i => (q i).X - p.X) (dy := fun i => (q i).Y - p.Y) (w := ![area p (q 1) (q 2), area p (q 2) (q 0), area p (q 0) (q 1)])
    (by rw [eL]; exact hL) ?_ ?_ (b4 hp.x ha.1 hb.1) (b4 hp.y ha.2 hb.2) ?_ ?_ ?_ sx sy ?_ ?_ ?_
  · by_contra hcon
    push Not at hcon
    have : lZ a b = 0 := by unfold lZ; rw [hcon.1, hcon.2]; ring
    omega
  · -- the slope times the gcd
    have hdvd : (Int.gcd (b.X - a.X) (b.Y - a.Y) : ℤ) ∣ dZ a b c := by
      unfold dZ
      exact dvd_sub (Dvd.dvd.mul_right (Int.gcd_dvd_left _ _) _) (Dvd.dvd.mul_right (Int.gcd_dvd_right _ _) _)
    have hle : (Int.gcd (b.X - a.X) (b.Y - a.Y) : ℤ) ≤ |dZ a b c| := Int.le_of_dvd (abs_pos.mpr hd) ((dvd_abs _ _).mpr hdvd)
    have hleq : ((Int.gcd (b.X - a.X) (b.Y - a.Y) : ℤ) : ℚ) ≤ |(dZ a b c : ℚ)| := by exact_mod_cast hle
    have hq0 : (0:ℚ) < |(dZ a b c : ℚ)| := abs_pos.mpr (by exact_mod_cast hd)
    calc |kOf a b c| * ((Int.gcd (b.X - a.X) (b.Y - a.Y) : ℤ) : ℚ) ≤ |kOf a b c| * |(dZ a b c : ℚ)| := mul_le_mul_of_nonneg_left hleq (abs_nonneg _)
      _ = |(fZ a b c : ℚ)| := by unfold kOf; rw [abs_div]; field_simp
      _ ≤ 2 ^ 21 := by exact_mod_cast hfc
  · intro i
    rcases hne i with h | h
    · exact Or.inl (sub_ne_zero.mpr h)
    · exact Or.inr (sub_ne_zero.mpr h)
  · intro i
    fin_cases i
    · exact w0
    · exact w1
    · exact w2
  · show 0 < area p (q 1) (q 2) + area p (q 2) (q 0) + area p (q 0) (q 1)
    rw [hW]; exact hpos
  · show ((area p (q 1) (q 2) * (((q 0).X - p.X) ^ 2 + ((q 0).Y - p.Y) ^ 2) + area p (q 2) (q 0) * (((q 1).X - p.X) ^ 2 + ((q 1).Y - p.Y) ^ 2)
      + area p (q 0) (q 1) * (((q 2).X - p.X) ^ 2 + ((q 2).Y - p.Y) ^ 2) : ℤ) : ℚ)
      ≤ ((area p (q 1) (q 2) + area p (q 2) (q 0) + area p (q 0) (q 1) : ℤ) : ℚ) * slack (((b.X - a.X) ^ 2 + (b.Y - a.Y) ^ 2 : ℤ) : ℚ) (kOf a b c)
    rw [eL]
    have q0 : (0:ℚ) ≤ ((area p (q 1) (q 2) : ℤ) : ℚ) := by exact_mod_cast w0
    have q1 : (0:ℚ) ≤ ((area p (q 2) (q 0) : ℤ) : ℚ) := by exact_mod_cast w1
    have q2 : (0:ℚ) ≤ ((area p (q 0) (q 1) : ℤ) : ℚ) := by exact_mod_cast w2
    have m0 := mul_le_mul_of_nonneg_left (hbef 0).1 q0
    have m1 := mul_le_mul_of_nonneg_left (hbef 1).1 q1
    have m2 := mul_le_mul_of_nonneg_left (hbef 2).1 q2
    rw [td] at m0 m1 m2
    have sx' := congrArg (fun z : ℤ => (z : ℚ)) sx
    have sy' := congrArg (fun z : ℤ => (z : ℚ)) sy
    push_cast at sx' sy' m0 m1 m2 ⊢
    generalize ((area p (q 1) (q 2) : ℤ) : ℚ) = A at *
    generalize ((area p (q 2) (q 0) : ℤ) : ℚ) = B at *
    generalize ((area p (q 0) (q 1) : ℤ) : ℚ) = C at *
    have hh : A * ((((q 0).X:ℚ) - p.X) ^ 2 + (((q 0).Y:ℚ) - p.Y) ^ 2) + B * ((((q 1).X:ℚ) - p.X) ^ 2 + (((q 1).Y:ℚ) - p.Y) ^ 2) + C * ((((q 2).X:ℚ) - p.X) ^ 2 + (((q 2).Y:ℚ) - p.Y) ^ 2)
      = A * ((((q 0).X:ℚ) - p.X) ^ 2 + (((q 0).Y:ℚ) - p.Y) ^ 2 + 2 * (((q 0).X:ℚ) - p.X) * (p.X - ox) + 2 * (((q 0).Y:ℚ) - p.Y) * (p.Y - oy))
        + B * ((((q 1).X:ℚ) - p.X) ^ 2 + (((q 1).Y:ℚ) - p.Y) ^ 2 + 2 * (((q 1).X:ℚ) - p.X) * (p.X - ox) + 2 * (((q 1).Y:ℚ) - p.Y) * (p.Y - oy))
        + C * ((((q 2).X:ℚ) - p.X) ^ 2 + (((q 2).Y:ℚ) - p.Y) ^ 2 + 2 * (((q 2).X:ℚ) - p.X) * (p.X - ox) + 2 * (((q 2).Y:ℚ) - p.Y) * (p.Y - oy)) := by
      linear_combination (-2 * (p.X - ox)) * sx' - (2 * (p.Y - oy)) * sy'
    rw [hh, add_mul, add_mul]
    exact add_le_add (add_le_add m0 m1) m2
  · intro i
    show ((((q i).X - p.X) ^ 2 + ((q i).Y - p.Y) ^ 2 + (((q i).X - p.X) * (2 * p.X - a.X - b.X) + ((q i).Y - p.Y) * (2 * p.Y - a.Y - b.Y)) : ℤ) : ℚ)
      - kOf a b c * (((b.X - a.X) * ((q i).Y - p.Y) - (b.Y - a.Y) * ((q i).X - p.X) : ℤ) : ℚ) ≤ 2 * slack (((b.X - a.X) ^ 2 + (b.Y - a.Y) ^ 2 : ℤ) : ℚ) (kOf a b c)
    rw [eL, edz]
    refine le_trans (le_of_eq ?_) (hbef i).2
    have ef : ((q i).X - p.X) ^ 2 + ((q i).Y - p.Y) ^ 2 + (((q i).X - p.X) * (2 * p.X - a.X - b.X) + ((q i).Y - p.Y) * (2 * p.Y - a.Y - b.Y)) = fZ a b (q i) - fZ a b p := by
      unfold fZ; ring
    rw [ef]
    unfold powr
    push_cast
    ring
  · intro i
    show |kOf a b c| * |(((b.X - a.X) * ((q i).Y - p.Y) - (b.Y - a.Y) * ((q i).X - p.X) : ℤ) : ℚ)| ≤ 2 ^ 22
    rw [edz]
    have h1 := (hq i).f
    have h2 := hp.f
    have m1 : (fZ a b (q i) : ℚ) ≤ 2 ^ 21 := by exact_mod_cast (hq i).m
    have m2 : (fZ a b p : ℚ) ≤ 2 ^ 21 := by exact_mod_cast hp.m
    push_cast
    have h3 := mul_le_mul_of_nonneg_left (abs_sub (dZ a b (q i) : ℚ) (dZ a b p)) (abs_nonneg (kOf a b c))
    rw [mul_add] at h3
    norm_num at m1 m2 ⊢
    linarith

end

/-! ## The input points -/

theorem MPt.unique {v : R3.Vector F64} {a b : R3.Vector ℤ} (h : MPt v a) (h' : MPt v b) : a = b := by
  have e1 : (a.X:ℚ) = b.X := by rw [← h.x.val, ← h'.x.val]
  have e2 : (a.Y:ℚ) = b.Y := by rw [← h.y.val, ← h'.y.val]
  have e3 : a.Z = b.Z := by rw [h.z0, h'.z0]
  cases a; cases b
  simp only at e1 e2 e3
  rw [R3.Vector.mk.injEq]
  exact ⟨by exact_mod_cast e1, by exact_mod_cast e2, e3⟩

theorem lZ_castQ {a b : R3.Vector ℤ} : dist2 (castQ b) (castQ a) = lZ a b := by simp only [dist2, castQ, lZ]; push_cast; ring

theorem found_fit {Vs : List (R3.Vector F64)} (hg : MidGrid Vs) {a b c v : R3.Vector ℤ} {u1 u2 u : R3.Vector F64} (h0 : MPt u1 a) (h1 : MPt u2 b) (hu : u ∈ Vs) (mv : MPt u v)
    (hm1 : ∀ v ∈ Vs.map exactV, 0 < dist2 v (castQ a) → dist2 (castQ b) (castQ a) ≤ dist2 v (castQ a))
    (hm2 : ∀ v ∈ Vs.map exactV, dOf (castQ a) (castQ b) v ≠ 0 → (fOf (castQ a) (castQ b) (castQ c) / dOf (castQ a) (castQ b) (castQ c)) ^ 2 ≤
      (fOf (castQ a) (castQ b) v / dOf (castQ a) (castQ b) v) ^ 2) : Fit a b c v := by
  have m : castQ v ∈ Vs.map exactV := List.mem_map.mpr ⟨u, hu, mv.exact⟩
  have n1 := hm1 _ m
  have n2 := hm2 _ m
  rw [lZ_castQ, lZ_castQ] at n1
  rw [fOf_castQ, fOf_castQ, dOf_castQ, dOf_castQ] at n2
  have hf0 : 0 ≤ fZ a b v := by
    have h0 : (0:ℤ) ≤ lZ a v := add_nonneg (mul_self_nonneg _) (mul_self_nonneg _)
    rcases h0.lt_or_eq with hlt | heq
    · have hle : lZ a b ≤ lZ a v := by exact_mod_cast n1 (by exact_mod_cast hlt)
      unfold lZ at hle
      unfold fZ
      nlinarith [sq_nonneg (v.X - b.X), sq_nonneg (v.Y - b.Y)]
    · have h1 : (v.X - a.X) = 0 ∧ (v.Y - a.Y) = 0 := by
        unfold lZ at heq
        constructor <;> nlinarith [mul_self_nonneg (v.X - a.X), mul_self_nonneg (v.Y - a.Y)]
      unfold fZ; rw [h1.1, h1.2]; simp
  refine ⟨mv.x.le, mv.y.le, ?_, (le_abs_self _).trans (h0.fb h1 mv)⟩
  have hfq : (0:ℚ) ≤ fZ a b v := by exact_mod_cast hf0
  by_cases hd : (dZ a b v : ℚ) = 0
  · rw [hd, abs_zero, mul_zero]; exact hfq
  · have h3 := n2 hd
    rw [sq_le_sq, abs_div (fZ a b v : ℚ), le_div_iff₀ (abs_pos.mpr hd), abs_of_nonneg hfq] at h3
    exact h3

/-- the order of the ids loses no point -/
theorem mid_fine {Vs : List (R3.Vector F64)} (hg : MidGrid Vs) {i0 i1 i2 : ℕ} {p0 p1 p2 : R3.Vector F64} (g0 : Vs[i0]? = some p0) (g1 : Vs[i1]? = some p1) (g2 : Vs[i2]? = some p2)
    (F : Found (Vs.map exactV) (exactV p0) (exactV p1) (exactV p2)) :
    OrderFine Vs i0 i1 i2 (circumcenter p0 p1 p2) ∧ (circumcenter p0 p1 p2).X.Finite ∧ (circumcenter p0 p1 p2).Y.Finite ∧
      |(circumcenter p0 p1 p2).X.toQ| ≤ 2 ^ 39 ∧ |(circumcenter p0 p1 p2).Y.toQ| ≤ 2 ^ 39 ∧
      ∀ v ∈ Vs, v.X.toQ ≠ (circumcenter p0 p1 p2).X.toQ ∨ v.Y.toQ ≠ (circumcenter p0 p1 p2).Y.toQ := by
  obtain ⟨a0, m0⟩ := hg _ (List.mem_of_getElem? g0)
  obtain ⟨a1, m1⟩ := hg _ (List.mem_of_getElem? g1)
  obtain ⟨a2, m2⟩ := hg _ (List.mem_of_getElem? g2)
  rw [m0.exact, m1.exact, m2.exact] at F
  obtain ⟨q1, -, q2, -, hq, hpos, hd, hm1, hm2⟩ := F
  obtain ⟨b1, b2, w1, w2, n1, n2, rfl, rfl, hsw⟩ : ∃ b1 b2 w1 w2, MPt w1 b1 ∧ MPt w2 b2 ∧ q1 = castQ b1 ∧ q2 = castQ b2 ∧ (b1 = a1 ∧ b2 = a2 ∨ b1 = a2 ∧ b2 = a1) := by
    rcases hq with ⟨e1, e2⟩ | ⟨e1, e2⟩
    · exact ⟨a1, a2, p1, p2, m1, m2, e1, e2, Or.inl ⟨rfl, rfl⟩⟩
    · exact ⟨a2, a1, p2, p1, m2, m1, e1, e2, Or.inr ⟨rfl, rfl⟩⟩
  rw [dOf_castQ] at hd
  have hd' : dZ a0 b1 b2 ≠ 0 := by exact_mod_cast hd
  rw [lZ_castQ] at hpos
  have hL0 : 0 < lZ a0 b1 := by exact_mod_cast hpos
  have hL : lZ a0 b1 ≤ 2 ^ 21 := (le_abs_self _).trans ((m0.len n1).le.trans (by norm_num))
  have hLq : (lZ a0 b1 : ℚ) ≤ 2 ^ 21 := by exact_mod_cast hL
  have hd12 : dZ a0 a1 a2 ≠ 0 := by
    rcases hsw with ⟨rfl, rfl⟩ | ⟨rfl, rfl⟩
    · exact hd'
    · have : dZ a0 b2 b1 = - dZ a0 b1 b2 := by simp only [dZ]; ring
      rw [this]; exact neg_ne_zero.mpr hd'
  obtain ⟨oz, fx, fy, hN', sx', sy'⟩ := m0.ctr m1 m2 hd12
  have hcc : cX a0 b1 b2 = cX a0 a1 a2 ∧ cY a0 b1 b2 = cY a0 a1 a2 := by
    rcases hsw with ⟨rfl, rfl⟩ | ⟨rfl, rfl⟩
    · exact ⟨rfl, rfl⟩
    · exact cen_swap _ _ _
  generalize circumcenter p0 p1 p2 = o at *
  have hN : NearC a0 b1 b2 o.X.toQ o.Y.toQ := ⟨by rw [hcc.1]; exact hN'.ex, by rw [hcc.2]; exact hN'.ey⟩
  rw [← hcc.1] at sx'
  rw [← hcc.2] at sy'
  have hu1 : uro ≤ 1 / 2 ^ 53 := uro_small
  have small : ∀ {z : ℚ}, |z| ≤ 2 ^ 31 → 3 * uro * (|z| + 256) ≤ 1 / 10 := by
    intro z hz
    have h1 : 3 * uro * (|z| + 256) ≤ 3 * (1 / 2 ^ 53) * (2 ^ 31 + 256) := by
      have := uro_pos
      gcongr
    exact h1.trans (by norm_num)
  have cb : ∀ {z : ℚ} {n : ℤ} {x : ℚ}, |x| ≤ 2 ^ 31 → |n| ≤ 512 → |z - (n + x)| ≤ 3 * uro * (|x| + 256) → |z| ≤ 2 ^ 39 := by
    intro z n x hx hn hz
    have hn' : |(n:ℚ)| ≤ 512 := by exact_mod_cast hn
    have h1 := hz.trans (small hx)
    have e : z = (z - (n + x)) + n + x := by ring
    rw [e]
    refine (abs_add_three _ _ _).trans ?_
    norm_num at hx ⊢; linarith
  have cx := cb sx' m0.x.le hN.ex
  have cy := cb sy' m0.y.le hN.ey
  have fit : ∀ u ∈ Vs, ∀ v, MPt u v → Fit a0 b1 b2 v := fun u hu v mv => found_fit hg m0 n1 hu mv hm1 hm2
  refine ⟨?_, fx, fy, cx, cy, ?_⟩
  · have bef : ∀ u ∈ Vs, ∀ v ∈ Vs, ∀ x y, MPt u x → MPt v y → NotAfter Vs i0 i1 i2 o u v → Bef a0 b1 b2 o.X.toQ o.Y.toQ x y := by
      intro u hu v hv x y mx my hn
      have fq := fit u hu x mx
      have fp := fit v hv y my
      have pw1 : powr a0 b1 b2 a0 = 0 := by
        have e1 : fZ a0 b1 a0 = 0 := by unfold fZ; ring
        have e2 : dZ a0 b1 a0 = 0 := by unfold dZ; ring
        unfold powr; rw [e1, e2]; simp
      have pw2 : powr a0 b1 b2 b1 = 0 := by
        have e1 : fZ a0 b1 b1 = 0 := by unfold fZ; ring
        have e2 : dZ a0 b1 b1 = 0 := by unfold dZ; ring
        unfold powr; rw [e1, e2]; simp
      have pw3 : powr a0 b1 b2 b2 = 0 := by
        have : (dZ a0 b1 b2 : ℚ) ≠ 0 := hd
        unfold powr kOf; field_simp; ring
      have pws : powr a0 b1 b2 a1 = 0 ∧ powr a0 b1 b2 a2 = 0 := by
        rcases hsw with ⟨rfl, rfl⟩ | ⟨rfl, rfl⟩
        · exact ⟨pw2, pw3⟩
        · exact ⟨pw3, pw2⟩
      rcases hn with (e | e | e) | hn
      · rw [g0] at e; injection e with e; subst e
        rw [mx.unique m0] at fq ⊢
        exact bef_seed hN hd' hLq fq fp pw1
      · rw [g1] at e; injection e with e; subst e
        rw [mx.unique m1] at fq ⊢
        exact bef_seed hN hd' hLq fq fp pws.1
      · rw [g2] at e; injection e with e; subst e
        rw [mx.unique m2] at fq ⊢
        exact bef_seed hN hd' hLq fq fp pws.2
      · exact bef_dist hN hd' hLq oz fx fy cx cy fq fp mx my hn
    intro a ha b hb c hc v hv na nb nc hp h0 h1 h2
    obtain ⟨xa, ma⟩ := hg a ha
    obtain ⟨xb, mb⟩ := hg b hb
    obtain ⟨xc, mc⟩ := hg c hc
    obtain ⟨xv, mv⟩ := hg v hv
    rw [ma.exact, mb.exact, mc.exact, castQ_area] at hp
    rw [mv.exact, ma.exact, mb.exact, castQ_area] at h0
    rw [mv.exact, mb.exact, mc.exact, castQ_area] at h1
    rw [mv.exact, mc.exact, ma.exact, castQ_area] at h2
    rw [ma.exact, mb.exact, mc.exact, mv.exact]
    by_contra hcon
    push Not at hcon
    have ne : ∀ {x : R3.Vector ℤ}, ¬ SameXY (castQ x) (castQ xv) → x.X ≠ xv.X ∨ x.Y ≠ xv.Y := by
      intro x h
      by_contra hh
      push Not at hh
      apply h
      unfold SameXY castQ
      simp only
      exact ⟨by exact_mod_cast hh.1, by exact_mod_cast hh.2⟩
    refine none_between (a := a0) (b := b1) (c := b2) (q := ![xa, xb, xc]) (p := xv) ⟨m0.x.le, m0.y.le⟩ ⟨n1.x.le, n1.y.le⟩ hL0 hL hd' (m0.fb n1 n2) (fit v hv xv mv) ?_
      (ox := o.X.toQ) (oy := o.Y.toQ) ?_ ?_ ?_ ?_ ?_ ?_
    · intro i
      fin_cases i
      · exact fit a ha xa ma
      · exact fit b hb xb mb
      · exact fit c hc xc mc
    · intro i
      fin_cases i
      · exact bef a ha v hv xa xv ma mv na
      · exact bef b hb v hv xb xv mb mv nb
      · exact bef c hc v hv xc xv mc mv nc
    · intro i
      fin_cases i
      · exact ne hcon.1
      · exact ne hcon.2.1
      · exact ne hcon.2.2
    · exact_mod_cast hp
    · exact_mod_cast h0
    · exact_mod_cast h1
    · exact_mod_cast h2
  · intro v hv
    obtain ⟨xv, mv⟩ := hg v hv
    by_contra hcon
    push Not at hcon
    have h1 := hN.ex.trans (small sx')
    have h2 := hN.ey.trans (small sy')
    rw [← hcon.1, mv.x.val] at h1
    rw [← hcon.2, mv.y.val] at h2
    have s1 : ((xv.X:ℚ) - (a0.X + cX a0 b1 b2)) ^ 2 ≤ (1 / 10) ^ 2 := by
      rw [← sq_abs]; exact pow_le_pow_left₀ (abs_nonneg _) h1 2
    have s2 : ((xv.Y:ℚ) - (a0.Y + cY a0 b1 b2)) ^ 2 ≤ (1 / 10) ^ 2 := by
      rw [← sq_abs]; exact pow_le_pow_left₀ (abs_nonneg _) h2 2
    have h3 := cen_pow hd' xv
    rw [cen_rad hd'] at h3
    have h4 := (fit v hv xv mv).pow_nonneg
    have h5 : (1:ℚ) ≤ lZ a0 b1 := by exact_mod_cast hL0
    have h6 := mul_nonneg hpos.le (sq_nonneg (kOf a0 b1 b2))
    norm_num at s1 s2
    linarith

/-- the run of the triangulator for integer coordinates of size at most 512: the points are on a line, or all that its correctness needs holds -/
theorem mid_right {Vs : List (R3.Vector F64)} (hg : MidGrid Vs) (hn : 2 ≤ Vs.length) :
    (Collinear (Vs.map exactV) ∧ ∀ (srt : R3.Vector F64 → List ℤ → List ℤ) (hashSize : ℕ → ℕ) (fuel : ℕ), Triangulate srt hashSize fuel Vs = .ok .noTriangulation) ∨
    (¬ Collinear (Vs.map exactV) ∧ ∃ i0 i1 i2 o, SeedRight Vs i0 i1 i2 o ∧ OrderFine Vs i0 i1 i2 o) := by
  rcases mid_seeds hg hn with h | ⟨hc, i0, i1, i2, p0, p1, p2, g0, g1, g2, S, F, hs⟩
  · exact Or.inl h
  refine Or.inr ⟨hc, i0, i1, i2, _, ?_, (mid_fine hg g0 g1 g2 F).1⟩
  obtain ⟨-, fx, fy, cx, cy, other⟩ := mid_fine hg g0 g1 g2 F
  have big : ∀ {x : ℚ} {n : ℕ}, |x| ≤ 2 ^ n → n ≤ 1022 → |x| ≤ 2 ^ 1022 := fun h hn => h.trans (pow_le_pow_right₀ (by norm_num) hn)
  have seeds : ∀ q0 q1 q2, Vs[i0]? = some q0 → Vs[i1]? = some q1 → Vs[i2]? = some q2 → q0 = p0 ∧ q1 = p1 ∧ q2 = p2 := by
    intro q0 q1 q2 h0 h1 h2
    rw [g0] at h0; rw [g1] at h1; rw [g2] at h2
    injection h0 with h0; injection h1 with h1; injection h2 with h2
    exact ⟨h0.symm, h1.symm, h2.symm⟩
  have inC : ∀ a ∈ Vs, ∀ b ∈ Vs, ∀ c ∈ Vs, ∀ d ∈ Vs, inCircle a b c d = inCircle (exactV a) (exactV b) (exactV c) (exactV d) := by
    intro a ha b hb c hc d hd
    obtain ⟨xa, ma⟩ := hg a ha
    obtain ⟨xb, mb⟩ := hg b hb
    obtain ⟨xc, mc⟩ := hg c hc
    obtain ⟨xd, md⟩ := hg d hd
    have := ma.det mb mc md
    unfold inCircle
    rw [decide_eq_decide, lt_fin this.fin Ex.zero.fin, this.val, Ex.zero.val, ma.exact, mb.exact, mc.exact, md.exact, castQ_det]; simp
  refine ⟨hs, ?_, ?_, ?_, ⟨fx, fy⟩, ⟨big cx (by norm_num), big cy (by norm_num)⟩, ?_, other⟩
  · intro q0 q1 q2 h0 h1 h2
    obtain ⟨rfl, rfl, rfl⟩ := seeds q0 q1 q2 h0 h1 h2
    exact S.pos
  · intro q0 q1 q2 h0 h1 h2 v hv
    obtain ⟨rfl, rfl, rfl⟩ := seeds q0 q1 q2 h0 h1 h2
    exact S.empty _ (List.mem_map_of_mem hv)
  · intro p d0 d1 d2 v v0 v1 v2 hv h0 h1 h2
    have get : ∀ {i : ℕ} {x : R3.Vector F64}, Vs[i]? = some x → (Vs.map exactV)[i]? = some (exactV x) := fun h => by rw [List.getElem?_map, h]; rfl
    have := safeSeed_of (g := Geo.ofScalar 1 ⟨0, 0, 0⟩) rfl S p d0 d1 d2 _ _ _ _ (get hv) (get h0) (get h1) (get h2)
    have m := List.mem_of_getElem? hv
    have m0 := List.mem_of_getElem? h0
    have m1 := List.mem_of_getElem? h1
    have m2 := List.mem_of_getElem? h2
    rw [inC _ m _ m1 _ m0 _ m2, inC _ m _ m2 _ m1 _ m0, inC _ m _ m0 _ m2 _ m1]
    exact this
  · intro v hv
    obtain ⟨x, mx⟩ := hg v hv
    have e1 : |(x.X:ℚ)| ≤ 2 ^ 9 := by exact_mod_cast mx.x.le
    have e2 : |(x.Y:ℚ)| ≤ 2 ^ 9 := by exact_mod_cast mx.y.le
    rw [mx.x.val, mx.y.val]
    exact ⟨big e1 (by norm_num), big e2 (by norm_num)⟩

theorem mid_signs {Vs : List (R3.Vector F64)} (hg : MidGrid Vs) : SignsRight Vs := by
  refine dyadic_signs (e := 0) (by norm_num) (by norm_num) fun v hv => ?_
  obtain ⟨x, mx⟩ := hg v hv
  refine ⟨mx.x.fin, mx.y.fin, x.X, x.Y, mx.x.le.trans (by norm_num), mx.y.le.trans (by norm_num), ?_, ?_⟩
  · rw [mx.x.val]; simp
  · rw [mx.y.val]; simp

end Verif.Proofs
