import Verif.Proofs.F64
import Verif.Props.Predicates
/-!
# C11 at binary64: the filtered in-sphere test never gives the wrong sign
-/
set_option exponentiation.threshold 2000

namespace Verif.Props
open Verif Verif.F64 Verif.R3 Verif.Predicates

theorem rnd_mult (x : ℚ) : ∃ n : ℤ, rnd x = n * 2 ^ expo x := ⟨_, rfl⟩

attribute [local irreducible] rnd F64.round

/-- the unit roundoff -/
def uro : ℚ := 1 / 2 ^ 53

/-- an integer multiple of `2^(-190 d)` -/
def OnGrid (d : ℕ) (x : ℚ) : Prop := ∃ n : ℤ, x = n * 2 ^ (-(190 * d : ℤ))

theorem OnGrid.add {d : ℕ} {x y : ℚ} (hx : OnGrid d x) (hy : OnGrid d y) : OnGrid d (x + y) := by
  obtain ⟨n, rfl⟩ := hx
  obtain ⟨k, rfl⟩ := hy
  exact ⟨n + k, by push_cast; ring⟩

theorem OnGrid.neg {d : ℕ} {x : ℚ} (hx : OnGrid d x) : OnGrid d (-x) := by
  obtain ⟨n, rfl⟩ := hx
  exact ⟨-n, by push_cast; ring⟩

theorem OnGrid.sub {d : ℕ} {x y : ℚ} (hx : OnGrid d x) (hy : OnGrid d y) : OnGrid d (x - y) :=
  sub_eq_add_neg x y ▸ hx.add hy.neg

theorem OnGrid.mul {d e : ℕ} {x y : ℚ} (hx : OnGrid d x) (hy : OnGrid e y) : OnGrid (d + e) (x * y) := by
  obtain ⟨n, rfl⟩ := hx
  obtain ⟨k, rfl⟩ := hy
  refine ⟨n * k, ?_⟩
  have : (2:ℚ) ^ (-(190 * ((d + e : ℕ) : ℤ))) = 2 ^ (-(190 * d : ℤ)) * 2 ^ (-(190 * e : ℤ)) := by
    rw [← zpow_add₀ (by norm_num)]; congr 1; push_cast; ring
  rw [this]; push_cast; ring

theorem OnGrid.abs {d : ℕ} {x : ℚ} (hx : OnGrid d x) : OnGrid d |x| := by
  rcases abs_choice x with h | h <;> rw [h]
  · exact hx
  · exact hx.neg

theorem OnGrid.ge {d : ℕ} {x : ℚ} (hx : OnGrid d x) (h0 : x ≠ 0) : 2 ^ (-(190 * d : ℤ)) ≤ |x| := by
  obtain ⟨n, rfl⟩ := hx
  have hn : n ≠ 0 := by rintro rfl; simp at h0
  have h1 : (1:ℚ) ≤ |(n:ℚ)| := by exact_mod_cast Int.one_le_abs hn
  have hp := two_zpow_pos (K := ℚ) (-(190 * d : ℤ))
  rw [abs_mul, abs_of_pos hp]
  nlinarith

/-- rounding keeps multiples of a grid that is not below the subnormal numbers -/
theorem OnGrid.rnd {d : ℕ} (hd : d ≤ 5) {x : ℚ} (hx : OnGrid d x) : OnGrid d (rnd x) := by
  have hg := rnd_mult x
  rcases le_total (-(190 * d : ℤ)) (expo x) with he | he
  · obtain ⟨n, hn⟩ := hg
    refine ⟨n * 2 ^ (expo x - -(190 * d : ℤ)).toNat, ?_⟩
    rw [hn, zpow_grid (K := ℚ) he]; push_cast; ring
  · obtain ⟨n, hn⟩ := hx
    have hb : IsBin x := by
      have hl := lt_zpow_expo x
      refine ⟨n * 2 ^ (-(190 * d : ℤ) - expo x).toNat, expo x, ?_, by unfold expo; omega, ?_⟩
      · have e : |x| = ((|n * 2 ^ (-(190 * d : ℤ) - expo x).toNat| : ℤ) : ℚ) * 2 ^ expo x := by
          conv_lhs => rw [hn, zpow_grid (K := ℚ) he, ← mul_assoc, abs_mul, abs_of_pos (two_zpow_pos (K := ℚ) (expo x))]
          push_cast; rfl
        rw [e, zpow_add₀ (by norm_num), mul_comm] at hl
        have := lt_of_mul_lt_mul_left hl (two_zpow_pos _).le
        exact_mod_cast this
      · conv_lhs => rw [hn, zpow_grid (K := ℚ) he]
        push_cast; ring
    have := rnd_id (K := ℚ) hb
    rw [Rat.cast_id] at this
    rw [this]; exact ⟨n, hn⟩

theorem rnd_uro {x : ℚ} {z : ℤ} (hz : -1022 ≤ z) (hx : x ≠ 0 → 2 ^ z ≤ |x|) : |rnd x - x| ≤ uro * |x| := by
  rcases eq_or_ne x 0 with rfl | h0
  · rw [rnd_zero]; simp
  · have := rnd_rel (K := ℚ) (x := x) ((zpow_le_zpow_right₀ (by norm_num) hz).trans (hx h0))
    rw [Rat.cast_id] at this
    refine this.trans (le_of_eq ?_)
    unfold uro
    congr 1
    norm_num

theorem OnGrid.rel {d : ℕ} (hd : d ≤ 5) {x : ℚ} (hx : OnGrid d x) : |Verif.rnd x - x| ≤ uro * |x| :=
  rnd_uro (z := -(190 * d : ℤ)) (by omega) hx.ge

/-- `v` is a finite float that approximates `X` with relative error `(1 + u)^k - 1` with respect to the magnitude `P`, which is
at most `2^m`; `v` is on the grid of degree `d`. -/
structure Tr (v : F64) (X P : ℚ) (k d m : ℕ) : Prop where
  fin : v.Finite
  err : |v.toQ - X| ≤ ((1 + uro) ^ k - 1) * P
  mag : |X| ≤ P
  bnd : P ≤ 2 ^ m
  grid : OnGrid d v.toQ

theorem uro_pos : 0 < uro := by unfold uro; positivity

theorem pow_le_two {k : ℕ} (hk : k ≤ 40) : (1 + uro) ^ k ≤ 2 := by
  calc (1 + uro) ^ k ≤ (1 + uro) ^ 40 := pow_le_pow_right₀ (by linarith [uro_pos]) hk
    _ ≤ 2 := by unfold uro; norm_num

theorem one_le_powu (k : ℕ) : 1 ≤ (1 + uro) ^ k := one_le_pow₀ (by linarith [uro_pos])

theorem Tr.nonneg {v : F64} {X P : ℚ} {k d m : ℕ} (h : Tr v X P k d m) : 0 ≤ P := (abs_nonneg _).trans h.mag

/-- the size of the float -/
theorem Tr.size {v : F64} {X P : ℚ} {k d m : ℕ} (h : Tr v X P k d m) : |v.toQ| ≤ (1 + uro) ^ k * P := by
  have h1 := h.err
  have h2 := h.mag
  have h3 := abs_sub_abs_le_abs_sub v.toQ X
  linarith

theorem two_pow_lt {m : ℕ} (hm : m ≤ 1020) : (2:ℚ) * 2 ^ m < 2 ^ 1024 := by
  rw [← pow_succ']
  exact pow_lt_pow_right₀ (by norm_num) (by omega)

theorem small_of {x P : ℚ} {k m : ℕ} (hk : k ≤ 40) (hm : m ≤ 1020) (hP : 0 ≤ P) (h : |x| ≤ (1 + uro) ^ k * P) (hb : P ≤ 2 ^ m) : |x| < 2 ^ 1024 := by
  have := pow_le_two hk
  calc |x| ≤ (1 + uro) ^ k * P := h
    _ ≤ 2 * P := by gcongr
    _ ≤ 2 * 2 ^ m := by gcongr
    _ < _ := two_pow_lt hm

theorem err_round {v r X P E : ℚ} (h1 : |v - X| ≤ E * P) (h2 : |X| ≤ P) (h3 : |r - v| ≤ uro * |v|) : |r - X| ≤ ((1 + E) * (1 + uro) - 1) * P := by
  have hv : |v| ≤ (1 + E) * P := by
    have := abs_sub_abs_le_abs_sub v X
    linarith
  have t := abs_sub_le r v X
  have := uro_pos
  nlinarith

theorem Tr.round {r : F64} {w X P : ℚ} {k d m : ℕ} (hd : d ≤ 5) (hk : k + 1 ≤ 40) (hm : m ≤ 1020)
    (he : |w - X| ≤ ((1 + uro) ^ k - 1) * P) (hX : |X| ≤ P) (hP : P ≤ 2 ^ m) (hg : OnGrid d w)
    (hr : |Verif.rnd w| < 2 ^ 1024 → r.Finite ∧ r.toQ = Verif.rnd w) : Tr r X P (k + 1) d m := by
  have e := err_round he hX (hg.rel hd)
  have e2 : (1 + ((1 + uro) ^ k - 1)) * (1 + uro) - 1 = (1 + uro) ^ (k + 1) - 1 := by rw [pow_succ]; ring
  rw [e2] at e
  have hs : |Verif.rnd w| ≤ (1 + uro) ^ (k + 1) * P := by
    have := abs_sub_abs_le_abs_sub (Verif.rnd w) X
    linarith
  obtain ⟨f, q⟩ := hr (small_of hk hm ((abs_nonneg _).trans hX) hs hP)
  exact ⟨f, by rw [q]; exact e, hX, hP, by rw [q]; exact hg.rnd hd⟩

theorem Tr.mono {v : F64} {X P : ℚ} {k l d m n : ℕ} (h : Tr v X P k d m) (hk : k ≤ l) (hm : m ≤ n) : Tr v X P l d n := by
  refine ⟨h.fin, h.err.trans ?_, h.mag, h.bnd.trans (pow_le_pow_right₀ (by norm_num) hm), h.grid⟩
  have := pow_le_pow_right₀ (show 1 ≤ 1 + uro by linarith [uro_pos]) hk
  have := h.nonneg
  gcongr

theorem Tr.add {v w : F64} {X Y P Q : ℚ} {k l d m n : ℕ} (hv' : Tr v X P k d m) (hw' : Tr w Y Q l d n) (hd : d ≤ 5) (hk : max k l + 1 ≤ 40)
    (hm : max m n + 1 ≤ 1020) : Tr (v + w) (X + Y) (P + Q) (max k l + 1) d (max m n + 1) := by
  have hv := hv'.mono (le_max_left k l) (le_max_left m n)
  have hw := hw'.mono (le_max_right k l) (le_max_right m n)
  refine Tr.round (w := v.toQ + w.toQ) hd hk hm ?_ ((abs_add_le _ _).trans (add_le_add hv.mag hw.mag)) ?_ (hv.grid.add hw.grid) (add_fin hv.fin hw.fin)
  · have h1 := hv.err
    have h2 := hw.err
    have := abs_add_le (v.toQ - X) (w.toQ - Y)
    rw [show v.toQ - X + (w.toQ - Y) = v.toQ + w.toQ - (X + Y) by ring] at this
    linarith
  · rw [pow_succ]; linarith [hv.bnd, hw.bnd]

theorem Tr.neg {v : F64} {X P : ℚ} {k d m : ℕ} (hv : Tr v X P k d m) : Tr (-v) (-X) P k d m := by
  obtain ⟨f, q⟩ := neg_fin hv.fin
  refine ⟨f, ?_, by rw [abs_neg]; exact hv.mag, hv.bnd, by rw [q]; exact hv.grid.neg⟩
  rw [q, show -v.toQ - -X = -(v.toQ - X) by ring, abs_neg]; exact hv.err

theorem Tr.sub {v w : F64} {X Y P Q : ℚ} {k l d m n : ℕ} (hv : Tr v X P k d m) (hw : Tr w Y Q l d n) (hd : d ≤ 5) (hk : max k l + 1 ≤ 40)
    (hm : max m n + 1 ≤ 1020) : Tr (v - w) (X - Y) (P + Q) (max k l + 1) d (max m n + 1) := by
  have := hv.add hw.neg hd hk hm
  rwa [← sub_eq_add_neg] at this

theorem Tr.mul {v w : F64} {X Y P Q : ℚ} {k l d e m n : ℕ} (hv : Tr v X P k d m) (hw : Tr w Y Q l e n) (hd : d + e ≤ 5) (hk : k + l + 1 ≤ 40) (hm : m + n ≤ 1020) :
    Tr (v * w) (X * Y) (P * Q) (k + l + 1) (d + e) (m + n) := by
  have hP := hv.nonneg
  have hQ := hw.nonneg
  refine Tr.round (w := v.toQ * w.toQ) hd hk hm ?_ (by rw [abs_mul]; exact mul_le_mul hv.mag hw.mag (abs_nonneg _) hP) ?_
    (hv.grid.mul hw.grid) (mul_fin hv.fin hw.fin)
  · have h1 := hv.err
    have h2 := hw.err
    have e : v.toQ * w.toQ - X * Y = (v.toQ - X) * (w.toQ - Y) + (v.toQ - X) * Y + X * (w.toQ - Y) := by ring
    have a1 := one_le_powu k
    have a2 := one_le_powu l
    rw [e, pow_add]
    generalize (1 + uro) ^ k = A at *
    generalize (1 + uro) ^ l = B at *
    have b1 : |(v.toQ - X) * (w.toQ - Y)| ≤ ((A - 1) * P) * ((B - 1) * Q) := by
      rw [abs_mul]; exact mul_le_mul h1 h2 (abs_nonneg _) (by nlinarith)
    have b2 : |(v.toQ - X) * Y| ≤ ((A - 1) * P) * Q := by
      rw [abs_mul]; exact mul_le_mul h1 hw.mag (abs_nonneg _) (by nlinarith)
    have b3 : |X * (w.toQ - Y)| ≤ P * ((B - 1) * Q) := by
      rw [abs_mul]; exact mul_le_mul hv.mag h2 (abs_nonneg _) hP
    have t1 := abs_add_le ((v.toQ - X) * (w.toQ - Y) + (v.toQ - X) * Y) (X * (w.toQ - Y))
    have t2 := abs_add_le ((v.toQ - X) * (w.toQ - Y)) ((v.toQ - X) * Y)
    refine (t1.trans (add_le_add (t2.trans (add_le_add b1 b2)) b3)).trans (le_of_eq ?_)
    ring
  · rw [pow_add]; exact mul_le_mul hv.bnd hw.bnd hQ (by positivity)

theorem Tr.abs {v : F64} {X P : ℚ} {k d m : ℕ} (hv : Tr v X P k d m) : Tr (GoAbs.abs v) |X| P k d m := by
  obtain ⟨f, q⟩ := abs_fin hv.fin
  refine ⟨f, ?_, by rw [abs_abs]; exact hv.mag, hv.bnd, by rw [q]; exact hv.grid.abs⟩
  rw [q]
  exact (abs_abs_sub_abs_le _ _).trans hv.err

/-- a coordinate: a finite multiple of `2^-190` of absolute value at most `2^200` -/
structure Coord (x : F64) : Prop where
  fin : x.Finite
  grid : OnGrid 1 x.toQ
  bnd : |x.toQ| ≤ 2 ^ 200

theorem Coord.diff {x y : F64} (hx : Coord x) (hy : Coord y) : Tr (x - y) (x.toQ - y.toQ) |x.toQ - y.toQ| 1 1 201 := by
  refine Tr.round (w := x.toQ - y.toQ) (k := 0) (by norm_num) (by norm_num) (by norm_num) (by simp) (le_refl _) ?_ (hx.grid.sub hy.grid) (sub_fin hx.fin hy.fin)
  refine (abs_sub _ _).trans ?_
  rw [pow_succ]; linarith [hx.bnd, hy.bnd]

/-- every number that is zero or of absolute value between `2^-138` and `2^200` is a coordinate -/
theorem coord_of_range {x : F64} (hx : x.Finite) (h : x.toQ = 0 ∨ 2 ^ (-138 : ℤ) ≤ |x.toQ|) (hb : |x.toQ| ≤ 2 ^ 200) : Coord x := by
  refine ⟨hx, ?_, hb⟩
  rcases h with h | h
  · exact ⟨0, by rw [h]; simp⟩
  · obtain ⟨m, e, h1, _, _, h4⟩ := toQ_bin x
    have he : -190 ≤ e := by
      by_contra hc
      have h5 : |x.toQ| < 2 ^ (e + 53) := by
        rw [h4, abs_mul, abs_of_pos (two_zpow_pos (K := ℚ) e), zpow_add₀ (by norm_num), mul_comm]
        refine mul_lt_mul_of_pos_left ?_ (two_zpow_pos e)
        have : ((|m| : ℤ) : ℚ) < ((2 ^ 53 : ℤ) : ℚ) := by exact_mod_cast h1
        rw [Int.cast_abs] at this
        exact this.trans_le (le_of_eq (by norm_num))
      have h6 : (2:ℚ) ^ (e + 53) ≤ 2 ^ (-138 : ℤ) := zpow_le_zpow_right₀ (by norm_num) (by omega)
      linarith
    refine ⟨m * 2 ^ (e - -190).toNat, ?_⟩
    rw [h4, zpow_grid (K := ℚ) (show (-190:ℤ) ≤ e from he)]
    push_cast; norm_num; ring

/-- the value of the constant `isperrboundA` as a float -/
theorem isperrboundA_float : (GoConst.const isperrboundA : F64).Finite ∧ (GoConst.const isperrboundA : F64).toQ = 16 * uro * (1 + 14 * uro) := by
  have h : rnd isperrboundA = 16 * uro * (1 + 14 * uro) := by
    unfold uro
    decide +kernel
  have := round_fin (s := false) (x := isperrboundA) (by rw [h]; unfold uro; norm_num [abs_lt])
  rw [h] at this
  exact this

/-- all coordinates of a point -/
structure CoordV (v : R3.Vector F64) : Prop where
  x : Coord v.X
  y : Coord v.Y
  z : Coord v.Z

/-- the exact point -/
def exactV (v : R3.Vector F64) : R3.Vector ℚ := ⟨v.X.toQ, v.Y.toQ, v.Z.toQ⟩

/-- the last step: the sign of a rounded sum that beats the rounded error bound -/
theorem filter_sign {h1 h2 perm cst : F64} {X1 X2 P1 P2 Q : ℚ} (t1 : Tr h1 X1 P1 15 5 1011) (t2 : Tr h2 X2 P2 15 5 1011)
    (tp : Tr perm Q Q 17 5 1013) (hQ : Q = P1 + P2) (hc : cst.Finite) (hc' : cst.toQ = 16 * uro * (1 + 14 * uro)) :
    let r := if cst * perm < h1 + h2 ∨ cst * perm < -(h1 + h2) then h1 + h2 else zero true
    r.Finite ∧ (0 < r.toQ → 0 < X1 + X2) ∧ (r.toQ < 0 → X1 + X2 < 0) := by
  intro r
  have ts := t1.add t2 (by norm_num) (by norm_num) (by norm_num)
  have hE := t1.err
  have hE2 := t2.err
  have hS : |h1.toQ + h2.toQ - (X1 + X2)| ≤ ((1 + uro) ^ 15 - 1) * Q := by
    have := abs_add_le (h1.toQ - X1) (h2.toQ - X2)
    rw [show h1.toQ - X1 + (h2.toQ - X2) = h1.toQ + h2.toQ - (X1 + X2) by ring] at this
    rw [hQ]; linarith
  have hgrid := t1.grid.add t2.grid
  have hsm : |rnd (h1.toQ + h2.toQ)| < 2 ^ 1024 := by
    have e := hgrid.rel (le_refl 5)
    have a := abs_sub_abs_le_abs_sub (rnd (h1.toQ + h2.toQ)) (h1.toQ + h2.toQ)
    have b := abs_add_le h1.toQ h2.toQ
    have s1 := t1.size
    have s2 := t2.size
    have c1 := t1.bnd
    have c2 := t2.bnd
    have n1 := t1.nonneg
    have n2 := t2.nonneg
    have w := pow_le_two (show 15 ≤ 40 by norm_num)
    have u1 : uro ≤ 1 := by unfold uro; norm_num
    have g : |rnd (h1.toQ + h2.toQ)| ≤ 2 * |h1.toQ + h2.toQ| := by nlinarith [abs_nonneg (h1.toQ + h2.toQ)]
    have z1 : |h1.toQ| ≤ 2 * 2 ^ 1011 := s1.trans (by gcongr)
    have z2 : |h2.toQ| ≤ 2 * 2 ^ 1011 := s2.trans (by gcongr)
    calc |rnd (h1.toQ + h2.toQ)| ≤ 2 * (2 * 2 ^ 1011 + 2 * 2 ^ 1011) := by linarith
      _ < 2 ^ 1024 := by norm_num
  obtain ⟨df, dq⟩ := add_fin t1.fin t2.fin hsm
  -- the error bound
  have hperm : (2 - (1 + uro) ^ 17) * Q ≤ perm.toQ := by
    have := (abs_le.mp tp.err).1
    linarith
  have hQ0 := tp.nonneg
  have hpn : 0 ≤ perm.toQ := le_trans (mul_nonneg (by have := pow_le_two (show 17 ≤ 40 by norm_num); linarith) hQ0) hperm
  have hrel : |rnd (cst.toQ * perm.toQ) - cst.toQ * perm.toQ| ≤ uro * |cst.toQ * perm.toQ| := by
    refine rnd_uro (z := -1000) (by norm_num) ?_
    intro hne
    have h0 : perm.toQ ≠ 0 := right_ne_zero_of_mul hne
    have := tp.grid.ge h0
    rw [abs_mul]
    have c0 : (2:ℚ) ^ (-50 : ℤ) ≤ |cst.toQ| := by rw [hc']; unfold uro; norm_num
    calc (2:ℚ) ^ (-1000 : ℤ) = 2 ^ (-50 : ℤ) * 2 ^ (-950 : ℤ) := by rw [← zpow_add₀ (by norm_num)]; rfl
      _ ≤ _ := mul_le_mul c0 (by simpa using this) (two_zpow_pos _).le (abs_nonneg _)
  have hcp : 0 < cst.toQ := by rw [hc']; unfold uro; norm_num
  have hcl : cst.toQ ≤ 1 := by rw [hc']; unfold uro; norm_num
  rw [abs_of_nonneg (mul_nonneg hcp.le hpn)] at hrel
  have hps : perm.toQ ≤ 2 * 2 ^ 1013 := by
    refine (le_abs_self _).trans (tp.size.trans ?_)
    exact mul_le_mul (pow_le_two (by norm_num)) tp.bnd hQ0 (by norm_num)
  have u0 := uro_pos
  have u1 : uro ≤ 1 := by unfold uro; norm_num
  obtain ⟨ef, eq⟩ := mul_fin hc tp.fin (by
    have h1 := (abs_le.mp hrel).2
    have h2 : 0 ≤ rnd (cst.toQ * perm.toQ) := rnd_nonneg (mul_nonneg hcp.le hpn)
    rw [abs_of_nonneg h2]
    have h3 : cst.toQ * perm.toQ ≤ perm.toQ := by nlinarith
    have h4 : uro * (cst.toQ * perm.toQ) ≤ perm.toQ := by nlinarith [mul_nonneg hcp.le hpn]
    calc rnd (cst.toQ * perm.toQ) ≤ 2 * (2 * 2 ^ 1013) := by linarith
      _ < 2 ^ 1024 := by norm_num)
  have heb : (1 - uro) * (16 * uro * (1 + 14 * uro)) * ((2 - (1 + uro) ^ 17) * Q) ≤ (cst * perm).toQ := by
    rw [eq]
    have h1 := (abs_le.mp hrel).1
    have h2 : (1 - uro) * cst.toQ * ((2 - (1 + uro) ^ 17) * Q) ≤ (1 - uro) * cst.toQ * perm.toQ := by
      have : 0 ≤ (1 - uro) * cst.toQ := mul_nonneg (by linarith) hcp.le
      gcongr
    rw [← hc']
    linarith
  have hnum : (1 + uro) * ((1 + uro) ^ 15 - 1) ≤ (1 - uro) * (16 * uro * (1 + 14 * uro)) * (2 - (1 + uro) ^ 17) := by
    unfold uro; norm_num
  have hkey : (1 + uro) * (((1 + uro) ^ 15 - 1) * Q) ≤ (cst * perm).toQ := by
    refine le_trans ?_ heb
    have := mul_le_mul_of_nonneg_right hnum hQ0
    linarith
  have hdet : |(h1 + h2).toQ - (h1.toQ + h2.toQ)| ≤ uro * |h1.toQ + h2.toQ| := by rw [dq]; exact hgrid.rel (le_refl 5)
  generalize ((1 + uro) ^ 15 - 1) * Q = E at hS hkey
  generalize h1.toQ + h2.toQ = S at hS hdet dq
  generalize X1 + X2 = D at hS
  have hneg := neg_fin df
  -- the answer
  show (if cst * perm < h1 + h2 ∨ cst * perm < -(h1 + h2) then h1 + h2 else zero true).Finite ∧ _
  by_cases hcond : cst * perm < h1 + h2 ∨ cst * perm < -(h1 + h2)
  · have hr : r = h1 + h2 := if_pos hcond
    rw [if_pos hcond, hr]
    refine ⟨df, ?_, ?_⟩
    · intro hpos
      have hlt : (cst * perm).toQ < (h1 + h2).toQ := by
        rcases hcond with h | h
        · exact (lt_fin ef df).mp h
        · have := (lt_fin ef hneg.1).mp h
          rw [hneg.2] at this
          have e0 : 0 ≤ (cst * perm).toQ := by rw [eq]; exact rnd_nonneg (mul_nonneg hcp.le hpn)
          linarith
      have hSpos : 0 < S := by
        by_contra hc
        have : rnd S ≤ 0 := by
          have := rnd_mono (not_lt.mp hc)
          rwa [rnd_zero] at this
        linarith
      rw [abs_of_pos hSpos, abs_le] at hdet
      have hES : E < S := by
        have : (1 + uro) * E < (1 + uro) * S := by linarith
        exact lt_of_mul_lt_mul_left this (by linarith)
      have := (abs_le.mp hS).2
      linarith
    · intro hn
      have hlt : (cst * perm).toQ < -(h1 + h2).toQ := by
        rcases hcond with h | h
        · have := (lt_fin ef df).mp h
          have e0 : 0 ≤ (cst * perm).toQ := by rw [eq]; exact rnd_nonneg (mul_nonneg hcp.le hpn)
          linarith
        · have := (lt_fin ef hneg.1).mp h
          rwa [hneg.2] at this
      have hSneg : S < 0 := by
        by_contra hc
        have := rnd_nonneg (not_lt.mp hc)
        linarith
      rw [abs_of_neg hSneg, abs_le] at hdet
      have hES : E < -S := by
        have : (1 + uro) * E < (1 + uro) * -S := by linarith
        exact lt_of_mul_lt_mul_left this (by linarith)
      have := (abs_le.mp hS).1
      linarith
  · have hr : r = zero true := if_neg hcond
    rw [if_neg hcond, hr]
    exact ⟨trivial, fun h => absurd h (lt_irrefl _), fun h => absurd h (lt_irrefl _)⟩

/-- C11: at binary64, for coordinates that are multiples of `2^-190` of absolute value at most `2^200` (so that nothing overflows or
underflows), a positive or negative answer of `inSphere` has the sign of the exact determinant of the float coordinates -/
theorem C11_sign_float (a b c d e : R3.Vector F64) (ha : CoordV a) (hb : CoordV b) (hc : CoordV c) (hd : CoordV d) (he : CoordV e) :
    let r := inSphere a.X a.Y a.Z b.X b.Y b.Z c.X c.Y c.Z d.X d.Y d.Z e.X e.Y e.Z
    let D := InSphereFast (exactV a) (exactV b) (exactV c) (exactV d) (exactV e)
    r.Finite ∧ (0 < r.toQ → 0 < D) ∧ (r.toQ < 0 → D < 0) := by
  have aex := ha.x.diff he.x
  have bex := hb.x.diff he.x
  have cex := hc.x.diff he.x
  have dex := hd.x.diff he.x
  have aey := ha.y.diff he.y
  have bey := hb.y.diff he.y
  have cey := hc.y.diff he.y
  have dey := hd.y.diff he.y
  have aez := ha.z.diff he.z
  have bez := hb.z.diff he.z
  have cez := hc.z.diff he.z
  have dez := hd.z.diff he.z
  unfold inSphere InSphereFast inSphereAdapt exactV
  dsimp only
  generalize a.X - e.X = fax at aex ⊢
  generalize b.X - e.X = fbx at bex ⊢
  generalize c.X - e.X = fcx at cex ⊢
  generalize d.X - e.X = fdx at dex ⊢
  generalize a.Y - e.Y = fay at aey ⊢
  generalize b.Y - e.Y = fby at bey ⊢
  generalize c.Y - e.Y = fcy at cey ⊢
  generalize d.Y - e.Y = fdy at dey ⊢
  generalize a.Z - e.Z = faz at aez ⊢
  generalize b.Z - e.Z = fbz at bez ⊢
  generalize c.Z - e.Z = fcz at cez ⊢
  generalize d.Z - e.Z = fdz at dez ⊢
  generalize a.X.toQ - e.X.toQ = xax at aex ⊢
  generalize b.X.toQ - e.X.toQ = xbx at bex ⊢
  generalize c.X.toQ - e.X.toQ = xcx at cex ⊢
  generalize d.X.toQ - e.X.toQ = xdx at dex ⊢
  generalize a.Y.toQ - e.Y.toQ = xay at aey ⊢
  generalize b.Y.toQ - e.Y.toQ = xby at bey ⊢
  generalize c.Y.toQ - e.Y.toQ = xcy at cey ⊢
  generalize d.Y.toQ - e.Y.toQ = xdy at dey ⊢
  generalize a.Z.toQ - e.Z.toQ = xaz at aez ⊢
  generalize b.Z.toQ - e.Z.toQ = xbz at bez ⊢
  generalize c.Z.toQ - e.Z.toQ = xcz at cez ⊢
  generalize d.Z.toQ - e.Z.toQ = xdz at dez ⊢
  clear ha hb hc hd he
  -- the twelve products
  have aexbey := (aex.mul bey (by norm_num) (by norm_num) (by norm_num) : Tr _ _ _ 3 2 402)
  have bexaey := (bex.mul aey (by norm_num) (by norm_num) (by norm_num) : Tr _ _ _ 3 2 402)
  have bexcey := (bex.mul cey (by norm_num) (by norm_num) (by norm_num) : Tr _ _ _ 3 2 402)
  have cexbey := (cex.mul bey (by norm_num) (by norm_num) (by norm_num) : Tr _ _ _ 3 2 402)
  have cexdey := (cex.mul dey (by norm_num) (by norm_num) (by norm_num) : Tr _ _ _ 3 2 402)
  have dexcey := (dex.mul cey (by norm_num) (by norm_num) (by norm_num) : Tr _ _ _ 3 2 402)
  have dexaey := (dex.mul aey (by norm_num) (by norm_num) (by norm_num) : Tr _ _ _ 3 2 402)
  have aexdey := (aex.mul dey (by norm_num) (by norm_num) (by norm_num) : Tr _ _ _ 3 2 402)
  have aexcey := (aex.mul cey (by norm_num) (by norm_num) (by norm_num) : Tr _ _ _ 3 2 402)
  have cexaey := (cex.mul aey (by norm_num) (by norm_num) (by norm_num) : Tr _ _ _ 3 2 402)
  have bexdey := (bex.mul dey (by norm_num) (by norm_num) (by norm_num) : Tr _ _ _ 3 2 402)
  have dexbey := (dex.mul bey (by norm_num) (by norm_num) (by norm_num) : Tr _ _ _ 3 2 402)
  -- the six minors
  have ab := (aexbey.sub bexaey (by norm_num) (by norm_num) (by norm_num) : Tr _ _ _ 4 2 403)
  have bc := (bexcey.sub cexbey (by norm_num) (by norm_num) (by norm_num) : Tr _ _ _ 4 2 403)
  have cd := (cexdey.sub dexcey (by norm_num) (by norm_num) (by norm_num) : Tr _ _ _ 4 2 403)
  have da := (dexaey.sub aexdey (by norm_num) (by norm_num) (by norm_num) : Tr _ _ _ 4 2 403)
  have ac := (aexcey.sub cexaey (by norm_num) (by norm_num) (by norm_num) : Tr _ _ _ 4 2 403)
  have bd := (bexdey.sub dexbey (by norm_num) (by norm_num) (by norm_num) : Tr _ _ _ 4 2 403)
  have m3 : ∀ {v w : F64} {X Y P Q : ℚ} {k : ℕ} (_ : k = 4), Tr v X P 1 1 201 → Tr w Y Q k 2 403 → Tr (v * w) (X * Y) (P * Q) 6 3 604 := by
    intro v w X Y P Q k hk hv hw
    subst hk
    exact hv.mul hw (by norm_num) (by norm_num) (by norm_num)
  have abc := (((m3 rfl aez bc).sub (m3 rfl bez ac) (by norm_num) (by norm_num) (by norm_num)).add (m3 rfl cez ab) (by norm_num) (by norm_num) (by norm_num) : Tr _ _ _ 8 3 606)
  have bcd := (((m3 rfl bez cd).sub (m3 rfl cez bd) (by norm_num) (by norm_num) (by norm_num)).add (m3 rfl dez bc) (by norm_num) (by norm_num) (by norm_num) : Tr _ _ _ 8 3 606)
  have cda := (((m3 rfl cez da).add (m3 rfl dez ac) (by norm_num) (by norm_num) (by norm_num)).add (m3 rfl aez cd) (by norm_num) (by norm_num) (by norm_num) : Tr _ _ _ 8 3 606)
  have dab := (((m3 rfl dez ab).add (m3 rfl aez bd) (by norm_num) (by norm_num) (by norm_num)).add (m3 rfl bez da) (by norm_num) (by norm_num) (by norm_num) : Tr _ _ _ 8 3 606)
  have lift : ∀ {x y z : F64} {X Y Z : ℚ}, Tr x X |X| 1 1 201 → Tr y Y |Y| 1 1 201 → Tr z Z |Z| 1 1 201 →
      Tr (x*x + y*y + z*z) (X*X + Y*Y + Z*Z) (X*X + Y*Y + Z*Z) 5 2 404 := by
    intro x y z X Y Z hx hy hz
    have h1 := (hx.mul hx (by norm_num) (by norm_num) (by norm_num) : Tr _ _ _ 3 2 402)
    have h2 := (hy.mul hy (by norm_num) (by norm_num) (by norm_num) : Tr _ _ _ 3 2 402)
    have h3 := (hz.mul hz (by norm_num) (by norm_num) (by norm_num) : Tr _ _ _ 3 2 402)
    rw [abs_mul_abs_self] at h1 h2 h3
    exact ((h1.add h2 (by norm_num) (by norm_num) (by norm_num)).add h3 (by norm_num) (by norm_num) (by norm_num) : Tr _ _ _ 5 2 404)
  have alift := lift aex aey aez
  have blift := lift bex bey bez
  have clift := lift cex cey cez
  have dlift := lift dex dey dez
  have h1 := ((clift.mul dab (by norm_num) (by norm_num) (by norm_num)).sub (dlift.mul abc (by norm_num) (by norm_num) (by norm_num)) (by norm_num) (by norm_num) (by norm_num) : Tr _ _ _ 15 5 1011)
  have h2 := ((alift.mul bcd (by norm_num) (by norm_num) (by norm_num)).sub (blift.mul cda (by norm_num) (by norm_num) (by norm_num)) (by norm_num) (by norm_num) (by norm_num) : Tr _ _ _ 15 5 1011)
  clear abc bcd cda dab ab bc cd da ac bd m3 lift
  -- the permanent
  have sumZ : ∀ {x y z : F64} {X Y Z P Q : ℚ}, Tr x X P 3 2 402 → Tr y Y Q 3 2 402 → Tr z Z |Z| 1 1 201 →
      Tr ((GoAbs.abs x + GoAbs.abs y) * GoAbs.abs z) ((|X| + |Y|) * |Z|) ((P + Q) * |Z|) 6 3 604 := by
    intro x y z X Y Z P Q hx hy hz
    exact (((hx.abs.add hy.abs (by norm_num) (by norm_num) (by norm_num) : Tr _ _ _ 4 2 403)).mul hz.abs (by norm_num) (by norm_num) (by norm_num) : Tr _ _ _ 6 3 604)
  have row : ∀ {p q r l : F64} {P Q R P' Q' R' L : ℚ}, Tr p P P' 6 3 604 → Tr q Q Q' 6 3 604 → Tr r R R' 6 3 604 → Tr l L L 5 2 404 →
      Tr ((p + q + r) * l) ((P + Q + R) * L) ((P' + Q' + R') * L) 14 5 1010 := by
    intro p q r l P Q R P' Q' R' L hp hq hr hl
    exact ((((hp.add hq (by norm_num) (by norm_num) (by norm_num)).add hr (by norm_num) (by norm_num) (by norm_num) : Tr _ _ _ 8 3 606)).mul hl (by norm_num) (by norm_num) (by norm_num) : Tr _ _ _ 14 5 1010)
  have r1 := row (sumZ cexdey dexcey bez) (sumZ dexbey bexdey cez) (sumZ bexcey cexbey dez) alift
  have r2 := row (sumZ dexaey aexdey cez) (sumZ aexcey cexaey dez) (sumZ cexdey dexcey aez) blift
  have r3 := row (sumZ aexbey bexaey dez) (sumZ bexdey dexbey aez) (sumZ dexaey aexdey bez) clift
  have r4 := row (sumZ bexcey cexbey aez) (sumZ cexaey aexcey bez) (sumZ aexbey bexaey cez) dlift
  have perm := (((r1.add r2 (by norm_num) (by norm_num) (by norm_num)).add r3 (by norm_num) (by norm_num) (by norm_num)).add r4 (by norm_num) (by norm_num) (by norm_num) : Tr _ _ _ 17 5 1013)
  clear r1 r2 r3 r4 row sumZ
  simp only [← abs_mul] at perm
  obtain ⟨c1, c2⟩ := isperrboundA_float
  exact filter_sign h1 h2 perm (by simp only [abs_mul]; ring) c1 c2

/-- C11: the same for coordinates given by their magnitude -/
theorem C11_range_float (a b c d e : R3.Vector F64)
    (h : ∀ p ∈ [a, b, c, d, e], ∀ x ∈ [p.X, p.Y, p.Z], x.Finite ∧ (x.toQ = 0 ∨ 2 ^ (-138 : ℤ) ≤ |x.toQ|) ∧ |x.toQ| ≤ 2 ^ 200) :
    let r := inSphere a.X a.Y a.Z b.X b.Y b.Z c.X c.Y c.Z d.X d.Y d.Z e.X e.Y e.Z
    let D := InSphereFast (exactV a) (exactV b) (exactV c) (exactV d) (exactV e)
    r.Finite ∧ (0 < r.toQ → 0 < D) ∧ (r.toQ < 0 → D < 0) := by
  have hv : ∀ p ∈ [a, b, c, d, e], CoordV p := by
    intro p hp
    have k : ∀ x ∈ [p.X, p.Y, p.Z], Coord x := fun x hx => coord_of_range (h p hp x hx).1 (h p hp x hx).2.1 (h p hp x hx).2.2
    exact ⟨k _ (by simp), k _ (by simp), k _ (by simp)⟩
  exact C11_sign_float a b c d e (hv _ (by simp)) (hv _ (by simp)) (hv _ (by simp)) (hv _ (by simp)) (hv _ (by simp))

/-- a small integer as a coordinate -/
theorem coord_nat {x : F64} (hx : x.Finite) {n : ℤ} (h : x.toQ = n) (hn : |n| ≤ 100) : Coord x := by
  have hn' : |(n:ℚ)| ≤ 100 := by exact_mod_cast hn
  refine coord_of_range hx ?_ (by rw [h]; exact hn'.trans (by norm_num))
  rcases eq_or_ne n 0 with rfl | h0
  · left; simpa using h
  · right
    rw [h]
    have : (1:ℚ) ≤ |(n:ℚ)| := by exact_mod_cast Int.one_le_abs h0
    refine le_trans ?_ this
    exact zpow_le_one_of_nonpos₀ (by norm_num) (by norm_num)

/-- the hypotheses hold for the unit tetrahedron and the point (1, 1, 3), and the answer is not zero -/
example : CoordV ⟨1, 0, 0⟩ ∧ CoordV ⟨0, 1, 0⟩ ∧ CoordV ⟨0, 0, 1⟩ ∧ CoordV ⟨0, 0, 0⟩ ∧ CoordV ⟨1, 1, 3⟩ ∧
    (inSphere (1:F64) 0 0 0 1 0 0 0 1 0 0 0 1 1 3).toQ = 6 := by
  have c0 : Coord 0 := coord_nat (n := 0) trivial (by rfl) (by norm_num)
  have c1 : Coord 1 := coord_nat (n := 1) trivial (by rfl) (by norm_num)
  have c3 : Coord 3 := coord_nat (n := 3) trivial (by rfl) (by norm_num)
  exact ⟨⟨c1, c0, c0⟩, ⟨c0, c1, c0⟩, ⟨c0, c0, c1⟩, ⟨c0, c0, c0⟩, ⟨c1, c1, c3⟩, by decide +kernel⟩

/-- the float `n * 2^-216` -/
def tiny (n : ℤ) (h : n ≠ 0 ∧ |n| < 2 ^ 53) : F64 :=
  fin (n * 2 ^ (-216 : ℤ)) ⟨mul_ne_zero (by exact_mod_cast h.1) (two_zpow_pos _).ne', n, -216, h.2, by norm_num, by norm_num, rfl⟩

/-- C11: when products underflow the answer can have the wrong sign: here the exact determinant is positive and `inSphere` answers with the
smallest negative number -/
theorem C11_underflow_float_refuted :
    let t1 := tiny 1 (by norm_num)
    let t2 := tiny 2 (by norm_num)
    let m1 := tiny (-1) (by norm_num)
    let m2 := tiny (-2) (by norm_num)
    let r := inSphere t2 t1 m2 m1 t2 0 t1 t2 t1 0 t2 m2 0 0 0
    let D := InSphereFast (exactV ⟨t2, t1, m2⟩) (exactV ⟨m1, t2, 0⟩) (exactV ⟨t1, t2, t1⟩) (exactV ⟨0, t2, m2⟩) (exactV ⟨0, 0, 0⟩)
    r.toQ < 0 ∧ 0 < D := by
  decide +kernel

end Verif.Props
