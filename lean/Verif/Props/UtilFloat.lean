import Verif.Proofs.F64
import Verif.Props.Tri2Util
import Verif.Props.Tri3
import Verif.Model.Delaunator
/-!
# C14 and C28 at binary64
-/
set_option exponentiation.threshold 2000

namespace Verif.Props
open Verif Verif.F64 Verif.Tri2 Verif.Tri3

attribute [local irreducible] rnd F64.round

/-! ## C14 -/

theorem eps_float : (eps : F64).Finite ∧ (eps : F64).toQ = 1 / 2 ^ 52 := by
  have h : rnd ((1:ℚ) / 2 ^ 52) = 1 / 2 ^ 52 := by
    have := rnd_id (K := ℚ) (q := 1 / 2 ^ 52) ⟨1, -52, by norm_num, by norm_num, by norm_num⟩
    simpa using this
  have := round_fin (s := false) (x := (1:ℚ) / 2 ^ 52) (by rw [h, abs_of_pos (by positivity)]; norm_num)
  rw [h] at this
  exact this

theorem one_sub_eps_float : ((1:F64) - eps).Finite ∧ ((1:F64) - eps).toQ = 1 - 1 / 2 ^ 52 := by
  have h : rnd ((1:ℚ) - 1 / 2 ^ 52) = 1 - 1 / 2 ^ 52 := by
    have := rnd_id (K := ℚ) (q := 1 - 1 / 2 ^ 52) ⟨2 ^ 52 - 1, -52, by norm_num, by norm_num, by norm_num⟩
    simpa using this
  have e : (1:F64).toQ - (eps : F64).toQ = 1 - 1 / 2 ^ 52 := by rw [eps_float.2]; rfl
  have := sub_fin (x := 1) (y := eps) trivial eps_float.1 (by rw [e, h, abs_of_pos (by norm_num)]; norm_num)
  rwa [e, h] at this

/-- `math.Min` of two numbers that are not NaN -/
theorem min_toE {x y : F64} (hx : x ≠ nan) (hy : y ≠ nan) : GoMinMax.min x y ≠ nan ∧ (GoMinMax.min x y).toE = min x.toE y.toE := by
  show F64.min x y ≠ nan ∧ (F64.min x y).toE = _
  unfold F64.min
  by_cases h1 : x = inf true ∨ y = inf true
  · rw [if_pos h1]
    refine ⟨by simp, ?_⟩
    have hb : ∀ z : F64, (inf true).toE ≤ z.toE := by
      intro z
      cases z with
      | inf t => cases t <;> simp [toE]
      | _ => exact (toQ_lt _).1.le
    rcases h1 with rfl | rfl
    · rw [min_eq_left (hb _)]
    · rw [min_eq_right (hb _)]
  · rw [if_neg h1, if_neg (by tauto)]
    have key : (if F64.lt x y = true then x else y) ≠ nan ∧ (if F64.lt x y = true then x else y).toE = min x.toE y.toE := by
      have hlt : F64.lt x y = true ↔ _ := lt_toE hx hy
      split_ifs with h
      · exact ⟨hx, (min_eq_left (hlt.mp h).le).symm⟩
      · exact ⟨hy, (min_eq_right (not_lt.mp (mt hlt.mpr h))).symm⟩
    cases x with
    | zero s =>
      cases y with
      | zero t => exact ⟨by simp, by simp [toE]⟩
      | _ => exact key
    | _ => exact key

/-- `math.Max` of two numbers that are not NaN -/
theorem max_toE {x y : F64} (hx : x ≠ nan) (hy : y ≠ nan) : GoMinMax.max x y ≠ nan ∧ (GoMinMax.max x y).toE = max x.toE y.toE := by
  show F64.max x y ≠ nan ∧ (F64.max x y).toE = _
  unfold F64.max
  by_cases h1 : x = inf false ∨ y = inf false
  · rw [if_pos h1]
    refine ⟨by simp, ?_⟩
    have hb : ∀ z : F64, z.toE ≤ (inf false).toE := by
      intro z
      cases z with
      | inf t => cases t <;> simp [toE]
      | _ => exact (toQ_lt _).2.le
    rcases h1 with rfl | rfl
    · rw [max_eq_left (hb _)]
    · rw [max_eq_right (hb _)]
  · rw [if_neg h1, if_neg (by tauto)]
    have key : (if F64.lt y x = true then x else y) ≠ nan ∧ (if F64.lt y x = true then x else y).toE = max x.toE y.toE := by
      have hlt : F64.lt y x = true ↔ _ := lt_toE hy hx
      split_ifs with h
      · exact ⟨hx, (max_eq_left (hlt.mp h).le).symm⟩
      · exact ⟨hy, (max_eq_right (not_lt.mp (mt hlt.mpr h))).symm⟩
    cases x with
    | zero s =>
      cases y with
      | zero t => exact ⟨by simp, by simp [toE]⟩
      | _ => exact key
    | _ => exact key

theorem finite_of_toE {x : F64} (hx : x ≠ nan) (h : |x.toE| < 2 ^ 1024) : x.Finite := by
  cases x with
  | nan => exact absurd rfl hx
  | inf s => cases s <;> simp [toE] at h
  | _ => trivial

/-- the quotient of `pseudoAngle` -/
theorem quot_finite {dx dy : F64} (hx : dx.Finite) (hy : dy ≠ nan) (h0 : dx.toQ ≠ 0 ∨ dy.toE ≠ 0) :
    (dx / (GoAbs.abs dx + GoAbs.abs dy)).Finite ∧ |(dx / (GoAbs.abs dx + GoAbs.abs dy)).toQ| ≤ 1 := by
  have hinf : ∀ t, (dx / inf t).Finite ∧ |(dx / inf t).toQ| ≤ 1 := by
    intro t
    show (F64.div dx (inf t)).Finite ∧ _
    have : ∃ s, F64.div dx (inf t) = zero s := by cases dx <;> first | exact hx.elim | exact ⟨_, rfl⟩
    obtain ⟨s, e⟩ := this
    show (F64.div dx (inf t)).Finite ∧ |(F64.div dx (inf t)).toQ| ≤ 1
    rw [e]; simp
  obtain ⟨ax, ax'⟩ := abs_fin hx
  by_cases fy : dy.Finite
  · obtain ⟨ay, ay'⟩ := abs_fin fy
    by_cases hov : |rnd ((GoAbs.abs dx).toQ + (GoAbs.abs dy).toQ)| < 2 ^ 1024
    · obtain ⟨h1, h2⟩ := add_fin ax ay hov
      have hs1 : |dx.toQ| ≤ (GoAbs.abs dx + GoAbs.abs dy).toQ := by
        rw [h2, ← ax', ← rnd_toQ (GoAbs.abs dx)]
        apply rnd_mono
        rw [rnd_toQ, ay']; linarith [abs_nonneg dy.toQ]
      have hs2 : |dy.toQ| ≤ (GoAbs.abs dx + GoAbs.abs dy).toQ := by
        rw [h2, ← ay', ← rnd_toQ (GoAbs.abs dy)]
        apply rnd_mono
        rw [rnd_toQ, ax']; linarith [abs_nonneg dx.toQ]
      have hpos : 0 < (GoAbs.abs dx + GoAbs.abs dy).toQ := by
        rcases h0 with h | h
        · exact (abs_pos.mpr h).trans_le hs1
        · rw [toE_fin fy] at h; exact (abs_pos.mpr h).trans_le hs2
      have hq : |dx.toQ / (GoAbs.abs dx + GoAbs.abs dy).toQ| ≤ 1 := by
        rw [abs_div, abs_of_pos hpos, div_le_one hpos]; exact hs1
      have hr := rnd_abs_le rnd_one hq
      obtain ⟨h3, h4⟩ := div_fin hx h1 hpos.ne' (hr.trans_lt (by norm_num))
      exact ⟨h3, h4 ▸ hr⟩
    · rw [add_inf_fin ax ay hov]; exact hinf _
  · have : GoAbs.abs dx + GoAbs.abs dy = inf false := by
      cases dy with
      | nan => exact absurd rfl hy
      | inf t =>
        show F64.add (GoAbs.abs dx) (inf false) = _
        generalize GoAbs.abs dx = z at ax
        cases z <;> first | exact ax.elim | rfl
      | _ => exact absurd trivial fy
    rw [this]; exact hinf _

theorem add_fin_small {x y : F64} (hx : x.Finite) (hy : y.Finite) {b : ℚ} (hb : rnd b = b) (hb' : b < 2 ^ 1024)
    (h : |x.toQ + y.toQ| ≤ b) : (x + y).Finite ∧ |(x + y).toQ| ≤ b := by
  have hr := rnd_abs_le hb h
  obtain ⟨h1, h2⟩ := add_fin hx hy (hr.trans_lt hb')
  exact ⟨h1, h2 ▸ hr⟩

theorem rnd_four : rnd (4:ℚ) = 4 := rnd_toQ (4:F64)

theorem angle_ne_nan {p dy : F64} (hp : p.Finite) (hp1 : |p.toQ| ≤ 1) :
    ((if (0 : F64) < dy then (3 - p) / 4 else (1 + p) / 4 : F64)) ≠ nan := by
  have hdiv : ∀ z : F64, z.Finite → |z.toQ| ≤ 4 → z / 4 ≠ nan := by
    intro z hz hz4
    have : |z.toQ / (4:F64).toQ| ≤ 1 := by
      rw [abs_div, show ((4:F64).toQ) = 4 from rfl, show |(4:ℚ)| = 4 by norm_num, div_le_one (by norm_num)]; exact hz4
    exact (div_fin hz (y := 4) trivial (by show (4:ℚ) ≠ 0; norm_num) ((rnd_abs_le rnd_one this).trans_lt (by norm_num))).1.ne_nan
  rw [abs_le] at hp1
  obtain ⟨n1, n2⟩ := neg_fin hp
  split_ifs
  · have := add_fin_small (x := 3) (y := -p) trivial n1 rnd_four (by norm_num) (by
      rw [n2, show ((3:F64).toQ) = 3 from rfl, abs_le]; constructor <;> linarith)
    exact hdiv _ this.1 this.2
  · have := add_fin_small (x := 1) (y := p) trivial hp rnd_four (by norm_num) (by
      rw [show ((1:F64).toQ) = 1 from rfl, abs_le]; constructor <;> linarith)
    exact hdiv _ this.1 this.2

/-- C14: at binary64 `pseudoAngle` is in `[0, 1 - 2^-52]` for every direction with a finite `dx` and a `dy` that is not NaN, not both zero -/
theorem C14_range_float {dx dy : F64} (hx : dx.Finite) (hy : dy ≠ nan) (h0 : ¬ ((dx == 0) = true ∧ (dy == 0) = true)) :
    (pseudoAngle dx dy).Finite ∧ 0 ≤ (pseudoAngle dx dy).toQ ∧ (pseudoAngle dx dy).toQ ≤ 1 - 1 / 2 ^ 52 := by
  have h0' : dx.toQ ≠ 0 ∨ dy.toE ≠ 0 := by
    by_contra hc
    push Not at hc
    exact h0 ⟨(beq_fin hx (y := 0) trivial).mpr hc.1, (beq_toE hy (y := 0) (by decide)).mpr hc.2⟩
  obtain ⟨h1, h2⟩ := quot_finite hx hy h0'
  have h3 := angle_ne_nan (dy := dy) h1 h2
  unfold pseudoAngle
  dsimp only
  generalize (if (0 : F64) < dy then (3 - dx / (GoAbs.abs dx + GoAbs.abs dy)) / 4 else (1 + dx / (GoAbs.abs dx + GoAbs.abs dy)) / 4) = a at h3
  obtain ⟨c1, c2⟩ := one_sub_eps_float
  obtain ⟨m1, m2⟩ := min_toE c1.ne_nan h3
  obtain ⟨n1, n2⟩ := max_toE (x := 0) (by decide) m1
  have z : (0:F64).toE = 0 := rfl
  rw [m2, toE_fin c1, c2, z] at n2
  have b0 : 0 ≤ (GoMinMax.max (0:F64) (GoMinMax.min (1 - eps) a)).toE := n2 ▸ le_max_left _ _
  have b1 : (GoMinMax.max (0:F64) (GoMinMax.min (1 - eps) a)).toE ≤ 1 - 1 / 2 ^ 52 := by
    rw [n2]; exact max_le (by norm_num) (min_le_left _ _)
  have f := finite_of_toE n1 (abs_lt.mpr ⟨by linarith [show (0:ℚ) < 2 ^ 1024 by positivity], b1.trans_lt (by norm_num)⟩)
  rw [toE_fin f] at b0 b1
  exact ⟨f, b0, b1⟩

/-- C14: the direction zero gives NaN -/
theorem C14_zero_float_refuted : pseudoAngle (0:F64) 0 = nan := by decide +kernel

theorem rnd_below_len {len : ℕ} (h0 : 0 < len) (h1 : len < 2 ^ 53) {a : ℚ} (ha : a ≤ 1 - 1 / 2 ^ 52) : rnd (a * len) < len := by
  obtain ⟨e, he1, he2⟩ : ∃ e, 2 ^ e ≤ len ∧ len < 2 ^ (e + 1) := ⟨Nat.log 2 len, Nat.pow_log_le_self 2 h0.ne', Nat.lt_pow_succ_log_self (by norm_num) len⟩
  have he : e ≤ 52 := by
    by_contra hc
    have := Nat.pow_le_pow_right (n := 2) (by norm_num) (show 53 ≤ e by omega)
    omega
  have hlen : (0:ℚ) < len := by exact_mod_cast h0
  set q : ℚ := len - 2 ^ e / 2 ^ 52 with hq
  have p1 : (2:ℚ) ^ e ≤ len := by exact_mod_cast he1
  have hbin : IsBin q := by
    refine ⟨len * 2 ^ (52 - e) - 1, (e:ℤ) - 52, ?_, by omega, ?_⟩
    · have a1 : len * 2 ^ (52 - e) < 2 ^ 53 := by
        calc len * 2 ^ (52 - e) < 2 ^ (e + 1) * 2 ^ (52 - e) := by gcongr
          _ = 2 ^ 53 := by rw [← pow_add]; congr 1; omega
      have a2 : 1 ≤ len * 2 ^ (52 - e) := Nat.mul_pos h0 (by positivity)
      rw [abs_lt]
      constructor
      · have : (0:ℤ) ≤ len * 2 ^ (52 - e) - 1 := by
          have : ((1:ℕ):ℤ) ≤ ((len * 2 ^ (52 - e) : ℕ) : ℤ) := by exact_mod_cast a2
          push_cast at this; linarith
        linarith
      · have : ((len * 2 ^ (52 - e) : ℕ) : ℤ) < ((2 ^ 53 : ℕ) : ℤ) := by exact_mod_cast a1
        push_cast at this; linarith
    · rw [zpow_sub₀ (by norm_num), zpow_natCast, show (2:ℚ) ^ (52:ℤ) = 2 ^ 52 from zpow_natCast 2 52, hq]
      push_cast
      have : (2:ℚ) ^ (52 - e) * 2 ^ e = 2 ^ 52 := by rw [← pow_add]; congr 1; omega
      field_simp
      linear_combination (-(len:ℚ)) * this
  have hle : a * len ≤ q := by
    have : a * len ≤ (1 - 1 / 2 ^ 52) * len := by gcongr
    rw [hq]
    have p2 : (2:ℚ) ^ e / 2 ^ 52 ≤ len / 2 ^ 52 := by gcongr
    linarith
  have := rnd_mono hle
  have hid : rnd q = q := by simpa using rnd_id (K := ℚ) hbin
  rw [hid] at this
  have : (0:ℚ) < 2 ^ e / 2 ^ 52 := by positivity
  linarith

theorem ofInt_float {n : ℕ} (h : n < 2 ^ 53) : (GoOfInt.ofInt (n : ℤ) : F64).Finite ∧ (GoOfInt.ofInt (n : ℤ) : F64).toQ = n := by
  have hr : rnd (((n:ℤ)):ℚ) = n := by
    have := rnd_id (K := ℚ) (q := n) ⟨n, 0, by rw [Nat.abs_cast]; exact_mod_cast h, by norm_num, by simp⟩
    simpa using this
  have := round_fin (s := false) (x := (((n:ℤ)):ℚ)) (by
    rw [hr, Nat.abs_cast]
    have : (n:ℚ) < 2 ^ 53 := by exact_mod_cast h
    exact this.trans (by norm_num))
  rw [hr] at this
  exact this

theorem trunc_fin {x : F64} (hx : x.Finite) (h0 : 0 ≤ x.toQ) (h1 : x.toQ < 2 ^ 63) : GoTrunc.trunc x = ⌊x.toQ⌋ := by
  show F64.trunc x = _
  have : ⌊x.toQ⌋ < 2 ^ 63 := Int.floor_lt.mpr (by push_cast; exact h1)
  have h2 : 0 ≤ ⌊x.toQ⌋ := Int.floor_nonneg.mpr h0
  cases x with
  | nan => exact hx.elim
  | inf s => exact hx.elim
  | zero s => simp [F64.trunc]
  | fin q hq =>
    have e : (if 0 ≤ (fin q hq).toQ then ⌊(fin q hq).toQ⌋ else ⌈(fin q hq).toQ⌉) = ⌊(fin q hq).toQ⌋ := if_pos h0
    show (if -2 ^ 63 ≤ (if 0 ≤ (fin q hq).toQ then ⌊(fin q hq).toQ⌋ else ⌈(fin q hq).toQ⌉) ∧
      (if 0 ≤ (fin q hq).toQ then ⌊(fin q hq).toQ⌋ else ⌈(fin q hq).toQ⌉) < 2 ^ 63 then
      (if 0 ≤ (fin q hq).toQ then ⌊(fin q hq).toQ⌋ else ⌈(fin q hq).toQ⌉) else -2 ^ 63) = _
    simp only [e]
    exact if_pos ⟨by omega, this⟩

/-- C14: at binary64 the hash bucket of every point other than the center is a valid index, for coordinates that do not overflow when subtracted
and tables of less than `2^53` entries -/
theorem C14_hashKey_float (center p : R3.Vector F64) (len : ℕ) (h0 : 0 < len) (h1 : len < 2 ^ 53)
    (hc : center.X.Finite ∧ center.Y.Finite) (hp : p.X.Finite ∧ p.Y.Finite)
    (hbc : |center.X.toQ| ≤ 2 ^ 1022 ∧ |center.Y.toQ| ≤ 2 ^ 1022) (hbp : |p.X.toQ| ≤ 2 ^ 1022 ∧ |p.Y.toQ| ≤ 2 ^ 1022)
    (hne : p.X.toQ ≠ center.X.toQ ∨ p.Y.toQ ≠ center.Y.toQ) :
    0 ≤ hashKey len center p ∧ hashKey len center p < len := by
  have hsub : ∀ x y : F64, x.Finite → y.Finite → |x.toQ| ≤ 2 ^ 1022 → |y.toQ| ≤ 2 ^ 1022 →
      (x - y).Finite ∧ ((x - y).toQ = 0 → x.toQ = y.toQ) := by
    intro x y hx hy bx bY
    have hb : rnd ((2:ℚ) ^ 1023) = 2 ^ 1023 := by
      have := rnd_id (K := ℚ) (q := 2 ^ 1023) ⟨1, 1023, by norm_num, by norm_num, by rw [Int.cast_one, one_mul]; exact (zpow_natCast 2 1023).symm⟩
      simpa using this
    have hd : |x.toQ - y.toQ| ≤ 2 ^ 1023 := (abs_sub _ _).trans (by
      rw [show (2:ℚ) ^ 1023 = 2 ^ 1022 + 2 ^ 1022 by rw [pow_succ]; ring]; exact add_le_add bx bY)
    obtain ⟨f, e⟩ := sub_fin hx hy ((rnd_abs_le hb hd).trans_lt (pow_lt_pow_right₀ (by norm_num) (by norm_num)))
    refine ⟨f, fun hz => ?_⟩
    rw [e] at hz
    exact rnd_sub_eq_zero hz
  obtain ⟨fx, zx⟩ := hsub _ _ hp.1 hc.1 hbp.1 hbc.1
  obtain ⟨fy, zy⟩ := hsub _ _ hp.2 hc.2 hbp.2 hbc.2
  obtain ⟨f, b0, b1⟩ := C14_range_float fx fy.ne_nan (by
    rintro ⟨e1, e2⟩
    rcases hne with h | h
    · exact h (zx ((beq_fin fx (y := 0) trivial).mp e1))
    · exact h (zy ((beq_fin fy (y := 0) trivial).mp e2)))
  unfold hashKey R3.Sub
  dsimp only
  generalize pseudoAngle (p.X - center.X) (p.Y - center.Y) = a at f b0 b1
  obtain ⟨i1, i2⟩ := ofInt_float h1
  have hlt := rnd_below_len h0 h1 b1
  have hlen : (0:ℚ) < len := by exact_mod_cast h0
  have hnn : 0 ≤ rnd (a.toQ * len) := rnd_nonneg (mul_nonneg b0 hlen.le)
  have hlen' : (len:ℚ) < 2 ^ 53 := by exact_mod_cast h1
  obtain ⟨m1, m2⟩ := mul_fin f i1 (by rw [i2, abs_of_nonneg hnn]; exact (hlt.trans hlen').trans (by norm_num))
  rw [i2] at m2
  rw [trunc_fin m1 (by rw [m2]; exact hnn) (by rw [m2]; exact (hlt.trans hlen').trans (by norm_num)), m2]
  refine ⟨Int.floor_nonneg.mpr hnn, Int.floor_lt.mpr ?_⟩
  push_cast; exact hlt

/-- C14: at binary64 the bucket of the center itself is the index `-2^63`, whatever the table: the triangulator panics on a point equal to the
computed circumcenter -/
theorem C14_center_float_refuted (len : ℕ) (p : R3.Vector F64) (hp : p.X.Finite ∧ p.Y.Finite) : hashKey len p p = -2 ^ 63 := by
  have hz : ∀ x : F64, x.Finite → ∃ s, x - x = zero s := by
    intro x hx
    obtain ⟨h1, h2⟩ := sub_fin hx hx (by rw [sub_self, rnd_zero, abs_zero]; positivity)
    rw [sub_self, rnd_zero] at h2
    generalize x - x = z at h1 h2
    cases z with
    | zero s => exact ⟨s, rfl⟩
    | fin q h => exact absurd h2 h.1
    | _ => exact h1.elim
  obtain ⟨s, hs⟩ := hz _ hp.1
  obtain ⟨t, ht⟩ := hz _ hp.2
  unfold hashKey R3.Sub
  dsimp only
  rw [hs, ht]
  have : ∀ s t, pseudoAngle (zero s) (zero t) = nan := by decide +kernel
  rw [this]
  rfl

example : |(1:F64).toQ| ≤ 2 ^ 1022 ∧ (1:F64).toQ ≠ (2:F64).toQ := by
  constructor
  · show |(1:ℚ)| ≤ 2 ^ 1022
    rw [abs_one]; exact one_le_pow₀ (by norm_num)
  · show (1:ℚ) ≠ 2
    norm_num

/-! ## C28 -/

/-- one coordinate of the loop of `computeBoundingBoxForVectors` -/
theorem foldMin_float (l : List F64) (m : F64) (hm : m ≠ nan) :
    let r := l.foldl (fun m v => if v < m then v else m) m
    r ≠ nan ∧ r.toE ≤ m.toE ∧ (∀ v ∈ l, v ≠ nan → r.toE ≤ v.toE) ∧ (r = m ∨ r ∈ l) := by
  induction l generalizing m with
  | nil => exact ⟨hm, le_refl _, by simp, Or.inl rfl⟩
  | cons a l ih =>
    dsimp only [List.foldl_cons]
    by_cases h : a < m
    · rw [if_pos h]
      have ha := (ne_nan_of_lt h).1
      obtain ⟨h1, h2, h3, h4⟩ := ih a ha
      refine ⟨h1, h2.trans ((lt_toE ha hm).mp h).le, ?_, ?_⟩
      · intro v hv hv'
        rcases List.mem_cons.mp hv with rfl | hv
        · exact h2
        · exact h3 v hv hv'
      · rcases h4 with h4 | h4
        · exact Or.inr (List.mem_cons.mpr (Or.inl h4))
        · exact Or.inr (List.mem_cons_of_mem _ h4)
    · rw [if_neg h]
      obtain ⟨h1, h2, h3, h4⟩ := ih m hm
      refine ⟨h1, h2, ?_, ?_⟩
      · intro v hv hv'
        rcases List.mem_cons.mp hv with rfl | hv
        · exact h2.trans (not_lt.mp (mt (lt_toE hv' hm).mpr h))
        · exact h3 v hv hv'
      · exact h4.imp id (List.mem_cons_of_mem _)

theorem foldMax_float (l : List F64) (m : F64) (hm : m ≠ nan) :
    let r := l.foldl (fun m v => if m < v then v else m) m
    r ≠ nan ∧ m.toE ≤ r.toE ∧ (∀ v ∈ l, v ≠ nan → v.toE ≤ r.toE) ∧ (r = m ∨ r ∈ l) := by
  induction l generalizing m with
  | nil => exact ⟨hm, le_refl _, by simp, Or.inl rfl⟩
  | cons a l ih =>
    dsimp only [List.foldl_cons]
    by_cases h : m < a
    · rw [if_pos h]
      have ha := (ne_nan_of_lt h).2
      obtain ⟨h1, h2, h3, h4⟩ := ih a ha
      refine ⟨h1, ((lt_toE hm ha).mp h).le.trans h2, ?_, ?_⟩
      · intro v hv hv'
        rcases List.mem_cons.mp hv with rfl | hv
        · exact h2
        · exact h3 v hv hv'
      · rcases h4 with h4 | h4
        · exact Or.inr (List.mem_cons.mpr (Or.inl h4))
        · exact Or.inr (List.mem_cons_of_mem _ h4)
    · rw [if_neg h]
      obtain ⟨h1, h2, h3, h4⟩ := ih m hm
      refine ⟨h1, h2, ?_, ?_⟩
      · intro v hv hv'
        rcases List.mem_cons.mp hv with rfl | hv
        · exact (not_lt.mp (mt (lt_toE hm hv').mpr h)).trans h2
        · exact h3 v hv hv'
      · exact h4.imp id (List.mem_cons_of_mem _)

/-- the loop works on each coordinate separately, whatever the scalars -/
theorem box_coord {F : Type} [LT F] [DecidableLT F] (Vs : List (R3.Vector F)) (mn mx : R3.Vector F) :
    Vs.foldl (fun (acc : R3.Vector F × R3.Vector F) v =>
      let mn := acc.1
      let mx := acc.2
      let mn := if v.X < mn.X then { mn with X := v.X } else mn
      let mn := if v.Y < mn.Y then { mn with Y := v.Y } else mn
      let mn := if v.Z < mn.Z then { mn with Z := v.Z } else mn
      let mx := if mx.X < v.X then { mx with X := v.X } else mx
      let mx := if mx.Y < v.Y then { mx with Y := v.Y } else mx
      let mx := if mx.Z < v.Z then { mx with Z := v.Z } else mx
      (mn, mx)) (mn, mx) =
    (⟨(Vs.map (·.X)).foldl (fun m v => if v < m then v else m) mn.X, (Vs.map (·.Y)).foldl (fun m v => if v < m then v else m) mn.Y,
      (Vs.map (·.Z)).foldl (fun m v => if v < m then v else m) mn.Z⟩,
     ⟨(Vs.map (·.X)).foldl (fun m v => if m < v then v else m) mx.X, (Vs.map (·.Y)).foldl (fun m v => if m < v then v else m) mx.Y,
      (Vs.map (·.Z)).foldl (fun m v => if m < v then v else m) mx.Z⟩) := by
  induction Vs generalizing mn mx with
  | nil => rfl
  | cons v Vs ih =>
    simp only [List.foldl_cons, List.map_cons]
    rw [ih]
    have e1 : ∀ (c : Prop) [Decidable c] (a b : R3.Vector F), (if c then a else b).X = if c then a.X else b.X := by intros; split_ifs <;> rfl
    have e2 : ∀ (c : Prop) [Decidable c] (a b : R3.Vector F), (if c then a else b).Y = if c then a.Y else b.Y := by intros; split_ifs <;> rfl
    have e3 : ∀ (c : Prop) [Decidable c] (a b : R3.Vector F), (if c then a else b).Z = if c then a.Z else b.Z := by intros; split_ifs <;> rfl
    simp only [e1, e2, e3, ite_self]

theorem maxFloat32_float : (GoConst.const maxFloat32 : F64).Finite ∧ (GoConst.const maxFloat32 : F64).toQ = maxFloat32 := by
  have h : rnd maxFloat32 = maxFloat32 := by
    have := rnd_id (K := ℚ) (q := maxFloat32) ⟨2 ^ 24 - 1, 104, by norm_num, by norm_num, by norm_num [maxFloat32]⟩
    simpa using this
  have := round_fin (s := false) (x := maxFloat32) (by rw [h, abs_of_pos (by norm_num [maxFloat32])]; norm_num [maxFloat32])
  rw [h] at this
  exact this

/-- C28: at binary64 every coordinate that is not NaN is bounded by the two corners, infinite coordinates included and whatever the other
coordinates are -/
theorem C28_bounds_float (Vs : List (R3.Vector F64)) : ∀ p ∈ Vs,
    (p.X ≠ nan → (computeBoundingBoxForVectors Vs).1.X ≤ p.X ∧ p.X ≤ (computeBoundingBoxForVectors Vs).2.X) ∧
    (p.Y ≠ nan → (computeBoundingBoxForVectors Vs).1.Y ≤ p.Y ∧ p.Y ≤ (computeBoundingBoxForVectors Vs).2.Y) ∧
    (p.Z ≠ nan → (computeBoundingBoxForVectors Vs).1.Z ≤ p.Z ∧ p.Z ≤ (computeBoundingBoxForVectors Vs).2.Z) := by
  intro p hp
  unfold computeBoundingBoxForVectors
  rw [box_coord]
  dsimp only
  have f1 := maxFloat32_float.1
  have n1 := f1.ne_nan
  have n2 := (neg_fin f1).1.ne_nan
  generalize (GoConst.const maxFloat32 : F64) = m at n1 n2
  have key : ∀ (g : R3.Vector F64 → F64), g p ≠ nan →
      (Vs.map g).foldl (fun m v => if v < m then v else m) m ≤ g p ∧ g p ≤ (Vs.map g).foldl (fun m v => if m < v then v else m) (-m) := by
    intro g hg
    obtain ⟨a1, _, a3, _⟩ := foldMin_float (Vs.map g) m n1
    obtain ⟨b1, _, b3, _⟩ := foldMax_float (Vs.map g) (-m) n2
    exact ⟨(le_toE a1 hg).mpr (a3 _ (List.mem_map_of_mem hp) hg), (le_toE hg b1).mpr (b3 _ (List.mem_map_of_mem hp) hg)⟩
  exact ⟨key _, key _, key _⟩

/-- C28: at binary64 the bounds are attained (up to the sign of zero) by listed points when the coordinates are within the sentinel range -/
theorem C28_tight_float (Vs : List (R3.Vector F64)) (hne : Vs ≠ [])
    (hr : ∀ p ∈ Vs, ((p.X.Finite ∧ |p.X.toQ| ≤ maxFloat32) ∧ (p.Y.Finite ∧ |p.Y.toQ| ≤ maxFloat32)) ∧ (p.Z.Finite ∧ |p.Z.toQ| ≤ maxFloat32)) :
    ((∃ p ∈ Vs, ((computeBoundingBoxForVectors Vs).1.X == p.X) = true) ∧ (∃ p ∈ Vs, ((computeBoundingBoxForVectors Vs).1.Y == p.Y) = true) ∧
      (∃ p ∈ Vs, ((computeBoundingBoxForVectors Vs).1.Z == p.Z) = true)) ∧
    ((∃ p ∈ Vs, ((computeBoundingBoxForVectors Vs).2.X == p.X) = true) ∧ (∃ p ∈ Vs, ((computeBoundingBoxForVectors Vs).2.Y == p.Y) = true) ∧
      (∃ p ∈ Vs, ((computeBoundingBoxForVectors Vs).2.Z == p.Z) = true)) := by
  unfold computeBoundingBoxForVectors
  rw [box_coord]
  dsimp only
  obtain ⟨f1, f2⟩ := maxFloat32_float
  obtain ⟨g1, g2⟩ := neg_fin f1
  rw [f2] at g2
  generalize (GoConst.const maxFloat32 : F64) = m at f1 f2 g1 g2
  obtain ⟨q, hq⟩ := List.exists_mem_of_ne_nil Vs hne
  have key : ∀ (g : R3.Vector F64 → F64), (∀ p ∈ Vs, (g p).Finite ∧ |(g p).toQ| ≤ maxFloat32) →
      (∃ p ∈ Vs, ((Vs.map g).foldl (fun m v => if v < m then v else m) m == g p) = true) ∧
      (∃ p ∈ Vs, ((Vs.map g).foldl (fun m v => if m < v then v else m) (-m) == g p) = true) := by
    intro g hg
    obtain ⟨a1, _, a3, a4⟩ := foldMin_float (Vs.map g) m f1.ne_nan
    obtain ⟨b1, _, b3, b4⟩ := foldMax_float (Vs.map g) (-m) g1.ne_nan
    obtain ⟨hq1, hq2⟩ := hg q hq
    rw [abs_le] at hq2
    have refl : ∀ z : F64, z ≠ nan → (z == z) = true := fun z hz => (beq_toE hz hz).mpr rfl
    constructor
    · rcases a4 with e | e
      · refine ⟨q, hq, ?_⟩
        have h3 := a3 _ (List.mem_map_of_mem hq) hq1.ne_nan
        rw [e, toE_fin f1, toE_fin hq1, f2] at h3
        rw [e]
        exact (beq_fin f1 hq1).mpr (by rw [f2]; linarith)
      · obtain ⟨p, hp, e'⟩ := List.mem_map.mp e
        exact ⟨p, hp, by rw [e']; exact refl _ a1⟩
    · rcases b4 with e | e
      · refine ⟨q, hq, ?_⟩
        have h3 := b3 _ (List.mem_map_of_mem hq) hq1.ne_nan
        rw [e, toE_fin g1, toE_fin hq1, g2] at h3
        rw [e]
        exact (beq_fin g1 hq1).mpr (by rw [g2]; linarith)
      · obtain ⟨p, hp, e'⟩ := List.mem_map.mp e
        exact ⟨p, hp, by rw [e']; exact refl _ b1⟩
  have kx := key (·.X) (fun p hp => (hr p hp).1.1)
  have ky := key (·.Y) (fun p hp => (hr p hp).1.2)
  have kz := key (·.Z) (fun p hp => (hr p hp).2)
  exact ⟨⟨kx.1, ky.1, kz.1⟩, kx.2, ky.2, kz.2⟩

example : ∀ p ∈ [(⟨1, -2, 0⟩ : R3.Vector F64), ⟨3, 4, 1⟩], (p.X.Finite ∧ |p.X.toQ| ≤ maxFloat32) := by
  intro p hp
  simp only [List.mem_cons, List.not_mem_nil, or_false] at hp
  rcases hp with rfl | rfl
  · exact ⟨trivial, by show |(1:ℚ)| ≤ _; norm_num [maxFloat32]⟩
  · exact ⟨trivial, by show |(3:ℚ)| ≤ _; norm_num [maxFloat32]⟩

end Verif.Props
