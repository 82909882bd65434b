import Verif.Model.HashSize
import Verif.Props.WellSpread
import Verif.Props.DelaunayUnique
import Verif.Props.UtilFloat
import Verif.Props.DelaunatorFloat
import Verif.Props.Overflow
/-!
# C98: the size of the hash table of the triangulator
-/
namespace Verif.Props
set_option linter.unusedSectionVars false
open Verif Verif.F64 Verif.Proofs Verif.Tri2 Verif.Spec

theorem ceil_bin {q : ℚ} (h : IsBin64 q) : IsBin64 ((⌈q⌉ : ℤ) : ℚ) := by
  obtain ⟨m, e, h1, h2, h3, h4⟩ := h
  rcases le_or_gt 0 e with he | he
  · have hq : q = ((m * 2 ^ e.toNat : ℤ) : ℚ) := by
      rw [h4]; push_cast
      congr 1
      conv_lhs => rw [← Int.toNat_of_nonneg he]
      exact zpow_natCast _ _
    rw [hq, Int.ceil_intCast, ← hq]
    exact ⟨m, e, h1, h2, h3, h4⟩
  · have hp : (2:ℚ) ^ e ≤ 1 / 2 := by
      have : (2:ℚ) ^ e ≤ 2 ^ (-1 : ℤ) := zpow_le_zpow_right₀ (by norm_num) (by omega)
      norm_num at this ⊢; exact this
    have hp0 : (0:ℚ) < 2 ^ e := by positivity
    have hm : |(m:ℚ)| < 2 ^ 53 := by exact_mod_cast h1
    have hq : |q| < 2 ^ 52 := by
      rw [h4, abs_mul, abs_of_pos hp0]
      calc |(m:ℚ)| * 2 ^ e ≤ |(m:ℚ)| * (1 / 2) := mul_le_mul_of_nonneg_left hp (abs_nonneg _)
        _ < 2 ^ 52 := by linarith
    rw [abs_lt] at hq
    refine ⟨⌈q⌉, 0, ?_, by norm_num, by norm_num, by simp⟩
    have a : ⌈q⌉ ≤ 2 ^ 52 := Int.ceil_le.mpr (by push_cast; linarith)
    have b : -2 ^ 52 ≤ ⌈q⌉ := by
      have := Int.le_ceil q
      have h : ((-2 ^ 52 : ℤ) : ℚ) ≤ ⌈q⌉ := by push_cast; linarith
      exact_mod_cast h
    rw [abs_lt]; omega

theorem bin64_lt {q : ℚ} (h : IsBin64 q) : |q| < 2 ^ 1024 := by
  obtain ⟨m, e, h1, h2, h3, h4⟩ := h
  have hm : |(m:ℚ)| < 2 ^ 53 := by exact_mod_cast h1
  have hp : (2:ℚ) ^ e ≤ 2 ^ (971:ℕ) := by
    rw [← zpow_natCast]; exact zpow_le_zpow_right₀ (by norm_num) (by push_cast; exact h3)
  have hp0 : (0:ℚ) < 2 ^ e := by positivity
  rw [h4, abs_mul, abs_of_pos hp0]
  calc |(m:ℚ)| * 2 ^ e < 2 ^ 53 * 2 ^ e := mul_lt_mul_of_pos_right hm hp0
    _ ≤ 2 ^ 53 * 2 ^ 971 := mul_le_mul_of_nonneg_left hp (by positivity)
    _ = 2 ^ 1024 := by rw [← pow_add]

/-- C98: `math.Ceil` never rounds: a finite number goes to the least integer not below it -/
theorem C98_ceil {x : F64} (hx : x.Finite) : x.ceil.Finite ∧ x.ceil.toQ = ⌈x.toQ⌉ := by
  cases x with
  | nan => exact hx.elim
  | inf s => exact hx.elim
  | zero s => exact ⟨trivial, by simp [F64.ceil, toQ]⟩
  | fin q h =>
    have hb := ceil_bin h.2
    have e : rnd ((⌈q⌉ : ℤ) : ℚ) = ((⌈q⌉ : ℤ) : ℚ) := rnd_id (K := ℚ) hb.bin
    have := round_fin (s := decide (q < 0)) (x := ((⌈q⌉ : ℤ) : ℚ)) (by rw [e]; exact bin64_lt hb)
    rw [e] at this
    exact this

/-- the steps of line 138 -/
theorem hash_steps {n : ℕ} (h1 : 1 ≤ n) (h2 : n < 2 ^ 63) : ∃ s r : ℚ, s = rnd (n : ℚ) ∧ r = rnd (Real.sqrt (s : ℝ)) ∧ 1 ≤ s ∧ s ≤ 2 ^ 63 ∧ 1 ≤ r ∧ r ≤ 2 ^ 32 ∧
    ((hashSize64 n : ℕ) : ℤ) = ⌈r⌉ := by
  have s1 : (1:ℚ) ≤ rnd (n:ℚ) := by
    have : rnd (1:ℚ) = 1 := by
      have := rnd_id (K := ℚ) (q := 1) ⟨1, 0, by norm_num, by norm_num, by simp⟩
      simpa using this
    rw [← this]; exact rnd_mono (by exact_mod_cast h1)
  have s2 : rnd (n:ℚ) ≤ 2 ^ 63 := by
    have : rnd (2 ^ 63:ℚ) = 2 ^ 63 := by
      have := rnd_id (K := ℚ) (q := 2 ^ 63) ⟨1, 63, by norm_num, by norm_num, by norm_num⟩
      simpa using this
    rw [← this]; exact rnd_mono (by exact_mod_cast h2.le)
  have r1 : (1:ℚ) ≤ rnd (Real.sqrt ((rnd (n:ℚ) : ℚ) : ℝ)) := by
    have : rnd (1:ℝ) = 1 := by
      have := rnd_id (K := ℝ) (q := 1) ⟨1, 0, by norm_num, by norm_num, by simp⟩
      simpa using this
    rw [← this]; refine rnd_mono (Real.one_le_sqrt.mpr (by exact_mod_cast s1))
  have r2 : rnd (Real.sqrt ((rnd (n:ℚ) : ℚ) : ℝ)) ≤ 2 ^ 32 := by
    have : rnd (2 ^ 32:ℝ) = 2 ^ 32 := by
      have := rnd_id (K := ℝ) (q := 2 ^ 32) ⟨1, 32, by norm_num, by norm_num, by norm_num⟩
      simpa using this
    rw [← this]; refine rnd_mono (Real.sqrt_le_iff.mpr ⟨by norm_num, ?_⟩)
    have : ((rnd (n:ℚ) : ℚ) : ℝ) ≤ 2 ^ 63 := by exact_mod_cast s2
    linarith
  have lim : (2:ℚ) ^ 63 < 2 ^ 1024 := pow_lt_pow_right₀ (by norm_num) (by norm_num)
  have lim' : (2:ℚ) ^ 32 < 2 ^ 1024 := pow_lt_pow_right₀ (by norm_num) (by norm_num)
  have c1 := round_fin (s := false) (x := (((n:ℤ)):ℚ)) (by
    rw [show (((n:ℤ)):ℚ) = (n:ℚ) by simp, abs_of_nonneg (by linarith)]; exact lt_of_le_of_lt s2 lim)
  rw [show rnd (((n:ℤ)):ℚ) = rnd (n:ℚ) by simp] at c1
  have c2 : (F64.sqrt (GoOfInt.ofInt (n : ℤ) : F64)).Finite ∧ (F64.sqrt (GoOfInt.ofInt (n : ℤ) : F64)).toQ = rnd (Real.sqrt ((rnd (n:ℚ) : ℚ) : ℝ)) := by
    change (F64.sqrt (round false (((n:ℤ)):ℚ))).Finite ∧ (F64.sqrt (round false (((n:ℤ)):ℚ))).toQ = _
    generalize round false (((n:ℤ)):ℚ) = x at c1
    cases x with
    | nan => exact c1.1.elim
    | inf s => exact c1.1.elim
    | zero s => exact absurd c1.2 (by simp only [toQ]; intro e; rw [← e] at s1; norm_num at s1)
    | fin q h =>
      simp only [toQ] at c1
      simp only [F64.sqrt]
      rw [c1.2, if_neg (by linarith)]
      exact round_fin (by rw [abs_of_nonneg (by linarith)]; exact lt_of_le_of_lt r2 lim')
  obtain ⟨c3, c4⟩ := C98_ceil c2.1
  rw [c2.2] at c4
  refine ⟨rnd (n:ℚ), _, rfl, rfl, s1, s2, r1, r2, ?_⟩
  generalize rnd (Real.sqrt ((rnd (n:ℚ) : ℚ) : ℝ)) = r at r1 r2 c4
  have p1 : (1:ℤ) ≤ ⌈r⌉ := Int.one_le_ceil_iff.mpr (by linarith)
  have p2 : ⌈r⌉ ≤ 2 ^ 32 := Int.ceil_le.mpr (by push_cast; exact r2)
  have p3 : ((⌈r⌉ : ℤ) : ℚ) ≤ 2 ^ 32 := by exact_mod_cast p2
  unfold hashSize64
  have := trunc_fin c3 (by rw [c4]; exact_mod_cast (by omega : (0:ℤ) ≤ ⌈r⌉)) (by rw [c4]; linarith)
  change F64.trunc _ = _ at this
  rw [this, c4, Int.floor_intCast]
  exact Int.toNat_of_nonneg (by omega)

/-- C98: for every number of points a 64-bit `int` can hold, the hash table has at least one entry and at most `2^32`: `make` and the remainder of line 182 do
not panic, and the conditions on the hash size of the theorems about `Triangulate` hold -/
theorem C98_range {n : ℕ} (h1 : 1 ≤ n) (h2 : n < 2 ^ 63) : 0 < hashSize64 n ∧ hashSize64 n ≤ 2 ^ 32 := by
  obtain ⟨s, r, _, _, _, _, r1, r2, e⟩ := hash_steps h1 h2
  have p1 : (1:ℤ) ≤ ⌈r⌉ := Int.one_le_ceil_iff.mpr (by linarith)
  have p2 : ⌈r⌉ ≤ 2 ^ 32 := Int.ceil_le.mpr (by push_cast; exact r2)
  omega

/-- C98: up to `2^52` points the size is the least number whose square is at least the number of points: two roundings and the ceiling do not disturb it -/
theorem C98_size {n : ℕ} (h1 : 1 ≤ n) (h2 : n ≤ 2 ^ 52) : n ≤ hashSize64 n ^ 2 ∧ ∀ k : ℕ, n ≤ k ^ 2 → hashSize64 n ≤ k := by
  obtain ⟨s, r, es, er, _, _, r1, r2, e⟩ := hash_steps h1 (by omega)
  have es' : s = n := by
    rw [es]
    have := rnd_id (K := ℚ) (q := n) ⟨n, 0, by rw [Nat.abs_cast]; exact_mod_cast (by omega : n < 2 ^ 53), by norm_num, by simp⟩
    simpa using this
  subst es'
  have hs : Real.sqrt ((((n:ℕ):ℚ)) : ℝ) = Real.sqrt (n:ℝ) := by norm_num
  rw [hs] at er
  constructor
  · by_contra hc
    push Not at hc
    generalize hj : hashSize64 n = j at *
    have hj26 : j < 2 ^ 26 := by
      by_contra hh
      push Not at hh
      have : (2 ^ 26) ^ 2 ≤ j ^ 2 := Nat.pow_le_pow_left hh 2
      omega
    -- the root is at least `j + 2^-27`, a binary64 number
    have hb : rnd ((((j:ℚ) + 1 / 2 ^ 27 : ℚ)) : ℝ) = (j:ℚ) + 1 / 2 ^ 27 := by
      refine rnd_id ⟨j * 2 ^ 27 + 1, -27, ?_, by norm_num, ?_⟩
      · rw [abs_lt]; constructor <;> push_cast <;> omega
      · push_cast; rw [zpow_neg]; norm_num; ring
    have hroot : ((((j:ℚ) + 1 / 2 ^ 27 : ℚ)) : ℝ) ≤ Real.sqrt (n:ℝ) := by
      apply Real.le_sqrt_of_sq_le
      have a : ((j ^ 2 + 1 : ℕ) : ℝ) ≤ n := by exact_mod_cast hc
      have b : (j:ℝ) ≤ 2 ^ 26 - 1 := by
        have : ((j + 1 : ℕ) : ℝ) ≤ ((2 ^ 26 : ℕ) : ℝ) := by exact_mod_cast hj26
        push_cast at this; linarith
      push_cast at a ⊢
      have : ((j:ℝ) + 1 / 2 ^ 27) ^ 2 = j ^ 2 + 2 / 2 ^ 27 * j + 1 / 2 ^ 54 := by ring
      rw [this]
      have b' : 2 / 2 ^ 27 * (j:ℝ) ≤ 2 / 2 ^ 27 * (2 ^ 26 - 1) := mul_le_mul_of_nonneg_left b (by positivity)
      have c : (2:ℝ) / 2 ^ 27 * (2 ^ 26 - 1) + 1 / 2 ^ 54 ≤ 1 := by norm_num
      linarith
    have := rnd_mono hroot
    rw [hb, ← er] at this
    have c : r ≤ j := by
      have : (r:ℚ) ≤ ((⌈r⌉ : ℤ) : ℚ) := Int.le_ceil r
      rw [← e] at this
      exact_mod_cast this
    have : (0:ℚ) < 1 / 2 ^ 27 := by norm_num
    linarith
  · intro k hk
    rcases le_or_gt (2 ^ 26) k with hk26 | hk26
    · -- then the bound follows from the case `2^26`
      have c : r ≤ 2 ^ 26 := by
        have hb : rnd ((((2:ℚ) ^ 26 : ℚ)) : ℝ) = 2 ^ 26 := rnd_id ⟨1, 26, by norm_num, by norm_num, by norm_num⟩
        rw [← hb, er]
        refine rnd_mono ?_
        apply Real.sqrt_le_iff.mpr ⟨by positivity, ?_⟩
        have : ((n:ℕ):ℝ) ≤ ((2 ^ 52 : ℕ) : ℝ) := by exact_mod_cast h2
        push_cast at this ⊢; linarith
      have : ⌈r⌉ ≤ 2 ^ 26 := Int.ceil_le.mpr (by push_cast; exact c)
      omega
    · have c : r ≤ k := by
        have hb : rnd ((((k:ℚ) : ℚ)) : ℝ) = k := rnd_id ⟨k, 0, by rw [Nat.abs_cast]; exact_mod_cast (by omega : k < 2 ^ 53), by norm_num, by simp⟩
        rw [← hb, er]
        refine rnd_mono ?_
        apply Real.sqrt_le_iff.mpr ⟨by positivity, ?_⟩
        push_cast
        exact_mod_cast hk
      have : ⌈r⌉ ≤ (k:ℤ) := Int.ceil_le.mpr (by push_cast; exact c)
      omega

/-- C98: one more point, and it is no longer true: the root of `2^52 + 1` is rounded down to `2^26` -/
theorem C98_size_refuted : hashSize64 (2 ^ 52 + 1) = 2 ^ 26 ∧ ¬ 2 ^ 52 + 1 ≤ (2 ^ 26) ^ 2 := by
  refine ⟨?_, by norm_num⟩
  obtain ⟨s, r, es, er, _, _, r1, r2, e⟩ := hash_steps (n := 2 ^ 52 + 1) (by norm_num) (by norm_num)
  have es' : s = 2 ^ 52 + 1 := by
    rw [es]
    have := rnd_id (K := ℚ) (q := 2 ^ 52 + 1) ⟨2 ^ 52 + 1, 0, by norm_num, by norm_num, by norm_num⟩
    rw [show (((2 ^ 52 + 1 : ℕ)) : ℚ) = (2 ^ 52 + 1 : ℚ) by norm_num]
    exact this
  -- the root is in `[2^26, 2^26 + 2^-27)`, and the spacing of binary64 numbers is `2^-26` there
  have h1 : (2 ^ 26 : ℝ) ≤ Real.sqrt (s:ℝ) := by
    apply Real.le_sqrt_of_sq_le; rw [es']; norm_num
  have h2 : Real.sqrt (s:ℝ) < 2 ^ 26 + 1 / 2 ^ 27 := by
    rw [Real.sqrt_lt' (by norm_num), es']; norm_num
  have hx : expo (Real.sqrt (s:ℝ)) = -26 := by
    unfold expo
    rw [abs_of_nonneg (Real.sqrt_nonneg _)]
    have : Int.log 2 (Real.sqrt (s:ℝ)) = 26 := by
      have a : (26:ℤ) ≤ Int.log 2 (Real.sqrt (s:ℝ)) := by
        rw [← Int.zpow_le_iff_le_log (by norm_num) (lt_of_lt_of_le (by norm_num) h1)]
        norm_num at h1 ⊢; exact h1
      have b : Int.log 2 (Real.sqrt (s:ℝ)) < 27 := by
        rw [← Int.lt_zpow_iff_log_lt (by norm_num) (lt_of_lt_of_le (by norm_num) h1)]
        norm_num at h2 ⊢; linarith
      omega
    rw [this]; norm_num
  have hr : roundEven (Real.sqrt (s:ℝ) / 2 ^ (-26:ℤ)) = 2 ^ 52 := by
    have a : (2:ℤ) ^ 52 ≤ roundEven (Real.sqrt (s:ℝ) / 2 ^ (-26:ℤ)) := le_roundEven (by
      rw [le_div_iff₀ (by positivity)]; push_cast; rw [zpow_neg]; norm_num at h1 ⊢; linarith)
    have b := roundEven_err (Real.sqrt (s:ℝ) / 2 ^ (-26:ℤ))
    rw [abs_le] at b
    have c : Real.sqrt (s:ℝ) / 2 ^ (-26:ℤ) < 2 ^ 52 + 1 / 2 := by
      rw [div_lt_iff₀ (by positivity), zpow_neg]; norm_num at h2 ⊢; linarith
    have d : roundEven (Real.sqrt (s:ℝ) / 2 ^ (-26:ℤ)) < 2 ^ 52 + 1 := by
      have : ((roundEven (Real.sqrt (s:ℝ) / 2 ^ (-26:ℤ)) : ℤ) : ℝ) < ((2 ^ 52 + 1 : ℤ) : ℝ) := by push_cast; linarith [b.2]
      exact_mod_cast this
    omega
  have : r = 2 ^ 26 := by
    rw [er]; unfold rnd; rw [hx, hr]; push_cast; rw [zpow_neg]; norm_num
  rw [this] at e
  have : (⌈((2:ℚ) ^ 26)⌉ : ℤ) = 2 ^ 26 := by
    rw [show ((2:ℚ) ^ 26) = ((2 ^ 26 : ℤ) : ℚ) by norm_num, Int.ceil_intCast]
  rw [this] at e
  exact_mod_cast e

/-- nine points get three entries, ten points four -/
example : hashSize64 9 = 3 ∧ hashSize64 10 = 4 := by
  obtain ⟨a, b⟩ := C98_size (n := 9) (by norm_num) (by norm_num)
  obtain ⟨c, d⟩ := C98_size (n := 10) (by norm_num) (by norm_num)
  have b' := b 3 (by norm_num)
  have d' := d 4 (by norm_num)
  constructor
  · interval_cases hashSize64 9 <;> simp_all
  · interval_cases hashSize64 10 <;> simp_all

/-! ## The triangulation with the size the code chooses -/

theorem hash_ok {n : ℕ} (h1 : 2 ≤ n) (h2 : n < 2 ^ 63) : 0 < hashSize64 n ∧ hashSize64 n < 2 ^ 53 := by
  have := C98_range (n := n) (by omega) h2
  omega

/-- C98: `Triangulate` as it is, on points with small integer coordinates: it reports that there is no triangulation exactly if the points are on a line,
and otherwise returns consistent tables of a Delaunay triangulation with the boundary polygon of the points, which `Validate` accepts -/
theorem C98_grid (srt : R3.Vector F64 → List ℤ → List ℤ) (hsrt : ∀ c l, (srt c l).Perm l) (fuel : ℕ) (Vs : List (R3.Vector F64)) (hs' : SortsCall srt Vs)
    (hsort : List (R3.Vector F64) → List (R3.Vector F64)) (hH : SortsHullF hsort Vs) (hg : SmallInts Vs) (hn : 2 ≤ Vs.length) (hn' : Vs.length < 2 ^ 63)
    (hf : 6 * Vs.length < fuel) :
    (¬ NotCollinear (Vs.map exactV) ∧ Triangulate64 srt fuel Vs = .ok .noTriangulation) ∨
    (NotCollinear (Vs.map exactV) ∧ ∃ hull ts hs, Triangulate64 srt fuel Vs = .ok (.triangulation hull ts hs) ∧
      Consistent (Vs.map exactV) (hull.map exactV) ts hs ∧ Delaunay (Vs.map exactV) ts ∧ (∀ p ∈ Vs, IsVertex (Vs.map exactV) ts (exactV p)) ∧
      BoundaryPolygon (Vs.map exactV) (hull.map exactV) ∧ Validate hsort Vs hull ts hs = .ok true) := by
  obtain ⟨a, b⟩ := hash_ok hn hn'
  rcases C74_outcome srt hsrt hashSize64 fuel Vs hg hn a b hf with h | ⟨h, hull, ts, hs, e⟩
  · exact Or.inl h
  · exact Or.inr ⟨h, hull, ts, hs, e, C74_consistent srt hsrt hashSize64 fuel Vs hg hn a b hf e, C74_delaunay srt hsrt hashSize64 fuel Vs hg hn a b hf e,
      C74_cover srt hsrt hashSize64 fuel Vs hg hn a b hf e hs', (C74_boundary srt hsrt hashSize64 fuel Vs hg hn a b hf e hs').1,
      C74_validate srt hsrt hashSize64 fuel Vs hg hn a b hf e hs' hH⟩

/-- C98: `Triangulate` as it is, on well spread points -/
theorem C98_spread (srt : R3.Vector F64 → List ℤ → List ℤ) (hsrt : ∀ c l, (srt c l).Perm l) (fuel : ℕ) (Vs : List (R3.Vector F64)) (hs' : SortsCall srt Vs)
    {M κ : ℚ} (hfin : FinitePlanar Vs) (hW : Spread (Vs.map exactV) M κ) (hn' : Vs.length < 2 ^ 63) (hf : 6 * Vs.length < fuel) :
    ∃ hull ts hs, Triangulate64 srt fuel Vs = .ok (.triangulation hull ts hs) ∧
      Consistent (Vs.map exactV) (hull.map exactV) ts hs ∧ Delaunay (Vs.map exactV) ts ∧ (∀ i : ℕ, i < Vs.length ↔ (i:ℤ) ∈ ts) ∧
      ts.length = 3 * (2 * Vs.length - 2 - hull.length) ∧ BoundaryPolygon (Vs.map exactV) (hull.map exactV) := by
  have hn : 2 ≤ Vs.length := by have := hW.three; rw [List.length_map] at this; omega
  obtain ⟨a, b⟩ := hash_ok hn hn'
  obtain ⟨hull, ts, hs, e⟩ := C87_outcome srt hsrt hashSize64 fuel Vs hfin hW a b hf
  obtain ⟨c1, c2, _⟩ := C87_delaunay srt hsrt hashSize64 fuel Vs hfin hW a b hf e
  obtain ⟨d1, d2, _, d4⟩ := C87_all srt hsrt hashSize64 fuel Vs hfin hW a b hf e hs'
  exact ⟨hull, ts, hs, e, c1, c2, d1, d2, d4⟩

/-- C98: the size of the hash table only matters for the speed: with any other positive size the hull is the same, up to its starting point, and so are the
triangles, unless four points are on an empty circle -/
theorem C98_irrelevant (srt : R3.Vector F64 → List ℤ → List ℤ) (hsrt : ∀ c l, (srt c l).Perm l) (size : ℕ → ℕ) (fuel : ℕ) (Vs : List (R3.Vector F64))
    (hs' : SortsCall srt Vs) (hg : SmallInts Vs) (hn : 2 ≤ Vs.length) (hn' : Vs.length < 2 ^ 63) (hz : 0 < size Vs.length ∧ size Vs.length < 2 ^ 53)
    (hf : 6 * Vs.length < fuel) {hull : List (R3.Vector F64)} {ts hs : List ℤ} (h : Triangulate64 srt fuel Vs = .ok (.triangulation hull ts hs)) :
    ∃ hull' ts' hs', Triangulate srt size fuel Vs = .ok (.triangulation hull' ts' hs') ∧ (hull.map exactV).IsRotated (hull'.map exactV) ∧
      (NoFourOnEmptyCircle (· ∈ Vs.map exactV) → ts.length = ts'.length ∧ ∀ a b c, HasTriangle (Vs.map exactV) ts a b c ↔ HasTriangle (Vs.map exactV) ts' a b c) := by
  have hk := hash_ok hn hn'
  rcases C74_outcome srt hsrt size fuel Vs hg hn hz.1 hz.2 hf with ⟨nc, _⟩ | ⟨_, hull', ts', hs'', e⟩
  · exact absurd (C74_boundary srt hsrt hashSize64 fuel Vs hg hn hk.1 hk.2 hf h hs').2 nc
  · exact ⟨hull', ts', hs'', e, C76_float srt srt hsrt hsrt hashSize64 size fuel fuel Vs Vs hg hg (fun _ => Iff.rfl) hn hn hk hz hf hf h e hs' hs'⟩

theorem size_small {n k : ℕ} (h1 : 1 ≤ n) (h2 : n ≤ 2 ^ 52) (h3 : (k - 1) ^ 2 < n) (h4 : n ≤ k ^ 2) : hashSize64 n = k := by
  obtain ⟨a, b⟩ := C98_size h1 h2
  refine le_antisymm (b k h4) ?_
  by_contra hc
  have : hashSize64 n ^ 2 ≤ (k - 1) ^ 2 := Nat.pow_le_pow_left (by omega) 2
  omega

/-- C98: with the size the code chooses, there are finite points on which it panics, and others on which it never ends -/
theorem C98_float_refuted : (∃ Vs : List (R3.Vector F64), FinitePlanar Vs ∧ ∀ srt, SortsCall srt Vs → ∃ fuel, Triangulate64 srt fuel Vs = .panic) ∧
    ∃ Vs : List (R3.Vector F64), FinitePlanar Vs ∧ ∀ srt, SortsCall srt Vs → ∀ fuel, Triangulate64 srt fuel Vs = .fuel := by
  obtain ⟨Vs, f, l, h⟩ := C23_float_refuted
  obtain ⟨Vs', f', l', h'⟩ := C23_endless_float_refuted
  exact ⟨⟨Vs, f, fun srt hs => h srt hs hashSize64 (by rw [l]; exact size_small (by norm_num) (by norm_num) (by norm_num) (by norm_num))⟩,
    Vs', f', fun srt hs fuel => h' srt hs hashSize64 (by rw [l']; exact size_small (by norm_num) (by norm_num) (by norm_num) (by norm_num)) fuel⟩

/-- C98: and the machine integers do not overflow with it -/
theorem C98_overflow (srt : R3.Vector F64 → List ℤ → List ℤ) (fuel : ℕ) {Vs : List (R3.Vector F64)} (hn : 1 ≤ Vs.length) (hn' : Vs.length ≤ 2 ^ 59) :
    TriangulateW wrap64 srt hashSize64 fuel Vs = Triangulate64 srt fuel Vs :=
  C96_triangulate srt hashSize64 fuel hn' ((C98_range hn (by omega)).2.trans (by norm_num))

/-- the hypotheses of `C98_spread` hold for the six points of C87 -/
example (srt : R3.Vector F64 → List ℤ → List ℤ) (hsrt : ∀ c l, (srt c l).Perm l) (hs' : SortsCall srt seedSample) :
    ∃ hull ts hs, Triangulate64 srt 100 seedSample = .ok (.triangulation hull ts hs) ∧ Delaunay (seedSample.map exactV) ts := by
  obtain ⟨hull, ts, hs, e, _, d, _⟩ := C98_spread srt hsrt 100 seedSample hs' (by decide +kernel) sample_spread (by decide) (by decide)
  exact ⟨hull, ts, hs, e, d⟩

end Verif.Props
