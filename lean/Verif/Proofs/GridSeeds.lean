import Verif.Proofs.GridFloat
import Verif.Props.DelaunatorSeed
/-!
# The seed triangle at binary64 for small integer coordinates (triangulator.go:81-128)
-/
namespace Verif.Proofs
open Verif Verif.F64 Verif.Tri2 Verif.Props

/-! ## Searching for the smallest value -/

/-- one step of a search for the smallest value, at binary64 -/
def aminF {α : Type} (f : α × ℕ → Option F64) (acc : ℕ × Option F64) (x : α × ℕ) : ℕ × Option F64 :=
  match f x with
  | none => acc
  | some d => if ltInf d acc.2 then (x.2, some d) else acc

theorem ltTop_fin {x : F64} (h : x.Finite) : GoTop.ltTop x = true := by
  cases x <;> first | exact h.elim | rfl

theorem aminF_spec {α : Type} (f : α × ℕ → Option F64) (L : List (α × ℕ)) (hf : ∀ x ∈ L, ∀ d, f x = some d → d.Finite) :
    ((L.foldl (aminF f) (0, none)) = (0, none) ∧ ∀ x ∈ L, f x = none) ∨
    ∃ x ∈ L, ∃ d, L.foldl (aminF f) (0, none) = (x.2, some d) ∧ f x = some d ∧ ∀ y ∈ L, ∀ d', f y = some d' → d.toQ ≤ d'.toQ := by
  induction L using List.reverseRecOn with
  | nil => left; simp
  | append_singleton L x ih =>
    specialize ih (fun y hy => hf y (List.mem_append_left _ hy))
    have hfin := hf x (by simp)
    rw [List.foldl_append, List.foldl_cons, List.foldl_nil]
    cases hfx : f x with
    | none =>
      have e : ∀ acc, aminF f acc x = acc := fun acc => by unfold aminF; rw [hfx]
      rw [e]
      rcases ih with ⟨h1, h2⟩ | ⟨y, hy, d, h1, h2, h3⟩
      · left
        refine ⟨h1, fun y hy => ?_⟩
        rcases List.mem_append.mp hy with hy | hy
        · exact h2 y hy
        · rw [List.mem_singleton.mp hy]; exact hfx
      · right
        refine ⟨y, List.mem_append_left _ hy, d, h1, h2, fun z hz d' hd => ?_⟩
        rcases List.mem_append.mp hz with hz | hz
        · exact h3 z hz d' hd
        · rw [List.mem_singleton.mp hz, hfx] at hd; cases hd
    | some d =>
      right
      have fd := hfin d hfx
      rcases ih with ⟨h1, h2⟩ | ⟨y, hy, d0, h1, h2, h3⟩
      · refine ⟨x, by simp, d, ?_, hfx, fun z hz d' hd => ?_⟩
        · rw [h1]; unfold aminF; rw [hfx]; simp [ltInf, ltTop_fin fd]
        · rcases List.mem_append.mp hz with hz | hz
          · rw [h2 z hz] at hd; cases hd
          · rw [List.mem_singleton.mp hz, hfx] at hd; injection hd with hd; rw [hd]
      · have fd0 := hf y (List.mem_append_left _ hy) d0 h2
        by_cases hlt : d < d0
        · refine ⟨x, by simp, d, ?_, hfx, fun z hz d' hd => ?_⟩
          · rw [h1]; unfold aminF; rw [hfx]; simp [ltInf, hlt]
          · rw [lt_fin fd fd0] at hlt
            rcases List.mem_append.mp hz with hz | hz
            · exact hlt.le.trans (h3 z hz d' hd)
            · rw [List.mem_singleton.mp hz, hfx] at hd; injection hd with hd; rw [hd]
        · refine ⟨y, List.mem_append_left _ hy, d0, ?_, h2, fun z hz d' hd => ?_⟩
          · rw [h1]; unfold aminF; rw [hfx]; simp [ltInf, hlt]
          · rw [lt_fin fd fd0] at hlt
            rcases List.mem_append.mp hz with hz | hz
            · exact h3 z hz d' hd
            · rw [List.mem_singleton.mp hz, hfx] at hd; injection hd with hd; rw [← hd]; exact not_lt.mp hlt

theorem seed0_ltF (Vs : List (R3.Vector F64)) (m : R3.Vector F64) (hne : Vs ≠ []) : seed0 Vs m < Vs.length := by
  unfold seed0
  rcases fold_pick (fun (acc : Nat × Option F64) (pi : R3.Vector F64 × ℕ) =>
    let d := R3.SquaredDistance pi.1 m
    if ltInf d acc.2 then (pi.2, some d) else acc) (fun _ => True) (by
      intro acc x
      dsimp only
      split_ifs
      · exact Or.inr ⟨trivial, rfl⟩
      · exact Or.inl rfl) Vs.zipIdx with h | ⟨x, hx, _, h⟩
  · rw [h]; exact List.length_pos_iff.mpr hne
  · rw [h]
    rw [mem_zipIdx'] at hx
    exact (List.getElem?_eq_some_iff.mp hx).1

/-! ## The second seed -/

theorem exact_sq {u v : R3.Vector F64} {a b : R3.Vector ℤ} (hu : GPt u a) (hv : GPt v b) :
    (R3.SquaredDistance u v).Finite ∧ (R3.SquaredDistance u v).toQ = dist2 (exactV u) (exactV v) := by
  have h := hu.sq hv
  refine ⟨h.fin, ?_⟩
  rw [h.val, ← castQ_sq, hu.exact, hv.exact]
  exact sq_planar (by simp [castQ, hu.z0, hv.z0])

/-- the second seed, if the squared distances are exact -/
theorem seed1_exact {Vs : List (R3.Vector F64)} (i0 : ℕ) {p0 : R3.Vector F64}
    (hg : ∀ v ∈ Vs, (R3.SquaredDistance v p0).Finite ∧ (R3.SquaredDistance v p0).toQ = dist2 (exactV v) (exactV p0)) :
    (seed1 Vs i0 p0 = 0 ∧ ∀ i v, Vs[i]? = some v → i ≠ i0 → ¬ 0 < dist2 (exactV v) (exactV p0)) ∨
    ∃ p1, Vs[seed1 Vs i0 p0]? = some p1 ∧ seed1 Vs i0 p0 ≠ i0 ∧ 0 < dist2 (exactV p1) (exactV p0) ∧
      ∀ i v, Vs[i]? = some v → i ≠ i0 → 0 < dist2 (exactV v) (exactV p0) → dist2 (exactV p1) (exactV p0) ≤ dist2 (exactV v) (exactV p0) := by
  set f : R3.Vector F64 × ℕ → Option F64 := fun pi => if pi.2 = i0 then none else if 0 < R3.SquaredDistance pi.1 p0 then some (R3.SquaredDistance pi.1 p0) else none with hf
  have e : seed1 Vs i0 p0 = (Vs.zipIdx.foldl (aminF f) (0, none)).1 := by
    unfold seed1
    congr 2
    funext acc pi
    unfold aminF
    simp only [hf]
    by_cases h1 : pi.2 = i0
    · simp [h1]
    · by_cases h2 : 0 < R3.SquaredDistance pi.1 p0
      · simp [h1, h2]
      · simp [h1, h2]
  rw [e]
  have hsq : ∀ {i : ℕ} {v : R3.Vector F64}, Vs[i]? = some v → (R3.SquaredDistance v p0).Finite ∧ (R3.SquaredDistance v p0).toQ = dist2 (exactV v) (exactV p0) := by
    intro i v hv
    exact hg v (List.mem_of_getElem? hv)
  have hlt : ∀ {i : ℕ} {v : R3.Vector F64}, Vs[i]? = some v → ((0 : F64) < R3.SquaredDistance v p0 ↔ 0 < dist2 (exactV v) (exactV p0)) := by
    intro i v hv
    rw [lt_fin Ex.zero.fin (hsq hv).1, (hsq hv).2, Ex.zero.val]; simp
  rcases aminF_spec f Vs.zipIdx (by
      intro x hx d hd
      rw [mem_zipIdx'] at hx
      simp only [hf] at hd
      split_ifs at hd
      injection hd with hd; rw [← hd]; exact (hsq hx).1) with ⟨h, h'⟩ | ⟨x, hx, d, h, hfx, hmin⟩
  · left
    refine ⟨by rw [h], fun i v hv hi hl => ?_⟩
    have := h' (v, i) (by rw [mem_zipIdx']; exact hv)
    rw [← hlt hv] at hl
    simp [hf, hi, hl] at this
  · right
    rw [h]
    rw [mem_zipIdx'] at hx
    have hx0 : x.2 ≠ i0 := by intro e; simp [hf, e] at hfx
    have hxp : 0 < R3.SquaredDistance x.1 p0 := by
      by_contra e; simp [hf, e] at hfx
    refine ⟨x.1, hx, hx0, (hlt hx).mp hxp, fun i v hv hi hl => ?_⟩
    have := hmin (v, i) (by rw [mem_zipIdx']; exact hv) (R3.SquaredDistance v p0) (by
      rw [← hlt hv] at hl; simp [hf, hi, hl])
    simp [hf, hx0, hxp] at hfx
    rw [← hfx, (hsq hx).2, (hsq hv).2] at this
    exact this

theorem seed1_specF {Vs : List (R3.Vector F64)} (hg : Grid Vs) (i0 : ℕ) {p0 : R3.Vector F64} (h0 : p0 ∈ Vs) :
    (seed1 Vs i0 p0 = 0 ∧ ∀ i v, Vs[i]? = some v → i ≠ i0 → ¬ 0 < dist2 (exactV v) (exactV p0)) ∨
    ∃ p1, Vs[seed1 Vs i0 p0]? = some p1 ∧ seed1 Vs i0 p0 ≠ i0 ∧ 0 < dist2 (exactV p1) (exactV p0) ∧
      ∀ i v, Vs[i]? = some v → i ≠ i0 → 0 < dist2 (exactV v) (exactV p0) → dist2 (exactV p1) (exactV p0) ≤ dist2 (exactV v) (exactV p0) := by
  obtain ⟨a0, g0⟩ := hg p0 h0
  obtain ⟨a0, g0⟩ := hg p0 h0
  refine seed1_exact i0 fun v hv => ?_
  obtain ⟨a, ga⟩ := hg v hv
  exact exact_sq ga g0

/-! ## The third seed -/

theorem gap_aux {a b e g : ℚ} (ha : 1 ≤ a) (hb : 0 ≤ b) (he : 0 < e) (hg : 0 < g) (ba : a ≤ 2 ^ 15) (be : e ≤ 2 ^ 15) (bg : g ≤ 2 ^ 15)
    (hA : b * e + 1 ≤ a * g) : 10 * uro * (1 + (a / e) ^ 2) < (a / e) ^ 2 - (b / g) ^ 2 := by
  have k5 : a * g ≤ a ^ 2 * g ^ 2 - b ^ 2 * e ^ 2 := by
    have h1 : 0 ≤ b * e := mul_nonneg hb he.le
    have h2 : 1 ≤ a * g := by linarith
    have h3 : b * e ≤ a * g - 1 := by linarith
    have h4 : (b * e) * (b * e) ≤ (a * g - 1) * (a * g) := mul_le_mul h3 (by linarith) h1 (by linarith)
    have e1 : a ^ 2 * g ^ 2 - b ^ 2 * e ^ 2 = (a * g) * (a * g) - (b * e) * (b * e) := by ring
    rw [e1]; linarith
  have k6 : (e ^ 2 + a ^ 2) * g ^ 2 ≤ 2 ^ 31 * a * (2 ^ 15 * g) := by
    apply mul_le_mul _ _ (by positivity) (by positivity)
    · have h1 : e ^ 2 ≤ (2 ^ 15) ^ 2 := pow_le_pow_left₀ he.le be 2
      have h2 : a ^ 2 ≤ 2 ^ 15 * a := by rw [sq]; exact mul_le_mul_of_nonneg_right ba (by linarith)
      norm_num at h1 h2 ⊢; linarith
    · rw [sq]; exact mul_le_mul_of_nonneg_right bg hg.le
  have k7 : 10 * uro * ((e ^ 2 + a ^ 2) * g ^ 2) ≤ 10 * uro * (2 ^ 31 * a * (2 ^ 15 * g)) :=
    mul_le_mul_of_nonneg_left k6 (by unfold uro; norm_num)
  have k8 : 10 * uro * (2 ^ 31 * a * (2 ^ 15 * g)) = (10 * uro * 2 ^ 46) * (a * g) := by ring
  have k9 : 10 * uro * 2 ^ 46 < 1 := by unfold uro; norm_num
  have k10 : 0 < a * g := by positivity
  have k11 : (10 * uro * 2 ^ 46) * (a * g) < 1 * (a * g) := mul_lt_mul_of_pos_right k9 k10
  have t1 : a ^ 2 * g ^ 2 - b ^ 2 * e ^ 2 = ((a / e) ^ 2 - (b / g) ^ 2) * (e ^ 2 * g ^ 2) := by field_simp
  have t2 : 10 * uro * ((e ^ 2 + a ^ 2) * g ^ 2) = 10 * uro * (1 + (a / e) ^ 2) * (e ^ 2 * g ^ 2) := by field_simp
  have t3 : 10 * uro * (1 + (a / e) ^ 2) * (e ^ 2 * g ^ 2) < ((a / e) ^ 2 - (b / g) ^ 2) * (e ^ 2 * g ^ 2) := by
    rw [← t1, ← t2]; linarith
  exact lt_of_mul_lt_mul_right t3 (by positivity)

theorem gap_aux2 {L x2 xv r2 rv : ℚ} (hL : 0 < L) (hlt : xv < x2)
    (e2 : |r2 - L / 4 * (1 + x2)| ≤ 5 * uro * (L / 4 * (1 + x2))) (ev : |rv - L / 4 * (1 + xv)| ≤ 5 * uro * (L / 4 * (1 + xv)))
    (hle : r2 ≤ rv) : x2 - xv ≤ 10 * uro * (1 + x2) := by
  have e2' := (abs_le.mp e2).1
  have ev' := (abs_le.mp ev).2
  have k2 : L / 4 * (x2 - xv) ≤ L / 4 * (10 * uro * (1 + x2)) := by
    have h1 : 5 * uro * (L / 4 * (1 + xv)) ≤ 5 * uro * (L / 4 * (1 + x2)) := by
      apply mul_le_mul_of_nonneg_left _ (by unfold uro; norm_num)
      apply mul_le_mul_of_nonneg_left _ (by positivity)
      linarith
    have e3 : L / 4 * (x2 - xv) = L / 4 * (1 + x2) - L / 4 * (1 + xv) := by ring
    have e4 : L / 4 * (10 * uro * (1 + x2)) = 5 * uro * (L / 4 * (1 + x2)) + 5 * uro * (L / 4 * (1 + x2)) := by ring
    rw [e3, e4]; linarith
  exact le_of_mul_le_mul_left k2 (by positivity)

/-- comparing rounded circumradii -/
theorem radius_gap {f2 d2 fv dv : ℤ} (hd2 : d2 ≠ 0) (hdv : dv ≠ 0) (bf2 : |f2| ≤ 2 ^ 15) (bd2 : |d2| ≤ 2 ^ 15) (bdv : |dv| ≤ 2 ^ 15)
    {L : ℚ} (hL : 0 < L) {r2 rv : F64} (h2 : Rel r2 (L / 4 * (1 + ((f2:ℚ) / d2) ^ 2)) 4) (hv : Rel rv (L / 4 * (1 + ((fv:ℚ) / dv) ^ 2)) 4)
    (hle : r2.toQ ≤ rv.toQ) : ((f2:ℚ) / d2) ^ 2 ≤ ((fv:ℚ) / dv) ^ 2 := by
  by_contra hlt
  rw [not_le] at hlt
  have q2 : (0:ℚ) < |(d2:ℚ)| := abs_pos.mpr (by exact_mod_cast hd2)
  have qv : (0:ℚ) < |(dv:ℚ)| := abs_pos.mpr (by exact_mod_cast hdv)
  have hE : (1 + uro) ^ 4 - 1 ≤ 5 * uro := by unfold uro; norm_num
  have hb : ∀ {r : F64} {x : ℚ}, 0 ≤ x → Rel r (L / 4 * (1 + x)) 4 → |r.toQ - L / 4 * (1 + x)| ≤ 5 * uro * (L / 4 * (1 + x)) := by
    intro r x hx h
    have := h.err
    have hp : 0 ≤ L / 4 * (1 + x) := by positivity
    rw [abs_of_nonneg hp] at this
    exact this.trans (mul_le_mul_of_nonneg_right hE hp)
  have hgap := gap_aux2 hL hlt (hb (sq_nonneg _) h2) (hb (sq_nonneg _) hv) hle
  have hAB : |fv * d2| < |f2 * dv| := by
    rw [div_pow, div_pow, div_lt_div_iff₀ (by positivity) (by positivity), ← mul_pow, ← mul_pow, sq_lt_sq] at hlt
    exact_mod_cast hlt
  have hA : |(fv:ℚ)| * |(d2:ℚ)| + 1 ≤ |(f2:ℚ)| * |(dv:ℚ)| := by
    have : |fv * d2| + 1 ≤ |f2 * dv| := hAB
    have := (Int.cast_le (R := ℚ)).mpr this
    push_cast at this
    rwa [abs_mul, abs_mul] at this
  have ha : (1:ℚ) ≤ |(f2:ℚ)| := by
    have : f2 ≠ 0 := by
      rintro rfl
      rw [zero_mul, abs_zero] at hAB
      exact absurd hAB (not_lt.mpr (abs_nonneg _))
    exact_mod_cast Int.one_le_abs this
  have := gap_aux ha (abs_nonneg (fv:ℚ)) q2 qv (by exact_mod_cast bf2) (by exact_mod_cast bd2) (by exact_mod_cast bdv) hA
  rw [← abs_div, ← abs_div, sq_abs, sq_abs] at this
  linarith

def fZ (a b c : R3.Vector ℤ) : ℤ := (c.X - a.X) * (c.X - b.X) + (c.Y - a.Y) * (c.Y - b.Y)

theorem fOf_castQ {a b c : R3.Vector ℤ} : fOf (castQ a) (castQ b) (castQ c) = fZ a b c := by
  simp only [fOf, castQ, fZ]; push_cast; ring

theorem GPt.fb {u v w : R3.Vector F64} {a b c : R3.Vector ℤ} (h0 : GPt u a) (h1 : GPt v b) (h2 : GPt w c) : |fZ a b c| ≤ 2 ^ 15 := by
  have := (((h2.dx h0).mul (h2.dx h1) (by norm_num)).add ((h2.dy h0).mul (h2.dy h1) (by norm_num)) (by norm_num)).le
  norm_num at this
  exact this

theorem seed2_specF {Vs : List (R3.Vector F64)} (hg : Grid Vs) (i0 i1 : ℕ) {p0 p1 : R3.Vector F64} (h0 : p0 ∈ Vs) (h1 : p1 ∈ Vs)
    (hp : 0 < dist2 (exactV p1) (exactV p0)) :
    ((seed2 Vs i0 i1 p0 p1) = (0, none) ∧ ∀ i v, Vs[i]? = some v → i ≠ i0 → i ≠ i1 → dOf (exactV p0) (exactV p1) (exactV v) = 0) ∨
    ∃ i2 p2 r, seed2 Vs i0 i1 p0 p1 = (i2, some r) ∧ Vs[i2]? = some p2 ∧ i2 ≠ i0 ∧ i2 ≠ i1 ∧ dOf (exactV p0) (exactV p1) (exactV p2) ≠ 0 ∧
      ∀ i v, Vs[i]? = some v → i ≠ i0 → i ≠ i1 → dOf (exactV p0) (exactV p1) (exactV v) ≠ 0 →
        (fOf (exactV p0) (exactV p1) (exactV p2) / dOf (exactV p0) (exactV p1) (exactV p2)) ^ 2 ≤
        (fOf (exactV p0) (exactV p1) (exactV v) / dOf (exactV p0) (exactV p1) (exactV v)) ^ 2 := by
  obtain ⟨a0, g0⟩ := hg p0 h0
  obtain ⟨a1, g1⟩ := hg p1 h1
  rw [g0.exact, g1.exact] at *
  have hrad : ∀ {i : ℕ} {v : R3.Vector F64}, Vs[i]? = some v → ∃ a, GPt v a ∧ exactV v = castQ a := by
    intro i v hv
    obtain ⟨a, ga⟩ := hg v (List.mem_of_getElem? hv)
    exact ⟨a, ga, ga.exact⟩
  set f : R3.Vector F64 × ℕ → Option F64 := fun pi => if pi.2 = i0 ∨ pi.2 = i1 then none else circumradius p0 p1 pi.1 with hf
  have e : seed2 Vs i0 i1 p0 p1 = (Vs.zipIdx.foldl (aminF f) (0, none)) := by
    unfold seed2
    congr 1
    funext acc pi
    unfold aminF
    simp only [hf]
    by_cases h1 : pi.2 = i0 ∨ pi.2 = i1
    · simp [h1]
    · simp only [h1, if_false]
      cases circumradius p0 p1 pi.1 <;> rfl
  rw [e]
  rcases aminF_spec f Vs.zipIdx (by
      intro x hx d hd
      rw [mem_zipIdx'] at hx
      obtain ⟨a, ga, ea⟩ := hrad hx
      simp only [hf] at hd
      split_ifs at hd
      by_cases hz : dOf (castQ a0) (castQ a1) (castQ a) = 0
      · rw [(g0.radius g1 ga hp).1 hz] at hd; cases hd
      · obtain ⟨r, hr, hrel⟩ := (g0.radius g1 ga hp).2 hz
        rw [hr] at hd; injection hd with hd; rw [← hd]; exact hrel.fin) with ⟨h, h'⟩ | ⟨x, hx, d, h, hfx, hmin⟩
  · left
    refine ⟨h, fun i v hv hi hi' => ?_⟩
    obtain ⟨a, ga, ea⟩ := hrad hv
    rw [ea]
    by_contra hz
    obtain ⟨r, hr, _⟩ := (g0.radius g1 ga hp).2 hz
    have := h' (v, i) (by rw [mem_zipIdx']; exact hv)
    simp [hf, hi, hi', hr] at this
  · right
    rw [mem_zipIdx'] at hx
    have hx0 : ¬ (x.2 = i0 ∨ x.2 = i1) := by intro e; simp only [hf, if_pos e] at hfx; cases hfx
    simp only [hf, if_neg hx0] at hfx
    push Not at hx0
    obtain ⟨a2, g2, e2⟩ := hrad hx
    have hd2 : dOf (castQ a0) (castQ a1) (castQ a2) ≠ 0 := by
      intro hz
      rw [(g0.radius g1 g2 hp).1 hz] at hfx; cases hfx
    refine ⟨x.2, x.1, d, h, hx, hx0.1, hx0.2, by rw [e2]; exact hd2, fun i v hv hi hi' hdv => ?_⟩
    obtain ⟨a, ga, ea⟩ := hrad hv
    rw [ea] at hdv
    rw [e2, ea]
    obtain ⟨r2, hr2, rel2⟩ := (g0.radius g1 g2 hp).2 hd2
    obtain ⟨rv, hrv, relv⟩ := (g0.radius g1 ga hp).2 hdv
    rw [hr2] at hfx; injection hfx with hfx; subst hfx
    have := hmin (v, i) (by rw [mem_zipIdx']; exact hv) rv (by simp only [hf]; rw [if_neg (by tauto)]; exact hrv)
    rw [fOf_castQ, fOf_castQ, dOf_castQ, dOf_castQ] at *
    have b1 := (g0.dd g1 g2).le
    have b2 := (g0.dd g1 ga).le
    exact radius_gap (by exact_mod_cast hd2) (by exact_mod_cast hdv) (g0.fb g1 g2) (b1.trans (by norm_num)) (b2.trans (by norm_num)) hp rel2 relv this

/-! ## The seed triangle -/

theorem seeds_of {K : Type} [Field K] [LinearOrder K] [IsStrictOrderedRing K] {Vs : List (R3.Vector K)} {i0 i1 i2 : ℕ} {p0 p1 p2 : R3.Vector K}
    (hp0 : Vs[i0]? = some p0) (hp1 : Vs[i1]? = some p1) (hp2 : Vs[i2]? = some p2) (h10 : i1 ≠ i0) (h20 : i2 ≠ i0) (h21 : i2 ≠ i1)
    (hpos1 : 0 < dist2 p1 p0) (hd2 : dOf p0 p1 p2 ≠ 0)
    (hmin1 : ∀ v ∈ Vs, 0 < dist2 v p0 → dist2 p1 p0 ≤ dist2 v p0)
    (hmin2 : ∀ v ∈ Vs, dOf p0 p1 v ≠ 0 → (fOf p0 p1 p2 / dOf p0 p1 p2) ^ 2 ≤ (fOf p0 p1 v / dOf p0 p1 v) ^ 2) :
    ¬ Collinear Vs ∧ (area p0 p1 p2 < 0 → Seeds Vs i0 i2 i1 p0 p2 p1) ∧ (¬ area p0 p1 p2 < 0 → Seeds Vs i0 i1 i2 p0 p1 p2) := by
  have mem : ∀ {i : ℕ} {v : R3.Vector K}, Vs[i]? = some v → v ∈ Vs := fun h => List.mem_of_getElem? h
  have hp20 : 0 < dist2 p2 p0 := by
    rw [dist2_pos]
    rintro ⟨e1, e2⟩
    apply hd2; unfold dOf; rw [e1, e2]; ring
  have empty : ∀ v ∈ Vs, 0 ≤ dOf p0 p1 p2 * (dOf p0 p1 p2 * fOf p0 p1 v - fOf p0 p1 p2 * dOf p0 p1 v) :=
    fun v hv => seed_empty hpos1 hd2 (hmin1 p2 (mem hp2) hp20) (hmin1 v hv) (hmin2 v hv)
  have ha := area_dOf p0 p1 p2
  refine ⟨fun hc => hd2 (by have := hc p0 (mem hp0) p1 (mem hp1) p2 (mem hp2); linarith), fun h => ?_, fun h => ?_⟩
  · refine ⟨hp0, hp2, hp1, fun e => h20 e.symm, h21, h10, ?_, ?_⟩
    · unfold area at h ⊢; linarith
    · intro v hv
      have h1 := empty v hv
      have h2 : 0 < dOf p0 p1 p2 := by linarith
      have h3 := nonneg_of_mul_nonneg_right h1 h2
      have h4 : inCircleDet p0 p2 p1 v = - inCircleDet p0 p1 p2 v := by simp only [inCircleDet]; ring
      rw [h4, det_dOf]; linarith
  · refine ⟨hp0, hp1, hp2, fun e => h10 e.symm, fun e => h21 e.symm, h20, ?_, ?_⟩
    · rcases (not_lt.mp h).lt_or_eq with h | h
      · exact h
      · exact absurd (by linarith : dOf p0 p1 p2 = 0) hd2
    · intro v hv
      have h1 := empty v hv
      have h2 : dOf p0 p1 p2 < 0 := lt_of_le_of_ne (by linarith) hd2
      have h3 := nonpos_of_mul_nonneg_right h1 h2
      rw [det_dOf]; linarith

theorem bounds_okF {Vs : List (R3.Vector F64)} (h : 2 ≤ Vs.length) : ∃ b, bounds Vs = .ok b := by
  unfold bounds
  have h0 : Vs[0]? = some Vs[0] := by simp
  have h1 : Vs[1]? = some Vs[1] := by simp
  rw [goGet_eq (z := 0) (n := 0) rfl h0, Res.bind_ok, goGet_eq (z := 1) (n := 1) rfl h1, Res.bind_ok]
  exact ⟨_, rfl⟩

/-- how the seeds are found: `q1` is the nearest point to `p0`, `q2` gives the smallest circle, and they are the other two corners in some order -/
def Found (Vs : List (R3.Vector ℚ)) (p0 p1 p2 : R3.Vector ℚ) : Prop :=
  ∃ q1 ∈ Vs, ∃ q2 ∈ Vs, (q1 = p1 ∧ q2 = p2 ∨ q1 = p2 ∧ q2 = p1) ∧ 0 < dist2 q1 p0 ∧ dOf p0 q1 q2 ≠ 0 ∧
    (∀ v ∈ Vs, 0 < dist2 v p0 → dist2 q1 p0 ≤ dist2 v p0) ∧
    (∀ v ∈ Vs, dOf p0 q1 v ≠ 0 → (fOf p0 q1 q2 / dOf p0 q1 q2) ^ 2 ≤ (fOf p0 q1 v / dOf p0 q1 v) ^ 2)

/-- triangulator.go:50-128 at binary64 when the searches for the seeds are right -/
theorem float_seeds {Vs : List (R3.Vector F64)} (hn : 2 ≤ Vs.length)
    (hs1 : ∀ (i0 : ℕ) (p0 : R3.Vector F64), p0 ∈ Vs →
      (seed1 Vs i0 p0 = 0 ∧ ∀ i v, Vs[i]? = some v → i ≠ i0 → ¬ 0 < dist2 (exactV v) (exactV p0)) ∨
      ∃ p1, Vs[seed1 Vs i0 p0]? = some p1 ∧ seed1 Vs i0 p0 ≠ i0 ∧ 0 < dist2 (exactV p1) (exactV p0) ∧
        ∀ i v, Vs[i]? = some v → i ≠ i0 → 0 < dist2 (exactV v) (exactV p0) → dist2 (exactV p1) (exactV p0) ≤ dist2 (exactV v) (exactV p0))
    (hcr' : ∀ p0 ∈ Vs, ∀ p1 ∈ Vs, ∀ v ∈ Vs, (exactV p1).X = (exactV p0).X ∧ (exactV p1).Y = (exactV p0).Y → circumradius p0 p1 v = none)
    (hs2 : ∀ (i0 i1 : ℕ) (p0 p1 : R3.Vector F64), p0 ∈ Vs → p1 ∈ Vs → 0 < dist2 (exactV p1) (exactV p0) →
      (∀ v ∈ Vs.map exactV, 0 < dist2 v (exactV p0) → dist2 (exactV p1) (exactV p0) ≤ dist2 v (exactV p0)) →
      ((seed2 Vs i0 i1 p0 p1) = (0, none) ∧ ∀ i v, Vs[i]? = some v → i ≠ i0 → i ≠ i1 → dOf (exactV p0) (exactV p1) (exactV v) = 0) ∨
      ∃ i2 p2 r, seed2 Vs i0 i1 p0 p1 = (i2, some r) ∧ Vs[i2]? = some p2 ∧ i2 ≠ i0 ∧ i2 ≠ i1 ∧ dOf (exactV p0) (exactV p1) (exactV p2) ≠ 0 ∧
        ∀ i v, Vs[i]? = some v → i ≠ i0 → i ≠ i1 → dOf (exactV p0) (exactV p1) (exactV v) ≠ 0 →
          (fOf (exactV p0) (exactV p1) (exactV p2) / dOf (exactV p0) (exactV p1) (exactV p2)) ^ 2 ≤
          (fOf (exactV p0) (exactV p1) (exactV v) / dOf (exactV p0) (exactV p1) (exactV v)) ^ 2)
    (har : ∀ p0 ∈ Vs, ∀ p1 ∈ Vs, ∀ p2 ∈ Vs, (area p0 p1 p2 < 0 ↔ area (exactV p0) (exactV p1) (exactV p2) < 0)) :
    (Collinear (Vs.map exactV) ∧ ∀ (srt : R3.Vector F64 → List ℤ → List ℤ) (hashSize : ℕ → ℕ) (fuel : ℕ), Triangulate srt hashSize fuel Vs = .ok .noTriangulation) ∨
    (¬ Collinear (Vs.map exactV) ∧ ∃ i0 i1 i2 p0 p1 p2, Vs[i0]? = some p0 ∧ Vs[i1]? = some p1 ∧ Vs[i2]? = some p2 ∧
      Seeds (Vs.map exactV) i0 i1 i2 (exactV p0) (exactV p1) (exactV p2) ∧ Found (Vs.map exactV) (exactV p0) (exactV p1) (exactV p2) ∧
      seedsOf Vs = .ok (some (i0, i1, i2, circumcenter p0 p1 p2))) := by
  obtain ⟨⟨x0, x1, y0, y1⟩, hb⟩ := bounds_okF hn
  have hne : Vs ≠ [] := by rintro rfl; simp at hn
  have mem : ∀ {i : ℕ} {v : R3.Vector F64}, Vs[i]? = some v → v ∈ Vs := fun h => List.mem_of_getElem? h
  have memQ : ∀ v ∈ Vs.map exactV, ∃ (i : ℕ) (w : R3.Vector F64), Vs[i]? = some w ∧ v = exactV w := by
    intro v hv
    obtain ⟨w, hw, rfl⟩ := List.mem_map.mp hv
    obtain ⟨i, hi, e⟩ := List.mem_iff_getElem.mp hw
    exact ⟨i, w, by rw [← e]; simp, rfl⟩
  have hget : ∀ {i : ℕ} {v : R3.Vector F64}, Vs[i]? = some v → (Vs.map exactV)[i]? = some (exactV v) := fun h => by rw [List.getElem?_map, h]; rfl
  set i0 := seed0 Vs ⟨(x0 + x1) / 2, (y0 + y1) / 2, 0⟩ with hi0
  have h0 : i0 < Vs.length := seed0_ltF _ _ hne
  obtain ⟨p0, hp0⟩ : ∃ p0, Vs[i0]? = some p0 := ⟨Vs[i0], by simp⟩
  set i1 := seed1 Vs i0 p0 with hi1
  rcases hs1 i0 p0 (mem hp0) with ⟨e1, hall⟩ | ⟨p1, hp1, hne1, hpos1, hmin1⟩
  · left
    have hco : ∀ {i : ℕ} {v : R3.Vector F64}, Vs[i]? = some v → (exactV v).X = (exactV p0).X ∧ (exactV v).Y = (exactV p0).Y := by
      intro i v hiv
      by_cases c : i = i0
      · subst c; rw [hp0] at hiv; injection hiv with hiv; subst hiv; exact ⟨rfl, rfl⟩
      · have := hall i v hiv c
        rw [dist2_pos, not_not] at this
        exact this
    obtain ⟨p1, hp1⟩ : ∃ p1, Vs[i1]? = some p1 := by
      have : i1 < Vs.length := by rw [hi1, e1]; omega
      exact ⟨Vs[i1], by simp [this]⟩
    have h01 := hco hp1
    have hcr : ∀ v ∈ Vs, circumradius p0 p1 v = none := fun v hv => hcr' p0 (mem hp0) p1 (mem hp1) v hv h01
    have e2 : seed2 Vs i0 i1 p0 p1 = (0, none) := by
      rw [seed2_fold]
      have : ∀ L : List (R3.Vector F64 × ℕ), (∀ x ∈ L, x.1 ∈ Vs) → L.foldl (seed2Step i0 i1 p0 p1) (0, none) = (0, none) := by
        intro L
        induction L with
        | nil => intro _; rfl
        | cons x L ih =>
          intro h
          rw [List.foldl_cons]
          have : seed2Step i0 i1 p0 p1 (0, none) x = (0, none) := by
            unfold seed2Step; rw [hcr _ (h x (by simp))]; simp
          rw [this]
          exact ih fun y hy => h y (by simp [hy])
      exact this _ fun x hx => mem (mem_zipIdx'.mp hx)
    refine ⟨?_, ?_⟩
    · intro a ha b hb c hc
      obtain ⟨i, u, hu, rfl⟩ := memQ a ha
      obtain ⟨j, v, hv, rfl⟩ := memQ b hb
      unfold area
      rw [(hco hu).1, (hco hu).2, (hco hv).1, (hco hv).2]; ring
    · intro srt hashSize fuel
      unfold Triangulate
      simp only
      rw [if_neg (by omega), hb, Res.bind_ok]
      dsimp only
      rw [← hi0, goGet_eq rfl hp0, Res.bind_ok, ← hi1, goGet_eq rfl hp1, Res.bind_ok, e2]
      rfl
  · rw [← hi1] at hp1 hne1
    have hm1 : ∀ v ∈ Vs.map exactV, 0 < dist2 v (exactV p0) → dist2 (exactV p1) (exactV p0) ≤ dist2 v (exactV p0) := by
      intro v hv hl
      obtain ⟨i, w, hw, rfl⟩ := memQ v hv
      by_cases c : i = i0
      · subst c; rw [hp0] at hw; injection hw with hw; subst hw
        simp [dist2] at hl
      · exact hmin1 i w hw c hl
    rcases hs2 i0 i1 p0 p1 (mem hp0) (mem hp1) hpos1 hm1 with ⟨e2, hall⟩ | ⟨i2, p2, r, e2, hp2, hne20, hne21, hd2, hmin2⟩
    · left
      have hd : ∀ {i : ℕ} {v : R3.Vector F64}, Vs[i]? = some v → dOf (exactV p0) (exactV p1) (exactV v) = 0 := by
        intro i v hiv
        by_cases c0 : i = i0
        · subst c0; rw [hp0] at hiv; injection hiv with hiv; subst hiv; unfold dOf; ring
        by_cases c1 : i = i1
        · subst c1; rw [hp1] at hiv; injection hiv with hiv; subst hiv; unfold dOf; ring
        exact hall i v hiv c0 c1
      refine ⟨?_, ?_⟩
      · intro a ha b hb c hc
        obtain ⟨i, u, hu, rfl⟩ := memQ a ha
        obtain ⟨j, v, hv, rfl⟩ := memQ b hb
        obtain ⟨k, w, hw, rfl⟩ := memQ c hc
        exact area_aux hpos1.ne' (hd hu) (hd hv) (hd hw)
      · intro srt hashSize fuel
        unfold Triangulate
        simp only
        rw [if_neg (by omega), hb, Res.bind_ok]
        dsimp only
        rw [← hi0, goGet_eq rfl hp0, Res.bind_ok, ← hi1, goGet_eq rfl hp1, Res.bind_ok, e2]
        rfl
    · right
      have hm2 : ∀ v ∈ Vs.map exactV, dOf (exactV p0) (exactV p1) v ≠ 0 → (fOf (exactV p0) (exactV p1) (exactV p2) / dOf (exactV p0) (exactV p1) (exactV p2)) ^ 2 ≤
          (fOf (exactV p0) (exactV p1) v / dOf (exactV p0) (exactV p1) v) ^ 2 := by
        intro v hv hl
        obtain ⟨i, w, hw, rfl⟩ := memQ v hv
        by_cases c0 : i = i0
        · subst c0; rw [hp0] at hw; injection hw with hw; subst hw
          exact absurd (by unfold dOf; ring) hl
        by_cases c1 : i = i1
        · subst c1; rw [hp1] at hw; injection hw with hw; subst hw
          exact absurd (by unfold dOf; ring) hl
        exact hmin2 i w hw c0 c1 hl
      obtain ⟨hc, s1, s2⟩ := seeds_of (hget hp0) (hget hp1) (hget hp2) hne1 hne20 hne21 hpos1 hd2 hm1 hm2
      refine ⟨hc, ?_⟩
      have harea := har p0 (mem hp0) p1 (mem hp1) p2 (mem hp2)
      have mQ : ∀ {v : R3.Vector F64}, v ∈ Vs → exactV v ∈ Vs.map exactV := fun h => List.mem_map_of_mem h
      have key : ∃ i1' i2' p1' p2', Vs[i1']? = some p1' ∧ Vs[i2']? = some p2' ∧ Seeds (Vs.map exactV) i0 i1' i2' (exactV p0) (exactV p1') (exactV p2') ∧
          Found (Vs.map exactV) (exactV p0) (exactV p1') (exactV p2') ∧ seedsOf Vs = .ok (some (i0, i1', i2', circumcenter p0 p1' p2')) := by
        by_cases ha : area p0 p1 p2 < 0
        · refine ⟨i2, i1, p2, p1, hp2, hp1, s1 (harea.mp ha),
            ⟨_, mQ (mem hp1), _, mQ (mem hp2), Or.inr ⟨rfl, rfl⟩, hpos1, hd2, hm1, hm2⟩, ?_⟩
          unfold seedsOf
          rw [hb, Res.bind_ok]
          dsimp only
          rw [← hi0, goGet_eq rfl hp0, Res.bind_ok, ← hi1, goGet_eq rfl hp1, Res.bind_ok, e2]
          dsimp only
          rw [goGet_eq rfl hp2, Res.bind_ok, if_pos ha]
          dsimp only
          rw [goGet_eq rfl hp2, Res.bind_ok, goGet_eq rfl hp1, Res.bind_ok]
          rfl
        · refine ⟨i1, i2, p1, p2, hp1, hp2, s2 (fun h => ha (harea.mpr h)),
            ⟨_, mQ (mem hp1), _, mQ (mem hp2), Or.inl ⟨rfl, rfl⟩, hpos1, hd2, hm1, hm2⟩, ?_⟩
          unfold seedsOf
          rw [hb, Res.bind_ok]
          dsimp only
          rw [← hi0, goGet_eq rfl hp0, Res.bind_ok, ← hi1, goGet_eq rfl hp1, Res.bind_ok, e2]
          dsimp only
          rw [goGet_eq rfl hp2, Res.bind_ok, if_neg ha]
          dsimp only
          rw [goGet_eq rfl hp1, Res.bind_ok, goGet_eq rfl hp2, Res.bind_ok]
          rfl
      obtain ⟨j1, j2, q1, q2, hq1, hq2, S, hF, hs⟩ := key
      exact ⟨i0, j1, j2, p0, q1, q2, hp0, hq1, hq2, S, hF, hs⟩

/-- triangulator.go:50-128 at binary64 for small integer coordinates -/
theorem grid_seeds (srt : R3.Vector F64 → List ℤ → List ℤ) (hashSize : ℕ → ℕ) (fuel : ℕ) {Vs : List (R3.Vector F64)} (hg : Grid Vs) (hn : 2 ≤ Vs.length) :
    (Collinear (Vs.map exactV) ∧ Triangulate srt hashSize fuel Vs = .ok .noTriangulation) ∨
    (¬ Collinear (Vs.map exactV) ∧ ∃ i0 i1 i2 p0 p1 p2, Vs[i0]? = some p0 ∧ Vs[i1]? = some p1 ∧ Vs[i2]? = some p2 ∧
      Seeds (Vs.map exactV) i0 i1 i2 (exactV p0) (exactV p1) (exactV p2) ∧ seedsOf Vs = .ok (some (i0, i1, i2, circumcenter p0 p1 p2)) ∧
      Triangulate srt hashSize fuel Vs = restOf (hashSize Vs.length) fuel Vs i0 i1 i2 (circumcenter p0 p1 p2) (srt (circumcenter p0 p1 p2) (fids Vs.length))) := by
  rcases float_seeds hn (fun i0 p0 h0 => seed1_specF hg i0 h0) (by
      intro p0 m0 p1 m1 v hv h01
      obtain ⟨a0, g0⟩ := hg _ m0
      obtain ⟨a1, g1⟩ := hg _ m1
      have hl := g0.len g1
      rw [g0.exact, g1.exact] at h01
      have z : lZ a0 a1 = 0 := by
        simp only [castQ] at h01
        have x1 : a1.X = a0.X := by exact_mod_cast h01.1
        have x2 : a1.Y = a0.Y := by exact_mod_cast h01.2
        unfold lZ; rw [x1, x2]; ring
      simp only [circumradius]
      rw [if_pos]
      simp only [Bool.or_eq_true]
      left; left; left
      rw [beq_fin hl.fin Ex.zero.fin, hl.val, z, Ex.zero.val]) (fun i0 i1 p0 p1 h0 h1 hp _ => seed2_specF hg i0 i1 h0 h1 hp) (by
      intro p0 m0 p1 m1 p2 m2
      obtain ⟨a0, g0⟩ := hg _ m0
      obtain ⟨a1, g1⟩ := hg _ m1
      obtain ⟨a2, g2⟩ := hg _ m2
      have := g0.area g1 g2
      rw [lt_fin this.fin Ex.zero.fin, this.val, Ex.zero.val, g0.exact, g1.exact, g2.exact, castQ_area]; simp) with ⟨hc, h⟩ | ⟨hc, i0, i1, i2, p0, p1, p2, g0, g1, g2, S, _, hs⟩
  · exact Or.inl ⟨hc, h _ _ _⟩
  · exact Or.inr ⟨hc, i0, i1, i2, p0, p1, p2, g0, g1, g2, S, hs, triangulate_seeds (by omega) hs⟩

end Verif.Proofs
