import Verif.Proofs.GridValidate
import Verif.Proofs.Margin
import Verif.Props.NormFloat
import Verif.Props.HullMargin
import Verif.Props.LineFloat
/-!
# Error bounds for the sums of `Validate` at binary64 (triangulation.go, util.go)
-/
namespace Verif.Proofs
open Verif Verif.F64 Verif.Tri2 Verif.Props Verif.Spec

/-! ## Sums -/

/-- one more summand: the error grows by that of the summand and one rounding -/
theorem app_step {s t : F64} {X Y S k l b c B : ℚ} (hS : Scale S) (hs : App s X S k b) (ht : App t Y S l c) (hB : |X + Y| ≤ B * S) (hk : k + l ≤ 2 ^ 26) (hB' : B ≤ 2 ^ 25) :
    App (s + t) (X + Y) S (k + (l + B + 1 / 2)) B := by
  have he : |s.toQ + t.toQ - (X + Y)| ≤ (k + l) * (uro * S) := by
    rw [add_sub_add_comm, add_mul]
    exact (abs_add_le _ _).trans (add_le_add hs.err ht.err)
  obtain ⟨r1, r2⟩ := app_round hS hk hB' he hB
  obtain ⟨f, v⟩ := add_fin hs.fin ht.fin r1
  refine ⟨f, ?_, hB⟩
  rw [v]
  refine r2.trans (le_of_eq ?_); ring

theorem fold_app {α : Type} {S l c B : ℚ} (hS : Scale S) (hB' : B ≤ 2 ^ 25) (h0 : 0 ≤ l + B + 1 / 2) (f : α → F64) (g : α → ℚ) : ∀ (L : List α) (s : F64) (X k : ℚ),
    (∀ x ∈ L, App (f x) (g x) S l c) → App s X S k B → (∀ j, |X + ((L.take j).map g).sum| ≤ B * S) → k + L.length * (l + B + 1 / 2) + l ≤ 2 ^ 26 →
    App (L.foldl (fun r x => r + f x) s) (X + (L.map g).sum) S (k + L.length * (l + B + 1 / 2)) B := by
  intro L
  induction L with
  | nil => intro s X k _ hs _ _; simpa using hs
  | cons a L ih =>
    intro s X k h hs hp hk
    have hlen : (((a :: L).length : ℕ) : ℚ) = L.length + 1 := by simp
    rw [hlen] at hk ⊢
    have hL : 0 ≤ (L.length : ℚ) * (l + B + 1 / 2) := mul_nonneg (by positivity) h0
    have hB1 : |X + g a| ≤ B * S := by simpa using hp 1
    have h1 := app_step hS hs (h a (by simp)) hB1 (by nlinarith) hB'
    have := ih (s + f a) (X + g a) _ (fun x hx => h x (List.mem_cons_of_mem _ hx)) h1 (by
      intro j
      have := hp (j + 1)
      rw [List.take_succ_cons, List.map_cons, List.sum_cons, ← add_assoc] at this
      exact this) (by linarith)
    rw [List.foldl_cons, List.map_cons, List.sum_cons, ← add_assoc]
    rw [show k + ((L.length : ℚ) + 1) * (l + B + 1 / 2) = k + (l + B + 1 / 2) + L.length * (l + B + 1 / 2) by ring]
    exact this

theorem App.half {s : F64} {X S k b : ℚ} (hS : Scale S) (h : App s X S k b) (hk : k ≤ 2 ^ 26) (hb : b ≤ 2 ^ 25) (hb0 : 0 ≤ b) (hk0 : 0 ≤ k) :
    App (s / 2) (X / 2) S (k / 2 + b / 2 + 1 / 2) (b / 2) := by
  have he : |s.toQ / 2 - X / 2| ≤ k / 2 * (uro * S) := by
    rw [← sub_div, abs_div, abs_two]
    have := h.err
    have e : k / 2 * (uro * S) = k * (uro * S) / 2 := by ring
    rw [e]
    exact div_le_div_of_nonneg_right this (by norm_num)
  have hX : |X / 2| ≤ b / 2 * S := by
    rw [abs_div, abs_two]
    have := h.le
    have e : b / 2 * S = b * S / 2 := by ring
    rw [e]
    exact div_le_div_of_nonneg_right this (by norm_num)
  obtain ⟨r1, r2⟩ := app_round hS (by linarith) (by linarith) he hX
  obtain ⟨f, v⟩ := div_fin h.fin two_ex.1 (by rw [two_ex.2]; norm_num) (by rw [two_ex.2]; exact r1)
  refine ⟨f, ?_, hX⟩
  rw [v, two_ex.2]
  exact r2

theorem abs_sum_take {α : Type} (g w : α → ℚ) : ∀ (L : List α) (j : ℕ), (∀ x ∈ L, |g x| ≤ w x) → |((L.take j).map g).sum| ≤ (L.map w).sum := by
  intro L
  induction L with
  | nil => intro j _; simp
  | cons a L ih =>
    intro j h
    cases j with
    | zero =>
      simp only [List.take_zero, List.map_nil, List.sum_nil, abs_zero]
      apply List.sum_nonneg
      intro y hy
      obtain ⟨x, hx, rfl⟩ := List.mem_map.mp hy
      exact (abs_nonneg _).trans (h x hx)
    | succ j =>
      rw [List.take_succ_cons, List.map_cons, List.sum_cons, List.map_cons, List.sum_cons]
      exact (abs_add_le _ _).trans (add_le_add (h a (by simp)) (ih j fun x hx => h x (List.mem_cons_of_mem _ hx)))

/-- triangles without negative areas -/
theorem triSum_nonneg {Vs : List (R3.Vector F64)} : ∀ (m : ℕ) (ts : List ℤ), ts.length = 3 * m → (∀ z ∈ ts, 0 ≤ z ∧ z < (Vs.length : ℤ)) →
    (∀ i a b c, Corners (Vs.map exactV) ts i a b c → 0 ≤ area a b c) → 0 ≤ triSum (Vs.map exactV) ts := by
  intro m
  induction m with
  | zero =>
    intro ts hlen _ _
    obtain rfl : ts = [] := List.length_eq_zero_iff.mp (by omega)
    exact le_refl _
  | succ m ih =>
    intro ts hlen hrange hpos
    match ts, hlen with
    | x :: y :: z :: ts, h =>
      have get : ∀ i ∈ x :: y :: z :: ts, ∃ (j : ℕ) (v : R3.Vector ℚ), i = j ∧ (Vs.map exactV)[j]? = some v := by
        intro i hi
        obtain ⟨h0, h1⟩ := hrange i hi
        obtain ⟨k, rfl⟩ := Int.eq_ofNat_of_zero_le h0
        have hk : k < (Vs.map exactV).length := by rw [List.length_map]; exact_mod_cast h1
        exact ⟨k, (Vs.map exactV)[k], rfl, List.getElem?_eq_getElem hk⟩
      obtain ⟨jx, vx, rfl, gx⟩ := get x (by simp)
      obtain ⟨jy, vy, rfl, gy⟩ := get y (by simp)
      obtain ⟨jz, vz, rfl, gz⟩ := get z (by simp)
      simp only [triSum, List.getD_eq_getElem?_getD, Int.toNat_natCast, gx, gy, gz, Option.getD_some]
      refine add_nonneg (hpos 0 _ _ _ ⟨jx, jy, jz, rfl, rfl, rfl, gx, gy, gz⟩) (ih ts (by simp only [List.length_cons] at h; omega) (fun i hi => hrange i (by simp [hi])) ?_)
      rintro i a b c ⟨p, q, s, e1, e2, e3, e⟩
      exact hpos (i + 1) a b c ⟨p, q, s, by rw [← e1]; rfl, by rw [← e2]; rfl, by rw [← e3]; rfl, e⟩

section
variable {M : ℚ} (h1 : 1 / 2 ^ 40 ≤ M) (h2 : M ≤ 2 ^ 40)
include h1 h2

/-- the area of a polygon whose total change in the `X` coordinate is at most `W * M` -/
theorem polygonArea_app {W : ℚ} (w0 : 0 ≤ W) (w1 : W ≤ 2 ^ 20) {l : List (R3.Vector F64)} (hl : ∀ v ∈ l, Bounded M v)
    (hW : ((edges (l.map exactV)).map fun e => |e.1.X - e.2.X|).sum ≤ W * M) (hn : ((l.length : ℚ) + 1) * (16 + 2 * W) ≤ 2 ^ 26) :
    App (polygonArea l) (polygonArea (l.map exactV)) (M ^ 2) (l.length * (8 + W) + W + 1) W := by
  have hM : 0 < M := lt_of_lt_of_le (by positivity) h1
  have hS := scale_pow (d := 2) h1 h2 (by norm_num)
  have hlen : (edges l).length = l.length := by simp [edges]
  have mem : ∀ e ∈ edges l, e.1 ∈ l ∧ e.2 ∈ l := fun e he => ⟨(List.of_mem_zip he).1, List.mem_rotate.mp (List.of_mem_zip he).2⟩
  have hterm : ∀ e ∈ edges l, App ((e.1.X - e.2.X) * (e.1.Y + e.2.Y)) ((e.1.X.toQ - e.2.X.toQ) * (e.1.Y.toQ + e.2.Y.toQ)) (M ^ 2) 15 4 := by
    intro e he
    obtain ⟨a1, a2, a3, a4⟩ := hl _ (mem e he).1
    obtain ⟨b1, b2, b3, b4⟩ := hl _ (mem e he).2
    have hs := app_add h1 h2 (i := 1) (by norm_num) (app_coord a2 a4) (app_coord b2 b4) (by norm_num) (by norm_num) (by norm_num) (by norm_num)
    have := app_mul h1 h2 (by norm_num) (app_diff h1 h2 a1 b1 a3 b3) hs (by norm_num) (by norm_num) (by norm_num) (by norm_num)
    exact this.weaken hS (by norm_num) (by norm_num)
  have hsum : ((edges l).map fun e => |e.1.X.toQ - e.2.X.toQ| * (2 * M)).sum ≤ 2 * W * M ^ 2 := by
    rw [edges_map, List.map_map] at hW
    have e1 : ((edges l).map fun e => |e.1.X.toQ - e.2.X.toQ| * (2 * M)).sum = ((edges l).map fun e => |e.1.X.toQ - e.2.X.toQ|).sum * (2 * M) := List.sum_map_mul_right _ _ _
    have e2 : ((edges l).map fun e => |e.1.X.toQ - e.2.X.toQ|).sum ≤ W * M := hW
    rw [e1]
    have := mul_le_mul_of_nonneg_right e2 (show 0 ≤ 2 * M by linarith)
    refine this.trans (le_of_eq ?_); ring
  have hz : App 0 0 (M ^ 2) 0 (2 * W) := ⟨trivial, by rw [Ex.zero.val]; simp, by rw [abs_zero]; exact mul_nonneg (by linarith) hS.pos.le⟩
  have hpart : ∀ j, |0 + (((edges l).take j).map fun e => (e.1.X.toQ - e.2.X.toQ) * (e.1.Y.toQ + e.2.Y.toQ)).sum| ≤ 2 * W * M ^ 2 := by
    intro j
    rw [zero_add]
    refine le_trans (abs_sum_take _ (fun e : R3.Vector F64 × R3.Vector F64 => |e.1.X.toQ - e.2.X.toQ| * (2 * M)) (edges l) j ?_) hsum
    intro e he
    rw [abs_mul]
    apply mul_le_mul_of_nonneg_left _ (abs_nonneg _)
    have := (abs_add_le e.1.Y.toQ e.2.Y.toQ)
    have b1 := (hl _ (mem e he).1).2.2.2
    have b2 := (hl _ (mem e he).2).2.2.2
    linarith
  have hfold := fold_app hS (c := 4) (l := 15) (B := 2 * W) (by linarith) (by linarith) (fun e : R3.Vector F64 × R3.Vector F64 => (e.1.X - e.2.X) * (e.1.Y + e.2.Y))
    (fun e => (e.1.X.toQ - e.2.X.toQ) * (e.1.Y.toQ + e.2.Y.toQ)) (edges l) 0 0 0 hterm hz hpart (by
      rw [hlen]
      have : (0:ℚ) ≤ l.length := by positivity
      linarith)
  rw [hlen] at hfold
  have hL : (0:ℚ) ≤ l.length := by positivity
  have hh := hfold.half hS (by linarith) (by linarith) (by linarith) (by
    have : 0 ≤ (l.length : ℚ) * (15 + 2 * W + 1 / 2) := mul_nonneg hL (by linarith)
    linarith)
  have hval : (0 + ((edges l).map fun e => (e.1.X.toQ - e.2.X.toQ) * (e.1.Y.toQ + e.2.Y.toQ)).sum) / 2 = polygonArea (l.map exactV) := by
    rw [polygonArea_edges, edges_map, List.foldl_map, foldl_add_eq_sum]
    rfl
  rw [hval] at hh
  rw [polygonArea_edges]
  exact hh.weaken hS (by linarith) (by linarith)

/-- the loop over the triangles -/
theorem triLoop_app {Vs : List (R3.Vector F64)} (hV : ∀ v ∈ Vs, Bounded M v) {B : ℚ} (hB : 0 ≤ B) (hB' : B ≤ 2 ^ 20) : ∀ (m : ℕ) (ts : List ℤ) (r : F64) (X k : ℚ), ts.length = 3 * m →
    (∀ z ∈ ts, 0 ≤ z ∧ z < Vs.length) → (∀ i a b c, Corners (Vs.map exactV) ts i a b c → 0 ≤ area a b c) →
    App r X (M ^ 2) k B → 0 ≤ X → X + triSum (Vs.map exactV) ts ≤ B * M ^ 2 → k + (m + 1) * (40 + B) ≤ 2 ^ 26 →
    ∃ r', triAreaLoop Vs ts r = .ok r' ∧ App r' (X + triSum (Vs.map exactV) ts) (M ^ 2) (k + m * (40 + B)) B ∧ 0 ≤ triSum (Vs.map exactV) ts := by
  have hS := scale_pow (d := 2) h1 h2 (by norm_num)
  intro m
  induction m with
  | zero =>
    intro ts r X k h _ _ hr _ _ _
    obtain rfl : ts = [] := List.length_eq_zero_iff.mp (by omega)
    exact ⟨r, rfl, by simpa [triSum] using hr, le_refl _⟩
  | succ m ih =>
    intro ts r X k h hts hpos hr hX htot hk
    match ts, h with
    | x :: y :: z :: ts, h =>
      have get : ∀ i ∈ x :: y :: z :: ts, ∃ (j : ℕ) (v : R3.Vector F64), i = j ∧ Vs[j]? = some v ∧ v ∈ Vs := by
        intro i hi
        obtain ⟨h0, h1⟩ := hts i hi
        obtain ⟨k, rfl⟩ := Int.eq_ofNat_of_zero_le h0
        have hk : k < Vs.length := by exact_mod_cast h1
        exact ⟨k, Vs[k], rfl, by simp, List.getElem_mem hk⟩
      obtain ⟨jx, vx, rfl, gx, mx⟩ := get x (by simp)
      obtain ⟨jy, vy, rfl, gy, my⟩ := get y (by simp)
      obtain ⟨jz, vz, rfl, gz, mz⟩ := get z (by simp)
      have gE : ∀ {j : ℕ} {v : R3.Vector F64}, Vs[j]? = some v → (Vs.map exactV)[j]? = some (exactV v) := by
        intro j v hj; rw [List.getElem?_map, hj]; rfl
      have hdec : triSum (Vs.map exactV) ((jx:ℤ) :: (jy:ℤ) :: (jz:ℤ) :: ts) = area (exactV vx) (exactV vy) (exactV vz) + triSum (Vs.map exactV) ts := by
        simp only [triSum, List.getD_eq_getElem?_getD, Int.toNat_natCast, gE gx, gE gy, gE gz, Option.getD_some]
      rw [hdec] at htot ⊢
      have ha : 0 ≤ area (exactV vx) (exactV vy) (exactV vz) := hpos 0 _ _ _ ⟨jx, jy, jz, rfl, rfl, rfl, gE gx, gE gy, gE gz⟩
      have hpos' : ∀ i a b c, Corners (Vs.map exactV) ts i a b c → 0 ≤ area a b c := by
        rintro i a b c ⟨p, q, s, e1, e2, e3, e⟩
        exact hpos (i + 1) a b c ⟨p, q, s, by rw [← e1]; rfl, by rw [← e2]; rfl, by rw [← e3]; rfl, e⟩
      have hlen : ts.length = 3 * m := by simp only [List.length_cons] at h; omega
      have hrange : ∀ i ∈ ts, 0 ≤ i ∧ i < (Vs.length : ℤ) := fun i hi => hts i (by simp [hi])
      have hrest := triSum_nonneg m ts hlen hrange hpos'
      have hst : |X + area (exactV vx) (exactV vy) (exactV vz)| ≤ B * M ^ 2 := by
        rw [abs_of_nonneg (by linarith)]; linarith
      push_cast at hk
      have hm : 0 ≤ (m : ℚ) * (40 + B) := mul_nonneg (by positivity) (by linarith)
      have hstep := app_step hS hr (area_app h1 h2 (hV _ mx) (hV _ my) (hV _ mz)) hst (by linarith) (by linarith)
      have hstep' := hstep.weaken hS (k' := k + (40 + B)) (by linarith) (le_refl _)
      obtain ⟨r', e1, e2, _⟩ := ih ts _ _ _ hlen hrange hpos' hstep' (by linarith) (by linarith) (by linarith)
      refine ⟨r', ?_, ?_, add_nonneg ha hrest⟩
      · have G : ∀ {j : ℕ} {v : R3.Vector F64}, Vs[j]? = some v → goGet Vs (j:ℤ) = .ok v := fun hj => goGet_eq rfl hj
        simp only [triAreaLoop, G gx, G gy, G gz, Res.bind_ok]
        exact e1
      · rw [← add_assoc]
        have e : k + (((m + 1 : ℕ)) : ℚ) * (40 + B) = k + (40 + B) + m * (40 + B) := by push_cast; ring
        rw [e]
        exact e2

end

/-! ## Perimeters -/

theorem zero_toQ_eqZ {x y : F64} (hx : x.Finite) (hy : y.Finite) (h : x.toQ = y.toQ) : (x - y).Finite ∧ (x - y).toQ = 0 := by
  have e : rnd (x.toQ - y.toQ) = 0 := by rw [h, sub_self]; simp [rnd_zero]
  obtain ⟨f, v⟩ := sub_fin hx hy (by rw [e, abs_zero]; positivity)
  exact ⟨f, v.trans e⟩

theorem dist_real (p q : R3.Vector F64) : R3.Distance (exactR p) (exactR q) = Real.sqrt (sqDist p q) := by
  rw [Distance_eq_euclid]
  unfold euclid exactR sqDist
  push_cast
  rfl

theorem mul_zero_fin {x : F64} (hx : x.Finite) (h : x.toQ = 0) : (x * x).Finite ∧ (x * x).toQ = 0 := by
  have e : rnd (x.toQ * x.toQ) = 0 := by rw [h, mul_zero]; exact rnd_zero
  obtain ⟨f, v⟩ := mul_fin hx hx (by rw [e, abs_zero]; positivity)
  exact ⟨f, v.trans e⟩

theorem add_zero_fin {x y : F64} (hx : x.Finite) (hy : y.Finite) (h : x.toQ = 0) (h' : y.toQ = 0) : (x + y).Finite ∧ (x + y).toQ = 0 := by
  have e : rnd (x.toQ + y.toQ) = 0 := by rw [h, h', add_zero]; exact rnd_zero
  obtain ⟨f, v⟩ := add_fin hx hy (by rw [e, abs_zero]; positivity)
  exact ⟨f, v.trans e⟩

theorem sqrt_zero_fin {x : F64} (hx : x.Finite) (h : x.toQ = 0) : (F64.sqrt x).Finite ∧ (F64.sqrt x).toQ = 0 := by
  cases x with
  | nan => exact hx.elim
  | inf s => exact hx.elim
  | zero s => exact ⟨trivial, rfl⟩
  | fin c hc => exact absurd h hc.1

/-- the distance of two points that are at the same position or well apart -/
theorem distance_any {p q : R3.Vector F64} (hp : FinV p) (hq : FinV q) (h : sqDist p q = 0 ∨ 1 / 2 ^ 190 ≤ sqDist p q ∧ sqDist p q ≤ 2 ^ 190) :
    (R3.Distance p q).Finite ∧ |((R3.Distance p q).toQ : ℝ) - R3.Distance (exactR p) (exactR q)| ≤ 5 * ur * R3.Distance (exactR p) (exactR q) := by
  rw [dist_real]
  rcases h with h | ⟨h1, h2⟩
  · have hs : sqDist p q = (p.X.toQ - q.X.toQ) ^ 2 + (p.Y.toQ - q.Y.toQ) ^ 2 + (p.Z.toQ - q.Z.toQ) ^ 2 := rfl
    have sx := sq_nonneg (p.X.toQ - q.X.toQ)
    have sy := sq_nonneg (p.Y.toQ - q.Y.toQ)
    have sz := sq_nonneg (p.Z.toQ - q.Z.toQ)
    have ex : p.X.toQ = q.X.toQ := sub_eq_zero.mp (pow_eq_zero_iff (n := 2) (by norm_num) |>.mp (by linarith))
    have ey : p.Y.toQ = q.Y.toQ := sub_eq_zero.mp (pow_eq_zero_iff (n := 2) (by norm_num) |>.mp (by linarith))
    have ez : p.Z.toQ = q.Z.toQ := sub_eq_zero.mp (pow_eq_zero_iff (n := 2) (by norm_num) |>.mp (by linarith))
    obtain ⟨fx, vx⟩ := zero_toQ_eqZ hp.1 hq.1 ex
    obtain ⟨fy, vy⟩ := zero_toQ_eqZ hp.2.1 hq.2.1 ey
    obtain ⟨fz, vz⟩ := zero_toQ_eqZ hp.2.2 hq.2.2 ez
    obtain ⟨gx, wx⟩ := mul_zero_fin fx vx
    obtain ⟨gy, wy⟩ := mul_zero_fin fy vy
    obtain ⟨gz, wz⟩ := mul_zero_fin fz vz
    obtain ⟨g1, w1⟩ := add_zero_fin gx gy wx wy
    obtain ⟨g2, w2⟩ := add_zero_fin g1 gz w1 wz
    obtain ⟨g3, w3⟩ := sqrt_zero_fin g2 w2
    refine ⟨g3, ?_⟩
    rw [h, Rat.cast_zero, Real.sqrt_zero, mul_zero, sub_zero]
    have e : (R3.Distance p q).toQ = 0 := w3
    rw [e, Rat.cast_zero, abs_zero]
  · obtain ⟨f, e⟩ := C81_distance hp hq h1 h2
    refine ⟨f, e.trans (le_of_eq ?_)⟩
    unfold ur; ring

theorem perimeter_fold {P : ℝ} (hP : P ≤ 2 ^ 150) : ∀ (l : List (R3.Vector F64)) (q : R3.Vector F64) (S : F64) (R : ℝ) (k : ℕ), (∀ v ∈ q :: l, FinV v) →
    (∀ a ∈ q :: l, ∀ b ∈ q :: l, sqDist a b = 0 ∨ 1 / 2 ^ 190 ≤ sqDist a b ∧ sqDist a b ≤ 2 ^ 190) → S.Finite → 0 ≤ R →
    |(S.toQ : ℝ) - R| ≤ 5 * ur * R + 2 * k * (ur * P) → k + l.length ≤ 2 ^ 40 →
    ((l.map exactR).foldl (fun (st : ℝ × R3.Vector ℝ) p => (st.1 + R3.Distance p st.2, p)) (R, exactR q)).1 ≤ P →
    (l.foldl (fun (st : F64 × R3.Vector F64) p => (st.1 + R3.Distance p st.2, p)) (S, q)).1.Finite ∧
    |((l.foldl (fun (st : F64 × R3.Vector F64) p => (st.1 + R3.Distance p st.2, p)) (S, q)).1.toQ : ℝ) -
      ((l.map exactR).foldl (fun (st : ℝ × R3.Vector ℝ) p => (st.1 + R3.Distance p st.2, p)) (R, exactR q)).1| ≤
      5 * ur * ((l.map exactR).foldl (fun (st : ℝ × R3.Vector ℝ) p => (st.1 + R3.Distance p st.2, p)) (R, exactR q)).1 + 2 * ((k + l.length : ℕ) : ℝ) * (ur * P) := by
  have hu : 0 < ur := by unfold ur; positivity
  have hu2 : ur ≤ 1 / 2 ^ 50 := by unfold ur; norm_num
  intro l
  induction l with
  | nil => intro q S R k _ _ hS _ he _ _; exact ⟨hS, by simpa using he⟩
  | cons p l ih =>
    intro q S R k hf hs hS hR he hk htot
    obtain ⟨df, de⟩ := distance_any (hf p (by simp)) (hf q (by simp)) (hs p (by simp) q (by simp))
    rw [List.map_cons, List.foldl_cons] at htot ⊢
    rw [List.foldl_cons]
    dsimp only at htot ⊢
    have hd0 : 0 ≤ R3.Distance (exactR p) (exactR q) := by rw [Distance_eq_euclid]; exact Real.sqrt_nonneg _
    have hmono := real_fold_mono (l.map exactR) (exactR p) (R + R3.Distance (exactR p) (exactR q))
    have hRP : R + R3.Distance (exactR p) (exactR q) ≤ P := hmono.trans htot
    have hP0 : 0 ≤ P := by linarith
    have hk' : (k : ℝ) ≤ 2 ^ 40 := by
      have : k ≤ 2 ^ 40 := by omega
      exact_mod_cast this
    have huP : ur * P ≤ 1 / 2 ^ 50 * P := mul_le_mul_of_nonneg_right hu2 hP0
    have huP0 : 0 ≤ ur * P := mul_nonneg hu.le hP0
    have hkd : 2 * (k : ℝ) * (ur * P) ≤ 1 / 2 * P := by
      have h1 : 2 * (k : ℝ) * (ur * P) ≤ 2 * 2 ^ 40 * (ur * P) := mul_le_mul_of_nonneg_right (by linarith) huP0
      linarith
    generalize R3.Distance (exactR p) (exactR q) = d at *
    generalize R3.Distance p q = D at *
    have hsum : |((S.toQ + D.toQ : ℚ) : ℝ) - (R + d)| ≤ 5 * ur * (R + d) + 2 * k * (ur * P) := by
      push_cast
      rw [add_sub_add_comm]
      refine (abs_add_le _ _).trans ((add_le_add he de).trans (le_of_eq ?_))
      ring
    have hRd : ur * (R + d) ≤ ur * P := mul_le_mul_of_nonneg_left hRP hu.le
    have hlt : |((S.toQ + D.toQ : ℚ) : ℝ)| ≤ 2 * P := by
      have h1 := abs_sub_abs_le_abs_sub ((S.toQ + D.toQ : ℚ) : ℝ) (R + d)
      rw [abs_of_nonneg (a := R + d) (by linarith)] at h1
      linarith
    have herr : |((rnd (S.toQ + D.toQ) : ℚ) : ℝ) - ((S.toQ + D.toQ : ℚ) : ℝ)| ≤ 2 * (ur * P) := by
      have h1 := (Rat.cast_le (K := ℝ)).mpr (rnd_add_rel S D)
      rw [Rat.cast_abs, Rat.cast_sub, Rat.cast_mul, Rat.cast_abs, ur_cast] at h1
      refine h1.trans ?_
      have := mul_le_mul_of_nonneg_left hlt hu.le
      linarith
    have hfin : |rnd (S.toQ + D.toQ)| < 2 ^ 1024 := by
      apply rnd_small_real
      refine hlt.trans ?_
      have : (2:ℝ) * 2 ^ 150 ≤ 2 ^ 190 := by norm_num
      linarith
    obtain ⟨f, v⟩ := add_fin hS df hfin
    have key := ih p (S + D) (R + d) (k + 1) (fun v hv => hf v (List.mem_cons_of_mem _ hv)) (fun a ha b hb => hs a (List.mem_cons_of_mem _ ha) b (List.mem_cons_of_mem _ hb)) f (by linarith) (by
      rw [v]
      have := (abs_sub_le ((rnd (S.toQ + D.toQ) : ℚ) : ℝ) ((S.toQ + D.toQ : ℚ) : ℝ) (R + d))
      push_cast at this herr hsum ⊢
      linarith) (by simp only [List.length_cons] at hk; omega) htot
    rw [show k + (p :: l).length = (k + 1) + l.length by rw [List.length_cons]; omega]
    exact key

/-- the perimeter of a polygon whose vertices are pairwise at the same position or well apart -/
theorem perimeter_any {l : List (R3.Vector F64)} (hf : ∀ v ∈ l, FinV v) (hs : ∀ a ∈ l, ∀ b ∈ l, sqDist a b = 0 ∨ 1 / 2 ^ 190 ≤ sqDist a b ∧ sqDist a b ≤ 2 ^ 190)
    (hn : l.length ≤ 2 ^ 40) : (polygonPerimeter l).Finite ∧
      |((polygonPerimeter l).toQ : ℝ) - polygonPerimeter (l.map exactR)| ≤ (2 * l.length + 5) * ur * polygonPerimeter (l.map exactR) := by
  have hP : polygonPerimeter (l.map exactR) ≤ 2 ^ 150 := by
    rw [C15_perimeter]
    have h1 : ((edges (l.map exactR)).map fun e => euclid e.1 e.2).sum ≤ ((edges (l.map exactR)).map fun e => euclid e.1 e.2).length • (2:ℝ) ^ 95 := by
      apply List.sum_le_card_nsmul
      intro x hx
      obtain ⟨e, he, rfl⟩ := List.mem_map.mp hx
      rw [edges_map] at he
      obtain ⟨e, hE, rfl⟩ := List.mem_map.mp he
      have m1 := (List.of_mem_zip hE).1
      have m2 := List.mem_rotate.mp (List.of_mem_zip hE).2
      show euclid (exactR e.1) (exactR e.2) ≤ _
      rw [← Distance_eq_euclid, dist_real]
      have hle : sqDist e.1 e.2 ≤ 2 ^ 190 := by
        rcases hs _ m1 _ m2 with h | h
        · rw [h]; positivity
        · exact h.2
      have hle' : ((sqDist e.1 e.2 : ℚ) : ℝ) ≤ 2 ^ 190 := by exact_mod_cast hle
      rw [Real.sqrt_le_left (by positivity), ← pow_mul]
      exact hle'
    refine h1.trans ?_
    have hl : ((edges (l.map exactR)).map fun e => euclid e.1 e.2).length = l.length := by simp [edges]
    rw [hl, nsmul_eq_mul]
    have h2 : (l.length : ℝ) ≤ 2 ^ 40 := by exact_mod_cast hn
    refine (mul_le_mul_of_nonneg_right h2 (by positivity)).trans ?_
    rw [← pow_add]
    exact pow_le_pow_right₀ (by norm_num) (by norm_num)
  revert hP
  unfold polygonPerimeter
  rw [List.getLast?_map]
  cases e : l.getLast? with
  | none => simp; exact ⟨trivial, by rw [Ex.zero.val]; simp⟩
  | some q =>
    simp only [Option.map_some]
    intro hP
    have hq := List.mem_of_getLast? e
    have hm : ∀ v ∈ q :: l, v ∈ l := by
      intro v hv
      rcases List.mem_cons.mp hv with rfl | hv
      · exact hq
      · exact hv
    obtain ⟨f, v⟩ := perimeter_fold hP l q 0 0 0 (fun v hv => hf v (hm v hv)) (fun a ha b hb => hs a (hm a ha) b (hm b hb)) trivial (le_refl _)
      (by rw [Ex.zero.val]; simp) (by simpa using hn) (le_refl _)
    refine ⟨f, v.trans (le_of_eq ?_)⟩
    rw [zero_add]
    ring

end Verif.Proofs
