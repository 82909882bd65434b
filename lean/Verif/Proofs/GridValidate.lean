import Verif.Proofs.HullLength
import Verif.Proofs.HullFloat
import Verif.Props.HullAgree
/-!
# The float64 sums of `Validate` for small integer coordinates (triangulation.go, util.go)
-/
namespace Verif.Proofs
open Verif Verif.F64 Verif.Tri2 Verif.Props

/-! ## Areas: all sums are exact -/

theorem Ex.mono {x : F64} {n : ℤ} {b c : ℕ} (h : Ex x n b) (hbc : b ≤ c) : Ex x n c := ⟨h.fin, h.val, h.le.trans (by exact_mod_cast hbc)⟩

theorem fold_ex {α : Type} {b : ℕ} (f : α → F64) (g : α → ℤ) : ∀ (l : List α) (s : F64) (n : ℤ) (c : ℕ), (∀ x ∈ l, Ex (f x) (g x) b) → Ex s n c →
    c + l.length * b < 2 ^ 53 → Ex (l.foldl (fun r x => r + f x) s) (n + (l.map g).sum) (c + l.length * b) := by
  intro l
  induction l with
  | nil => intro s n c _ hs _; simpa using hs
  | cons a l ih =>
    intro s n c h hs hlt
    have e : c + (a :: l).length * b = (c + b) + l.length * b := by rw [List.length_cons]; ring
    rw [e] at hlt ⊢
    have := ih (s + f a) (n + g a) (c + b) (fun x hx => h x (List.mem_cons_of_mem _ hx)) (hs.add (h a (by simp)) (by omega)) hlt
    rw [List.foldl_cons, List.map_cons, List.sum_cons, ← add_assoc]
    exact this

theorem two_ex : (2 : F64).Finite ∧ (2 : F64).toQ = 2 := ⟨trivial, rfl⟩

theorem Ex.half {x : F64} {n : ℤ} {b : ℕ} (h : Ex x n b) (hb : b < 2 ^ 53) : (x / 2).Finite ∧ (x / 2).toQ = (n : ℚ) / 2 := by
  have hn : |n| < 2 ^ 53 := h.le.trans_lt (by exact_mod_cast hb)
  have e : rnd (x.toQ / (2 : F64).toQ) = (n : ℚ) / 2 := by
    rw [h.val, two_ex.2]
    have := rnd_id (K := ℚ) (q := (n : ℚ) / 2) ⟨n, -1, hn, by norm_num, by rw [zpow_neg, zpow_one, div_eq_mul_inv]⟩
    simpa using this
  have hlt : |(n : ℚ) / 2| < 2 ^ 1024 := by
    rw [abs_div, abs_two]
    exact lt_of_le_of_lt (half_le_self (abs_nonneg _)) (lt_big hn)
  obtain ⟨f, v⟩ := div_fin h.fin two_ex.1 (by rw [two_ex.2]; norm_num) (by rw [e]; exact hlt)
  exact ⟨f, by rw [v, e]⟩

theorem polygonArea_edges {F : Type} [Add F] [Sub F] [Mul F] [Div F] [OfNat F 0] [OfNat F 2] (l : List (R3.Vector F)) :
    polygonArea l = (edges l).foldl (fun r e => r + (e.1.X - e.2.X) * (e.1.Y + e.2.Y)) 0 / 2 := by
  rw [edges_eq_finRange, List.foldl_map]
  rfl

theorem grid_edges {l : List (R3.Vector F64)} (hg : Grid l) : ∀ e ∈ edges l, (∃ a, GPt e.1 a) ∧ ∃ a, GPt e.2 a := by
  intro e he
  have h := List.of_mem_zip he
  exact ⟨hg _ h.1, hg _ (List.mem_rotate.mp h.2)⟩

/-- the integer value of a float that has one -/
noncomputable def intOf (x : F64) : ℤ := ⌊x.toQ⌋

theorem Ex.intOf {x : F64} {n : ℤ} {b : ℕ} (h : Ex x n b) : intOf x = n := by unfold Proofs.intOf; rw [h.val, Int.floor_intCast]

/-- the area of a polygon on the grid is exact -/
theorem polygonArea_grid {l : List (R3.Vector F64)} (hg : Grid l) (hl : l.length ≤ 1024) :
    (polygonArea l).Finite ∧ (polygonArea l).toQ = polygonArea (l.map exactV) := by
  have hlen : (edges l).length = l.length := by simp [edges]
  have h := fold_ex (b := 16384) (fun e : R3.Vector F64 × R3.Vector F64 => (e.1.X - e.2.X) * (e.1.Y + e.2.Y))
    (fun e => (intOf e.1.X - intOf e.2.X) * (intOf e.1.Y + intOf e.2.Y)) (edges l) 0 0 0 (by
      intro e he
      obtain ⟨⟨a, ga⟩, b, gb⟩ := grid_edges hg e he
      rw [ga.x.intOf, gb.x.intOf, ga.y.intOf, gb.y.intOf]
      exact (ga.dx gb).mul (ga.y.add gb.y (by norm_num)) (by norm_num)) Ex.zero (by rw [hlen]; omega)
  have hb : 0 + (edges l).length * 16384 < 2 ^ 53 := by rw [hlen]; omega
  obtain ⟨f, v⟩ := h.half hb
  rw [polygonArea_edges, polygonArea_edges]
  refine ⟨f, v.trans ?_⟩
  congr 1
  rw [edges_map, List.foldl_map, foldl_add_eq_sum, zero_add, zero_add]
  rw [show ∀ L : List ℤ, ((L.sum : ℤ) : ℚ) = (L.map (fun n : ℤ => (n : ℚ))).sum from fun L => by
    induction L with
    | nil => simp
    | cons a L ih => simp [ih], List.map_map]
  congr 1
  apply List.map_congr_left
  intro e he
  obtain ⟨⟨a, ga⟩, b, gb⟩ := grid_edges hg e he
  simp only [Function.comp, Prod.map]
  rw [ga.x.intOf, gb.x.intOf, ga.y.intOf, gb.y.intOf, ga.exact, gb.exact]
  simp only [castQ]
  push_cast
  ring

theorem triLoop_grid {Vs : List (R3.Vector F64)} (hg : Grid Vs) : ∀ (m : ℕ) (ts : List ℤ) (r : F64) (n : ℤ) (b : ℕ), ts.length = 3 * m →
    (∀ z ∈ ts, 0 ≤ z ∧ z < Vs.length) → Ex r n b → b + m * 32768 < 2 ^ 53 →
    ∃ (r' : F64) (n' : ℤ), triAreaLoop Vs ts r = .ok r' ∧ triAreaLoop (Vs.map exactV) ts (n : ℚ) = .ok (n' : ℚ) ∧ Ex r' n' (b + m * 32768) := by
  intro m
  induction m with
  | zero =>
    intro ts r n b h _ hr _
    obtain rfl : ts = [] := List.length_eq_zero_iff.mp (by omega)
    exact ⟨r, n, rfl, rfl, by simpa using hr⟩
  | succ m ih =>
    intro ts r n b h hts hr hb
    match ts, h with
    | x :: y :: z :: ts, h =>
      have get : ∀ i ∈ x :: y :: z :: ts, ∃ v a, goGet Vs i = .ok v ∧ goGet (Vs.map exactV) i = .ok (exactV v) ∧ GPt v a := by
        intro i hi
        obtain ⟨h0, h1⟩ := hts i hi
        obtain ⟨k, rfl⟩ := Int.eq_ofNat_of_zero_le h0
        have hk : k < Vs.length := by exact_mod_cast h1
        obtain ⟨a, ga⟩ := hg Vs[k] (List.getElem_mem hk)
        refine ⟨Vs[k], a, ?_, ?_, ga⟩
        · exact goGet_eq rfl (by simp)
        · exact goGet_eq rfl (by rw [List.getElem?_map, List.getElem?_eq_getElem hk]; rfl)
      obtain ⟨vx, ax, x1, x2, gx⟩ := get x (by simp)
      obtain ⟨vy, ay, y1, y2, gy⟩ := get y (by simp)
      obtain ⟨vz, az, z1, z2, gz⟩ := get z (by simp)
      have e : b + (m + 1) * 32768 = (b + 32768) + m * 32768 := by ring
      rw [e] at hb ⊢
      obtain ⟨r', n', e1, e2, e3⟩ := ih ts (r + area vx vy vz) (n + area ax ay az) (b + 32768) (by simp only [List.length_cons] at h; omega)
        (fun i hi => hts i (by simp [hi])) (hr.add (gx.area gy gz) (by omega)) hb
      refine ⟨r', n', ?_, ?_, e3⟩
      · simp only [triAreaLoop, x1, y1, z1, Res.bind_ok]; exact e1
      · simp only [triAreaLoop, x2, y2, z2, Res.bind_ok]
        rw [gx.exact, gy.exact, gz.exact, castQ_area]
        push_cast at e2
        exact e2

/-- the sum of the triangle areas on the grid is exact -/
theorem triArea_grid {Vs : List (R3.Vector F64)} (hg : Grid Vs) {ts : List ℤ} (h3 : 3 ∣ ts.length) (hts : ∀ z ∈ ts, 0 ≤ z ∧ z < Vs.length)
    (hl : ts.length ≤ 2 ^ 20) : ∃ r, triArea Vs ts = .ok r ∧ r.Finite ∧ triArea (Vs.map exactV) ts = .ok r.toQ := by
  obtain ⟨m, hm⟩ := h3
  obtain ⟨r', n', e1, e2, e3⟩ := triLoop_grid hg m ts 0 0 0 hm hts Ex.zero (by omega)
  obtain ⟨f, v⟩ := e3.half (by omega)
  refine ⟨r' / 2, ?_, f, ?_⟩
  · unfold triArea; rw [e1]; rfl
  · unfold triArea
    rw [Int.cast_zero] at e2
    rw [e2, v]; rfl

/-! ## Perimeters: the sums have small errors -/

theorem rnd_err_small {K : Type} [Field K] [LinearOrder K] [IsStrictOrderedRing K] [FloorRing K] {x : K} (h : |x| < 1024) :
    |((rnd x : ℚ) : K) - x| ≤ 1 / 2 ^ 44 := by
  have hb : (2:K) ^ expo x ≤ 2 ^ (-43 : ℤ) := by
    apply zpow_le_zpow_right₀ (by norm_num)
    unfold expo
    apply max_le _ (by norm_num)
    rcases eq_or_ne x 0 with rfl | h0
    · simp
    · have : Int.log 2 |x| < 10 := by
        rw [← Int.lt_zpow_iff_log_lt (by norm_num) (abs_pos.mpr h0)]
        exact h.trans_le (by norm_num)
      omega
  have := rnd_err x
  have e : (2:K) ^ (-43 : ℤ) / 2 = 1 / 2 ^ 44 := by norm_num
  exact this.trans ((div_le_div_of_nonneg_right hb (by norm_num)).trans_eq e)

/-- real coordinates -/
noncomputable def exactR (v : R3.Vector F64) : R3.Vector ℝ := ⟨v.X.toQ, v.Y.toQ, v.Z.toQ⟩

theorem round_real {x : ℝ} (h : |x| < 1024) : (round false x).Finite ∧ |((round false x).toQ : ℝ) - x| ≤ 1 / 2 ^ 44 := by
  have he := rnd_err_small h
  have hlt : |rnd x| < 2 ^ 1024 := by
    have h1 : |((rnd x : ℚ) : ℝ)| < 2048 := by
      have := abs_sub_abs_le_abs_sub ((rnd x : ℚ) : ℝ) x
      have : (1:ℝ) / 2 ^ 44 < 1 := by norm_num
      linarith
    have h2 : |rnd x| < 2048 := by exact_mod_cast h1
    refine h2.trans ?_
    rw [show (2048 : ℚ) = 2 ^ 11 by norm_num]
    exact pow_lt_pow_right₀ (by norm_num) (by norm_num)
  obtain ⟨f, v⟩ := round_fin (s := false) hlt
  exact ⟨f, by rw [v]; exact he⟩

theorem distance_grid {p q : R3.Vector F64} {a b : R3.Vector ℤ} (hp : GPt p a) (hq : GPt q b) :
    (R3.Distance p q).Finite ∧ |((R3.Distance p q).toQ : ℝ) - R3.Distance (exactR p) (exactR q)| ≤ 1 / 2 ^ 44 := by
  have h := hp.sq hq
  have hn : 0 ≤ (R3.SquaredDistance a b : ℤ) := by
    show 0 ≤ (a.X - b.X) * (a.X - b.X) + (a.Y - b.Y) * (a.Y - b.Y) + (a.Z - b.Z) * (a.Z - b.Z)
    exact add_nonneg (add_nonneg (mul_self_nonneg _) (mul_self_nonneg _)) (mul_self_nonneg _)
  have hle : (R3.SquaredDistance a b : ℤ) ≤ 32768 := by have := (abs_le.mp h.le).2; exact_mod_cast this
  have hr : R3.Distance (exactR p) (exactR q) = Real.sqrt (R3.SquaredDistance a b : ℤ) := by
    rw [Distance_eq_euclid]
    unfold euclid exactR
    dsimp only
    rw [hp.x.val, hp.y.val, hp.z.val, hq.x.val, hq.y.val, hq.z.val]
    congr 1
    simp only [R3.SquaredDistance, R3.Vector.Norm2, R3.Dot, R3.Sub]
    push_cast
    ring
  rw [hr]
  show (F64.sqrt (R3.SquaredDistance p q)).Finite ∧ |((F64.sqrt (R3.SquaredDistance p q)).toQ : ℝ) - _| ≤ _
  have hsq : |Real.sqrt (R3.SquaredDistance a b : ℤ)| < 1024 := by
    rw [abs_of_nonneg (Real.sqrt_nonneg _), Real.sqrt_lt' (by norm_num)]
    have : ((R3.SquaredDistance a b : ℤ) : ℝ) ≤ 32768 := by exact_mod_cast hle
    linarith
  cases hx : R3.SquaredDistance p q with
  | nan => exact absurd h.fin (by rw [hx]; exact id)
  | inf s => exact absurd h.fin (by rw [hx]; exact id)
  | zero s =>
    have : ((R3.SquaredDistance a b : ℤ) : ℚ) = 0 := by rw [← h.val, hx]; rfl
    have h0 : (R3.SquaredDistance a b : ℤ) = 0 := by exact_mod_cast this
    rw [h0]
    refine ⟨trivial, ?_⟩
    show |(((F64.zero s).toQ : ℚ) : ℝ) - _| ≤ _
    simp [F64.toQ]
  | fin c hc =>
    have hv : c = ((R3.SquaredDistance a b : ℤ) : ℚ) := by rw [← h.val, hx]; rfl
    have h0 : ¬ c < 0 := by rw [hv, not_lt]; exact_mod_cast hn
    have hc' : ((c : ℚ) : ℝ) = ((R3.SquaredDistance a b : ℤ) : ℝ) := by rw [hv]; push_cast; rfl
    simp only [F64.sqrt, if_neg h0]
    rw [hc']
    exact round_real hsq

theorem real_fold_mono (l : List (R3.Vector ℝ)) : ∀ (q : R3.Vector ℝ) (R : ℝ),
    R ≤ (l.foldl (fun (st : ℝ × R3.Vector ℝ) p => (st.1 + R3.Distance p st.2, p)) (R, q)).1 := by
  induction l with
  | nil => intro q R; exact le_refl _
  | cons p l ih =>
    intro q R
    rw [List.foldl_cons]
    refine le_trans ?_ (ih p _)
    have : 0 ≤ R3.Distance p q := by rw [Distance_eq_euclid]; exact Real.sqrt_nonneg _
    dsimp only
    linarith

theorem fold_grid : ∀ (l : List (R3.Vector F64)) (q : R3.Vector F64) (S : F64) (R : ℝ) (k : ℕ), Grid l → (∃ a, GPt q a) → S.Finite → 0 ≤ R →
    |(S.toQ : ℝ) - R| ≤ k * (1 / 2 ^ 43) → k + l.length ≤ 1024 →
    ((l.map exactR).foldl (fun (st : ℝ × R3.Vector ℝ) p => (st.1 + R3.Distance p st.2, p)) (R, exactR q)).1 ≤ 512 →
    (l.foldl (fun (st : F64 × R3.Vector F64) p => (st.1 + R3.Distance p st.2, p)) (S, q)).1.Finite ∧
    |((l.foldl (fun (st : F64 × R3.Vector F64) p => (st.1 + R3.Distance p st.2, p)) (S, q)).1.toQ : ℝ) -
      ((l.map exactR).foldl (fun (st : ℝ × R3.Vector ℝ) p => (st.1 + R3.Distance p st.2, p)) (R, exactR q)).1| ≤ ((k + l.length : ℕ) : ℝ) * (1 / 2 ^ 43) := by
  intro l
  induction l with
  | nil => intro q S R k _ _ hS _ he _ _; exact ⟨hS, by simpa using he⟩
  | cons p l ih =>
    intro q S R k hg hq hS hR he hk htot
    obtain ⟨a, ga⟩ := hg p (by simp)
    obtain ⟨b, gb⟩ := hq
    obtain ⟨df, de⟩ := distance_grid ga gb
    rw [List.map_cons, List.foldl_cons] at htot ⊢
    rw [List.foldl_cons]
    dsimp only at htot ⊢
    have hd0 : 0 ≤ R3.Distance (exactR p) (exactR q) := by rw [Distance_eq_euclid]; exact Real.sqrt_nonneg _
    have hmono := real_fold_mono (l.map exactR) (exactR p) (R + R3.Distance (exactR p) (exactR q))
    have hk' : (k : ℝ) ≤ 1024 := by have : k ≤ 1024 := by omega
                                    exact_mod_cast this
    have hkd : (k : ℝ) * (1 / 2 ^ 43) ≤ 1 := by
      have : (k : ℝ) * (1 / 2 ^ 43) ≤ 1024 * (1 / 2 ^ 43) := mul_le_mul_of_nonneg_right hk' (by positivity)
      have : (1024 : ℝ) * (1 / 2 ^ 43) ≤ 1 := by norm_num
      linarith
    have hsum : |((S.toQ + (R3.Distance p q).toQ : ℚ) : ℝ) - (R + R3.Distance (exactR p) (exactR q))| ≤ k * (1 / 2 ^ 43) + 1 / 2 ^ 44 := by
      push_cast
      rw [add_sub_add_comm]
      exact (abs_add_le _ _).trans (add_le_add he de)
    have hlt : |((S.toQ + (R3.Distance p q).toQ : ℚ) : ℝ)| < 1024 := by
      have h1 := abs_sub_abs_le_abs_sub ((S.toQ + (R3.Distance p q).toQ : ℚ) : ℝ) (R + R3.Distance (exactR p) (exactR q))
      rw [abs_of_nonneg (a := R + R3.Distance (exactR p) (exactR q)) (by linarith)] at h1
      have : (1:ℝ) / 2 ^ 44 < 1 := by norm_num
      linarith
    have hltQ : |S.toQ + (R3.Distance p q).toQ| < 1024 := by exact_mod_cast hlt
    have herr := rnd_err_small hltQ
    rw [Rat.cast_id] at herr
    have hfin : |rnd (S.toQ + (R3.Distance p q).toQ)| < 2 ^ 1024 := by
      apply rnd_small
      exact hltQ.le.trans (by norm_num)
    obtain ⟨f, v⟩ := add_fin hS df hfin
    refine (fun h => by rw [show k + (p :: l).length = (k + 1) + l.length by rw [List.length_cons]; omega]; exact h) (ih p _ _ (k + 1) (fun v hv => hg v (List.mem_cons_of_mem _ hv)) ⟨a, ga⟩ f (by linarith) ?_ ?_ htot)
    · rw [v]
      have herr' : |((rnd (S.toQ + (R3.Distance p q).toQ) : ℚ) : ℝ) - ((S.toQ + (R3.Distance p q).toQ : ℚ) : ℝ)| ≤ 1 / 2 ^ 44 := by
        rw [← Rat.cast_sub, ← Rat.cast_abs]
        have := (Rat.cast_le (K := ℝ)).mpr herr
        push_cast at this ⊢
        exact this
      have := (abs_sub_le ((rnd (S.toQ + (R3.Distance p q).toQ) : ℚ) : ℝ) ((S.toQ + (R3.Distance p q).toQ : ℚ) : ℝ) (R + R3.Distance (exactR p) (exactR q)))
      push_cast at this herr' hsum ⊢
      have e : (1:ℝ) / 2 ^ 43 = 1 / 2 ^ 44 + 1 / 2 ^ 44 := by norm_num
      linarith
    · simp only [List.length_cons] at hk; omega

/-- the float perimeter of a polygon on the grid is close to the exact one -/
theorem perimeter_grid {l : List (R3.Vector F64)} (hg : Grid l) (hl : l.length ≤ 1024) (h : polygonPerimeter (l.map exactR) ≤ 512) :
    (polygonPerimeter l).Finite ∧ |((polygonPerimeter l).toQ : ℝ) - polygonPerimeter (l.map exactR)| ≤ 1 / 2 ^ 33 := by
  unfold polygonPerimeter at h ⊢
  rw [List.getLast?_map] at h ⊢
  cases e : l.getLast? with
  | none => simp; exact ⟨trivial, by rw [Ex.zero.val]; simp⟩
  | some q =>
    rw [e] at h
    simp only [Option.map_some] at h ⊢
    have hq := hg q (List.mem_of_getLast? e)
    obtain ⟨f, v⟩ := fold_grid l q 0 0 0 hg hq trivial (le_refl _) (by rw [Ex.zero.val]; simp) (by simpa using hl) h
    refine ⟨f, v.trans ?_⟩
    have : ((0 + l.length : ℕ) : ℝ) ≤ 1024 := by rw [zero_add]; exact_mod_cast hl
    have h2 := mul_le_mul_of_nonneg_right this (show (0:ℝ) ≤ 1 / 2 ^ 43 by positivity)
    refine h2.trans ?_
    norm_num

end Verif.Proofs
