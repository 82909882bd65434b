import Verif.Model.Ints64
import Verif.Props.Overflow
import Verif.Props.BowyerWatson
/-!
# C99: 64-bit integers in packages `nurbs`, `shape` and `mesh`

With Go's 64-bit `int` the results are those of the other models (unbounded integers) for every input that fits into an address space; the exceptions are
stated as refutations.
-/
namespace Verif.Props
open Verif Verif.Tri2 Verif.Proofs Verif.Nurbs

variable {F : Type}

/-- an index that wraps around is out of range before and after -/
theorem get_wrap {α : Type} {l : List α} {z : ℤ} (hl : l.length ≤ 2^61) (h : -2^63 - 2^61 - 8 ≤ z ∧ z ≤ 2^63 + 2^61 + 8) : goGet l (wrap64 z) = goGet l z := by
  by_cases hz : -2^63 ≤ z ∧ z < 2^63
  · rw [wrap64_id hz]
  · have p1 : ∀ y : ℤ, (y < 0 ∨ (l.length : ℤ) ≤ y) → goGet l y = .panic := by
      intro y hy
      unfold goGet
      split
      · rfl
      · rw [List.getElem?_eq_none (by omega)]; rfl
    rw [p1 z (by omega), p1 (wrap64 z) (by unfold wrap64; omega)]

section
variable [Add F] [Mul F] [Div F]

theorem basisInner_wrap (left right : List F) (j : ℤ) (hj : 0 ≤ j ∧ j ≤ 2^61) : ∀ (m : ℕ) (r : ℤ) (N : List F) (saved : F), 0 ≤ r → r + m ≤ 2^61 →
    basisInnerW wrap64 left right j m r N saved = basisInner left right j m r N saved := by
  intro m
  induction m with
  | zero => intro _ _ _ _ _; rfl
  | succ m ih =>
    intro r N saved h0 h1
    push_cast at h1
    unfold basisInnerW basisInner
    simp only [wrap64_id (z := r + 1) ⟨by omega, by omega⟩, wrap64_id (z := j - r) ⟨by omega, by omega⟩, ih (r+1) _ _ (by omega) (by omega)]

theorem dersInner_wrap (left right : List F) (j : ℤ) (hj : 0 ≤ j ∧ j ≤ 2^61) : ∀ (m : ℕ) (r : ℤ) (N : List (List F)) (saved : F), 0 ≤ r → r + m ≤ 2^61 →
    dersInnerW wrap64 left right j m r N saved = dersInner left right j m r N saved := by
  intro m
  induction m with
  | zero => intro _ _ _ _ _; rfl
  | succ m ih =>
    intro r N saved h0 h1
    push_cast at h1
    unfold dersInnerW dersInner
    simp only [wrap64_id (z := r + 1) ⟨by omega, by omega⟩, wrap64_id (z := j - r) ⟨by omega, by omega⟩, wrap64_id (z := j - 1) ⟨by omega, by omega⟩,
      ih (r+1) _ _ (by omega) (by omega)]
end

theorem wrap_sub (a b : ℤ) : wrap64 (wrap64 a - b) = wrap64 (a - b) := by unfold wrap64; omega

theorem basisOuter_wrap [Add F] [Sub F] [Mul F] [Div F] [OfNat F 0] [GoOfInt F] (i : ℤ) (hi : -2^63 ≤ i ∧ i < 2^63) (u : F) (U : List ℤ) (hU : U.length ≤ 2^61) :
    ∀ (m : ℕ) (j : ℤ) (left right N : List F), 0 ≤ j → j + m ≤ 2^61 → basisOuterW wrap64 i u U m j left right N = basisOuter i u U m j left right N := by
  intro m
  induction m with
  | zero => intro _ _ _ _ _ _; rfl
  | succ m ih =>
    intro j left right N h0 h1
    push_cast at h1
    unfold basisOuterW basisOuter
    simp only [wrap_sub, get_wrap hU (z := i + 1 - j) ⟨by omega, by omega⟩, get_wrap hU (z := i + j) ⟨by omega, by omega⟩, wrap64_id (z := j + 1) ⟨by omega, by omega⟩,
      ih (j+1) _ _ _ (by omega) (by omega), basisInner_wrap _ _ j ⟨h0, by omega⟩ j.toNat 0 _ _ (by omega) (by omega)]

/-- C99: `basisFuns` on 64-bit integers, for every span index and every degree and number of knots below 2^60 -/
theorem C99_basisFuns [Add F] [Sub F] [Mul F] [Div F] [OfNat F 0] [OfNat F 1] [GoOfInt F] {i p : ℤ} (hi : -2^63 ≤ i ∧ i < 2^63) (u : F)
    (hp : -2^63 ≤ p ∧ p ≤ 2^60) {U : List ℤ} (hU : U.length ≤ 2^61) : basisFunsW wrap64 i u p U = basisFuns i u p U := by
  unfold basisFunsW basisFuns
  simp only [wrap64_id (z := p + 1) ⟨by omega, by omega⟩, basisOuter_wrap i hi u U hU p.toNat 1 _ _ _ (by omega) (by omega)]

theorem curveLoop_wrap [Add F] [Mul F] (P : List (R3.Vector F)) (N : List F) (base : ℤ) (hb : -2^62 ≤ base ∧ base ≤ 2^62) :
    ∀ (m : ℕ) (i : ℤ) (C : R3.Vector F), 0 ≤ i → i + m ≤ 2^61 → curveLoopW wrap64 P N base m i C = curveLoop P N base m i C := by
  intro m
  induction m with
  | zero => intro _ _ _ _; rfl
  | succ m ih =>
    intro i C h0 h1
    push_cast at h1
    unfold curveLoopW curveLoop
    simp only [wrap64_id (z := base + i) ⟨by omega, by omega⟩, wrap64_id (z := i + 1) ⟨by omega, by omega⟩, ih (i+1) _ (by omega) (by omega)]

section
variable [LT F] [DecidableLT F] [LE F] [DecidableLE F] [BEq F] [GoOfInt F]

theorem findSpan_range {fuel : ℕ} {n p : ℤ} {u : F} {U : List ℤ} {k : ℤ} (h : findSpan fuel n p u U = .ok k) : k = n ∨ (0 ≤ k ∧ k < U.length) := by
  have loop : ∀ (f : ℕ) (low high mid : ℤ), findSpanLoop u U f low high mid = .ok k → 0 ≤ k ∧ k < U.length := by
    intro f
    induction f with
    | zero => intro _ _ _ e; cases e
    | succ f ih =>
      intro low high mid e
      unfold findSpanLoop at e
      obtain ⟨um, e1, e⟩ := Res.bind_eq_ok.mp e
      have fin : ∀ g : Bool, ∀ lo hi md : ℤ, (if g = true then findSpanLoop u U f lo hi md else pure mid) = .ok k → 0 ≤ k ∧ k < U.length := by
        intro g lo hi md e
        split at e
        · exact ih _ _ _ e
        · cases e
          obtain ⟨a, b, _⟩ := goGet_lt e1
          exact ⟨a, b⟩
      dsimp only at e
      split at e
      · exact fin true _ _ _ e
      · obtain ⟨um1, _, e⟩ := Res.bind_eq_ok.mp e
        exact fin _ _ _ _ e
  unfold findSpan at h
  obtain ⟨x, _, h⟩ := Res.bind_eq_ok.mp h
  split at h
  · cases h; exact Or.inl rfl
  · exact Or.inr (loop _ _ _ _ h)

/-- C99: `curvePoint` on 64-bit integers, for degree, index of the last control point and number of knots below 2^60 -/
theorem C99_curvePoint [Add F] [Sub F] [Mul F] [Div F] [OfNat F 0] [OfNat F 1] (fuel : ℕ) {n p : ℤ} (hn : -2^60 ≤ n ∧ n ≤ 2^60) (hp : -2^60 ≤ p ∧ p ≤ 2^60)
    {U : List ℤ} (hU : U.length ≤ 2^60) (P : List (R3.Vector F)) (u : F) : curvePointW wrap64 fuel n p U P u = curvePoint fuel n p U P u := by
  unfold curvePointW curvePoint
  rw [C96_findSpan fuel u ⟨by omega, by omega⟩ ⟨by omega, by omega⟩ (by omega)]
  cases h : findSpan fuel n p u U with
  | panic => rfl
  | fuel => rfl
  | ok k =>
    have hk := findSpan_range h
    have hk' : -2^60 ≤ k ∧ k ≤ 2^60 := by omega
    simp only [Res.bind_ok]
    rw [C99_basisFuns ⟨by omega, by omega⟩ u ⟨by omega, by omega⟩ (by omega)]
    simp only [wrap64_id (z := k - p) ⟨by omega, by omega⟩, curveLoop_wrap P _ (k-p) ⟨by omega, by omega⟩ (p+1).toNat 0 _ (le_refl _) (by omega)]
end

/-! ## Derivatives of the basis functions -/

theorem dersOuter_wrap [Add F] [Mul F] [Div F] [OfNat F 0] [GoOfInt F] (i u : ℤ) (hi : -2^63 ≤ i ∧ i < 2^63) (hu : -2^62 ≤ u ∧ u < 2^62) (U : List ℤ) (hU : U.length ≤ 2^61)
    (hk : ∀ k ∈ U, -2^62 ≤ k ∧ k < 2^62) : ∀ (m : ℕ) (j : ℤ) (left right : List F) (ndu : List (List F)), 0 ≤ j → j + m ≤ 2^61 →
    dersOuterW wrap64 i u U m j left right ndu = dersOuter i u U m j left right ndu := by
  intro m
  induction m with
  | zero => intro _ _ _ _ _ _; rfl
  | succ m ih =>
    intro j left right N h0 h1
    push_cast at h1
    unfold dersOuterW dersOuter
    rw [wrap_sub, get_wrap hU (z := i + 1 - j) ⟨by omega, by omega⟩, get_wrap hU (z := i + 1) ⟨by omega, by omega⟩]
    cases e1 : goGet U (i + 1 - j) with
    | panic => rfl
    | fuel => rfl
    | ok ul =>
      have k1 := hk ul (goGet_lt e1).2.2
      cases e2 : goGet U (i + 1) with
      | panic => simp only [Res.bind_ok, wrap64_id (z := u - ul) ⟨by omega, by omega⟩]; rfl
      | fuel => simp only [Res.bind_ok, wrap64_id (z := u - ul) ⟨by omega, by omega⟩]; rfl
      | ok ur =>
        have k2 := hk ur (goGet_lt e2).2.2
        simp only [Res.bind_ok, wrap64_id (z := u - ul) ⟨by omega, by omega⟩, wrap64_id (z := ur - u) ⟨by omega, by omega⟩, wrap64_id (z := j + 1) ⟨by omega, by omega⟩,
          ih (j+1) _ _ _ (by omega) (by omega), dersInner_wrap _ _ j ⟨h0, by omega⟩ j.toNat 0 _ _ (by omega) (by omega)]

theorem dersLoad_wrap (p : ℤ) (ndu : List (List F)) : ∀ (m : ℕ) (j : ℤ) (ders : List (List F)), 0 ≤ j → j + m ≤ 2^61 →
    dersLoadW wrap64 p ndu m j ders = dersLoad p ndu m j ders := by
  intro m
  induction m with
  | zero => intro _ _ _ _; rfl
  | succ m ih =>
    intro j ders h0 h1
    push_cast at h1
    unfold dersLoadW dersLoad
    simp only [wrap64_id (z := j + 1) ⟨by omega, by omega⟩, ih (j+1) _ (by omega) (by omega)]

theorem dersJ_wrap [Add F] [Sub F] [Mul F] [Div F] (ndu : List (List F)) (s1 s2 r rk pk : ℤ) (hr : -2^61 ≤ rk ∧ rk ≤ 2^61) (hp : -2^61 ≤ pk ∧ pk ≤ 2^61) :
    ∀ (m : ℕ) (j : ℤ) (a : List (List F)) (d : F), 0 ≤ j → j + m ≤ 2^62 → dersJW wrap64 ndu s1 s2 r rk pk m j a d = dersJ ndu s1 s2 r rk pk m j a d := by
  intro m
  induction m with
  | zero => intro _ _ _ _ _; rfl
  | succ m ih =>
    intro j a d h0 h1
    push_cast at h1
    unfold dersJW dersJ
    simp only [wrap64_id (z := j + 1) ⟨by omega, by omega⟩, wrap64_id (z := j - 1) ⟨by omega, by omega⟩, wrap64_id (z := pk + 1) ⟨by omega, by omega⟩,
      wrap64_id (z := rk + j) ⟨by omega, by omega⟩, ih (j+1) _ _ (by omega) (by omega)]

theorem dersK_wrap [Add F] [Sub F] [Neg F] [Mul F] [Div F] [OfNat F 0] (ndu : List (List F)) (p r : ℤ) (hp : -1 ≤ p ∧ p ≤ 2^60) (hr : 0 ≤ r ∧ r ≤ 2^60) :
    ∀ (m : ℕ) (k s1 s2 : ℤ) (a ders : List (List F)), 1 ≤ k → k + m ≤ 2^60 + 1 → dersKW wrap64 ndu p r m k s1 s2 a ders = dersK ndu p r m k s1 s2 a ders := by
  intro m
  induction m with
  | zero => intro _ _ _ _ _ _ _; rfl
  | succ m ih =>
    intro k s1 s2 a ders h0 h1
    push_cast at h1
    unfold dersKW dersK
    have hj : ∀ (a : List (List F)) (d : F), dersJW wrap64 ndu s1 s2 r (r - k) (p - k)
        ((if r - 1 ≤ p - k then k - 1 else p - r) + 1 - (if -1 ≤ r - k then 1 else -(r - k))).toNat (if -1 ≤ r - k then 1 else -(r - k)) a d =
        dersJ ndu s1 s2 r (r - k) (p - k) ((if r - 1 ≤ p - k then k - 1 else p - r) + 1 - (if -1 ≤ r - k then 1 else -(r - k))).toNat (if -1 ≤ r - k then 1 else -(r - k)) a d := by
      intro a d
      refine dersJ_wrap ndu s1 s2 r (r-k) (p-k) ⟨by omega, by omega⟩ ⟨by omega, by omega⟩ _ _ a d ?_ ?_
      · split <;> omega
      · split <;> split <;> omega
    simp only [wrap64_id (z := r - k) ⟨by omega, by omega⟩, wrap64_id (z := p - k) ⟨by omega, by omega⟩, wrap64_id (z := p - k + 1) ⟨by omega, by omega⟩,
      wrap64_id (z := -(r - k)) ⟨by omega, by omega⟩, wrap64_id (z := r - 1) ⟨by omega, by omega⟩, wrap64_id (z := k - 1) ⟨by omega, by omega⟩,
      wrap64_id (z := p - r) ⟨by omega, by omega⟩, wrap64_id (z := k + 1) ⟨by omega, by omega⟩, hj, ih (k+1) _ _ _ _ (by omega) (by omega)]

theorem dersR_wrap [Add F] [Sub F] [Neg F] [Mul F] [Div F] [OfNat F 0] [OfNat F 1] (ndu : List (List F)) (p n : ℤ) (hp : -1 ≤ p ∧ p ≤ 2^60 - 1) (hn : n ≤ 2^60) :
    ∀ (m : ℕ) (r : ℤ) (a ders : List (List F)), 0 ≤ r → r + m ≤ 2^60 → dersRW wrap64 ndu p n m r a ders = dersR ndu p n m r a ders := by
  intro m
  induction m with
  | zero => intro _ _ _ _ _; rfl
  | succ m ih =>
    intro r a ders h0 h1
    push_cast at h1
    unfold dersRW dersR
    simp only [wrap64_id (z := r + 1) ⟨by omega, by omega⟩, dersK_wrap ndu p r ⟨by omega, by omega⟩ ⟨by omega, by omega⟩ n.toNat 1 0 1 _ _ (le_refl _) (by omega),
      ih (r+1) _ _ (by omega) (by omega)]

section
variable [Mul F] [GoOfInt F]

theorem dersScaleRow_wrap (k r : ℤ) : ∀ (m : ℕ) (j : ℤ) (ders : List (List F)), 0 ≤ j → j + m ≤ 2^61 →
    dersScaleRowW wrap64 k r m j ders = dersScaleRow k r m j ders := by
  intro m
  induction m with
  | zero => intro _ _ _ _; rfl
  | succ m ih =>
    intro j ders h0 h1
    push_cast at h1
    unfold dersScaleRowW dersScaleRow
    simp only [wrap64_id (z := j + 1) ⟨by omega, by omega⟩, ih (j+1) _ (by omega) (by omega)]

theorem descFactorial_small {p : ℕ} (hp : p ≤ 20) (k : ℕ) : p.descFactorial k < 2^63 := by
  by_cases hk : k ≤ p
  · have h1 := Nat.factorial_mul_descFactorial hk
    have h2 : 1 ≤ (p - k).factorial := Nat.factorial_pos _
    have h3 : p.factorial ≤ Nat.factorial 20 := Nat.factorial_le hp
    have h4 : Nat.factorial 20 < 2^63 := by decide
    have h5 := Nat.le_mul_of_pos_left (p.descFactorial k) h2
    omega
  · rw [Nat.descFactorial_eq_zero_iff_lt.mpr (by omega)]; norm_num

theorem dersScale_wrap (p : ℕ) (hp : p ≤ 20) : ∀ (m k : ℕ) (ders : List (List F)), k + m ≤ 2^61 →
    dersScaleW wrap64 p m k (p.descFactorial k : ℕ) ders = dersScale p m k (p.descFactorial k : ℕ) ders := by
  intro m
  induction m with
  | zero => intro _ _ _; rfl
  | succ m ih =>
    intro k ders h1
    unfold dersScaleW dersScale
    have e : ((p.descFactorial k : ℕ) : ℤ) * (p - k) = (p.descFactorial (k+1) : ℕ) := by
      rw [Nat.descFactorial_succ]
      rcases le_or_gt k p with h | h
      · rw [Nat.cast_mul, Nat.cast_sub h]; ring
      · rw [Nat.descFactorial_eq_zero_iff_lt.mpr h]; simp
    have b := descFactorial_small hp (k+1)
    simp only [dersScaleRow_wrap _ _ ((p : ℤ)+1).toNat 0 _ (le_refl _) (by omega), wrap64_id (z := (k : ℤ) + 1) ⟨by omega, by omega⟩, wrap64_id (z := (p : ℤ) - k) ⟨by omega, by omega⟩, e,
      wrap64_id (z := ((p.descFactorial (k+1) : ℕ) : ℤ)) ⟨by omega, by omega⟩]
    have := fun d : List (List F) => ih (k+1) d (by omega)
    push_cast at this ⊢
    simp only [this]
end

/-- C99: `dersBasisFuns` on 64-bit integers, for degrees up to 20 and knots between -2^62 and 2^62 -/
theorem C99_ders [Add F] [Sub F] [Neg F] [Mul F] [Div F] [OfNat F 0] [OfNat F 1] [GoOfInt F] {i u p n : ℤ} (hi : -2^63 ≤ i ∧ i < 2^63) (hu : -2^62 ≤ u ∧ u < 2^62)
    (hp : -2^63 ≤ p ∧ p ≤ 20) (hn : n ≤ 2^60) {U : List ℤ} (hU : U.length ≤ 2^61) (hk : ∀ k ∈ U, -2^62 ≤ k ∧ k < 2^62) :
    (dersBasisFunsW wrap64 i u p n U : Res (List (List F))) = dersBasisFuns i u p n U := by
  unfold dersBasisFunsW dersBasisFuns
  rw [wrap64_id (z := p + 1) ⟨by omega, by omega⟩]
  split
  · rfl
  · simp only [dersOuter_wrap (F := F) i u hi hu U hU hk p.toNat 1 _ _ _ (by omega) (by omega), dersLoad_wrap p _ (p+1).toNat 0 _ (le_refl _) (by omega),
      dersR_wrap (F := F) _ p n ⟨by omega, by omega⟩ hn (p+1).toNat 0 _ _ (le_refl _) (by omega)]
    rcases lt_or_ge p 0 with h | h
    · have h1 : ∀ d : List (List F), dersScaleW wrap64 p n.toNat 1 p d = dersScale p n.toNat 1 p d := by
        have e : (p+1).toNat = 0 := by omega
        have a1 : ∀ (m : ℕ) (k r : ℤ) (d : List (List F)), dersScaleW wrap64 p m k r d = .ok d := by
          intro m
          induction m with
          | zero => intro _ _ _; rfl
          | succ m ih => intro k r d; unfold dersScaleW; rw [e]; exact ih _ _ _
        have a2 : ∀ (m : ℕ) (k r : ℤ) (d : List (List F)), dersScale p m k r d = .ok d := by
          intro m
          induction m with
          | zero => intro _ _ _; rfl
          | succ m ih => intro k r d; unfold dersScale; rw [e]; exact ih _ _ _
        intro d
        rw [a1, a2]
      simp only [h1]
    · have h1 := fun d : List (List F) => dersScale_wrap p.toNat (by omega) n.toNat 1 d (by omega)
      rw [Nat.descFactorial_one, Nat.cast_one, Int.toNat_of_nonneg h] at h1
      simp only [h1]

/-- C99: knots whose difference does not fit into 64 bits: with the knot vector (-2^63, 2^63-1) and the parameter 0 in float64 the machine run yields NaN,
where unbounded integers yield 0 -/
theorem C99_ders_knots_refuted : (dersBasisFunsW wrap64 0 0 1 0 [-2^63, 2^63-1] : Res (List (List F64))) = .ok [[.nan, .nan], [0, 0]] ∧
    (dersBasisFuns 0 0 1 0 [-2^63, 2^63-1] : Res (List (List F64))) = .ok [[0, 0], [0, 0]] := by
  constructor <;> decide +kernel

/-- 24 knots for degree 21 -/
def knots21 : List ℤ := List.replicate 21 0 ++ [2, 3, 4]

/-- the entry in row 21, column 1 -/
def entry21 : Res (List (List ℚ)) → Option ℚ
  | .ok m => (m[21]?).bind (·[1]?)
  | _ => none

/-- C99: from degree 21 on the factor `r` overflows (21! does not fit into 64 bits): an entry even has the wrong sign -/
theorem C99_ders_degree_refuted : entry21 (dersBasisFuns 20 1 21 21 knots21) = some (4092826025413125/4) ∧
    entry21 (dersBasisFunsW wrap64 20 1 21 21 knots21) = some (-340404857779707/4) := by
  constructor <;> decide +kernel

/-! ## Vertices and indices of the shapes -/

open Verif.Shape

theorem forLt_wrap {n : ℤ} (hn : n < 2^63) : ∀ (fuel : ℕ) (j : ℤ), -2^63 ≤ j → n - j < fuel → 0 < fuel →
    forLt wrap64 n fuel j = .ok ((loopTo (n - j)).map (· + j)) := by
  intro fuel
  induction fuel with
  | zero => intro _ _ _ h; omega
  | succ fuel ih =>
    intro j hj hf _
    unfold forLt
    split
    · rename_i h
      rw [wrap64_id ⟨by omega, by omega⟩, ih (j+1) (by omega) (by push_cast at hf; omega) (by push_cast at hf; omega), Res.bind_ok]
      obtain ⟨k, hk⟩ : ∃ k : ℕ, n - j = k + 1 := ⟨(n - j - 1).toNat, by omega⟩
      have e1 : n - (j + 1) = k := by omega
      rw [e1, hk]
      unfold loopTo
      rw [show ((k : ℤ) + 1).toNat = k + 1 by omega, Int.toNat_natCast, List.range_succ_eq_map]
      simp only [List.map_cons, List.map_map, Res.pure_eq]
      congr 2
      · simp
      · apply List.map_congr_left; intro x _; simp; omega
    · unfold loopTo
      rw [show (n - j).toNat = 0 by omega]; rfl

theorem forLe_wrap {n : ℤ} (hn : n < 2^63 - 1) : ∀ (fuel : ℕ) (j : ℤ), -2^63 ≤ j → n + 1 - j < fuel → 0 < fuel →
    forLe wrap64 n fuel j = .ok ((loopTo (n + 1 - j)).map (· + j)) := by
  intro fuel j hj hf h0
  rw [← forLt_wrap (n := n + 1) (by omega) fuel j hj hf h0]
  clear hf h0 hj
  induction fuel generalizing j with
  | zero => rfl
  | succ fuel ih =>
    unfold forLe forLt
    simp only [ih, Int.lt_add_one_iff]

theorem forLt_zero {n : ℤ} (hn : n < 2^63) {fuel : ℕ} (hf : n < fuel) (h0 : 0 < fuel) : forLt wrap64 n fuel 0 = .ok (loopTo n) := by
  rw [forLt_wrap hn fuel 0 (by omega) (by omega) h0]; simp

theorem forLe_zero {n : ℤ} (hn : n < 2^63 - 1) {fuel : ℕ} (hf : n + 1 < fuel) (h0 : 0 < fuel) : forLe wrap64 n fuel 0 = .ok (loopTo (n + 1)) := by
  rw [forLe_wrap hn fuel 0 (by omega) (by omega) h0]; simp

/-- the loop with `<=` and the largest `int` as bound never ends -/
theorem forLe_max (fuel : ℕ) : ∀ j : ℤ, j < 2^63 → forLe wrap64 (2^63 - 1) fuel j = .fuel := by
  induction fuel with
  | zero => intro _ _; rfl
  | succ fuel ih =>
    intro j hj
    unfold forLe
    rw [if_pos (by omega), ih (wrap64 (j+1)) (by unfold wrap64; omega)]; rfl

theorem u32_wrap (z : ℤ) : u32 (wrap64 z) = u32 z := by
  unfold u32 wrap64
  congr 1
  omega

theorem u32_mul_wrap (i z : ℤ) : u32 (i * wrap64 z) = u32 (i * z) := by
  unfold u32
  congr 1
  have h : (2^32 : ℤ) ∣ i * z - i * wrap64 z := by
    rw [← mul_sub]
    exact Dvd.dvd.mul_left (Dvd.dvd.trans ⟨2^32, by norm_num⟩ (C96_wrap64 z).2.2) i
  omega

theorem length_loopTo (n : ℤ) : (loopTo n).length = n.toNat := by simp [loopTo]

theorem loopRecs_pure {α β : Type} (f : α → β) (l : List α) : loopRecs (fun x => (.ok (f x) : Res β)) l = .ok (l.map f) := by
  induction l with
  | nil => rfl
  | cons x l ih => simp only [loopRecs, Res.bind_ok, ih, List.map_cons, Res.pure_eq]

/-- C99: the indices of sphere and torus on 64-bit integers, for all counts except a stack count of -2^63 (the product `i*(sectorCount+1)` may overflow, the
conversion to `uint32` does not notice) -/
theorem C99_grid {sc st : ℤ} (hs : -2^63 ≤ sc ∧ sc < 2^63) (ht : -2^63 < st ∧ st < 2^63) {fuel : ℕ} (f1 : sc < fuel) (f2 : st < fuel) (f0 : 0 < fuel) :
    gridIndicesW wrap64 fuel sc st = .ok (gridIndices sc st) := by
  unfold gridIndicesW gridIndices
  rw [forLt_zero hs.2 f1 f0, wrap64_id (z := st - 1) ⟨by omega, by omega⟩, forLt_wrap (n := st - 1) (by omega) fuel 1 (by omega) (by omega) f0]
  simp only [Res.bind_ok, u32_wrap, u32_mul_wrap, length_loopTo, Res.pure_eq, loopRecs_pure, List.map_map]
  rw [show st - 1 - 1 = st - 2 by ring]
  rfl

/-- C99: with stack count -2^63 the bound `stackCount-1` wraps around to 2^63-1: not finished after 2^62 rounds, although there is nothing to do -/
theorem C99_grid_refuted (sc : ℤ) (hs : sc ≤ 0) (fuel : ℕ) (hf : fuel ≤ 2^62) : gridIndicesW wrap64 fuel sc (-2^63) = .fuel ∧ gridIndices sc (-2^63) = [] := by
  have loop : ∀ (f : ℕ) (j : ℤ), 0 ≤ j → j + f ≤ 2^62 + 1 → forLt wrap64 (2^63 - 1) f j = .fuel := by
    intro f
    induction f with
    | zero => intro _ _ _; rfl
    | succ f ih =>
      intro j h0 h1
      push_cast at h1
      unfold forLt
      rw [if_pos (by omega), wrap64_id ⟨by omega, by omega⟩, ih (j+1) (by omega) (by omega)]; rfl
  constructor
  · unfold gridIndicesW
    rw [show wrap64 (-2^63 - 1) = 2^63 - 1 by decide, loop fuel 1 (by omega) (by omega)]
    rcases Nat.eq_zero_or_pos fuel with h | h
    · subst h; rfl
    · obtain ⟨f, rfl⟩ : ∃ f, fuel = f + 1 := ⟨fuel - 1, by omega⟩
      unfold forLt
      rw [if_neg (by omega)]; rfl
  · unfold gridIndices
    rw [show sc.toNat = 0 by omega]
    rfl

section
variable [Mul F] [Div F] [GoTrig F] [GoOfInt F]

theorem ring_wrap {sc : ℤ} (hs : sc < 2^63 - 1) {fuel : ℕ} (f1 : sc + 1 < fuel) (f0 : 0 < fuel) (st : ℤ) (li xy z : F) (i : ℤ) :
    ringVerticesW wrap64 fuel sc st li xy z i = ringVertices sc st li xy z i := by
  unfold ringVerticesW ringVertices
  rw [forLe_zero hs f1 f0]; rfl

/-- C99: the mesh of a sphere on 64-bit integers -/
theorem C99_sphere [Sub F] [OfNat F 1] (sd : Sphere F) (hs : -2^63 ≤ sd.sectorCount ∧ sd.sectorCount < 2^63 - 1) (ht : -2^63 < sd.stackCount ∧ sd.stackCount < 2^63)
    {fuel : ℕ} (f1 : sd.sectorCount + 1 < fuel) (f2 : sd.stackCount < fuel) (f0 : 0 < fuel) : sd.ConstructW wrap64 fuel = sd.Construct := by
  unfold Sphere.ConstructW Sphere.Construct Sphere.generateVerticesW Sphere.generateVertices
  rw [C99_grid ⟨hs.1, by omega⟩ ht (by omega) f2 f0, forLt_zero ht.2 f2 f0]
  simp only [Res.bind_ok, ring_wrap hs.2 f1 f0]

/-- C99: the mesh of a torus on 64-bit integers -/
theorem C99_torus [Add F] [Sub F] [OfNat F 1] (td : Torus F) (hs : -2^63 ≤ td.sectorCount ∧ td.sectorCount < 2^63 - 1) (ht : -2^63 < td.stackCount ∧ td.stackCount < 2^63)
    {fuel : ℕ} (f1 : td.sectorCount + 1 < fuel) (f2 : td.stackCount < fuel) (f0 : 0 < fuel) : td.ConstructW wrap64 fuel = td.Construct := by
  unfold Torus.ConstructW Torus.Construct Torus.generateVerticesW Torus.generateVertices
  rw [C99_grid ⟨hs.1, by omega⟩ ht (by omega) f2 f0, forLt_zero ht.2 f2 f0]
  simp only [Res.bind_ok, ring_wrap hs.2 f1 f0]

/-- C99: a sphere with the largest `int` as sector count is never finished -/
theorem C99_sphere_refuted [Sub F] [OfNat F 1] (sd : Sphere F) (hs : sd.sectorCount = 2^63 - 1) (ht : 0 < sd.stackCount ∧ sd.stackCount < 2^63) (fuel : ℕ) :
    sd.ConstructW wrap64 fuel = .fuel := by
  unfold Sphere.ConstructW Sphere.generateVerticesW
  by_cases f2 : sd.stackCount < fuel
  · rw [forLt_zero ht.2 f2 (by omega)]
    obtain ⟨k, hk⟩ : ∃ k : ℕ, sd.stackCount.toNat = k + 1 := ⟨sd.stackCount.toNat - 1, by omega⟩
    unfold loopTo
    rw [hk, List.range_succ_eq_map]
    simp only [Res.bind_ok, List.map_cons, loopRecs, ringVerticesW, hs, forLe_max fuel 0 (by norm_num), Res.bind_fuel]
  · have : ∀ (f : ℕ) (j : ℤ), 0 ≤ j → j + f ≤ sd.stackCount → forLt wrap64 sd.stackCount f j = .fuel := by
      intro f
      induction f with
      | zero => intro _ _ _; rfl
      | succ f ih =>
        intro j h0 h1
        push_cast at h1
        unfold forLt
        rw [if_pos (by omega), wrap64_id ⟨by omega, by omega⟩, ih (j+1) (by omega) (by omega)]; rfl
    rw [this fuel 0 (le_refl _) (by omega)]; rfl

theorem fan_wrap {n : ℕ} (hn : n < 2^63) {fuel : ℕ} (f1 : n < fuel) : fanIndicesW wrap64 fuel n = .ok (fanIndices n) := by
  unfold fanIndicesW fanIndices
  rw [forLt_wrap (n := (n : ℤ)) (by omega) fuel 1 (by omega) (by omega) (by omega)]
  simp only [Res.bind_ok, u32_wrap, List.map_map, Res.pure_eq]
  rfl

/-- C99: the mesh of a circle on 64-bit integers -/
theorem C99_circle [Add F] [Sub F] [OfNat F 0] (c : Circle F) (hs : -2^63 ≤ c.sectorCount ∧ c.sectorCount < 2^63 - 1)
    {fuel : ℕ} (f1 : c.sectorCount + 1 < fuel) (f0 : 1 < fuel) : c.ConstructW wrap64 fuel = .ok c.Construct := by
  unfold Circle.ConstructW Circle.Construct Circle.generateVerticesW Circle.generateVertices
  rw [forLt_zero (by omega) (by omega) (by omega)]
  simp only [Res.bind_ok, Res.pure_eq]
  rw [fan_wrap (by simp [length_loopTo]; omega) (by simp [length_loopTo]; omega)]
  rfl

/-- C99: the mesh of an ellipse on 64-bit integers -/
theorem C99_ellipse [Add F] [Sub F] [OfNat F 0] (c : Ellipse F) (hs : -2^63 ≤ c.sectorCount ∧ c.sectorCount < 2^63 - 1)
    {fuel : ℕ} (f1 : c.sectorCount + 1 < fuel) (f0 : 1 < fuel) : c.ConstructW wrap64 fuel = .ok c.Construct := by
  unfold Ellipse.ConstructW Ellipse.Construct Ellipse.generateVerticesW Ellipse.generateVertices
  rw [forLt_zero (by omega) (by omega) (by omega)]
  simp only [Res.bind_ok, Res.pure_eq]
  rw [fan_wrap (by simp [length_loopTo]; omega) (by simp [length_loopTo]; omega)]
  rfl
end

/-! ## The tetrahedral mesh -/

open Verif.Meshing

theorem bwLoop_wrap {P : Type} (test : P → P → P → P → P → Bool) (s : Sched) (E ps : List P) : ∀ (k : ℕ) (t : Tetrahedrisation), k + ps.length ≤ 2^62 →
    bwLoopW wrap64 test s E (ps.zipIdx k) t = bwLoop test s E (ps.zipIdx k) t := by
  induction ps with
  | nil => intro _ _ _; rfl
  | cons p ps ih =>
    intro k t hk
    rw [List.length_cons] at hk
    rw [List.zipIdx_cons]
    unfold bwLoopW bwLoop bwStepW bwStep
    rw [wrap64_id (z := (k : ℤ) + 4) ⟨by omega, by omega⟩]
    simp only [ih (k+1) _ (by omega)]

theorem wrap_minus4 {z n : ℤ} (hn : n ≤ 2^62 + 4) (h : 0 ≤ z ∧ z < n) : wrap64 (z - 4) = z - 4 := wrap64_id ⟨by omega, by omega⟩

theorem addFace_wrap {w : ℤ → ℤ} {n : ℤ} (hn : ∀ z, 0 ≤ z ∧ z < n → w (z - 4) = z - 4) {f : Face} (hf : ∀ i ∈ [f.pa, f.pb, f.pc], (0 : ℤ) ≤ i ∧ i < n) (acc : List ℤ) : addFaceW w acc f = addFace acc f := by
  unfold addFaceW addFace
  rw [hn _ (hf f.pa (by simp)), hn _ (hf f.pb (by simp)), hn _ (hf f.pc (by simp))]

theorem faces_wrap {w : ℤ → ℤ} {n : ℤ} (hn : ∀ z, 0 ≤ z ∧ z < n → w (z - 4) = z - 4) : ∀ (fs : List Face), (∀ f ∈ fs, ∀ i ∈ [f.pa, f.pb, f.pc], (0 : ℤ) ≤ i ∧ i < n) → ∀ (acc : List ℤ),
    fs.foldl (fun acc f => if f.isPartOfMesh then addFaceW w acc f else acc) acc = fs.foldl (fun acc f => if f.isPartOfMesh then addFace acc f else acc) acc
  | [], _, _ => rfl
  | f :: fs, hf, acc => by
    rw [List.foldl_cons, List.foldl_cons, addFace_wrap hn (hf f List.mem_cons_self)]
    exact faces_wrap hn fs (fun g hg => hf g (List.mem_cons_of_mem _ hg)) _

theorem tetras_wrap {w : ℤ → ℤ} {n : ℤ} (hn : ∀ z, 0 ≤ z ∧ z < n → w (z - 4) = z - 4) : ∀ (t : Tetrahedrisation), (∀ v ∈ tets t, ∀ f ∈ v.faces, ∀ i ∈ [f.pa, f.pb, f.pc], (0 : ℤ) ≤ i ∧ i < n) →
    ∀ (acc : List ℤ), t.foldl (fun acc kt => kt.2.faces.foldl (fun acc f => if f.isPartOfMesh then addFaceW w acc f else acc) acc) acc =
      t.foldl (fun acc kt => kt.2.faces.foldl (fun acc f => if f.isPartOfMesh then addFace acc f else acc) acc) acc
  | [], _, _ => rfl
  | kv :: t, h, acc => by
    have h1 : kv.2 ∈ tets (kv :: t) := List.mem_cons_self
    have h2 : ∀ v ∈ tets t, v ∈ tets (kv :: t) := fun v hv => List.mem_cons_of_mem _ hv
    rw [List.foldl_cons, List.foldl_cons, faces_wrap hn _ (h kv.2 h1)]
    exact tetras_wrap hn t (fun v hv => h v (h2 v hv)) _

theorem meshFaces_wrap {w : ℤ → ℤ} {n : ℤ} (hn : ∀ z, 0 ≤ z ∧ z < n → w (z - 4) = z - 4) {t : Tetrahedrisation} (h : ∀ v ∈ tets t, ∀ f ∈ v.faces, ∀ i ∈ [f.pa, f.pb, f.pc], (0 : ℤ) ≤ i ∧ i < n) :
    meshFacesW w t = meshFaces t := tetras_wrap hn t h []

/-- C99: Bowyer-Watson on 64-bit integers, for every sphere test and every iteration order, for up to 2^62 points -/
theorem C99_mesh {P : Type} (test : P → P → P → P → P → Bool) (s : Sched) (hs : s.WF) (E ps : List P) (hl : E.length = ps.length + 4) (hn : ps.length ≤ 2^62) :
    bowyerWatsonWithW wrap64 test s E ps = bowyerWatsonWith test s E ps := by
  obtain ⟨u, e, g, v⟩ := bwLoop_spec test s hs E ps 0 _ good_initial valid_initial (by omega)
  unfold bowyerWatsonWithW bowyerWatsonWith
  dsimp only
  rw [bwLoop_wrap test s E ps 0 _ (by omega)]
  rw [e, Res.bind_ok, Res.bind_ok, meshFaces_wrap (n := ps.length + 4) (fun z hz => wrap_minus4 (by omega) hz)]
  intro w hw f hf
  have hw' : w ∈ tets u := ((hs.2.2 u).map Prod.snd).subset hw
  have := (face_of_good g v hw' hf).1
  rw [Nat.zero_add, Nat.cast_add] at this
  exact this

/-- C99: `bowyerWatson` itself, for every arithmetic of the coordinates -/
theorem C99_bowyerWatson [Add F] [Sub F] [Mul F] [Neg F] [LT F] [DecidableLT F] [LE F] [DecidableLE F] [GoConst F] [OfNat F 0] [OfNat F 3]
    (s : Sched) (hs : s.WF) (points : List (R3.Vector F)) (hn : points.length ≤ 2^62) : bowyerWatsonW wrap64 s points = bowyerWatson s points :=
  C99_mesh _ s hs _ points (by simp [englobe]) hn

/-! ## Concrete cases -/

/-- a quadratic curve with eight knots -/
example : curvePointW wrap64 10 4 2 [0, 0, 0, 1, 2, 3, 3, 3] [⟨0, 0, 0⟩, ⟨1, 0, 0⟩, ⟨2, 2, 0⟩, ⟨3, 0, 1⟩, ⟨4, 4, 0⟩] (3 / 2 : ℚ) = .ok ⟨2, 3/2, 1/8⟩ := by
  rw [C99_curvePoint _ (by norm_num) (by norm_num) (by decide)]
  decide +kernel

/-- a derivative table of degree 3 -/
example : (dersBasisFunsW wrap64 4 1 3 3 [0, 0, 0, 0, 0, 2, 3, 4, 5, 6] : Res (List (List ℚ))) =
    .ok [[0, 0, 0, 0], [0, 0, 0, 0], [0, 0, -6, 0], [0, 9/2, -9/2, 0]] := by
  rw [C99_ders (by norm_num) (by norm_num) (by norm_num) (by norm_num) (by decide) (by decide)]
  decide +kernel

/-- the indices of three stacks of two sectors -/
example : gridIndicesW wrap64 (2^63) 2 3 = .ok [1, 3, 4, 2, 4, 5, 3, 6, 4, 4, 6, 7, 4, 7, 5, 5, 7, 8] := by
  rw [C99_grid (by norm_num) (by norm_num) (by norm_num) (by norm_num) (by norm_num)]
  decide

end Verif.Props
