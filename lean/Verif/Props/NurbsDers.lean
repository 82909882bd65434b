import Verif.Props.Nurbs
/-!
# C46: `dersBasisFuns`

The code never sets `ndu[0][0] = 1`, so the upper triangle of `ndu` stays zero.
-/
namespace Verif.Props
open Verif Verif.Nurbs Verif.Spec
set_option linter.unusedSectionVars false

variable {K : Type} [Field K] [LinearOrder K] [IsStrictOrderedRing K]

/-- a `(p+1)×(p+1)` matrix -/
def Mat (p : ℕ) (m : List (List K)) : Prop := m.length = p + 1 ∧ ∀ row ∈ m, row.length = p + 1

def entry (m : List (List K)) (r c : ℕ) : K := (m.getD r []).getD c 0

def upd (m : List (List K)) (r c : ℕ) (v : K) : List (List K) := m.set r ((m.getD r []).set c v)

theorem Mat.row {p : ℕ} {m : List (List K)} (h : Mat p m) {r : ℕ} (hr : r ≤ p) : (m.getD r []).length = p + 1 := by
  have hl : r < m.length := by rw [h.1]; omega
  rw [List.getD_eq_getElem?_getD, List.getElem?_eq_getElem hl]
  exact h.2 _ (List.getElem_mem hl)

theorem Mat.upd {p : ℕ} {m : List (List K)} (h : Mat p m) {r : ℕ} (hr : r ≤ p) (c : ℕ) (v : K) :
    Mat p (upd m r c v) := by
  refine ⟨by simp [Props.upd, h.1], fun row hrow => ?_⟩
  rcases List.mem_or_eq_of_mem_set hrow with h1 | h1
  · exact h.2 row h1
  · rw [h1, List.length_set]; exact h.row hr

theorem entry_upd {p : ℕ} {m : List (List K)} (h : Mat p m) {r c : ℕ} (hr : r ≤ p) (hc : c ≤ p) (v : K) (r' c' : ℕ) :
    entry (upd m r c v) r' c' = if r' = r ∧ c' = c then v else entry m r' c' := by
  have hl : r < m.length := by rw [h.1]; omega
  have hrow := h.row hr
  unfold entry upd
  by_cases e1 : r' = r
  · subst e1
    rw [List.getD_eq_getElem?_getD (l := m.set _ _), List.getElem?_set, if_pos rfl, if_pos hl]
    by_cases e2 : c' = c
    · subst e2
      simp only [Option.getD_some]
      rw [List.getD_eq_getElem?_getD (l := List.set _ _ _), List.getElem?_set, if_pos rfl, if_pos (by omega)]
      simp
    · simp only [Option.getD_some]
      rw [List.getD_eq_getElem?_getD (l := List.set _ _ _), List.getElem?_set, if_neg (by omega),
        if_neg (by tauto), ← List.getD_eq_getElem?_getD]
  · rw [List.getD_eq_getElem?_getD (l := m.set _ _), List.getElem?_set, if_neg (by omega), if_neg (by tauto),
      ← List.getD_eq_getElem?_getD]

theorem get2_ok {p : ℕ} {m : List (List K)} (h : Mat p m) {z w : Int} (r c : ℕ) (hz : z = r) (hw : w = c)
    (hr : r ≤ p) (hc : c ≤ p) : get2 m z w = .ok (entry m r c) := by
  have hl : r < m.length := by rw [h.1]; omega
  have hrow := h.row hr
  unfold get2
  rw [goGet_eq_lt hz hl, Res.bind_ok]
  have e : m[r] = m.getD r [] := by rw [List.getD_eq_getElem?_getD, List.getElem?_eq_getElem hl]; rfl
  rw [e, goGet_eq_lt hw (by omega)]
  unfold entry
  rw [List.getD_eq_getElem?_getD (i := c), List.getElem?_eq_getElem (by omega)]; rfl

theorem set2_ok {p : ℕ} {m : List (List K)} (h : Mat p m) {z w : Int} (v : K) (r c : ℕ) (hz : z = r) (hw : w = c)
    (hr : r ≤ p) (hc : c ≤ p) : set2 m z w v = .ok (upd m r c v) := by
  have hl : r < m.length := by rw [h.1]; omega
  have hrow := h.row hr
  unfold set2
  rw [goGet_eq_lt hz hl, Res.bind_ok]
  have e : m[r] = m.getD r [] := by rw [List.getD_eq_getElem?_getD, List.getElem?_eq_getElem hl]; rfl
  rw [e, goSet_eq hw (by omega), Res.bind_ok, goSet_eq hz hl]
  rfl

/-- the upper triangle (with the diagonal) is zero -/
def UpperZero (m : List (List K)) : Prop := ∀ r c, r ≤ c → entry m r c = 0

theorem dersInner_zero (p j : ℕ) (left right : List K) (hll : left.length = p + 1) (hrl : right.length = p + 1)
    (hj1 : 1 ≤ j) (hjp : j ≤ p) : ∀ (m r : ℕ) (ndu : List (List K)), r + m = j → Mat p ndu → UpperZero ndu →
      ∃ ndu', dersInner left right (j : Int) m (r : Int) ndu 0 = .ok (ndu', 0) ∧ Mat p ndu' ∧ UpperZero ndu' := by
  intro m
  induction m with
  | zero => intro r ndu _ hM hZ; exact ⟨ndu, rfl, hM, hZ⟩
  | succ m ih =>
    intro r ndu hrm hM hZ
    unfold dersInner
    rw [goGet_eq_lt (n := r+1) (by push_cast; rfl) (by omega), goGet_eq_lt (n := j-r) (by omega) (by omega)]
    simp only [Res.bind_ok]
    rw [set2_ok hM _ j r rfl rfl (by omega) (by omega)]
    simp only [Res.bind_ok]
    have hM1 := hM.upd (r := j) (by omega) r (right[r+1] + left[j-r])
    have hZ1 : UpperZero (upd ndu j r (right[r+1] + left[j-r])) := by
      intro a b hab
      rw [entry_upd hM (by omega) (by omega), if_neg (by omega)]
      exact hZ a b hab
    rw [get2_ok hM1 r (j-1) rfl (by omega) (by omega) (by omega), get2_ok hM1 j r rfl rfl (by omega) (by omega)]
    simp only [Res.bind_ok]
    rw [hZ1 r (j-1) (by omega), zero_div, mul_zero, mul_zero, add_zero, set2_ok hM1 _ r j rfl rfl (by omega) (by omega)]
    simp only [Res.bind_ok]
    have := ih (r+1) (upd (upd ndu j r (right[r+1] + left[j-r])) r j 0) (by omega) (hM1.upd (by omega) _ _) (by
      intro a b hab
      rw [entry_upd hM1 (by omega) (by omega)]
      split
      · rfl
      · exact hZ1 a b hab)
    push_cast at this
    exact this

theorem dersOuter_zero (i : ℕ) (u : Int) (p : ℕ) (U : List Int) (hpi : p ≤ i + 1) (hlen : i + 1 < U.length) :
    ∀ (m j : ℕ) (left right : List K) (ndu : List (List K)), j + m = p + 1 → 1 ≤ j → left.length = p + 1 →
      right.length = p + 1 → Mat p ndu → UpperZero ndu →
      ∃ ndu', dersOuter (i : Int) u U m (j : Int) left right ndu = .ok ndu' ∧ Mat p ndu' ∧ UpperZero ndu' := by
  intro m
  induction m with
  | zero => intro j left right ndu _ _ _ _ hM hZ; exact ⟨ndu, rfl, hM, hZ⟩
  | succ m ih =>
    intro j left right ndu hjm hj1 hll hrl hM hZ
    unfold dersOuter
    rw [goGet_knot U _ (i+1-j) (by omega) (by omega), goGet_knot U _ (i+1) (by push_cast; rfl) hlen]
    simp only [Res.bind_ok]
    rw [goSet_eq (n := j) rfl (by omega), goSet_eq (n := j) rfl (by omega)]
    simp only [Res.bind_ok, Int.toNat_natCast]
    obtain ⟨ndu1, e, hM1, hZ1⟩ := dersInner_zero p j
      (left.set j (GoOfInt.ofInt (u - U.getD (i+1-j) 0))) (right.set j (GoOfInt.ofInt (U.getD (i+1) 0 - u)))
      (by simpa using hll) (by simpa using hrl) hj1 (by omega) j 0 ndu (by omega) hM hZ
    rw [show ((0 : ℕ) : Int) = 0 from rfl] at e
    rw [e]
    simp only [Res.bind_ok]
    rw [set2_ok hM1 _ j j rfl rfl (by omega) (by omega)]
    simp only [Res.bind_ok]
    have := ih (j+1) (left.set j (GoOfInt.ofInt (u - U.getD (i+1-j) 0)))
      (right.set j (GoOfInt.ofInt (U.getD (i+1) 0 - u))) (upd ndu1 j j 0) (by omega) (by omega)
      (by simpa using hll) (by simpa using hrl) (hM1.upd (by omega) _ _) (by
        intro a b hab
        rw [entry_upd hM1 (by omega) (by omega)]
        split
        · rfl
        · exact hZ1 a b hab)
    push_cast at this
    exact this

/-- rows zero and one vanish -/
def RowsZero (m : List (List K)) : Prop := ∀ c, entry m 0 c = 0 ∧ entry m 1 c = 0

theorem rowsZero_upd {p : ℕ} {m : List (List K)} (h : Mat p m) (hz : RowsZero m) {r c : ℕ} (hr : r ≤ p) (hc : c ≤ p)
    (v : K) (hv : r ≤ 1 → v = 0) : RowsZero (upd m r c v) := by
  intro c'
  constructor
  · rw [entry_upd h hr hc]
    split
    · exact hv (by omega)
    · exact (hz c').1
  · rw [entry_upd h hr hc]
    split
    · exact hv (by omega)
    · exact (hz c').2

theorem dersLoad_zero (p : ℕ) (ndu : List (List K)) (hM : Mat p ndu) (hZ : UpperZero ndu) :
    ∀ (m j : ℕ) (ders : List (List K)), j + m = p + 1 → Mat p ders → RowsZero ders →
      ∃ ders', dersLoad (p : Int) ndu m (j : Int) ders = .ok ders' ∧ Mat p ders' ∧ RowsZero ders' := by
  intro m
  induction m with
  | zero => intro j ders _ h1 h2; exact ⟨ders, rfl, h1, h2⟩
  | succ m ih =>
    intro j ders hj h1 h2
    unfold dersLoad
    rw [get2_ok hM j p rfl rfl (by omega) (by omega)]
    simp only [Res.bind_ok]
    rw [hZ j p (by omega), set2_ok (z := 0) h1 _ 0 j rfl rfl (by omega) (by omega)]
    simp only [Res.bind_ok]
    have := ih (j+1) (upd ders 0 j 0) (by omega) (h1.upd (by omega) _ _)
      (rowsZero_upd h1 h2 (by omega) (by omega) _ fun _ => rfl)
    push_cast at this
    exact this

theorem dersJ_ok (p : ℕ) (ndu : List (List K)) (hM : Mat p ndu) (s1 s2 r k : ℕ) (hs1 : s1 ≤ p) (hs2 : s2 ≤ p)
    (hr : r ≤ p) (hkp : k ≤ p) : ∀ (m j : ℕ) (a : List (List K)) (d : K), 1 ≤ j → k ≤ r + j → j + m ≤ k →
      Mat p a → ∃ a' d', dersJ ndu (s1 : Int) (s2 : Int) (r : Int) ((r : Int) - k) ((p : Int) - k) m (j : Int) a d =
        .ok (a', d') ∧ Mat p a' := by
  intro m
  induction m with
  | zero => intro j a d _ _ _ ha; exact ⟨a, d, rfl, ha⟩
  | succ m ih =>
    intro j a d hj1 hj2 hj3 ha
    unfold dersJ
    rw [get2_ok ha s1 j rfl rfl hs1 (by omega), get2_ok ha s1 (j-1) rfl (by omega) hs1 (by omega),
      get2_ok hM (p+1-k) (r+j-k) (by omega) (by omega) (by omega) (by omega)]
    simp only [Res.bind_ok]
    rw [set2_ok ha _ s2 j rfl rfl hs2 (by omega)]
    simp only [Res.bind_ok]
    rw [get2_ok (ha.upd hs2 _ _) s2 j rfl rfl hs2 (by omega), get2_ok hM r (p-k) rfl (by omega) hr (by omega)]
    simp only [Res.bind_ok]
    rw [show ((j : Int) + 1) = ((j+1 : ℕ) : Int) by push_cast; rfl]
    exact ih (j+1) _ _ (by omega) (by omega) (by omega) (ha.upd hs2 _ _)

theorem dersK_zero (p r : ℕ) (ndu : List (List K)) (hM : Mat p ndu) (hZ : UpperZero ndu) (hr : r ≤ p) (hp : 1 ≤ p) :
    ∀ (m k s1 s2 : ℕ) (a ders : List (List K)), 1 ≤ k → k + m ≤ p + 1 → s1 ≤ 1 → s2 ≤ 1 → Mat p a → Mat p ders →
      RowsZero ders →
      ∃ a' ders', dersK ndu (p : Int) (r : Int) m (k : Int) (s1 : Int) (s2 : Int) a ders = .ok (a', ders') ∧
        Mat p a' ∧ Mat p ders' ∧ RowsZero ders' := by
  intro m
  induction m with
  | zero => intro k s1 s2 a ders _ _ _ _ ha hd hz; exact ⟨a, ders, rfl, ha, hd, hz⟩
  | succ m ih =>
    intro k s1 s2 a ders hk1 hkm hs1 hs2 ha hd hz
    unfold dersK
    dsimp only
    -- first block
    have block1 : ∃ a1, Mat p a1 ∧ (if (k : Int) ≤ r then (do
        let x ← get2 a s1 0
        let y ← get2 ndu ((p : Int) - k + 1) ((r : Int) - k)
        let a ← set2 a s2 0 (x / y)
        let w ← get2 a s2 0
        let v ← get2 ndu ((r : Int) - k) ((p : Int) - k)
        pure (a, w*v))
      else pure (a, (0 : K))) = Res.ok (a1, (0 : K)) := by
      by_cases hkr : k ≤ r
      · rw [if_pos (by exact_mod_cast hkr)]
        rw [get2_ok (w := 0) ha s1 0 rfl rfl (by omega) (by omega),
          get2_ok hM (p+1-k) (r-k) (by omega) (by omega) (by omega) (by omega)]
        simp only [Res.bind_ok]
        rw [set2_ok (w := 0) ha _ s2 0 rfl rfl (by omega) (by omega)]
        simp only [Res.bind_ok]
        rw [get2_ok (w := 0) (ha.upd (by omega) _ _) s2 0 rfl rfl (by omega) (by omega),
          get2_ok hM (r-k) (p-k) (by omega) (by omega) (by omega) (by omega)]
        simp only [Res.bind_ok]
        rw [hZ (r-k) (p-k) (by omega), mul_zero]
        exact ⟨_, ha.upd (by omega) _ _, rfl⟩
      · rw [if_neg (by exact_mod_cast hkr)]
        exact ⟨a, ha, rfl⟩
    obtain ⟨a1, ha1, e1⟩ := block1
    rw [e1]
    simp only [Res.bind_ok]
    -- the loop
    have block2 : ∃ a2 d2, Mat p a2 ∧ (k = 1 → d2 = 0) ∧
        dersJ ndu s1 s2 r ((r : Int) - k) ((p : Int) - k)
          ((if (r : Int) - 1 ≤ (p : Int) - k then (k : Int) - 1 else (p : Int) - r) + 1 -
            (if -1 ≤ (r : Int) - k then 1 else -((r : Int) - k))).toNat
          (if -1 ≤ (r : Int) - k then 1 else -((r : Int) - k)) a1 0 = .ok (a2, d2) := by
      obtain ⟨j1, hj1, hj1a, hj1b, hj1c⟩ : ∃ j1 : ℕ, (if -1 ≤ (r : Int) - k then 1 else -((r : Int) - k)) = (j1 : Int) ∧
          1 ≤ j1 ∧ k ≤ r + j1 ∧ (j1 : Int) = (if -1 ≤ (r : Int) - k then 1 else -((r : Int) - k)) := by
        by_cases h : -1 ≤ (r : Int) - k
        · exact ⟨1, by rw [if_pos h]; rfl, by omega, by omega, by rw [if_pos h]; rfl⟩
        · exact ⟨k - r, by rw [if_neg h]; omega, by omega, by omega, by rw [if_neg h]; omega⟩
      rw [hj1]
      by_cases h1 : k = 1
      · subst h1
        refine ⟨a1, 0, ha1, fun _ => rfl, ?_⟩
        rw [if_pos (by push_cast; omega)]
        have : (((1 : ℕ) : Int) - 1 + 1 - (j1 : Int)).toNat = 0 := by omega
        rw [this]; rfl
      · by_cases hm : (if (r : Int) - 1 ≤ (p : Int) - k then (k : Int) - 1 else (p : Int) - r) + 1 - (j1 : Int) ≤ 0
        · rw [show ((if (r : Int) - 1 ≤ (p : Int) - k then (k : Int) - 1 else (p : Int) - r) + 1 -
            (j1 : Int)).toNat = 0 by omega]
          exact ⟨a1, 0, ha1, fun _ => rfl, rfl⟩
        · have hle : (if (r : Int) - 1 ≤ (p : Int) - k then (k : Int) - 1 else (p : Int) - r) ≤ (k : Int) - 1 := by
            by_cases h : (r : Int) - 1 ≤ (p : Int) - k
            · rw [if_pos h]
            · rw [if_neg h]; omega
          obtain ⟨a2, d2, e, h2⟩ := dersJ_ok p ndu hM s1 s2 r k (by omega) (by omega) hr (by omega)
            ((if (r : Int) - 1 ≤ (p : Int) - k then (k : Int) - 1 else (p : Int) - r) + 1 - (j1 : Int)).toNat j1 a1 0
            hj1a hj1b (by omega) ha1
          exact ⟨a2, d2, h2, fun h => absurd h h1, e⟩
    obtain ⟨a2, d2, ha2, hd2, e2⟩ := block2
    rw [e2]
    simp only [Res.bind_ok]
    have block3 : ∃ a3 d3, Mat p a3 ∧ (k = 1 → d3 = 0) ∧ (if (r : Int) ≤ (p : Int) - k then (do
        let x ← get2 a2 s1 ((k : Int) - 1)
        let y ← get2 ndu ((p : Int) - k + 1) r
        let a ← set2 a2 s2 k (-x / y)
        let w ← get2 a s2 k
        let v ← get2 ndu r ((p : Int) - k)
        pure (a, d2 + w*v))
      else pure (a2, d2)) = Res.ok (a3, d3) := by
      by_cases h : (r : Int) ≤ (p : Int) - k
      · rw [if_pos h, get2_ok ha2 s1 (k-1) rfl (by omega) (by omega) (by omega),
          get2_ok hM (p+1-k) r (by omega) rfl (by omega) (by omega)]
        simp only [Res.bind_ok]
        rw [set2_ok ha2 _ s2 k rfl rfl (by omega) (by omega)]
        simp only [Res.bind_ok]
        rw [get2_ok (ha2.upd (by omega) _ _) s2 k rfl rfl (by omega) (by omega),
          get2_ok hM r (p-k) rfl (by omega) (by omega) (by omega)]
        simp only [Res.bind_ok]
        rw [hZ r (p-k) (by omega), mul_zero, add_zero]
        exact ⟨_, _, ha2.upd (by omega) _ _, hd2, rfl⟩
      · rw [if_neg h]
        exact ⟨a2, d2, ha2, hd2, rfl⟩
    obtain ⟨a3, d3, ha3, hd3, e3⟩ := block3
    rw [e3]
    simp only [Res.bind_ok]
    rw [set2_ok hd _ k r rfl rfl (by omega) (by omega)]
    simp only [Res.bind_ok]
    have := ih (k+1) s2 s1 a3 (upd ders k r d3) (by omega) (by omega) hs2 hs1 ha3 (hd.upd (by omega) _ _)
      (rowsZero_upd hd hz (by omega) (by omega) _ fun h => hd3 (by omega))
    push_cast at this
    exact this

theorem dersR_zero (p n : ℕ) (hn : n ≤ p) (ndu : List (List K)) (hM : Mat p ndu) (hZ : UpperZero ndu) :
    ∀ (m r : ℕ) (a ders : List (List K)), r + m = p + 1 → Mat p a → Mat p ders → RowsZero ders →
      ∃ ders', dersR ndu (p : Int) (n : Int) m (r : Int) a ders = .ok ders' ∧ Mat p ders' ∧ RowsZero ders' := by
  intro m
  induction m with
  | zero => intro r a ders _ _ hd hz; exact ⟨ders, rfl, hd, hz⟩
  | succ m ih =>
    intro r a ders hrm ha hd hz
    unfold dersR
    rw [set2_ok (z := 0) (w := 0) ha _ 0 0 rfl rfl (by omega) (by omega)]
    simp only [Res.bind_ok, Int.toNat_natCast]
    have hK : ∃ a' ders', dersK ndu (p : Int) (r : Int) n 1 0 1 (upd a 0 0 1) ders = .ok (a', ders') ∧
        Mat p a' ∧ Mat p ders' ∧ RowsZero ders' := by
      by_cases hp : 1 ≤ p
      · have := dersK_zero p r ndu hM hZ (by omega) hp n 1 0 1 (upd a 0 0 1) ders (by omega) (by omega) (by omega)
          (by omega) (ha.upd (by omega) _ _) hd hz
        push_cast at this
        exact this
      · have : n = 0 := by omega
        subst this
        exact ⟨_, ders, rfl, ha.upd (by omega) _ _, hd, hz⟩
    obtain ⟨a', ders', e, ha', hd', hz'⟩ := hK
    rw [e]
    simp only [Res.bind_ok]
    have := ih (r+1) a' ders' (by omega) ha' hd' hz'
    push_cast at this
    exact this

theorem dersScaleRow_zero (p k : ℕ) (hk : k ≤ p) (f : Int) : ∀ (m j : ℕ) (ders : List (List K)), j + m = p + 1 →
    Mat p ders → RowsZero ders →
    ∃ ders', dersScaleRow (k : Int) f m (j : Int) ders = .ok ders' ∧ Mat p ders' ∧ RowsZero ders' := by
  intro m
  induction m with
  | zero => intro j ders _ hd hz; exact ⟨ders, rfl, hd, hz⟩
  | succ m ih =>
    intro j ders hj hd hz
    unfold dersScaleRow
    rw [get2_ok hd k j rfl rfl hk (by omega)]
    simp only [Res.bind_ok]
    rw [set2_ok hd _ k j rfl rfl hk (by omega)]
    simp only [Res.bind_ok]
    have := ih (j+1) (upd ders k j (entry ders k j * GoOfInt.ofInt f)) (by omega) (hd.upd hk _ _)
      (rowsZero_upd hd hz hk (by omega) _ fun h => by
        have : k = 0 ∨ k = 1 := by omega
        rcases this with rfl | rfl
        · rw [(hz j).1, zero_mul]
        · rw [(hz j).2, zero_mul])
    push_cast at this
    exact this

theorem dersScale_zero (p : ℕ) : ∀ (m k : ℕ) (f : Int) (ders : List (List K)), k + m ≤ p + 1 →
    Mat p ders → RowsZero ders →
    ∃ ders', dersScale (p : Int) m (k : Int) f ders = .ok ders' ∧ Mat p ders' ∧ RowsZero ders' := by
  intro m
  induction m with
  | zero => intro k f ders _ hd hz; exact ⟨ders, rfl, hd, hz⟩
  | succ m ih =>
    intro k f ders hk hd hz
    unfold dersScale
    rw [show ((p : Int) + 1).toNat = p + 1 by omega]
    obtain ⟨ders', e, hd', hz'⟩ := dersScaleRow_zero p k (by omega) f (p+1) 0 ders (by omega) hd hz
    rw [show ((0 : ℕ) : Int) = 0 from rfl] at e
    rw [e]
    simp only [Res.bind_ok]
    have := ih (k+1) (f * ((p : Int) - k)) ders' (by omega) hd' hz'
    push_cast at this
    exact this

theorem mat_zeros (p : ℕ) : Mat p (List.replicate (p+1) (List.replicate (p+1) (0 : K))) := by
  refine ⟨by simp, fun row hrow => ?_⟩
  rw [List.eq_of_mem_replicate hrow]; simp

theorem entry_zeros (p r c : ℕ) : entry (List.replicate (p+1) (List.replicate (p+1) (0 : K))) r c = 0 := by
  unfold entry
  rw [List.getD_eq_getElem?_getD, List.getD_eq_getElem?_getD, List.getElem?_replicate]
  split
  · simp only [Option.getD_some, List.getElem?_replicate]; split <;> rfl
  · rfl

/-- What `dersBasisFuns` computes for in-range arguments: it returns a `(p+1)×(p+1)` matrix whose rows 0 and 1 vanish -/
theorem C46_value (i : ℕ) (u : Int) (p n : ℕ) (U : List Int) (hn : n ≤ p) (hpi : p ≤ i + 1) (hlen : i + 1 < U.length) :
    ∃ ders : List (List K), dersBasisFuns (i : Int) u (p : Int) (n : Int) U = .ok ders ∧ Mat p ders ∧ RowsZero ders := by
  unfold dersBasisFuns
  rw [if_neg (by omega), show ((p : Int) + 1).toNat = p + 1 by omega]
  dsimp only
  obtain ⟨ndu, e1, hM, hZ⟩ := dersOuter_zero (K := K) i u p U hpi hlen p 1 (List.replicate (p+1) 0)
    (List.replicate (p+1) 0) (List.replicate (p+1) (List.replicate (p+1) 0)) (by omega) (by omega) (by simp) (by simp)
    (mat_zeros p) (fun r c _ => entry_zeros p r c)
  push_cast at e1
  rw [Int.toNat_natCast, Int.toNat_natCast, e1]
  simp only [Res.bind_ok]
  obtain ⟨d1, e2, hd1, hz1⟩ := dersLoad_zero p ndu hM hZ (p+1) 0 _ (by omega) (mat_zeros p)
    (fun c => ⟨entry_zeros p 0 c, entry_zeros p 1 c⟩)
  push_cast at e2
  rw [e2]
  simp only [Res.bind_ok]
  obtain ⟨d2, e3, hd2, hz2⟩ := dersR_zero p n hn ndu hM hZ (p+1) 0 _ d1 (by omega) (mat_zeros p) hd1 hz1
  push_cast at e3
  rw [e3]
  simp only [Res.bind_ok]
  obtain ⟨d3, e4, hd3, hz3⟩ := dersScale_zero p n 1 p d2 (by omega) hd2 hz2
  push_cast at e4
  exact ⟨d3, e4, hd3, hz3⟩

/-- C46 is false: for no in-range arguments is row 0 of the result the list of basis values -/
theorem C46_refuted (i p n : ℕ) (u : Int) (U : List Int) (hU : Nondec U) (hn : n ≤ p) (hpi : p ≤ i)
    (hlen : i + p + 1 < U.length) (hk : knot K U i < knot K U (i+1)) (h1 : knot K U i ≤ (u : K))
    (h2 : (u : K) ≤ knot K U (i+1)) (ders : List (List K)) (N : List K)
    (hd : dersBasisFuns (i : Int) u (p : Int) (n : Int) U = .ok ders) (hN : basisFuns i (u : K) p U = .ok N) :
    ders[0]? ≠ some N := by
  obtain ⟨ders', e, hM, hz⟩ := C46_value (K := K) i u p n U hn (by omega) (by omega)
  rw [hd] at e
  injection e with e
  subst e
  obtain ⟨hl, _, hs⟩ := C44_partition U hU i p (u : K) hpi hlen hk h1 h2 N hN
  intro h0
  have : ∀ x ∈ N, x = 0 := by
    intro x hx
    obtain ⟨c, hc, rfl⟩ := List.mem_iff_getElem.mp hx
    have := (hz c).1
    unfold entry at this
    rw [List.getD_eq_getElem?_getD (l := ders), h0, Option.getD_some, List.getD_eq_getElem?_getD,
      List.getElem?_eq_getElem hc] at this
    exact this
  rw [List.sum_eq_zero this] at hs
  exact zero_ne_one hs

/-- `ok` results of `dersK` only exist when all derivative rows are inside the matrix -/
theorem dersK_rows (ndu : List (List K)) (p r : Int) : ∀ (m : ℕ) (k : ℕ) (s1 s2 : Int) (a ders a' ders' : List (List K)),
    dersK ndu p r m (k : Int) s1 s2 a ders = .ok (a', ders') → ders'.length = ders.length ∧ (1 ≤ m → k + m ≤ ders.length) := by
  intro m
  induction m with
  | zero => intro k s1 s2 a ders a' ders' h; cases h; exact ⟨rfl, fun h => by omega⟩
  | succ m ih =>
    intro k s1 s2 a ders a' ders' h
    unfold dersK at h
    dsimp only at h
    obtain ⟨x1, _, h⟩ := Res.bind_eq_ok.mp h
    obtain ⟨x2, _, h⟩ := Res.bind_eq_ok.mp h
    obtain ⟨x3, _, h⟩ := Res.bind_eq_ok.mp h
    obtain ⟨d, hd, h⟩ := Res.bind_eq_ok.mp h
    have hset : k < ders.length ∧ d.length = ders.length := by
      unfold set2 at hd
      obtain ⟨row, hr, hd⟩ := Res.bind_eq_ok.mp hd
      obtain ⟨row', _, hd⟩ := Res.bind_eq_ok.mp hd
      obtain ⟨n, hn, hl, rfl⟩ := goSet_eq_ok.mp hd
      have : k = n := by exact_mod_cast hn
      subst this
      exact ⟨hl, by simp⟩
    obtain ⟨e1, e2⟩ := ih (k+1) _ _ _ _ _ _ (by push_cast; exact h)
    refine ⟨e1.trans hset.2, fun _ => ?_⟩
    rcases Nat.eq_zero_or_pos m with h0 | h0
    · subst h0; omega
    · have := e2 h0; omega

/-- more derivatives than the degree: the call never returns a result (it indexes out of range) -/
theorem C46_too_many (i : ℕ) (u : Int) (p n : ℕ) (U : List Int) (hn : p < n) (hpi : p ≤ i + 1)
    (hlen : i + 1 < U.length) (ders : List (List K)) :
    dersBasisFuns (i : Int) u (p : Int) (n : Int) U ≠ .ok ders := by
  intro h
  unfold dersBasisFuns at h
  rw [if_neg (by omega), show ((p : Int) + 1).toNat = p + 1 by omega] at h
  dsimp only at h
  obtain ⟨ndu, e1, hM, hZ⟩ := dersOuter_zero (K := K) i u p U hpi hlen p 1 (List.replicate (p+1) 0)
    (List.replicate (p+1) 0) (List.replicate (p+1) (List.replicate (p+1) 0)) (by omega) (by omega) (by simp) (by simp)
    (mat_zeros p) (fun r c _ => entry_zeros p r c)
  push_cast at e1
  rw [Int.toNat_natCast, Int.toNat_natCast, e1] at h
  simp only [Res.bind_ok] at h
  obtain ⟨d1, e2, hd1, hz1⟩ := dersLoad_zero p ndu hM hZ (p+1) 0 _ (by omega) (mat_zeros p)
    (fun c => ⟨entry_zeros p 0 c, entry_zeros p 1 c⟩)
  push_cast at e2
  rw [e2] at h
  simp only [Res.bind_ok] at h
  obtain ⟨d2, e3, _⟩ := Res.bind_eq_ok.mp h
  unfold dersR at e3
  obtain ⟨a1, _, e3⟩ := Res.bind_eq_ok.mp e3
  obtain ⟨⟨a2, d3⟩, e4, _⟩ := Res.bind_eq_ok.mp e3
  rw [Int.toNat_natCast] at e4
  have := (dersK_rows ndu p 0 n 1 0 1 a1 d1 a2 d3 (by push_cast; exact e4)).2 (by omega)
  rw [hd1.1] at this
  omega

/-- a concrete call: degree 2, first derivative; the basis values would be 1/2, 1/2, 0 -/
example : dersBasisFuns (F := ℚ) 3 1 2 1 [0, 0, 0, 1, 2, 2, 2] = .ok [[0, 0, 0], [0, 0, 0], [0, 0, 0]] ∧
    basisFuns 3 (1 : ℚ) 2 [0, 0, 0, 1, 2, 2, 2] = .ok [1/2, 1/2, 0] := by
  constructor <;> decide +kernel

end Verif.Props
