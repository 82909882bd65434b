import Verif.Model.Meshing
import Verif.Props.Tri3
import Verif.Proofs.Slice
/-!
# C32 - C34 and C38 - C40: package mesh, except Bowyer-Watson
-/
set_option linter.unusedSectionVars false

namespace Verif.Props
open Verif Verif.R3 Verif.Meshing

/-! ## Decimal printing -/

theorem digitChar_spec (d : ℕ) (h : d < 10) : (Nat.digitChar d).toNat = 48 + d ∧ Nat.digitChar d ≠ '.' ∧ Nat.digitChar d ≠ '-' := by
  interval_cases d <;> decide

theorem natDigits_value (n : ℕ) : Nat.ofDigits 10 ((natDigits n).reverse.map fun c => c.toNat - 48) = n := by
  unfold natDigits
  split_ifs with h
  · subst h; rfl
  · rw [List.reverse_reverse, List.map_map]
    have : (Nat.digits 10 n).map ((fun c => c.toNat - 48) ∘ Nat.digitChar) = Nat.digits 10 n := by
      conv_rhs => rw [← List.map_id (Nat.digits 10 n)]
      apply List.map_congr_left
      intro d hd
      have := (digitChar_spec d (Nat.digits_lt_base (by norm_num) hd)).1
      simp only [Function.comp, id]; omega
    rw [this, Nat.ofDigits_digits]

theorem natDigits_inj {n m : ℕ} (h : natDigits n = natDigits m) : n = m := by
  rw [← natDigits_value n, ← natDigits_value m, h]

theorem natDigits_mem {n : ℕ} {c : Char} (h : c ∈ natDigits n) : c ≠ '.' ∧ c ≠ '-' := by
  unfold natDigits at h
  split_ifs at h with h0
  · simp only [List.mem_cons, List.not_mem_nil, or_false] at h; subst h; decide
  · simp only [List.mem_reverse, List.mem_map] at h
    obtain ⟨d, hd, rfl⟩ := h
    exact (digitChar_spec d (Nat.digits_lt_base (by norm_num) hd)).2

theorem itoa_mem {i : Int} {c : Char} (h : c ∈ itoa i) : c ≠ '.' := by
  unfold itoa at h
  split_ifs at h
  · rcases List.mem_cons.mp h with rfl | h
    · decide
    · exact (natDigits_mem h).1
  · exact (natDigits_mem h).1

/-- `strconv.Itoa` is injective -/
theorem itoa_inj {i j : Int} (h : itoa i = itoa j) : i = j := by
  have nd : ∀ n : ℕ, ∀ l : List Char, natDigits n ≠ '-' :: l := by
    intro n l e
    have : '-' ∈ natDigits n := by rw [e]; exact List.mem_cons_self
    exact (natDigits_mem this).2 rfl
  unfold itoa at h
  split_ifs at h with h1 h2 h2
  · have := natDigits_inj (List.cons.inj h).2; omega
  · exact absurd h.symm (nd _ _)
  · exact absurd h (nd _ _)
  · have := natDigits_inj h; omega

theorem natDigits_repr (n : ℕ) : natDigits n = Nat.toDigits 10 n := by
  induction n using Nat.strong_induction_on with
  | _ n ih =>
    by_cases h : n < 10
    · interval_cases n <;> decide
    · have h0 : n ≠ 0 := by omega
      have hq : n / 10 ≠ 0 := by omega
      have e := ih (n / 10) (by omega)
      unfold natDigits at e ⊢
      rw [if_neg h0]
      rw [if_neg hq] at e
      rw [Nat.digits_def' (by norm_num) (by omega), List.map_cons, List.reverse_cons, e,
        Nat.toDigits_of_base_le (b := 10) (n := n) (by norm_num) (by omega)]

/-- `strconv.Itoa` prints what Lean's own decimal printing prints -/
theorem itoa_toString (i : Int) : itoa i = (toString i).toList := by
  unfold itoa
  cases i with
  | ofNat n =>
    rw [if_neg (by simp)]
    show natDigits n = _
    rw [natDigits_repr]
    simp [ToString.toString, Int.repr, Nat.repr]
  | negSucc n =>
    rw [if_pos (by omega), natDigits_repr]
    simp [ToString.toString, Int.repr, Nat.repr]

theorem sep_inj {a b a' b' : List Char} (ha : ∀ c ∈ a, c ≠ '.') (ha' : ∀ c ∈ a', c ≠ '.')
    (h : a ++ '.' :: b = a' ++ '.' :: b') : a = a' ∧ b = b' := by
  induction a generalizing a' with
  | nil =>
    cases a' with
    | nil => simpa using h
    | cons c a' =>
      simp only [List.nil_append, List.cons_append, List.cons.injEq] at h
      exact absurd h.1.symm (ha' c List.mem_cons_self)
  | cons c a ih =>
    cases a' with
    | nil =>
      simp only [List.nil_append, List.cons_append, List.cons.injEq] at h
      exact absurd h.1 (ha c List.mem_cons_self)
    | cons c' a' =>
      simp only [List.cons_append, List.cons.injEq] at h
      obtain ⟨e1, e2⟩ := ih (fun x hx => ha x (List.mem_cons_of_mem _ hx)) (fun x hx => ha' x (List.mem_cons_of_mem _ hx)) h.2
      exact ⟨by rw [h.1, e1], e2⟩

/-- C32: equal hashes exactly for the same three vertices in any order -/
theorem C32_face_hash (f g : Face) : f.hash = g.hash ↔ [f.pa, f.pb, f.pc].Perm [g.pa, g.pb, g.pc] := by
  have form : ∀ f : Face, ∃ a b c, List.insertionSort (· ≤ ·) [f.pa, f.pb, f.pc] = [a, b, c] ∧
      f.hash = itoa a ++ '.' :: (itoa b ++ '.' :: itoa c) := by
    intro f
    have hl := List.length_insertionSort (· ≤ ·) [f.pa, f.pb, f.pc]
    match hs : List.insertionSort (· ≤ ·) [f.pa, f.pb, f.pc] with
    | [a, b, c] => exact ⟨a, b, c, rfl, by unfold Face.hash; rw [hs]; simp⟩
    | [] => rw [hs] at hl; simp at hl
    | [a] => rw [hs] at hl; simp at hl
    | [a, b] => rw [hs] at hl; simp at hl
    | a :: b :: c :: d :: l => rw [hs] at hl; simp at hl
  obtain ⟨a, b, c, hs, e⟩ := form f
  obtain ⟨a', b', c', hs', e'⟩ := form g
  have p1 := List.perm_insertionSort (· ≤ ·) [f.pa, f.pb, f.pc]
  have p2 := List.perm_insertionSort (· ≤ ·) [g.pa, g.pb, g.pc]
  constructor
  · intro h
    rw [e, e'] at h
    obtain ⟨h1, h⟩ := sep_inj (fun _ => itoa_mem) (fun _ => itoa_mem) h
    obtain ⟨h2, h3⟩ := sep_inj (fun _ => itoa_mem) (fun _ => itoa_mem) h
    have e1 := itoa_inj h1
    have e2 := itoa_inj h2
    have e3 := itoa_inj h3
    subst e1 e2 e3
    rw [hs] at p1; rw [hs'] at p2
    exact p1.symm.trans p2
  · intro h
    have : List.insertionSort (· ≤ ·) [f.pa, f.pb, f.pc] = List.insertionSort (· ≤ ·) [g.pa, g.pb, g.pc] :=
      List.Perm.eq_of_sortedLE (List.sortedLE_insertionSort) (List.sortedLE_insertionSort) (p1.trans (h.trans p2.symm))
    rw [hs, hs'] at this
    simp only [List.cons.injEq, and_true] at this
    rw [e, e', this.1, this.2.1, this.2.2]

/-- C33: equal hashes exactly for equal vertex tuples -/
theorem C33_tetra_hash (s t : Tetra) : tetraHash s = tetraHash t ↔
    s.ia = t.ia ∧ s.ib = t.ib ∧ s.ic = t.ic ∧ s.id = t.id := by
  have form : ∀ t : Tetra, tetraHash t = itoa t.ia ++ '.' :: (itoa t.ib ++ '.' :: (itoa t.ic ++ '.' :: itoa t.id)) := by
    intro t; unfold tetraHash; simp
  rw [form, form]
  constructor
  · intro h
    obtain ⟨h1, h⟩ := sep_inj (fun _ => itoa_mem) (fun _ => itoa_mem) h
    obtain ⟨h2, h⟩ := sep_inj (fun _ => itoa_mem) (fun _ => itoa_mem) h
    obtain ⟨h3, h4⟩ := sep_inj (fun _ => itoa_mem) (fun _ => itoa_mem) h
    exact ⟨itoa_inj h1, itoa_inj h2, itoa_inj h3, itoa_inj h4⟩
  · rintro ⟨h1, h2, h3, h4⟩; rw [h1, h2, h3, h4]

/-- C32: the text of the key, the three numbers in increasing order -/
theorem C32_text (f : Face) : ∃ a b c : Int, [a, b, c].Perm [f.pa, f.pb, f.pc] ∧ a ≤ b ∧ b ≤ c ∧
    f.hash = (toString a ++ "." ++ toString b ++ "." ++ toString c).toList := by
  have hl := List.length_insertionSort (· ≤ ·) [f.pa, f.pb, f.pc]
  have p1 := List.perm_insertionSort (· ≤ ·) [f.pa, f.pb, f.pc]
  have h1 := List.sortedLE_insertionSort (l := [f.pa, f.pb, f.pc])
  match hs : List.insertionSort (· ≤ ·) [f.pa, f.pb, f.pc] with
  | [a, b, c] =>
    rw [hs] at p1 h1
    have h2 := h1.pairwise
    simp only [List.pairwise_cons, List.mem_cons, List.not_mem_nil, or_false, forall_eq_or_imp, forall_eq] at h2
    refine ⟨a, b, c, p1, h2.1.1, h2.2.1, ?_⟩
    unfold Face.hash; rw [hs]; simp [itoa_toString]
  | [] => rw [hs] at hl; simp at hl
  | [a] => rw [hs] at hl; simp at hl
  | [a, b] => rw [hs] at hl; simp at hl
  | a :: b :: c :: d :: l => rw [hs] at hl; simp at hl

example : Face.hash ⟨12, -3, 0⟩ = "-3.0.12".toList := by
  obtain ⟨a, b, c, hp, h1, h2, e⟩ := C32_text ⟨12, -3, 0⟩
  have : [a, b, c] = [-3, 0, 12] :=
    List.Perm.eq_of_sortedLE (List.Pairwise.sortedLE (by simp; omega)) (List.Pairwise.sortedLE (by simp)) (hp.trans (by decide))
  simp only [List.cons.injEq, and_true] at this
  rw [e, this.1, this.2.1, this.2.2]; decide

/-- C33: the text of the key -/
theorem C33_text (t : Tetra) : tetraHash t =
    (toString t.ia ++ "." ++ toString t.ib ++ "." ++ toString t.ic ++ "." ++ toString t.id).toList := by
  unfold tetraHash; simp [itoa_toString]

theorem get_set (m : Tetrahedrisation) (k k' : List Char) (v : Tetra) :
    GoMap.get? (GoMap.set m k v) k' = if k = k' then some v else GoMap.get? m k' := by
  induction m with
  | nil => simp only [GoMap.set, GoMap.get?]
  | cons e m ih =>
    obtain ⟨ke, ve⟩ := e
    simp only [GoMap.set]
    split_ifs with h1 h2 h2
    · simp [GoMap.get?, h2]
    · subst h1; simp [GoMap.get?, h2]
    · subst h2; simp only [GoMap.get?, h1, if_false]; rw [ih]; simp
    · simp only [GoMap.get?]; rw [ih]; simp [h2]

/-- C33: adding a tetrahedron makes it present and leaves every tetrahedron with another vertex tuple as it was -/
theorem C33_addTetra (t : Tetrahedrisation) (x y : Tetra) :
    GoMap.get? (addTetra t x) (tetraHash x) = some x ∧
    ((x.ia, x.ib, x.ic, x.id) ≠ (y.ia, y.ib, y.ic, y.id) →
      GoMap.get? (addTetra t x) (tetraHash y) = GoMap.get? t (tetraHash y)) := by
  unfold addTetra
  refine ⟨by rw [get_set]; simp, fun h => ?_⟩
  rw [get_set, if_neg]
  intro he
  apply h
  obtain ⟨h1, h2, h3, h4⟩ := (C33_tetra_hash x y).mp he
  rw [h1, h2, h3, h4]

example : (⟨3, 11, 2⟩ : Face).hash = (⟨11, 2, 3⟩ : Face).hash ∧ (⟨1, 12, 3⟩ : Face).hash ≠ (⟨11, 2, 3⟩ : Face).hash := by
  rw [Ne, C32_face_hash, C32_face_hash]; decide

/-- the comparison of edges is equality -/
theorem C33_edge (e f : Edge) : e.isEqual f = true ↔ e = f := by
  obtain ⟨a, b⟩ := e
  obtain ⟨c, d⟩ := f
  unfold Edge.isEqual
  simp only [Edge.mk.injEq]
  split_ifs <;> simp_all

/-- a face is part of the mesh exactly when it has no vertex of the super-tetrahedron -/
theorem C36_isPartOfMesh (f : Face) : f.isPartOfMesh = true ↔
    ∀ i ∈ [f.pa, f.pb, f.pc], i ∉ ([0, 1, 2, 3] : List Int) := by
  unfold Face.isPartOfMesh
  simp only [List.mem_cons, List.not_mem_nil, or_false, forall_eq_or_imp, forall_eq, not_or]
  split_ifs <;> simp <;> omega

/-! ## C34 -/

section
variable {K : Type} [Field K] [LinearOrder K] [IsStrictOrderedRing K]

/-- the extremes are the coordinate-wise minimum and maximum of the points and the sentinels -/
theorem C28_extremas (points : List (R3.Vector K)) : findExtremas points =
    ⟨⟨minFrom (maxFloat64 : K) (points.map (·.X)), minFrom (maxFloat64 : K) (points.map (·.Y)), minFrom (maxFloat64 : K) (points.map (·.Z))⟩,
     ⟨maxFrom (-maxFloat64 : K) (points.map (·.X)), maxFrom (-maxFloat64 : K) (points.map (·.Y)), maxFrom (-maxFloat64 : K) (points.map (·.Z))⟩⟩ := by
  unfold findExtremas
  simp only [goConst_field]
  generalize ((maxFloat64 : ℚ) : K) = m
  generalize hm : -m = m'
  clear hm
  suffices h : ∀ (mn mx : R3.Vector K), points.foldl (fun (h : Helper K) p =>
    let h := if h.max.X < p.X then { h with max := { h.max with X := p.X } } else h
    let h := if h.max.Y < p.Y then { h with max := { h.max with Y := p.Y } } else h
    let h := if h.max.Z < p.Z then { h with max := { h.max with Z := p.Z } } else h
    let h := if p.X < h.min.X then { h with min := { h.min with X := p.X } } else h
    let h := if p.Y < h.min.Y then { h with min := { h.min with Y := p.Y } } else h
    let h := if p.Z < h.min.Z then { h with min := { h.min with Z := p.Z } } else h
    h) ⟨mn, mx⟩ =
      ⟨⟨minFrom mn.X (points.map (·.X)), minFrom mn.Y (points.map (·.Y)), minFrom mn.Z (points.map (·.Z))⟩,
       ⟨maxFrom mx.X (points.map (·.X)), maxFrom mx.Y (points.map (·.Y)), maxFrom mx.Z (points.map (·.Z))⟩⟩ from h _ _
  induction points with
  | nil => intro mn mx; rfl
  | cons v Vs ih =>
    intro mn mx
    rw [List.foldl_cons]
    have step : (let h : Helper K := ⟨mn, mx⟩
      let h := if h.max.X < v.X then { h with max := { h.max with X := v.X } } else h
      let h := if h.max.Y < v.Y then { h with max := { h.max with Y := v.Y } } else h
      let h := if h.max.Z < v.Z then { h with max := { h.max with Z := v.Z } } else h
      let h := if v.X < h.min.X then { h with min := { h.min with X := v.X } } else h
      let h := if v.Y < h.min.Y then { h with min := { h.min with Y := v.Y } } else h
      let h := if v.Z < h.min.Z then { h with min := { h.min with Z := v.Z } } else h
      h) = (⟨⟨min mn.X v.X, min mn.Y v.Y, min mn.Z v.Z⟩, ⟨max mx.X v.X, max mx.Y v.Y, max mx.Z v.Z⟩⟩ : Helper K) := by
      simp only [← if_lt_min, ← if_lt_max]
      obtain ⟨a, b, c⟩ := mn
      obtain ⟨d, e, f⟩ := mx
      by_cases h1 : v.X < a <;> by_cases h2 : v.Y < b <;> by_cases h3 : v.Z < c <;>
        by_cases h4 : d < v.X <;> by_cases h5 : e < v.Y <;> by_cases h6 : f < v.Z <;> simp [h1, h2, h3, h4, h5, h6]
    exact (congrArg (fun z => List.foldl _ z Vs) step).trans (ih _ _)

theorem C28_extremas_tight (points : List (R3.Vector K)) (hne : points ≠ []) (hr : ∀ p ∈ points, InRange (maxFloat64 : K) p) :
    IsBox points (findExtremas points).min (findExtremas points).max := by
  rw [C28_extremas]
  exact isBox_of_folds points _ hne hr

/-- one coordinate: the share of the edge vector is at most a third -/
theorem third_share (x mn mx : K) (h1 : mn ≤ x) (h2 : x ≤ mx) : ∃ u : K, 0 ≤ u ∧ 3 * u ≤ 1 ∧ x = mn + u * (3*(mx - mn)) := by
  rcases eq_or_lt_of_le (h1.trans h2) with h | h
  · exact ⟨0, le_refl _, by norm_num, by rw [← h] at h2; rw [le_antisymm h2 h1]; ring⟩
  · have hp : 0 < mx - mn := sub_pos.mpr h
    refine ⟨(x - mn) / (3 * (mx - mn)), by apply div_nonneg <;> linarith, ?_, by field_simp; ring⟩
    rw [← mul_div_assoc, mul_div_mul_left _ _ (by norm_num : (3:K) ≠ 0), div_le_one hp]; linarith

/-- C34: the super-tetrahedron is prepended and contains every point -/
theorem C34_englobe (points : List (R3.Vector K)) :
    ∃ p1 p2 p3 p4, englobe points = (p1 :: p2 :: p3 :: p4 :: points, initialTetra) ∧ ∀ p ∈ points, InTet p1 p2 p3 p4 p := by
  refine ⟨_, _, _, _, rfl, ?_⟩
  intro p hp
  rw [C28_extremas]
  dsimp only
  have hX := third_share p.X _ _ ((minFrom_spec (points.map (·.X)) (maxFloat64 : K)).2.1 _ (List.mem_map_of_mem hp))
    ((maxFrom_spec (points.map (·.X)) (-maxFloat64 : K)).2.1 _ (List.mem_map_of_mem hp))
  have hY := third_share p.Y _ _ ((minFrom_spec (points.map (·.Y)) (maxFloat64 : K)).2.1 _ (List.mem_map_of_mem hp))
    ((maxFrom_spec (points.map (·.Y)) (-maxFloat64 : K)).2.1 _ (List.mem_map_of_mem hp))
  have hZ := third_share p.Z _ _ ((minFrom_spec (points.map (·.Z)) (maxFloat64 : K)).2.1 _ (List.mem_map_of_mem hp))
    ((maxFrom_spec (points.map (·.Z)) (-maxFloat64 : K)).2.1 _ (List.mem_map_of_mem hp))
  obtain ⟨u, u0, u1, hu⟩ := hX
  obtain ⟨v, v0, v1, hv⟩ := hY
  obtain ⟨w, w0, w1, hw⟩ := hZ
  refine ⟨1 - u - v - w, u, v, w, by linarith, u0, v0, w0, by ring, ?_, ?_, ?_⟩
  · rw [hu]; ring
  · rw [hv]; ring
  · rw [hw]; ring

/-- C34: the four vertices are the corner of the bounding box and its translates by three edge lengths -/
theorem C34_vertices (points : List (R3.Vector K)) (hne : points ≠ []) (hr : ∀ p ∈ points, InRange (maxFloat64 : K) p) :
    ∃ mn mx, IsBox points mn mx ∧ (englobe points).1 =
      [mn, ⟨mn.X + 3*(mx.X - mn.X), mn.Y, mn.Z⟩, ⟨mn.X, mn.Y + 3*(mx.Y - mn.Y), mn.Z⟩, ⟨mn.X, mn.Y, mn.Z + 3*(mx.Z - mn.Z)⟩] ++ points :=
  ⟨_, _, C28_extremas_tight points hne hr, rfl⟩

example : (englobe ([⟨0, 0, 0⟩, ⟨1, 2, 3⟩] : List (R3.Vector ℚ))).1 =
    [⟨0, 0, 0⟩, ⟨3, 0, 0⟩, ⟨0, 6, 0⟩, ⟨0, 0, 9⟩, ⟨0, 0, 0⟩, ⟨1, 2, 3⟩] := by decide +kernel

end

/-! ## C38, C39 -/

theorem duplicateInReverseLoop_eq (l : List ℕ) (m : ℕ) (hm : m ≤ l.length) (acc : List ℕ) :
    duplicateInReverseLoop m (l ++ acc) = .ok (l ++ acc ++ (l.take m).reverse) := by
  induction m generalizing acc with
  | zero => simp [duplicateInReverseLoop]
  | succ m ih =>
    have hlt : m < l.length := hm
    rw [duplicateInReverseLoop, goGet_eq rfl (List.getElem?_eq_some_iff.mpr ⟨by simp; omega, rfl⟩), Res.bind_ok,
      List.append_assoc, ih (by omega)]
    have e : l.take (m+1) = l.take m ++ [l[m]] := by
      rw [List.take_add_one, List.getElem?_eq_getElem hlt]; rfl
    rw [e, List.reverse_append, List.getElem_append_left hlt]
    simp

/-- C39: the list is followed by its reversal -/
theorem C39_duplicate (l : List ℕ) : duplicateInReverse l = .ok (l ++ l.reverse) := by
  have := duplicateInReverseLoop_eq l l.length (Nat.le_refl _) []
  unfold duplicateInReverse
  simpa using this

/-- triangles as a flat index list -/
def flatTris (T : List (ℕ × ℕ × ℕ)) : List ℕ := T.flatMap fun t => [t.1, t.2.1, t.2.2]

/-- C39: every triangle also occurs with the opposite winding -/
theorem C39_winding (T : List (ℕ × ℕ × ℕ)) : duplicateInReverse (flatTris T) =
    .ok (flatTris (T ++ (T.map fun t => (t.2.2, t.2.1, t.1)).reverse)) := by
  rw [C39_duplicate]
  have : ∀ T : List (ℕ × ℕ × ℕ), (flatTris T).reverse = flatTris ((T.map fun t => (t.2.2, t.2.1, t.1)).reverse) := by
    intro T
    induction T with
    | nil => rfl
    | cons t T ih =>
      simp only [flatTris, List.flatMap_cons, List.reverse_append, List.map_cons, List.reverse_cons, List.flatMap_append] at ih ⊢
      rw [ih]; simp
  rw [this]
  simp [flatTris]

/-- the four triangles of a tetrahedron, as `flip14` lists them -/
def tetTris (a b c d : ℕ) : List (ℕ × ℕ × ℕ) := [(a, b, c), (b, c, d), (c, d, a), (d, a, b)]

def bothSides (T : List (ℕ × ℕ × ℕ)) : List (ℕ × ℕ × ℕ) := T ++ (T.map fun t => (t.2.2, t.2.1, t.1)).reverse

/-- C38: the four tetrahedra 0124, 0134, 1234, 0234, each with both windings -/
theorem C38_value {F : Type} (t : MeshState F) (p : R3.Vector F) : flip14 t p = .ok ⟨t.vertices ++ [p],
    flatTris (bothSides (tetTris 0 1 2 4) ++ bothSides (tetTris 0 1 3 4) ++ bothSides (tetTris 1 2 3 4) ++ bothSides (tetTris 0 2 3 4))⟩ := by
  unfold flip14
  rw [C39_duplicate, C39_duplicate, C39_duplicate, C39_duplicate]
  rfl

section
variable {K : Type} [Field K] [LinearOrder K] [IsStrictOrderedRing K]

/-- volume of the tetrahedron with the given vertex indices -/
def volAt (l : List (R3.Vector K)) (i j k m : ℕ) : K :=
  vol6 (l.getD i ⟨0, 0, 0⟩) (l.getD j ⟨0, 0, 0⟩) (l.getD k ⟨0, 0, 0⟩) (l.getD m ⟨0, 0, 0⟩)

/-- C38 for a mesh of one tetrahedron: volumes add up for every point (signed) and for contained points (absolute);
the new point is a vertex of all four tetrahedra; indices are valid -/
theorem C38_partial (a b c d p : R3.Vector K) (I : List ℕ) : ∃ r, flip14 ⟨[a, b, c, d], I⟩ p = .ok r ∧
    r.vertices[4]? = some p ∧ (∀ i ∈ r.indices, i < r.vertices.length) ∧
    volAt r.vertices 0 1 2 4 - volAt r.vertices 0 1 3 4 - volAt r.vertices 1 2 3 4 + volAt r.vertices 0 2 3 4 = vol6 a b c d ∧
    (InTet a b c d p → |volAt r.vertices 0 1 2 4| + |volAt r.vertices 0 1 3 4| + |volAt r.vertices 1 2 3 4| +
      |volAt r.vertices 0 2 3 4| = |vol6 a b c d|) := by
  refine ⟨_, C38_value _ _, rfl, ?_, ?_, ?_⟩
  · have : ∀ i ∈ flatTris (bothSides (tetTris 0 1 2 4) ++ bothSides (tetTris 0 1 3 4) ++ bothSides (tetTris 1 2 3 4) ++
      bothSides (tetTris 0 2 3 4)), i < 5 := by decide
    exact this
  · simp only [volAt, vol6_eq, List.cons_append, List.nil_append, List.getD_cons_zero, List.getD_cons_succ]; ring
  · rintro ⟨x, y, z, w, hx, hy, hz, hw, hs, ex, ey, ez⟩
    have e : x = 1 - y - z - w := by linear_combination hs
    have q1 : volAt [a, b, c, d, p] 0 1 2 4 = w * vol6 a b c d := by
      simp only [volAt, vol6_eq, List.getD_cons_zero, List.getD_cons_succ, ex, ey, ez, e]; ring
    have q2 : volAt [a, b, c, d, p] 0 1 3 4 = - (z * vol6 a b c d) := by
      simp only [volAt, vol6_eq, List.getD_cons_zero, List.getD_cons_succ, ex, ey, ez, e]; ring
    have q3 : volAt [a, b, c, d, p] 1 2 3 4 = - (x * vol6 a b c d) := by
      simp only [volAt, vol6_eq, List.getD_cons_zero, List.getD_cons_succ, ex, ey, ez, e]; ring
    have q4 : volAt [a, b, c, d, p] 0 2 3 4 = y * vol6 a b c d := by
      simp only [volAt, vol6_eq, List.getD_cons_zero, List.getD_cons_succ, ex, ey, ez, e]; ring
    simp only [List.cons_append, List.nil_append]
    rw [q1, q2, q3, q4, abs_neg, abs_neg, abs_mul, abs_mul, abs_mul, abs_mul, abs_of_nonneg hx, abs_of_nonneg hy,
      abs_of_nonneg hz, abs_of_nonneg hw]
    linear_combination |vol6 a b c d| * hs

/-- C38 is false for meshes with more than four vertices: the inserted point is not a vertex of any listed triangle -/
theorem C38_refuted {F : Type} (t : MeshState F) (p : R3.Vector F) (h : 4 < t.vertices.length) : ∃ r, flip14 t p = .ok r ∧
    r.vertices[t.vertices.length]? = some p ∧ t.vertices.length ∉ r.indices := by
  refine ⟨_, C38_value _ _, by simp, ?_⟩
  intro hm
  have : ∀ i ∈ flatTris (bothSides (tetTris 0 1 2 4) ++ bothSides (tetTris 0 1 3 4) ++ bothSides (tetTris 1 2 3 4) ++
    bothSides (tetTris 0 2 3 4)), i ≤ 4 := by decide
  have := this _ hm
  omega

/-- C38: with fewer than four vertices the index 4 is out of range -/
theorem C38_range_refuted {F : Type} (t : MeshState F) (p : R3.Vector F) (h : t.vertices.length < 4) : ∃ r, flip14 t p = .ok r ∧
    ∃ i ∈ r.indices, r.vertices.length ≤ i := by
  refine ⟨_, C38_value _ _, 4, by dsimp only; decide, by simp; omega⟩

end

/-! ## C40 -/

/-- C40: position of the result: no vertex is closer and no later vertex is as close -/
theorem C40_nearest (vertices : List (R3.Vector ℝ)) (q : R3.Vector ℝ) (h : ∃ v ∈ vertices, euclid v q ≤ (maxFloat64 : ℝ)) :
    ∃ i : ℕ, vertices[i]? = some (getNearestPoint vertices q) ∧
      ∀ (j : ℕ) (v : R3.Vector ℝ), vertices[j]? = some v → euclid (getNearestPoint vertices q) q ≤ euclid v q ∧
        (euclid v q = euclid (getNearestPoint vertices q) q → j ≤ i) := by
  have gen : ∀ (l : List (R3.Vector ℝ)) (m : ℝ) (z : R3.Vector ℝ),
      let r := l.foldl (fun (acc : ℝ × R3.Vector ℝ) v => if euclid v q ≤ acc.1 then (euclid v q, v) else acc) (m, z)
      (r = (m, z) ∧ ∀ v ∈ l, m < euclid v q) ∨
      (∃ i : ℕ, l[i]? = some r.2 ∧ r.1 = euclid r.2 q ∧ r.1 ≤ m ∧ ∀ (j : ℕ) v, l[j]? = some v → r.1 ≤ euclid v q ∧
        (euclid v q = r.1 → j ≤ i)) := by
    intro l
    induction l with
    | nil => intro m z; left; simp
    | cons v l ih =>
      intro m z
      dsimp only
      rw [List.foldl_cons]
      dsimp only
      split_ifs with h
      · right
        rcases ih (euclid v q) v with ⟨h1, h2⟩ | ⟨i, h1, h2, h3, h4⟩
        · rw [h1]
          refine ⟨0, by simp, rfl, h, ?_⟩
          intro j w hw
          cases j with
          | zero => simp only [List.getElem?_cons_zero, Option.some.injEq] at hw; subst hw; simp
          | succ j =>
            rw [List.getElem?_cons_succ] at hw
            have := h2 w (List.mem_of_getElem? hw)
            exact ⟨this.le, fun e => absurd e.symm this.ne⟩
        · refine ⟨i+1, by rw [List.getElem?_cons_succ]; exact h1, h2, h3.trans h, ?_⟩
          intro j w hw
          cases j with
          | zero => simp only [List.getElem?_cons_zero, Option.some.injEq] at hw; subst hw; exact ⟨h3, fun _ => Nat.zero_le _⟩
          | succ j =>
            rw [List.getElem?_cons_succ] at hw
            obtain ⟨a, b⟩ := h4 j w hw
            exact ⟨a, fun e => Nat.succ_le_succ (b e)⟩
      · rcases ih m z with ⟨h1, h2⟩ | ⟨i, h1, h2, h3, h4⟩
        · left
          refine ⟨h1, ?_⟩
          intro w hw
          rcases List.mem_cons.mp hw with rfl | hw
          · exact not_le.mp h
          · exact h2 w hw
        · right
          refine ⟨i+1, by rw [List.getElem?_cons_succ]; exact h1, h2, h3, ?_⟩
          intro j w hw
          cases j with
          | zero =>
            simp only [List.getElem?_cons_zero, Option.some.injEq] at hw; subst hw
            exact ⟨h3.trans (not_le.mp h).le, fun _ => Nat.zero_le _⟩
          | succ j =>
            rw [List.getElem?_cons_succ] at hw
            obtain ⟨a, b⟩ := h4 j w hw
            exact ⟨a, fun e => Nat.succ_le_succ (b e)⟩
  have e : getNearestPoint vertices q = (vertices.foldl (fun (acc : ℝ × R3.Vector ℝ) v =>
      if euclid v q ≤ acc.1 then (euclid v q, v) else acc) (((maxFloat64 : ℚ) : ℝ), ⟨0, 0, 0⟩)).2 := by
    unfold getNearestPoint
    simp only [Distance_eq_euclid, goConst_field]
  rw [e]
  rcases gen vertices ((maxFloat64 : ℚ) : ℝ) ⟨0, 0, 0⟩ with ⟨_, h2⟩ | ⟨i, h1, h2, h3, h4⟩
  · obtain ⟨v, hv, hle⟩ := h
    exact absurd hle (not_le.mpr (h2 v hv))
  · refine ⟨i, h1, ?_⟩
    rw [← h2]
    exact h4

/-- C40: beyond the sentinel (or for an empty list) the origin is returned -/
theorem C40_far (vertices : List (R3.Vector ℝ)) (q : R3.Vector ℝ) (h : ∀ v ∈ vertices, (maxFloat64 : ℝ) < euclid v q) :
    getNearestPoint vertices q = ⟨0, 0, 0⟩ := by
  unfold getNearestPoint
  simp only [Distance_eq_euclid, goConst_field]
  induction vertices with
  | nil => rfl
  | cons v l ih =>
    rw [List.foldl_cons]
    dsimp only
    rw [if_neg (not_le.mpr (h v List.mem_cons_self))]
    exact ih (fun w hw => h w (List.mem_cons_of_mem _ hw))

/-- C40: the point nearest to the centroid of a tetrahedron; panics exactly when a vertex index is out of range -/
theorem C40_centroid (t : Tetra) (points : List (R3.Vector ℝ)) :
    (∀ (a b c d : ℕ) (pa pb pc pd : R3.Vector ℝ), t.ia = a → t.ib = b → t.ic = c → t.id = d → points[a]? = some pa → points[b]? = some pb →
      points[c]? = some pc → points[d]? = some pd →
      t.getNearestPointToCentroid points = .ok (getNearestPoint points (Tri3.findCentroid pa pb pc pd))) := by
  intro a b c d pa pb pc pd h1 h2 h3 h4 g1 g2 g3 g4
  unfold Tetra.getNearestPointToCentroid
  rw [goGet_eq h1 g1, Res.bind_ok, goGet_eq h2 g2, Res.bind_ok, goGet_eq h3 g3, Res.bind_ok, goGet_eq h4 g4, Res.bind_ok]
  rfl

example : ∃ v ∈ ([⟨0, 0, 0⟩, ⟨1, 0, 0⟩] : List (R3.Vector ℝ)), euclid v ⟨0, 0, 0⟩ ≤ (maxFloat64 : ℝ) :=
  ⟨⟨0, 0, 0⟩, by simp, by
    have : euclid (⟨0, 0, 0⟩ : R3.Vector ℝ) ⟨0, 0, 0⟩ = 0 := by simp [euclid]
    rw [this]; norm_num [maxFloat64]⟩

end Verif.Props
