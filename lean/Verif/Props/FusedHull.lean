import Verif.Model.FusedHull
import Verif.Props.Fused
import Verif.Props.HullMargin
import Verif.Props.BowyerFloat
import Verif.Props.Extremes
import Verif.Props.Fence
/-!
# C119: `ConvexHull` and `bowyerWatson` compiled with fused multiply-adds
-/
namespace Verif.Props
open Verif Verif.F64 Verif.Proofs Verif.Tri2 Verif.Spec Verif.Meshing Verif.Predicates

/-! ## Exact values -/

theorem sizE_mono {M : ℚ} (hM : 0 ≤ M) {e : Expr F64} (hp : PolyE e) : sizE 0 e ≤ sizE M e := by
  induction e with
  | leaf x => exact max_le_max_left _ hM
  | add a b iha ihb => exact add_le_add (iha hp.1) (ihb hp.2)
  | sub a b iha ihb => exact add_le_add (iha hp.1) (ihb hp.2)
  | mul a b iha ihb =>
    exact mul_le_mul (iha hp.1) (ihb hp.2) (sizE_nonneg hp.2) ((sizE_nonneg hp.1).trans (iha hp.1))
  | div a b iha ihb => exact hp.elim
  | abs a iha => exact hp.elim

theorem each_small {M B : ℚ} (hM : 0 ≤ M) {e : Expr F64} (hp : PolyE e) (h : EachE (fun e => sizE M e < B) e) : EachE (fun e => sizE 0 e < B) e := by
  induction e with
  | leaf x => exact lt_of_le_of_lt (sizE_mono hM hp) h
  | add a b iha ihb => exact ⟨lt_of_le_of_lt (sizE_mono hM hp) h.1, iha hp.1 h.2.1, ihb hp.2 h.2.2⟩
  | sub a b iha ihb => exact ⟨lt_of_le_of_lt (sizE_mono hM hp) h.1, iha hp.1 h.2.1, ihb hp.2 h.2.2⟩
  | mul a b iha ihb => exact ⟨lt_of_le_of_lt (sizE_mono hM hp) h.1, iha hp.1 h.2.1, ihb hp.2 h.2.2⟩
  | div a b iha ihb => exact hp.elim
  | abs a iha => exact hp.elim

/-- a homogeneous polynomial in whole numbers of size at most `M` has its exact value, however fused, if its size stays below `2^53` -/
theorem hom_exact {M : ℚ} (hM : 1 ≤ M) {e : Expr F64} {c d : ℕ} (he : homE e = some (c, d)) (hs : (c:ℚ) * M ^ d < 2 ^ 53)
    (hl : LeavesE (fun x => (x.Finite ∧ ∃ n : ℤ, x.toQ = n) ∧ |x.toQ| ≤ M) e) {v : F64} (h : Ev e v) : v.Finite ∧ v.toQ = valE e := by
  have hM0 : 0 ≤ M := by linarith
  obtain ⟨hp, _, _, _, hr⟩ := homE_data (M := M) (C := c) (D := d) (R := fun P => P < 2 ^ 53) (by
      intro c' d' _ h2 _ h4
      have h2' : (c':ℚ) ≤ c := by exact_mod_cast h2
      exact lt_of_le_of_lt (mul_le_mul h2' (pow_le_pow_right₀ hM h4) (by positivity) (by positivity)) hs) he (le_refl _) (le_refl _)
    (leaves_imp (fun _ h => h.2) hl)
  exact C100_exact hp (leaves_imp (fun _ h => h.1) hl) (each_small hM0 hp hr) h

/-! ## The hull depends on the tests only -/

/-- the arithmetic of the plain evaluation gives the model of the code -/
theorem filterLoopA_plain : ∀ (n i k : ℕ) (arr : List (R3.Vector F64)), filterLoopA .plain n i k arr = filterLoop n i k arr := by
  intro n
  induction n with
  | zero => intro i k arr; rfl
  | succ n ih =>
    intro i k arr
    unfold filterLoopA filterLoop
    cases arr[i]? with
    | none => rfl
    | some p =>
      simp only [ih]
      cases i with
      | zero => rfl
      | succ j => cases hj : arr[j]? <;> simp only [hj] <;> rfl

theorem popUA_plain (p : R3.Vector F64) : ∀ l, popUA .plain p l = popU p l := by
  intro l
  induction l with
  | nil => rfl
  | cons b l ih =>
    cases l with
    | nil => rfl
    | cons a rest => unfold popUA popU; rw [ih]; rfl

theorem popLA_plain (p : R3.Vector F64) : ∀ l, popLA .plain p l = popL p l := by
  intro l
  induction l with
  | nil => rfl
  | cons b l ih =>
    cases l with
    | nil => rfl
    | cons a rest => unfold popLA popL; rw [ih]; rfl

/-- C119: with nothing fused `ConvexHullA` is `ConvexHull` -/
theorem C119_plain (srt : List (R3.Vector F64) → List (R3.Vector F64)) (Vs : List (R3.Vector F64)) : ConvexHullA .plain srt Vs = ConvexHull srt Vs := by
  unfold ConvexHullA ConvexHull filterDup hullLoopA hullLoop
  simp only [filterLoopA_plain, popUA_plain, popLA_plain]

theorem filterLoopA_congr {A B : HullArith} {Vs : List (R3.Vector F64)} (H : ∀ u ∈ Vs, ∀ v ∈ Vs, (A.near u v < eps ↔ B.near u v < eps)) :
    ∀ (n i k : ℕ) (arr : List (R3.Vector F64)), (∀ v ∈ arr, v ∈ Vs) → filterLoopA A n i k arr = filterLoopA B n i k arr := by
  intro n
  induction n with
  | zero => intro i k arr _; rfl
  | succ n ih =>
    intro i k arr h
    unfold filterLoopA
    cases hi : arr[i]? with
    | none => rfl
    | some p =>
      have hp := h p (List.mem_of_getElem? hi)
      have hset : ∀ v ∈ arr.set k p, v ∈ Vs := by
        intro v hv
        rcases List.mem_or_eq_of_mem_set hv with h' | rfl
        · exact h v h'
        · exact hp
      have e1 := ih (i + 1) k arr h
      have e2 := ih (i + 1) (k + 1) (arr.set k p) hset
      simp only [e1, e2]
      cases i with
      | zero => rfl
      | succ j =>
        cases hj : arr[j]? with
        | none => simp only [hj]
        | some q =>
          have := H p hp q (h q (List.mem_of_getElem? hj))
          simp only [hj, this]

theorem filterLoopA_mem (A : HullArith) {Q : R3.Vector F64 → Prop} : ∀ (n i k : ℕ) (arr : List (R3.Vector F64)), (∀ v ∈ arr, Q v) →
    ∀ v ∈ filterLoopA A n i k arr, Q v := by
  intro n
  induction n with
  | zero => intro i k arr h v hv; exact h v (List.mem_of_mem_take hv)
  | succ n ih =>
    intro i k arr h v hv
    unfold filterLoopA at hv
    cases hi : arr[i]? with
    | none => rw [hi] at hv; exact h v (List.mem_of_mem_take hv)
    | some p =>
      rw [hi] at hv
      have pick : ∀ c : Bool, v ∈ (if c = true then filterLoopA A n (i + 1) k arr else filterLoopA A n (i + 1) (k + 1) (arr.set k p)) → Q v := by
        intro c hc
        cases c with
        | true => exact ih _ _ _ h v hc
        | false =>
          refine ih _ _ _ (fun w hw => ?_) v hc
          rcases List.mem_or_eq_of_mem_set hw with h' | rfl
          · exact h w h'
          · exact h _ (List.mem_of_getElem? hi)
      exact pick _ hv

/-- nothing is filtered out if no two points are near each other -/
theorem filterLoopA_id {A : HullArith} {arr : List (R3.Vector F64)} (H : ∀ q p, [q, p].Sublist arr → ¬ A.near p q < eps) :
    ∀ (n i : ℕ), i + n = arr.length → filterLoopA A n i i arr = arr := by
  intro n
  induction n with
  | zero => intro i h; unfold filterLoopA; rw [List.take_of_length_le (by omega)]
  | succ n ih =>
    intro i h
    have hi : i < arr.length := by omega
    unfold filterLoopA
    rw [List.getElem?_eq_getElem hi]
    have e : arr.set i arr[i] = arr := List.set_getElem_self hi
    have key := ih (i + 1) (by omega)
    dsimp only
    rw [e, key]
    cases i with
    | zero => rfl
    | succ j =>
      have hj : j < arr.length := by omega
      have hsub : [arr[j], arr[j + 1]].Sublist arr := by
        have h1 : arr.drop j = arr[j] :: arr.drop (j + 1) := List.drop_eq_getElem_cons hj
        have h2 : arr.drop (j + 1) = arr[j + 1] :: arr.drop (j + 2) := List.drop_eq_getElem_cons hi
        refine List.Sublist.trans ?_ (List.drop_sublist j arr)
        rw [h1, h2]
        exact List.Sublist.cons_cons _ (List.Sublist.cons_cons _ (List.nil_sublist _))
      have := H _ _ hsub
      simp only [List.getElem?_eq_getElem hj, this, decide_false, Bool.false_eq_true, if_false]

/-- the tests for three points -/
def SameTurns (A B : HullArith) (a b p : R3.Vector F64) : Prop := (0 < A.up a b p ↔ 0 < B.up a b p) ∧ (A.low a b p < 0 ↔ B.low a b p < 0)

theorem triple_sublist {a b p : R3.Vector F64} {rest l : List (R3.Vector F64)} (h : (b :: a :: rest).reverse.Sublist l) : [a, b, p].Sublist (l ++ [p]) := by
  have h1 : [a, b].Sublist (b :: a :: rest).reverse := by
    simp only [List.reverse_cons, List.append_assoc, List.singleton_append]
    exact List.sublist_append_right _ _
  exact (h1.trans h).append (List.Sublist.refl [p])

theorem popUA_congr {A B : HullArith} {p : R3.Vector F64} {l : List (R3.Vector F64)} (H : ∀ a b, [a, b, p].Sublist (l ++ [p]) → SameTurns A B a b p) :
    ∀ st : List (R3.Vector F64), st.reverse.Sublist l → popUA A p st = popUA B p st ∧ (popUA A p st).reverse.Sublist l := by
  intro st
  induction st with
  | nil => intro h; exact ⟨rfl, h⟩
  | cons b st ih =>
    intro h
    cases st with
    | nil => exact ⟨rfl, h⟩
    | cons a rest =>
      have hs : (a :: rest).reverse.Sublist l := by
        refine List.Sublist.trans ?_ h
        rw [List.reverse_cons (a := b)]; exact List.sublist_append_left _ _
      have ih' := ih hs
      have hc := (H a b (triple_sublist h)).1
      unfold popUA
      by_cases h0 : 0 < A.up a b p
      · rw [if_pos h0, if_pos (hc.mp h0)]; exact ih'
      · rw [if_neg h0, if_neg (fun h' => h0 (hc.mpr h'))]; exact ⟨rfl, h⟩

theorem popLA_congr {A B : HullArith} {p : R3.Vector F64} {l : List (R3.Vector F64)} (H : ∀ a b, [a, b, p].Sublist (l ++ [p]) → SameTurns A B a b p) :
    ∀ st : List (R3.Vector F64), st.reverse.Sublist l → popLA A p st = popLA B p st ∧ (popLA A p st).reverse.Sublist l := by
  intro st
  induction st with
  | nil => intro h; exact ⟨rfl, h⟩
  | cons b st ih =>
    intro h
    cases st with
    | nil => exact ⟨rfl, h⟩
    | cons a rest =>
      have hs : (a :: rest).reverse.Sublist l := by
        refine List.Sublist.trans ?_ h
        rw [List.reverse_cons (a := b)]; exact List.sublist_append_left _ _
      have ih' := ih hs
      have hc := (H a b (triple_sublist h)).2
      unfold popLA
      by_cases h0 : A.low a b p < 0
      · rw [if_pos h0, if_pos (hc.mp h0)]; exact ih'
      · rw [if_neg h0, if_neg (fun h' => h0 (hc.mpr h'))]; exact ⟨rfl, h⟩

theorem hullLoopA_aux {A B : HullArith} : ∀ (rest done : List (R3.Vector F64)) (st : List (R3.Vector F64) × List (R3.Vector F64)),
    (∀ a b p, [a, b, p].Sublist (done ++ rest) → SameTurns A B a b p) → st.1.reverse.Sublist done → st.2.reverse.Sublist done →
    rest.foldl (fun st p => (p :: popUA A p st.1, p :: popLA A p st.2)) st = rest.foldl (fun st p => (p :: popUA B p st.1, p :: popLA B p st.2)) st ∧
    (rest.foldl (fun st p => (p :: popUA A p st.1, p :: popLA A p st.2)) st).1.reverse.Sublist (done ++ rest) ∧
    (rest.foldl (fun st p => (p :: popUA A p st.1, p :: popLA A p st.2)) st).2.reverse.Sublist (done ++ rest) := by
  intro rest
  induction rest with
  | nil => intro done st _ h1 h2; simpa using ⟨h1, h2⟩
  | cons p rest ih =>
    intro done st H h1 h2
    have H' : ∀ a b, [a, b, p].Sublist (done ++ [p]) → SameTurns A B a b p := fun a b h =>
      H a b p (h.trans (by
        have : (done ++ [p]).Sublist ((done ++ [p]) ++ rest) := List.sublist_append_left _ _
        simpa using this))
    obtain ⟨u1, u2⟩ := popUA_congr H' st.1 h1
    obtain ⟨l1, l2⟩ := popLA_congr H' st.2 h2
    rw [List.foldl_cons, List.foldl_cons, ← u1, ← l1]
    have := ih (done ++ [p]) (p :: popUA A p st.1, p :: popLA A p st.2) (by simpa using H)
      (by rw [List.reverse_cons]; exact u2.append (List.Sublist.refl _)) (by rw [List.reverse_cons]; exact l2.append (List.Sublist.refl _))
    simpa using this

theorem hullLoopA_congr {A B : HullArith} {l : List (R3.Vector F64)} (H : ∀ a b p, [a, b, p].Sublist l → SameTurns A B a b p) : hullLoopA A l = hullLoopA B l :=
  (hullLoopA_aux l [] ([], []) (by simpa using H) (List.Sublist.refl _) (List.Sublist.refl _)).1

/-- C119: whatever the arithmetic, every point of the result is a point of the input -/
theorem C119_members (A : HullArith) (srt : List (R3.Vector F64) → List (R3.Vector F64)) (Vs : List (R3.Vector F64)) (hs : (srt Vs).Perm Vs) :
    ∀ p ∈ ConvexHullA A srt Vs, p ∈ Vs := by
  intro p hp
  have hd : ∀ v ∈ filterLoopA A (srt Vs).length 0 0 (srt Vs), v ∈ Vs := filterLoopA_mem A _ _ _ _ fun v hv => hs.subset hv
  obtain ⟨_, h1, h2⟩ := hullLoopA_aux (A := A) (B := A) (filterLoopA A (srt Vs).length 0 0 (srt Vs)) [] ([], [])
    (fun _ _ _ _ => ⟨Iff.rfl, Iff.rfl⟩) (List.Sublist.refl _) (List.Sublist.refl _)
  unfold ConvexHullA hullLoopA at hp
  dsimp only at hp
  rcases List.mem_append.mp hp with hp | hp
  · exact hd p (by simpa using h2.subset (List.mem_of_mem_dropLast hp))
  · exact hd p (by simpa using h1.subset (List.mem_reverse.mpr (List.mem_of_mem_dropLast hp)))

/-! ## Whole numbers -/

theorem whole_leaf {x : F64} (h : Whole (2^24) x) : (x.Finite ∧ ∃ n : ℤ, x.toQ = n) ∧ |x.toQ| ≤ 2 ^ 24 := by
  obtain ⟨f, n, e, l⟩ := h
  refine ⟨⟨f, n, e⟩, ?_⟩
  rw [e]; exact_mod_cast l

theorem near_whole {u v : R3.Vector F64} (hu : Whole (2^24) u.X ∧ Whole (2^24) u.Y ∧ Whole (2^24) u.Z) (hv : Whole (2^24) v.X ∧ Whole (2^24) v.Y ∧ Whole (2^24) v.Z)
    {r : F64} (h : Ev (R3.SquaredDistance (lf u) (lf v)) r) : r.Finite ∧ r.toQ = R3.SquaredDistance (exactV u) (exactV v) := by
  have a1 := whole_leaf hu.1; have a2 := whole_leaf hu.2.1; have a3 := whole_leaf hu.2.2
  have b1 := whole_leaf hv.1; have b2 := whole_leaf hv.2.1; have b3 := whole_leaf hv.2.2
  exact hom_exact (M := 2 ^ 24) (by norm_num) (e := R3.SquaredDistance (lf u) (lf v)) (c := 12) (d := 2) rfl (by norm_num)
    (by repeat' first | exact a1 | exact a2 | exact a3 | exact b1 | exact b2 | exact b3 | constructor) h

theorem cross_whole {a b c : R3.Vector F64} (ha : Whole (2^24) a.X ∧ Whole (2^24) a.Y ∧ Whole (2^24) a.Z) (hb : Whole (2^24) b.X ∧ Whole (2^24) b.Y ∧ Whole (2^24) b.Z)
    (hc : Whole (2^24) c.X ∧ Whole (2^24) c.Y ∧ Whole (2^24) c.Z)
    {r : F64} (h : Ev (cross2D (lf a) (lf b) (lf c)) r) : r.Finite ∧ r.toQ = cross2D (exactV a) (exactV b) (exactV c) := by
  have a1 := whole_leaf ha.1; have a2 := whole_leaf ha.2.1
  have b1 := whole_leaf hb.1; have b2 := whole_leaf hb.2.1
  have c1 := whole_leaf hc.1; have c2 := whole_leaf hc.2.1
  exact hom_exact (M := 2 ^ 24) (by norm_num) (e := cross2D (lf a) (lf b) (lf c)) (c := 8) (d := 2) rfl (by norm_num)
    (by repeat' first | exact a1 | exact a2 | exact b1 | exact b2 | exact c1 | exact c2 | constructor) h

theorem lt_same {x y z : F64} (hx : x.Finite) (hy : y.Finite) (hz : z.Finite) (e : x.toQ = y.toQ) : (x < z ↔ y < z) ∧ (z < x ↔ z < y) := by
  rw [lt_fin hx hz, lt_fin hy hz, lt_fin hz hx, lt_fin hz hy, e]; exact ⟨Iff.rfl, Iff.rfl⟩

theorem eps_finite : (eps : F64).Finite := by decide +kernel

/-- C119: for integer coordinates of size at most `2^24` every way of fusing gives the polygon of the plain code, so all that is proved about that polygon
(C75, C112, C116) is true of it -/
theorem C119_whole {A : HullArith} (hA : FusedHull A) (srt : List (R3.Vector F64) → List (R3.Vector F64)) (Vs : List (R3.Vector F64)) (hs : (srt Vs).Perm Vs)
    (h : IntCoords Vs) : ConvexHullA A srt Vs = ConvexHull srt Vs := by
  have z : (0:F64).Finite := trivial
  rw [← C119_plain]
  have e1 : filterLoopA A (srt Vs).length 0 0 (srt Vs) = filterLoopA .plain (srt Vs).length 0 0 (srt Vs) :=
    filterLoopA_congr (Vs := Vs) (fun u hu v hv => by
      obtain ⟨f1, v1⟩ := near_whole (h u hu) (h v hv) (hA.near u v)
      obtain ⟨f2, v2⟩ := near_whole (h u hu) (h v hv) (plainHull_fused.near u v)
      exact (lt_same f1 f2 eps_finite (v1.trans v2.symm)).1) _ _ _ _ fun v hv => hs.subset hv
  have e2 : hullLoopA A (filterLoopA .plain (srt Vs).length 0 0 (srt Vs)) = hullLoopA .plain (filterLoopA .plain (srt Vs).length 0 0 (srt Vs)) := by
    refine hullLoopA_congr fun a b p hsub => ?_
    have hm : ∀ v ∈ [a, b, p], v ∈ Vs := fun v hv => filterLoopA_mem .plain _ _ _ _ (fun v hv => hs.subset hv) v (hsub.subset hv)
    have ha := h a (hm a (by simp)); have hb := h b (hm b (by simp)); have hp := h p (hm p (by simp))
    obtain ⟨f1, v1⟩ := cross_whole ha hb hp (hA.up a b p)
    obtain ⟨f2, v2⟩ := cross_whole ha hb hp (hA.low a b p)
    obtain ⟨f3, v3⟩ := cross_whole ha hb hp (plainHull_fused.up a b p)
    obtain ⟨f4, v4⟩ := cross_whole ha hb hp (plainHull_fused.low a b p)
    exact ⟨(lt_same f1 f3 z (v1.trans v3.symm)).2, (lt_same f2 f4 z (v2.trans v4.symm)).1⟩
  unfold ConvexHullA
  simp only [e1, e2]

/-- C119: so the polygon goes through every boundary point exactly once -/
theorem C119_boundary {A : HullArith} (hA : FusedHull A) (srt : List (R3.Vector F64) → List (R3.Vector F64)) (Vs : List (R3.Vector F64)) (hs : SortsHullF srt Vs)
    (h : IntCoords Vs) (hf : Flat Vs) (hn : NotCollinear (Vs.map exactV)) : BoundaryPolygon (Vs.map exactV) ((ConvexHullA A srt Vs).map exactV) := by
  rw [C119_whole hA srt Vs hs.1 h]
  exact C75_boundary srt Vs hs h hf hn

/-! ## Margins -/

theorem bounded_leaf {M : ℚ} {v : R3.Vector F64} (h : Bounded3 M v) : (v.X.Finite ∧ |v.X.toQ| ≤ M) ∧ (v.Y.Finite ∧ |v.Y.toQ| ≤ M) ∧ (v.Z.Finite ∧ |v.Z.toQ| ≤ M) := h

theorem hom_error {M : ℚ} (h1 : 1 / 2 ^ 34 ≤ M) (h2 : M ≤ 2 ^ 34) {e : Expr F64} {c : ℕ} (he : homE e = some (c, 2)) (hc : c ≤ 12) (hk : cntE e ≤ 1000)
    (hl : LeavesE (fun x => x.Finite ∧ |x.toQ| ≤ M) e) {v : F64} (h : Ev e v) : v.Finite ∧ |v.toQ - valE e| ≤ ((1 + uro) ^ cntE e - 1) * (c * M ^ 2) := by
  have hM0 : 0 < M := lt_of_lt_of_le (by norm_num) h1
  obtain ⟨hp, hs, _, _, hr⟩ := homE_data (M := M) (C := 12) (D := 2) (R := fun P => (2:ℚ) ^ (-1022 : ℤ) ≤ P ∧ P ≤ 2 ^ 1000) (by
    intro c d c1 c2 d1 d2
    have c1' : (1:ℚ) ≤ c := by exact_mod_cast c1
    have c2' : (c:ℚ) ≤ 12 := by exact_mod_cast c2
    constructor
    · have l1 : ((1:ℚ) / 2 ^ 34) ^ d ≤ M ^ d := pow_le_pow_left₀ (by norm_num) h1 d
      have l2 : ((1:ℚ) / 2 ^ 34) ^ 2 ≤ (1 / 2 ^ 34) ^ d := pow_le_pow_of_le_one (by norm_num) (by norm_num) d2
      have l3 : M ^ d ≤ c * M ^ d := le_mul_of_one_le_left (by positivity) c1'
      have l4 : (2:ℚ) ^ (-1022 : ℤ) ≤ 2 ^ (-68 : ℤ) := zpow_le_zpow_right₀ (by norm_num) (by norm_num)
      have l5 : (2:ℚ) ^ (-68 : ℤ) = (1 / 2 ^ 34) ^ 2 := by norm_num
      exact l4.trans (l5.le.trans (l2.trans (l1.trans l3)))
    · have l1 : M ^ d ≤ ((2:ℚ) ^ 34) ^ d := pow_le_pow_left₀ hM0.le h2 d
      have l2 : ((2:ℚ) ^ 34) ^ d ≤ (2 ^ 34) ^ 2 := pow_le_pow_right₀ (by norm_num) d2
      have l3 : (c:ℚ) * M ^ d ≤ 12 * (2 ^ 34) ^ 2 := mul_le_mul c2' (l1.trans l2) (by positivity) (by norm_num)
      have l4 : (2:ℚ) ^ 100 ≤ 2 ^ 1000 := pow_le_pow_right₀ (by norm_num) (by norm_num)
      have l5 : (12:ℚ) * (2 ^ 34) ^ 2 ≤ 2 ^ 100 := by norm_num
      exact l3.trans (l5.trans l4)) he hc (le_refl _) (leaves_imp (fun _ h => h.2) hl)
  have := C100_error M hp (leaves_imp (fun _ h => h.1) hl) hr hk h
  rwa [hs] at this

section
variable {M : ℚ} (h1 : 1 / 2 ^ 34 ≤ M) (h2 : M ≤ 2 ^ 34) {a b c : R3.Vector F64} (ha : Bounded3 M a) (hb : Bounded3 M b) (hc : Bounded3 M c) {v : F64}
include h1 h2 ha hb

theorem near_error (h : Ev (R3.SquaredDistance (lf a) (lf b)) v) : v.Finite ∧ |v.toQ - R3.SquaredDistance (exactV a) (exactV b)| ≤ 66 / 2 ^ 53 * M ^ 2 := by
  obtain ⟨a1, a2, a3⟩ := bounded_leaf ha
  obtain ⟨b1, b2, b3⟩ := bounded_leaf hb
  have := hom_error h1 h2 (e := R3.SquaredDistance (lf a) (lf b)) (c := 12) rfl (by norm_num) (show 5 ≤ 1000 by norm_num)
    (by repeat' first | exact a1 | exact a2 | exact a3 | exact b1 | exact b2 | exact b3 | constructor) h
  refine ⟨this.1, this.2.trans ?_⟩
  have e : cntE (R3.SquaredDistance (lf a) (lf b)) = 5 := rfl
  rw [e, ← mul_assoc]
  exact mul_le_mul_of_nonneg_right (by unfold uro; norm_num) (by positivity)

include hc

theorem cross_error (h : Ev (cross2D (lf a) (lf b) (lf c)) v) : v.Finite ∧ |v.toQ - cross2D (exactV a) (exactV b) (exactV c)| ≤ 39 / 2 ^ 53 * M ^ 2 := by
  obtain ⟨a1, a2, a3⟩ := bounded_leaf ha
  obtain ⟨b1, b2, b3⟩ := bounded_leaf hb
  obtain ⟨c1, c2, c3⟩ := bounded_leaf hc
  have := hom_error h1 h2 (e := cross2D (lf a) (lf b) (lf c)) (c := 8) rfl (by norm_num) (show 4 ≤ 1000 by norm_num)
    (by repeat' first | exact a1 | exact a2 | exact b1 | exact b2 | exact c1 | exact c2 | constructor) h
  refine ⟨this.1, this.2.trans ?_⟩
  have e : cntE (cross2D (lf a) (lf b) (lf c)) = 4 := rfl
  rw [e, ← mul_assoc]
  exact mul_le_mul_of_nonneg_right (by unfold uro; norm_num) (by positivity)

end

/-- a value close to `X`, which is further from zero than the error, has the sign of `X` -/
theorem sign_same {v : F64} {X E : ℚ} (hv : v.Finite) (h : |v.toQ - X| ≤ E) (hE : E < |X|) : ((0:F64) < v ↔ 0 < X) ∧ (v < 0 ↔ X < 0) := by
  have z : (0:F64).Finite := trivial
  have z' : (0:F64).toQ = 0 := rfl
  rw [lt_fin z hv, lt_fin hv z, z']
  obtain ⟨k1, k2⟩ := abs_le.mp h
  rcases lt_abs.mp hE with h0 | h0
  · have := (abs_nonneg _).trans h
    exact ⟨⟨fun _ => by linarith, fun _ => by linarith⟩, ⟨fun _ => by linarith, fun _ => by linarith⟩⟩
  · have := (abs_nonneg _).trans h
    exact ⟨⟨fun _ => by linarith, fun _ => by linarith⟩, ⟨fun _ => by linarith, fun _ => by linarith⟩⟩

/-- C119: for points at different places that keep the margins of C84, every way of fusing gives the polygon of the plain code; so C84 is true of it -/
theorem C119_margin {A : HullArith} (hA : FusedHull A) (srt : List (R3.Vector F64) → List (R3.Vector F64)) (Vs : List (R3.Vector F64)) (hs : (srt Vs).Perm Vs)
    {M : ℚ} (H : HullMargin Vs M) (hd : (Vs.map exactV).Nodup) : ConvexHullA A srt Vs = ConvexHull srt Vs := by
  rw [← C119_plain]
  have hnd : ((srt Vs).map exactV).Nodup := (hs.map exactV).nodup_iff.mpr hd
  have ne2 : ∀ {q p}, [q, p].Sublist (srt Vs) → q ∈ Vs ∧ p ∈ Vs ∧ exactV p ≠ exactV q := fun {q p} h => by
    have hn := hnd.sublist (h.map exactV)
    simp only [List.map_cons, List.map_nil, List.nodup_cons, List.mem_singleton] at hn
    exact ⟨hs.subset (h.subset (by simp)), hs.subset (h.subset (by simp)), fun e => hn.1 e.symm⟩
  have far : ∀ {B : HullArith}, FusedHull B → filterLoopA B (srt Vs).length 0 0 (srt Vs) = srt Vs := fun {B} hB => by
    refine filterLoopA_id (fun q p hsub hlt => ?_) _ 0 (by omega)
    obtain ⟨hq, hp, hne⟩ := ne2 hsub
    obtain ⟨f, e⟩ := near_error H.low H.high (H.size p hp) (H.size q hq) (hB.near p q)
    have hm := (H.apart p hp q hq hne).2
    rw [lt_fin f eps_finite] at hlt
    have he : (eps : F64).toQ = 1 / 2 ^ 52 := by decide +kernel
    have hX : R3.SquaredDistance (exactV p) (exactV q) = (p.X.toQ - q.X.toQ) ^ 2 + (p.Y.toQ - q.Y.toQ) ^ 2 + (p.Z.toQ - q.Z.toQ) ^ 2 := by
      show (p.X.toQ - q.X.toQ) * (p.X.toQ - q.X.toQ) + (p.Y.toQ - q.Y.toQ) * (p.Y.toQ - q.Y.toQ) + (p.Z.toQ - q.Z.toQ) * (p.Z.toQ - q.Z.toQ) = _
      ring
    rw [hX] at e
    rw [he] at hlt
    have := (abs_le.mp e).1
    linarith
  have e2 : hullLoopA A (srt Vs) = hullLoopA .plain (srt Vs) := by
    refine hullLoopA_congr fun a b p hsub => ?_
    have hn := hnd.sublist (hsub.map exactV)
    simp only [List.map_cons, List.map_nil, List.nodup_cons, List.mem_cons, List.mem_singleton, List.not_mem_nil, or_false, not_or] at hn
    have ha : a ∈ Vs := hs.subset (hsub.subset (by simp))
    have hb : b ∈ Vs := hs.subset (hsub.subset (by simp))
    have hp : p ∈ Vs := hs.subset (hsub.subset (by simp))
    have hm := H.line a ha b hb p hp hn.1.1 hn.2.1 (fun e => hn.1.2 e.symm)
    have hm' : 39 / 2 ^ 53 * M ^ 2 < |cross2D (exactV a) (exactV b) (exactV p)| := hm
    have er : ∀ {v}, Ev (cross2D (lf a) (lf b) (lf p)) v → _ := fun h => cross_error H.low H.high (H.size a ha) (H.size b hb) (H.size p hp) h
    have k1 := er (hA.up a b p)
    have k2 := er (hA.low a b p)
    have k3 := er (plainHull_fused.up a b p)
    have k4 := er (plainHull_fused.low a b p)
    exact ⟨(sign_same k1.1 k1.2 hm').1.trans (sign_same k3.1 k3.2 hm').1.symm, (sign_same k2.1 k2.2 hm').2.trans (sign_same k4.1 k4.2 hm').2.symm⟩
  unfold ConvexHullA
  simp only [far hA, far plainHull_fused, e2]

/-! ## Bowyer-Watson -/

/-- C119: with nothing fused `bowyerWatsonA` is `bowyerWatson` -/
theorem C119_bowyer_plain (s : Sched) (points : List (R3.Vector F64)) : bowyerWatsonA .plain s points = bowyerWatson s points := rfl

/-- C119: for any arithmetic the run does not panic, every index of the result is that of an input point and the three indices of a triangle differ -/
theorem C119_bowyer_indices (A : MeshArith) (s : Sched) (hs : s.WF) (points : List (R3.Vector F64)) :
    ∃ tris : List (Int × Int × Int), bowyerWatsonA A s points = .ok (flatInt tris) ∧
      ∀ a b c, (a, b, c) ∈ tris → (∀ i ∈ [a, b, c], 0 ≤ i ∧ i < points.length) ∧ [a, b, c].Nodup :=
  C36_indices _ s hs (englobeA A points) points rfl

theorem nonneg_same {v : F64} {X E : ℚ} (hv : v.Finite) (h : |v.toQ - X| ≤ E) (hE : E < |X|) : decide ((0:F64) ≤ v) = decide (0 ≤ X) := by
  rw [le_fin' hv]
  obtain ⟨k1, k2⟩ := abs_le.mp h
  have := (abs_nonneg _).trans h
  rw [decide_eq_decide]
  rcases lt_abs.mp hE with h0 | h0
  · exact ⟨fun _ => by linarith, fun _ => by linarith⟩
  · exact ⟨fun _ => by linarith, fun _ => by linarith⟩

/-- C119: if the exact determinants of all tests the run may make exceed the error bound, the fused run takes the decisions of exact arithmetic from the same
super-tetrahedron -/
theorem C119_bowyer_margin {A : MeshArith} (hA : FusedMesh A) {M : ℚ} (h1 : (2:ℚ) ^ (-200 : ℤ) ≤ M) (h2 : M ≤ 2 ^ 190) (s : Sched) (hs : s.WF)
    (points : List (R3.Vector F64)) (h : ∀ p ∈ englobeA A points, BoundedV M p)
    (hD : ∀ m p, points[m]? = some p → ∀ i j k l : ℕ, i < m + 4 → j < m + 4 → k < m + 4 → l < m + 4 → [i, j, k, l].Nodup →
      ∀ a b c d, (englobeA A points)[i]? = some a → (englobeA A points)[j]? = some b → (englobeA A points)[k]? = some c → (englobeA A points)[l]? = some d →
        39168 * uro * M ^ 5 < |InSphereFast (exactV a) (exactV b) (exactV c) (exactV d) (exactV p)|) :
    bowyerWatsonA A s points =
      bowyerWatsonWith (fun a b c d e => decide ((0 : ℚ) ≤ InSphereFast a b c d e)) s ((englobeA A points).map exactV) (points.map exactV) := by
  refine C93_tests _ _ exactV s hs _ points rfl (fun m p hp i j k l hi hj hk hl hn a b c d ha hb hc hd => ?_)
  have hp' : p ∈ englobeA A points := by
    unfold englobeA
    simp only [List.mem_cons]
    exact Or.inr (Or.inr (Or.inr (Or.inr (List.mem_of_getElem? hp))))
  obtain ⟨f, e⟩ := C100_inSphereFast h1 h2 (h _ (List.mem_of_getElem? ha)) (h _ (List.mem_of_getElem? hb)) (h _ (List.mem_of_getElem? hc))
    (h _ (List.mem_of_getElem? hd)) (h _ hp') (hA.sphere a b c d p)
  exact nonneg_same f e (hD m p hp i j k l hi hj hk hl hn a b c d ha hb hc hd)

/-- a corner of the super-tetrahedron, however fused -/
theorem corner_whole {mn mx v : F64} (h : Ev (Expr.leaf mn + 3 * (Expr.leaf mx - Expr.leaf mn)) v) {n m : ℤ} (hn : Ex mn n 36) (hm : Ex mx m 36) :
    Ex v (n + 3 * (m - n)) 252 := by
  have t : All (3 : Expr F64) 3 3 := .leaf ⟨trivial, by rw [three_fin.2]; norm_num, by norm_num⟩
  have s := All.mul t (.sub (.leaf hm) (.leaf hn) (by norm_num)) (by norm_num)
  exact All.ex h (.add (.leaf hn) s (by norm_num))

theorem sphere_whole {a b c d e : R3.Vector F64} {v : F64} (H : ∀ w ∈ [a, b, c, d, e], Grid3 256 0 w)
    (h : Ev (InSphereFast (lf a) (lf b) (lf c) (lf d) (lf e)) v) : v.Finite ∧ v.toQ = InSphereFast (exactV a) (exactV b) (exactV c) (exactV d) (exactV e) := by
  have key : ∀ w ∈ [a, b, c, d, e], ∀ x ∈ [w.X, w.Y, w.Z], (x.Finite ∧ ∃ n : ℤ, x.toQ = n) ∧ |x.toQ| ≤ 256 := by
    intro w hw x hx
    obtain ⟨f, n, hn, e⟩ := H w hw x hx
    rw [zpow_zero, mul_one] at e
    refine ⟨⟨f, n, e⟩, ?_⟩
    rw [e]; exact_mod_cast hn
  have ha := key a (by simp); have hb := key b (by simp); have hc := key c (by simp); have hd := key d (by simp); have he := key e (by simp)
  have a1 := ha a.X (by simp); have a2 := ha a.Y (by simp); have a3 := ha a.Z (by simp)
  have b1 := hb b.X (by simp); have b2 := hb b.Y (by simp); have b3 := hb b.Z (by simp)
  have c1 := hc c.X (by simp); have c2 := hc c.Y (by simp); have c3 := hc c.Z (by simp)
  have d1 := hd d.X (by simp); have d2 := hd d.Y (by simp); have d3 := hd d.Z (by simp)
  have e1 := he e.X (by simp); have e2 := he e.Y (by simp); have e3 := he e.Z (by simp)
  let P : Expr F64 → Prop := LeavesE (fun x => (x.Finite ∧ ∃ n : ℤ, x.toQ = n) ∧ |x.toQ| ≤ 256)
  have mul : ∀ {x y}, P x → P y → P (x * y) := fun h1 h2 => ⟨h1, h2⟩
  have add : ∀ {x y}, P x → P y → P (x + y) := fun h1 h2 => ⟨h1, h2⟩
  have sub : ∀ {x y}, P x → P y → P (x - y) := fun h1 h2 => ⟨h1, h2⟩
  have aex : P ((lf a).X - (lf e).X) := ⟨a1, e1⟩
  have bex : P ((lf b).X - (lf e).X) := ⟨b1, e1⟩
  have cex : P ((lf c).X - (lf e).X) := ⟨c1, e1⟩
  have dex : P ((lf d).X - (lf e).X) := ⟨d1, e1⟩
  have aey : P ((lf a).Y - (lf e).Y) := ⟨a2, e2⟩
  have bey : P ((lf b).Y - (lf e).Y) := ⟨b2, e2⟩
  have cey : P ((lf c).Y - (lf e).Y) := ⟨c2, e2⟩
  have dey : P ((lf d).Y - (lf e).Y) := ⟨d2, e2⟩
  have aez : P ((lf a).Z - (lf e).Z) := ⟨a3, e3⟩
  have bez : P ((lf b).Z - (lf e).Z) := ⟨b3, e3⟩
  have cez : P ((lf c).Z - (lf e).Z) := ⟨c3, e3⟩
  have dez : P ((lf d).Z - (lf e).Z) := ⟨d3, e3⟩
  have ab := sub (mul aex bey) (mul bex aey)
  have bc := sub (mul bex cey) (mul cex bey)
  have cd := sub (mul cex dey) (mul dex cey)
  have da := sub (mul dex aey) (mul aex dey)
  have ac := sub (mul aex cey) (mul cex aey)
  have bd := sub (mul bex dey) (mul dex bey)
  have abc := add (sub (mul aez bc) (mul bez ac)) (mul cez ab)
  have bcd := add (sub (mul bez cd) (mul cez bd)) (mul dez bc)
  have cda := add (add (mul cez da) (mul dez ac)) (mul aez cd)
  have dab := add (add (mul dez ab) (mul aez bd)) (mul bez da)
  have al := add (add (mul aex aex) (mul aey aey)) (mul aez aez)
  have bl := add (add (mul bex bex) (mul bey bey)) (mul bez bez)
  have cl := add (add (mul cex cex) (mul cey cey)) (mul cez cez)
  have dl := add (add (mul dex dex) (mul dey dey)) (mul dez dez)
  have all := add (sub (mul cl dab) (mul dl abc)) (sub (mul al bcd) (mul bl cda))
  have h1 : homE (InSphereFast (lf a) (lf b) (lf c) (lf d) (lf e)) = some (2304, 5) := rfl
  exact hom_exact (M := 256) (by norm_num) h1 (by norm_num) all h

/-- C119: when the coordinates are integers of size at most 36 every way of fusing gives the triangles of the run in exact arithmetic, and of the plain code -/
theorem C119_bowyer_whole {A : MeshArith} (hA : FusedMesh A) (s : Sched) (hs : s.WF) (points : List (R3.Vector F64)) (h : ∀ p ∈ points, Grid3 36 0 p) :
    bowyerWatsonA A s points = bowyerWatson s (points.map exactV) ∧ bowyerWatsonA A s points = bowyerWatson s points := by
  suffices key : bowyerWatsonA A s points = bowyerWatson s (points.map exactV) from
    ⟨key, key.trans (C93_grid (e := 0) (by norm_num) (by norm_num) s hs points h).symm⟩
  rcases eq_or_ne points [] with rfl | hne
  · rfl
  have hf : ∀ p ∈ points, AllFin p := fun p hp => ⟨(h p hp p.X (by simp)).1, (h p hp p.Y (by simp)).1, (h p hp p.Z (by simp)).1⟩
  have coord : ∀ p ∈ points, ∀ x ∈ [p.X, p.Y, p.Z], ∃ n : ℤ, |n| ≤ (36 : ℕ) ∧ x.toQ = n := fun p hp x hx => by
    obtain ⟨_, n, hn, e⟩ := h p hp x hx
    exact ⟨n, hn, by rw [e, zpow_zero, mul_one]⟩
  obtain ⟨⟨⟨q1, q2, q3⟩, q4, q5, q6⟩, _⟩ := extremas_in points hne hf (fun q => ∃ n : ℤ, |n| ≤ (36 : ℕ) ∧ q = n) (by
      rintro q ⟨n, hn, rfl⟩
      have hn' : |(n:ℚ)| ≤ 36 := by exact_mod_cast hn
      refine hn'.trans ?_
      calc (36:ℚ) ≤ (2 ^ 53 - 1) * 1 := by norm_num
        _ ≤ (2 ^ 53 - 1) * 2 ^ 971 := mul_le_mul_of_nonneg_left (one_le_pow₀ (by norm_num)) (by norm_num)
        _ = maxFloat64 := rfl)
    (fun p hp => ⟨coord p hp p.X (by simp), coord p hp p.Y (by simp), coord p hp p.Z (by simp)⟩)
  obtain ⟨fn, fx, e1, e2⟩ := C83_extremas points hf
  have co : ∀ {mn mx v : F64}, mn.Finite → mx.Finite → (∃ n : ℤ, |n| ≤ (36 : ℕ) ∧ mn.toQ = n) → (∃ n : ℤ, |n| ≤ (36 : ℕ) ∧ mx.toQ = n) →
      Ev (Expr.leaf mn + 3 * (Expr.leaf mx - Expr.leaf mn)) v →
      (v.Finite ∧ ∃ n : ℤ, |n| ≤ (256 : ℕ) ∧ v.toQ = n * 2 ^ (0:ℤ)) ∧ v.toQ = mn.toQ + 3 * (mx.toQ - mn.toQ) := by
    rintro mn mx v f1 f2 ⟨n, hn, e1⟩ ⟨m, hm, e2⟩ hv
    have r := corner_whole hv ⟨f1, e1, hn⟩ ⟨f2, e2, hm⟩
    exact ⟨⟨r.fin, _, r.le.trans (by norm_num), by rw [r.val, zpow_zero, mul_one]⟩, by rw [r.val, e1, e2]; push_cast; ring⟩
  have wk : ∀ {x : F64}, x.Finite → (∃ n : ℤ, |n| ≤ (36 : ℕ) ∧ x.toQ = n) → x.Finite ∧ ∃ n : ℤ, |n| ≤ (256 : ℕ) ∧ x.toQ = n * 2 ^ (0:ℤ) :=
    fun f ⟨n, hn, e⟩ => ⟨f, n, hn.trans (by norm_num), by rw [e, zpow_zero, mul_one]⟩
  obtain ⟨gx, ex⟩ := co fn.1 fx.1 q1 q4 (hA.xtetra (findExtremas points))
  obtain ⟨gy, ey⟩ := co fn.2.1 fx.2.1 q2 q5 (hA.ytetra (findExtremas points))
  obtain ⟨gz, ez⟩ := co fn.2.2 fx.2.2 q3 q6 (hA.ztetra (findExtremas points))
  have wx := wk fn.1 q1
  have wy := wk fn.2.1 q2
  have wz := wk fn.2.2 q3
  have g3 : ∀ {x y z : F64}, (x.Finite ∧ ∃ n : ℤ, |n| ≤ (256 : ℕ) ∧ x.toQ = n * 2 ^ (0:ℤ)) → (y.Finite ∧ ∃ n : ℤ, |n| ≤ (256 : ℕ) ∧ y.toQ = n * 2 ^ (0:ℤ)) →
      (z.Finite ∧ ∃ n : ℤ, |n| ≤ (256 : ℕ) ∧ z.toQ = n * 2 ^ (0:ℤ)) → Grid3 256 0 ⟨x, y, z⟩ := by
    intro x y z hx hy hz w hw
    simp only [List.mem_cons, List.not_mem_nil, or_false] at hw
    rcases hw with rfl | rfl | rfl <;> assumption
  have gp : ∀ p ∈ points, Grid3 256 0 p := fun p hp x hx => by
    obtain ⟨f, n, hn, e⟩ := h p hp x hx
    exact ⟨f, n, hn.trans (by norm_num), e⟩
  have gE : ∀ p ∈ englobeA A points, Grid3 256 0 p := by
    intro p hp
    change p ∈ _ :: _ :: _ :: _ :: points at hp
    simp only [List.mem_cons] at hp
    rcases hp with rfl | rfl | rfl | rfl | hp
    · exact g3 wx wy wz
    · exact g3 gx wy wz
    · exact g3 wx gy wz
    · exact g3 wx wy gz
    · exact gp p hp
  have mE : (englobeA A points).map exactV = (englobe (points.map exactV)).1 := by
    simp only [englobeA, englobe, computerInitialTetraPoints, List.map_cons, ← e1, ← e2]
    congr 1
    simp only [exactV, ex, ey, ez]
  unfold bowyerWatsonA bowyerWatson
  rw [← mE]
  refine C93_tests _ _ exactV s hs _ points rfl (fun m p hp i j k l _ _ _ _ _ a b c d ha hb hc hd => ?_)
  have hg : ∀ v ∈ [a, b, c, d, p], Grid3 256 0 v := by
    intro v hv
    simp only [List.mem_cons, List.not_mem_nil, or_false] at hv
    rcases hv with rfl | rfl | rfl | rfl | rfl
    · exact gE _ (List.mem_of_getElem? ha)
    · exact gE _ (List.mem_of_getElem? hb)
    · exact gE _ (List.mem_of_getElem? hc)
    · exact gE _ (List.mem_of_getElem? hd)
    · exact gp _ (List.mem_of_getElem? hp)
  obtain ⟨f, v⟩ := sphere_whole hg (hA.sphere a b c d p)
  rw [le_fin' f, v]

/-! ## Cases -/

/-- three points on the line `y = x` -/
def lineOfThree : List (R3.Vector F64) :=
  [⟨GoConst.const 0, GoConst.const 0, GoConst.const 0⟩, ⟨GoConst.const (1 / 10), GoConst.const (1 / 10), GoConst.const 0⟩,
    ⟨GoConst.const (3 / 10), GoConst.const (3 / 10), GoConst.const 0⟩]

/-- C119: without margins fusing changes the polygon: the plain code finds that three points on `y = x` are on one line and goes through the middle one
twice, the fused code sees the rounding error of one of the products and goes through it once -/
theorem C119_differs : SortsHullF (fun l => l) lineOfThree ∧ (ConvexHull (fun l => l) lineOfThree).length = 4 ∧ (ConvexHullA .fused (fun l => l) lineOfThree).length = 3 :=
  ⟨⟨List.Perm.refl _, by decide +kernel⟩, by decide +kernel, by decide +kernel⟩

/-- the corners of a wide square, with everything fused -/
example : BoundaryPolygon (wideSquare.map exactV) ((ConvexHullA .fused (fun l => l) wideSquare).map exactV) :=
  C119_boundary fusedHull_fused _ _ ⟨List.Perm.refl _, by decide +kernel⟩ wideSquare_int (by decide +kernel)
    ⟨⟨-16777216, -16777216, 0⟩, by decide +kernel, ⟨-16777216, 16777216, 0⟩, by decide +kernel, ⟨0, -16777216, 0⟩, by decide +kernel, by decide +kernel⟩

/-- decimal fractions, with everything fused -/
example : ConvexHullA .fused (fun l => l) decimals = ConvexHull (fun l => l) decimals :=
  C119_margin fusedHull_fused _ _ (List.Perm.refl _) decimals_margin (by decide +kernel)

/-- four points, with everything fused -/
example : bowyerWatsonA .fused schedId [⟨flt 1 0, flt 2 0, flt 3 0⟩, ⟨flt (-4) 0, flt 0 0, flt 7 0⟩, ⟨flt 36 0, flt (-36) 0, flt 5 0⟩, ⟨flt 3 0, flt 9 0, flt (-5) 0⟩] =
    bowyerWatson schedId [⟨flt 1 0, flt 2 0, flt 3 0⟩, ⟨flt (-4) 0, flt 0 0, flt 7 0⟩, ⟨flt 36 0, flt (-36) 0, flt 5 0⟩, ⟨flt 3 0, flt 9 0, flt (-5) 0⟩] := by
  have key : ∀ p ∈ ([⟨flt 1 0, flt 2 0, flt 3 0⟩, ⟨flt (-4) 0, flt 0 0, flt 7 0⟩, ⟨flt 36 0, flt (-36) 0, flt 5 0⟩, ⟨flt 3 0, flt 9 0, flt (-5) 0⟩] : List (R3.Vector F64)),
      ∀ x ∈ [p.X, p.Y, p.Z], x.Finite ∧ |x.toQ.num| ≤ (36 : ℕ) ∧ x.toQ = (x.toQ.num : ℚ) := by decide +kernel
  refine (C119_bowyer_whole fusedMesh_fused schedId ⟨fun _ _ => List.Perm.refl _, fun _ _ => List.Perm.refl _, fun _ => List.Perm.refl _⟩ _ ?_).2
  intro p hp x hx
  obtain ⟨f, b, e⟩ := key p hp x hx
  exact ⟨f, x.toQ.num, b, by rw [zpow_zero, mul_one]; exact e⟩

/-- two points that keep the margin, with everything fused -/
example : bowyerWatsonA .fused schedId twoPts =
    bowyerWatsonWith (fun a b c d e => decide ((0 : ℚ) ≤ InSphereFast a b c d e)) schedId ((englobeA .fused twoPts).map exactV) (twoPts.map exactV) := by
  have wf : schedId.WF := ⟨fun _ _ => List.Perm.refl _, fun _ _ => List.Perm.refl _, fun _ => List.Perm.refl _⟩
  have chk : ∀ m ∈ List.range 2, ∀ i ∈ List.range (m + 4), ∀ j ∈ List.range (m + 4), ∀ k ∈ List.range (m + 4), ∀ l ∈ List.range (m + 4), [i, j, k, l].Nodup →
      39168 * uro * 16 ^ 5 < |InSphereFast (exactV (fpt (englobeA .fused twoPts) i)) (exactV (fpt (englobeA .fused twoPts) j)) (exactV (fpt (englobeA .fused twoPts) k))
        (exactV (fpt (englobeA .fused twoPts) l)) (exactV (fpt twoPts m))| := by decide +kernel
  have get : ∀ (L : List (R3.Vector F64)) (i : ℕ) a, L[i]? = some a → fpt L i = a := by
    intro L i a h
    simp [fpt, List.getD, h]
  refine C119_bowyer_margin fusedMesh_fused (M := 16) (by norm_num) (by norm_num) schedId wf twoPts (by unfold BoundedV; decide +kernel) ?_
  intro m p hp i j k l hi hj hk hl hn a b c d ha hb hc hd
  have hm : m < 2 := by
    by_contra h
    rw [List.getElem?_eq_none (by simp [twoPts]; omega)] at hp
    cases hp
  have := chk m (List.mem_range.mpr hm) i (List.mem_range.mpr hi) j (List.mem_range.mpr hj) k (List.mem_range.mpr hk) l (List.mem_range.mpr hl) hn
  rwa [get _ _ _ ha, get _ _ _ hb, get _ _ _ hc, get _ _ _ hd, get _ _ _ hp] at this

end Verif.Props
