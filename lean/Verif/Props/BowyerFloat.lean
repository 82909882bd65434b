import Verif.Props.BowyerWatson
import Verif.Props.VolFloat
import Verif.Props.EnglobeFloat
/-!
# C93: Bowyer-Watson at binary64
-/
namespace Verif.Props
open Verif Verif.F64 Verif.Proofs Verif.Meshing Verif.Predicates Verif.R3

/-! ## The run depends on the coordinates only through the tests it makes -/

theorem isBad_map {P Q : Type} (test : P → P → P → P → P → Bool) (test' : Q → Q → Q → Q → Q → Bool) (f : P → Q) (E : List P) (n : ℕ) (p : P)
    (h : ∀ i j k l : ℕ, i < n → j < n → k < n → l < n → [i, j, k, l].Nodup → ∀ a b c d, E[i]? = some a → E[j]? = some b → E[k]? = some c → E[l]? = some d →
      test a b c d p = test' (f a) (f b) (f c) (f d) (f p)) (t : Tetra) (ht : ValidTetra n t) :
    isBad test E p t = isBad test' (E.map f) (f p) t := by
  obtain ⟨hr, hn⟩ := ht
  simp only [List.mem_cons, List.not_mem_nil, or_false, forall_eq_or_imp, forall_eq, List.nodup_cons, not_or, List.nodup_nil, and_true,
    not_false_eq_true] at hr hn
  have key := h t.ia.toNat t.ib.toNat t.ic.toNat t.id.toNat (by omega) (by omega) (by omega) (by omega) (by
    simp only [List.mem_cons, List.not_mem_nil, or_false, List.nodup_cons, not_or, List.nodup_nil, and_true, not_false_eq_true]
    omega)
  unfold isBad
  simp only [List.getElem?_map]
  cases ha : E[t.ia.toNat]? with
  | none => rfl
  | some a =>
    cases hb : E[t.ib.toNat]? with
    | none => rfl
    | some b =>
      cases hc : E[t.ic.toNat]? with
      | none => rfl
      | some c =>
        cases hd : E[t.id.toNat]? with
        | none => rfl
        | some d => exact key a b c d ha hb hc hd

theorem bwLoop_map {P Q : Type} (test : P → P → P → P → P → Bool) (test' : Q → Q → Q → Q → Q → Bool) (f : P → Q) (s : Sched) (hs : s.WF) (E ps : List P) :
    ∀ (n : ℕ) (t : Tetrahedrisation), Good t → ValidMesh (n+4) t → n + 4 + ps.length ≤ E.length →
      (∀ m p, ps[m]? = some p → ∀ i j k l : ℕ, i < n + m + 4 → j < n + m + 4 → k < n + m + 4 → l < n + m + 4 → [i, j, k, l].Nodup →
        ∀ a b c d, E[i]? = some a → E[j]? = some b → E[k]? = some c → E[l]? = some d → test a b c d p = test' (f a) (f b) (f c) (f d) (f p)) →
      bwLoop test s E (ps.zipIdx n) t = bwLoop test' s (E.map f) ((ps.map f).zipIdx n) t := by
  induction ps with
  | nil => intro n t g v _ _; rfl
  | cons p ps ih =>
    intro n t g v hl h
    rw [List.length_cons] at hl
    obtain ⟨t1, e1, g1, m1⟩ := bwStep_spec test s hs E t g (v.mono (by omega)) n p
    have v1 := bwStep_valid test E t t1 g n v p m1
    have vs : ValidMesh (n + 4) (s.tetras n t) := fun kv hk => v kv ((hs.1 n t).subset hk)
    have fb : findBad test E p (s.tetras n t) = findBad test' (E.map f) (f p) (s.tetras n t) := by
      rw [findBad_spec test E p _ (vs.mono (by omega)), findBad_spec test' (E.map f) (f p) _ (vs.mono (by rw [List.length_map]; omega))]
      congr 1
      apply List.filter_congr
      intro w hw
      obtain ⟨kv, hk, rfl⟩ := List.mem_map.mp hw
      exact isBad_map test test' f E (n + 4) p (h 0 p (by simp)) kv.2 (vs kv hk)
    have st : bwStep test s E t n p = bwStep test' s (E.map f) t n (f p) := by unfold bwStep; rw [fb]
    rw [List.map_cons, List.zipIdx_cons, List.zipIdx_cons, bwLoop, bwLoop, ← st, e1, Res.bind_ok, Res.bind_ok]
    refine ih (n+1) t1 g1 (v1.mono (by omega)) (by omega) (fun m q hq i j k l hi hj hk hl => ?_)
    exact h (m+1) q (by simpa using hq) i j k l (by omega) (by omega) (by omega) (by omega)

/-- C93: two runs whose in-sphere tests agree return the same triangles; only tests of point `m` against four different entries among the super-tetrahedron
and the points before `m` matter -/
theorem C93_tests {P Q : Type} (test : P → P → P → P → P → Bool) (test' : Q → Q → Q → Q → Q → Bool) (f : P → Q) (s : Sched) (hs : s.WF) (E ps : List P)
    (hl : E.length = ps.length + 4)
    (h : ∀ m p, ps[m]? = some p → ∀ i j k l : ℕ, i < m + 4 → j < m + 4 → k < m + 4 → l < m + 4 → [i, j, k, l].Nodup →
        ∀ a b c d, E[i]? = some a → E[j]? = some b → E[k]? = some c → E[l]? = some d → test a b c d p = test' (f a) (f b) (f c) (f d) (f p)) :
    bowyerWatsonWith test s E ps = bowyerWatsonWith test' s (E.map f) (ps.map f) := by
  unfold bowyerWatsonWith
  dsimp only
  rw [bwLoop_map test test' f s hs E ps 0 _ good_initial valid_initial (by omega) (by simpa using h)]

/-- C93: for any float64 coordinates, not-a-number and infinities included, the run does not panic, every index of the result is that of an input point and
the three indices of a triangle differ -/
theorem C93_indices (s : Sched) (hs : s.WF) (points : List (R3.Vector F64)) :
    ∃ tris : List (Int × Int × Int), bowyerWatson s points = .ok (flatInt tris) ∧
      ∀ a b c, (a, b, c) ∈ tris → (∀ i ∈ [a, b, c], 0 ≤ i ∧ i < points.length) ∧ [a, b, c].Nodup :=
  C36_indices _ s hs (englobe points).1 points rfl

/-- C93: for any float64 coordinates the order in which Go visits the maps changes only the order of the tetrahedra whose faces are listed -/
theorem C93_order (s s' : Sched) (hs : s.WF) (hs' : s'.WF) (points : List (R3.Vector F64)) :
    ∃ T T' : List Tetra, T.Perm T' ∧ bowyerWatson s points = .ok (flatInt (T.flatMap meshTris)) ∧
      bowyerWatson s' points = .ok (flatInt (T'.flatMap meshTris)) :=
  C35_order _ s s' hs hs' (englobe points).1 points rfl

theorem le_fin' {x : F64} (h : x.Finite) : decide ((0 : F64) ≤ x) = decide ((0:ℚ) ≤ x.toQ) := by
  have z0 : (0 : F64).Finite := trivial
  have := le_fin z0 h
  exact decide_eq_decide.mpr this

/-- C93: when the coordinates are multiples of `2^e` by integers of size at most 36 the whole float64 run, super-tetrahedron and tests, gives the result of
the run in exact arithmetic -/
theorem C93_grid {e : ℤ} (h1 : -200 ≤ e) (h2 : e ≤ 160) (s : Sched) (hs : s.WF) (points : List (R3.Vector F64)) (h : ∀ p ∈ points, Grid3 36 e p) :
    bowyerWatson s points = bowyerWatson s (points.map exactV) := by
  rcases eq_or_ne points [] with rfl | hne
  · rfl
  have hf : ∀ p ∈ points, AllFin p := fun p hp => ⟨(h p hp p.X (by simp)).1, (h p hp p.Y (by simp)).1, (h p hp p.Z (by simp)).1⟩
  obtain ⟨⟨⟨q1, q2, q3⟩, q4, q5, q6⟩, _⟩ := extremas_in points hne hf (fun q => ∃ n : ℤ, |n| ≤ (36 : ℕ) ∧ q = n * 2 ^ e) (by
      rintro q ⟨n, hn, rfl⟩
      have hn' : |(n:ℚ)| ≤ 36 := by exact_mod_cast hn
      have hp : (0:ℚ) < 2 ^ e := by positivity
      have h3 : (2:ℚ) ^ e ≤ 2 ^ (160 : ℤ) := zpow_le_zpow_right₀ (by norm_num) h2
      have h4 : (2:ℚ) ^ (160 : ℤ) = 2 ^ 160 := zpow_natCast 2 160
      rw [abs_mul, abs_of_pos hp]
      calc |(n:ℚ)| * 2 ^ e ≤ 36 * 2 ^ 160 := mul_le_mul hn' (h4 ▸ h3) hp.le (by norm_num)
        _ ≤ 1 * 2 ^ 200 := by norm_num
        _ ≤ (2 ^ 53 - 1) * 2 ^ 971 := mul_le_mul (by norm_num) (pow_le_pow_right₀ (by norm_num) (by norm_num)) (by positivity) (by norm_num)
        _ = maxFloat64 := rfl)
    (fun p hp => ⟨(h p hp p.X (by simp)).2, (h p hp p.Y (by simp)).2, (h p hp p.Z (by simp)).2⟩)
  obtain ⟨fn, fx, e1, e2⟩ := C83_extremas points hf
  have co : ∀ {mn mx : F64}, mn.Finite → mx.Finite → (∃ n : ℤ, |n| ≤ (36 : ℕ) ∧ mn.toQ = n * 2 ^ e) → (∃ n : ℤ, |n| ≤ (36 : ℕ) ∧ mx.toQ = n * 2 ^ e) →
      ((mn + 3 * (mx - mn)).Finite ∧ ∃ n : ℤ, |n| ≤ (256 : ℕ) ∧ (mn + 3 * (mx - mn)).toQ = n * 2 ^ e) ∧
      (mn + 3 * (mx - mn)).toQ = mn.toQ + 3 * (mx.toQ - mn.toQ) := by
    rintro mn mx f1 f2 ⟨n, hn, e1⟩ ⟨m, hm, e2⟩
    have d1 : Dy mn n 36 e := ⟨f1, e1, hn⟩
    have d2 : Dy mx m 36 e := ⟨f2, e2, hm⟩
    have d3 : Dy (3 : F64) 3 3 0 := ⟨trivial, by rw [three_fin.2]; norm_num, by norm_num⟩
    have s := d3.mul (d2.sub d1 (by norm_num) (by omega) (by omega)) (by norm_num) (by omega) (by omega)
    rw [zero_add] at s
    have r := d1.add s (by norm_num) (by omega) (by omega)
    exact ⟨⟨r.fin, _, r.le.trans (by norm_num), r.val⟩, by rw [r.val, e1, e2]; push_cast; ring⟩
  have wk : ∀ {x : F64}, x.Finite → (∃ n : ℤ, |n| ≤ (36 : ℕ) ∧ x.toQ = n * 2 ^ e) → x.Finite ∧ ∃ n : ℤ, |n| ≤ (256 : ℕ) ∧ x.toQ = n * 2 ^ e :=
    fun f ⟨n, hn, e⟩ => ⟨f, n, hn.trans (by norm_num), e⟩
  obtain ⟨gx, ex⟩ := co fn.1 fx.1 q1 q4
  obtain ⟨gy, ey⟩ := co fn.2.1 fx.2.1 q2 q5
  obtain ⟨gz, ez⟩ := co fn.2.2 fx.2.2 q3 q6
  have wx := wk fn.1 q1
  have wy := wk fn.2.1 q2
  have wz := wk fn.2.2 q3
  have g3 : ∀ {x y z : F64}, (x.Finite ∧ ∃ n : ℤ, |n| ≤ (256 : ℕ) ∧ x.toQ = n * 2 ^ e) → (y.Finite ∧ ∃ n : ℤ, |n| ≤ (256 : ℕ) ∧ y.toQ = n * 2 ^ e) →
      (z.Finite ∧ ∃ n : ℤ, |n| ≤ (256 : ℕ) ∧ z.toQ = n * 2 ^ e) → Grid3 256 e ⟨x, y, z⟩ := by
    intro x y z hx hy hz w hw
    simp only [List.mem_cons, List.not_mem_nil, or_false] at hw
    rcases hw with rfl | rfl | rfl <;> assumption
  have gp : ∀ p ∈ points, Grid3 256 e p := fun p hp x hx => by
    obtain ⟨f, n, hn, e⟩ := h p hp x hx
    exact ⟨f, n, hn.trans (by norm_num), e⟩
  have gE : ∀ p ∈ (englobe points).1, Grid3 256 e p := by
    intro p hp
    change p ∈ _ :: _ :: _ :: _ :: points at hp
    simp only [List.mem_cons] at hp
    rcases hp with rfl | rfl | rfl | rfl | hp
    · exact g3 wx wy wz
    · exact g3 gx wy wz
    · exact g3 wx gy wz
    · exact g3 wx wy gz
    · exact gp p hp
  have mE : (englobe points).1.map exactV = (englobe (points.map exactV)).1 := by
    simp only [englobe, computerInitialTetraPoints, List.map_cons, ← e1, ← e2]
    congr 1
    simp only [exactV, ex, ey, ez]
  unfold bowyerWatson
  rw [← mE]
  refine C93_tests _ _ exactV s hs _ points rfl (fun m p hp i j k l _ _ _ _ _ a b c d ha hb hc hd => ?_)
  have hg : ∀ v ∈ [a, b, c, d, p], Grid3 256 e v := by
    intro v hv
    simp only [List.mem_cons, List.not_mem_nil, or_false] at hv
    rcases hv with rfl | rfl | rfl | rfl | rfl
    · exact gE _ (List.mem_of_getElem? ha)
    · exact gE _ (List.mem_of_getElem? hb)
    · exact gE _ (List.mem_of_getElem? hc)
    · exact gE _ (List.mem_of_getElem? hd)
    · exact gp _ (List.mem_of_getElem? hp)
  obtain ⟨f, v⟩ := C82_insphere_grid h1 h2 hg
  rw [le_fin' f, v]

/-- C93: for coordinates of size at most `M`, when the exact in-sphere determinant of point `m` with any four different entries among the computed super-tetrahedron and the points before `m` is larger than the rounding error,
the float64 run gives the result of the run with exact tests on those coordinates -/
theorem C93_margin {M : ℚ} (h1 : 1 / 2 ^ 30 ≤ M) (h2 : M ≤ 2 ^ 30) (s : Sched) (hs : s.WF) (points : List (R3.Vector F64)) (h : ∀ p ∈ points, Bounded3 M p)
    (hD : ∀ m p, points[m]? = some p → ∀ i j k l : ℕ, i < m + 4 → j < m + 4 → k < m + 4 → l < m + 4 → [i, j, k, l].Nodup →
      ∀ a b c d, (englobe points).1[i]? = some a → (englobe points).1[j]? = some b → (englobe points).1[k]? = some c → (englobe points).1[l]? = some d →
        40038 / 2 ^ 53 * (8 * M) ^ 5 < |InSphereFast (exactV a) (exactV b) (exactV c) (exactV d) (exactV p)|) :
    bowyerWatson s points = bowyerWatsonWith (fun a b c d e => decide ((0 : ℚ) ≤ InSphereFast a b c d e)) s ((englobe points).1.map exactV) (points.map exactV) := by
  rcases eq_or_ne points [] with rfl | hne
  · rfl
  have hM : 0 < M := lt_of_lt_of_le (by positivity) h1
  have hf : ∀ p ∈ points, AllFin p := fun p hp => ⟨(h p hp).1.1, (h p hp).2.1.1, (h p hp).2.2.1⟩
  obtain ⟨⟨⟨q1, q2, q3⟩, q4, q5, q6⟩, _⟩ := extremas_in points hne hf (fun q => |q| ≤ M)
    (fun q hq => hq.trans (h2.trans (by decide +kernel))) (fun p hp => ⟨(h p hp).1.2, (h p hp).2.1.2, (h p hp).2.2.2⟩)
  obtain ⟨fn, fx, _, _⟩ := C83_extremas points hf
  have k1 : 1 / 2 ^ 34 ≤ M := le_trans (by norm_num) h1
  have k2 : M ≤ 2 ^ 34 := h2.trans (by norm_num)
  have co : ∀ {mn mx : F64}, mn.Finite → mx.Finite → |mn.toQ| ≤ M → |mx.toQ| ≤ M → (mn + 3 * (mx - mn)).Finite ∧ |(mn + 3 * (mx - mn)).toQ| ≤ 8 * M := by
    intro mn mx f1 f2 b1 b2
    have a := tetra_coord k1 k2 ⟨f1, b1⟩ ⟨f2, b2⟩
    refine ⟨a.fin, ?_⟩
    have er := a.err
    have e : 22 * (uro * M ^ 1) = 22 / 2 ^ 53 * M := by unfold uro; ring
    rw [e] at er
    have c1 := abs_le.mp b1
    have c2 := abs_le.mp b2
    have c3 := abs_le.mp er
    have c4 : 22 / 2 ^ 53 * M ≤ 1 * M := mul_le_mul_of_nonneg_right (by norm_num) hM.le
    exact abs_le.mpr ⟨by linarith [c3.1], by linarith [c3.2]⟩
  have wk : ∀ {x : F64}, x.Finite → |x.toQ| ≤ M → x.Finite ∧ |x.toQ| ≤ 8 * M := fun f b => ⟨f, b.trans (by linarith)⟩
  have gx := co fn.1 fx.1 q1 q4
  have gy := co fn.2.1 fx.2.1 q2 q5
  have gz := co fn.2.2 fx.2.2 q3 q6
  have wx := wk fn.1 q1
  have wy := wk fn.2.1 q2
  have wz := wk fn.2.2 q3
  have gp : ∀ p ∈ points, Bounded3 (8 * M) p := fun p hp => ⟨wk (h p hp).1.1 (h p hp).1.2, wk (h p hp).2.1.1 (h p hp).2.1.2, wk (h p hp).2.2.1 (h p hp).2.2.2⟩
  have gE : ∀ p ∈ (englobe points).1, Bounded3 (8 * M) p := by
    intro p hp
    change p ∈ _ :: _ :: _ :: _ :: points at hp
    simp only [List.mem_cons] at hp
    rcases hp with rfl | rfl | rfl | rfl | hp
    · exact ⟨wx, wy, wz⟩
    · exact ⟨gx, wy, wz⟩
    · exact ⟨wx, gy, wz⟩
    · exact ⟨wx, wy, gz⟩
    · exact gp p hp
  unfold bowyerWatson
  refine C93_tests _ _ exactV s hs _ points rfl (fun m p hp i j k l hi hj hk hl hn a b c d ha hb hc hd => ?_)
  have hg : ∀ v ∈ [a, b, c, d, p], Bounded3 (8 * M) v := by
    intro v hv
    simp only [List.mem_cons, List.not_mem_nil, or_false] at hv
    rcases hv with rfl | rfl | rfl | rfl | rfl
    · exact gE _ (List.mem_of_getElem? ha)
    · exact gE _ (List.mem_of_getElem? hb)
    · exact gE _ (List.mem_of_getElem? hc)
    · exact gE _ (List.mem_of_getElem? hd)
    · exact gp _ (List.mem_of_getElem? hp)
  obtain ⟨f, _, sg⟩ := C82_insphere (M := 8 * M) (by linarith) (by linarith) hg
  have key := (sg (hD m p hp i j k l hi hj hk hl hn a b c d ha hb hc hd)).2
  have z0 : (0 : F64).Finite := trivial
  rw [lt_fin f z0] at key
  have h0 : (0 : F64).toQ = 0 := rfl
  rw [h0] at key
  rw [le_fin' f]
  apply decide_eq_decide.mpr
  rw [← not_lt, ← not_lt, key]

/-- four points with coordinates 0.1, 0.2 and 0.3 -/
def tenths4 : List (R3.Vector F64) :=
  let a := flt 7205759403792794 (-56)
  let b := flt 7205759403792794 (-55)
  let c := flt 5404319552844595 (-54)
  [⟨b, c, a⟩, ⟨c, c, c⟩, ⟨a, b, b⟩, ⟨a, c, c⟩]

theorem flatInt_perm_nil {T T' : List Tetra} (hp : T.Perm T') :
    flatInt (T.flatMap meshTris) = [] → flatInt (T'.flatMap meshTris) = [] := by
  intro h
  have h1 : ∀ l : List (Int × Int × Int), flatInt l = [] → l = [] := by
    intro l hl
    cases l with
    | nil => rfl
    | cons a l => simp [flatInt] at hl
  have h2 := (hp.flatMap_right meshTris).symm
  rw [h1 _ h] at h2
  rw [List.perm_nil.mp h2]
  rfl

/-- C93: without such hypotheses it is false: for four points with coordinates 0.1, 0.2 and 0.3, and every order of the maps, the float64 run returns no
triangle at all and the exact run on the same coordinates returns some -/
theorem C93_exact_refuted : (∀ p ∈ tenths4, Bounded3 1 p) ∧ ∀ s : Sched, s.WF →
    bowyerWatson s tenths4 = .ok [] ∧ ∃ r, bowyerWatson s (tenths4.map exactV) = .ok r ∧ r ≠ [] := by
  have wf : schedId.WF := ⟨fun _ _ => List.Perm.refl _, fun _ _ => List.Perm.refl _, fun _ => List.Perm.refl _⟩
  refine ⟨by unfold Bounded3; decide +kernel, fun s hs => ⟨?_, ?_⟩⟩
  · obtain ⟨T, T', hp, e1, e2⟩ := C93_order schedId s wf hs tenths4
    have h : (match bowyerWatson schedId tenths4 with | .ok r => decide (r = []) | _ => false) = true := by decide +kernel
    rw [e1] at h
    rw [e2, flatInt_perm_nil hp (of_decide_eq_true h)]
  · obtain ⟨T, T', hp, e1, e2⟩ := C35_bowyerWatson schedId s wf hs (tenths4.map exactV)
    have h : (match bowyerWatson schedId (tenths4.map exactV) with | .ok r => decide (r ≠ []) | _ => false) = true := by decide +kernel
    rw [e1] at h
    exact ⟨_, e2, fun h0 => of_decide_eq_true h (flatInt_perm_nil hp.symm h0)⟩

/-- C93: `C93_grid` on three points with small integer coordinates -/
example : ∀ p ∈ ([⟨flt 1 0, flt 2 0, flt 3 0⟩, ⟨flt (-4) 0, flt 0 0, flt 7 0⟩, ⟨flt 36 0, flt (-36) 0, flt 5 0⟩] : List (R3.Vector F64)), Grid3 36 0 p := by
  have key : ∀ p ∈ ([⟨flt 1 0, flt 2 0, flt 3 0⟩, ⟨flt (-4) 0, flt 0 0, flt 7 0⟩, ⟨flt 36 0, flt (-36) 0, flt 5 0⟩] : List (R3.Vector F64)),
      ∀ x ∈ [p.X, p.Y, p.Z], x.Finite ∧ |x.toQ.num| ≤ (36 : ℕ) ∧ x.toQ = (x.toQ.num : ℚ) := by decide +kernel
  intro p hp x hx
  obtain ⟨f, b, e⟩ := key p hp x hx
  exact ⟨f, x.toQ.num, b, by rw [zpow_zero, mul_one]; exact e⟩

/-- two points for `C93_margin` -/
def twoPts : List (R3.Vector F64) := [⟨flt 0 0, flt 0 0, flt 2 0⟩, ⟨flt 3 0, flt 4 0, flt 0 0⟩]

/-- C93: the hypotheses of `C93_margin` hold for these points -/
example : bowyerWatson schedId twoPts =
    bowyerWatsonWith (fun a b c d e => decide ((0 : ℚ) ≤ InSphereFast a b c d e)) schedId ((englobe twoPts).1.map exactV) (twoPts.map exactV) := by
  have wf : schedId.WF := ⟨fun _ _ => List.Perm.refl _, fun _ _ => List.Perm.refl _, fun _ => List.Perm.refl _⟩
  have chk : ∀ m ∈ List.range 2, ∀ i ∈ List.range (m + 4), ∀ j ∈ List.range (m + 4), ∀ k ∈ List.range (m + 4), ∀ l ∈ List.range (m + 4), [i, j, k, l].Nodup →
      40038 / 2 ^ 53 * (8 * 4) ^ 5 < |InSphereFast (exactV (fpt (englobe twoPts).1 i)) (exactV (fpt (englobe twoPts).1 j)) (exactV (fpt (englobe twoPts).1 k))
        (exactV (fpt (englobe twoPts).1 l)) (exactV (fpt twoPts m))| := by decide +kernel
  have get : ∀ (L : List (R3.Vector F64)) (i : ℕ) a, L[i]? = some a → fpt L i = a := by
    intro L i a h
    simp [fpt, List.getD, h]
  refine C93_margin (M := 4) (by norm_num) (by norm_num) schedId wf twoPts (by unfold Bounded3; decide +kernel) ?_
  intro m p hp i j k l hi hj hk hl hn a b c d ha hb hc hd
  have hm : m < 2 := by
    by_contra h
    rw [List.getElem?_eq_none (by simp [twoPts]; omega)] at hp
    cases hp
  have := chk m (List.mem_range.mpr hm) i (List.mem_range.mpr hi) j (List.mem_range.mpr hj) k (List.mem_range.mpr hk) l (List.mem_range.mpr hl) hn
  rwa [get _ _ _ ha, get _ _ _ hb, get _ _ _ hc, get _ _ _ hd, get _ _ _ hp] at this

end Verif.Props
