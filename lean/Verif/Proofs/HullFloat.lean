import Verif.Proofs.GridFloat
import Verif.Props.HullStrict
/-!
# `ConvexHull` at binary64 for integer coordinates up to `2^24` (hull.go)
-/
namespace Verif.Proofs
open Verif Verif.F64 Verif.Tri2 Verif.Props

/-- the comparisons `ConvexHull` makes have the same results at binary64 and for the exact coordinates -/
structure HullAgrees (Vs : List (R3.Vector F64)) : Prop where
  pos : ∀ a ∈ Vs, ∀ b ∈ Vs, ∀ p ∈ Vs, (0 : F64) < cross2D a b p ↔ (0 : ℚ) < cross2D (exactV a) (exactV b) (exactV p)
  neg : ∀ a ∈ Vs, ∀ b ∈ Vs, ∀ p ∈ Vs, cross2D a b p < (0 : F64) ↔ cross2D (exactV a) (exactV b) (exactV p) < (0 : ℚ)
  near : ∀ a ∈ Vs, ∀ b ∈ Vs, R3.SquaredDistance a b < eps ↔ R3.SquaredDistance (exactV a) (exactV b) < eps
  less : ∀ a ∈ Vs, ∀ b ∈ Vs, hullLess a b = hullLess (exactV a) (exactV b)

theorem HullAgrees.mono {Vs Ws : List (R3.Vector F64)} (H : HullAgrees Vs) (h : ∀ v ∈ Ws, v ∈ Vs) : HullAgrees Ws :=
  ⟨fun a ha b hb p hp => H.pos a (h a ha) b (h b hb) p (h p hp), fun a ha b hb p hp => H.neg a (h a ha) b (h b hb) p (h p hp),
    fun a ha b hb => H.near a (h a ha) b (h b hb), fun a ha b hb => H.less a (h a ha) b (h b hb)⟩

section
variable {Vs : List (R3.Vector F64)}

theorem filterLoop_map (H : HullAgrees Vs) : ∀ (n i k : ℕ) (arr : List (R3.Vector F64)), (∀ v ∈ arr, v ∈ Vs) →
    filterLoop n i k (arr.map exactV) = (filterLoop n i k arr).map exactV := by
  intro n
  induction n with
  | zero => intro i k arr _; simp only [filterLoop]; rw [List.map_take]
  | succ n ih =>
    intro i k arr harr
    simp only [filterLoop]
    rw [List.getElem?_map]
    cases hi : arr[i]? with
    | none => simp only [Option.map_none]; rw [List.map_take]
    | some p =>
      simp only [Option.map_some]
      have hp := harr p (List.mem_of_getElem? hi)
      have hset : ∀ v ∈ arr.set k p, v ∈ Vs := by
        intro v hv
        rcases List.mem_or_eq_of_mem_set hv with h | h
        · exact harr v h
        · rw [h]; exact hp
      cases i with
      | zero =>
        simp only [Bool.false_eq_true, if_false]
        rw [← List.map_set]
        exact ih _ _ _ hset
      | succ j =>
        have hj : j < arr.length := by
          obtain ⟨h, -⟩ := List.getElem?_eq_some_iff.mp hi
          omega
        have hj' : arr[j]? = some arr[j] := List.getElem?_eq_getElem hj
        have hq := harr arr[j] (List.getElem_mem hj)
        have e := H.near p hp arr[j] hq
        have hm : (arr.map exactV)[j]? = some (exactV arr[j]) := by rw [List.getElem?_map, hj']; rfl
        simp only [hm, hj']
        by_cases hd : R3.SquaredDistance p arr[j] < eps
        · simp only [hd, e.mp hd, decide_true, if_true]
          exact ih _ _ _ harr
        · have hd' : ¬ R3.SquaredDistance (exactV p) (exactV arr[j]) < eps := fun h => hd (e.mpr h)
          simp only [hd, hd', decide_false, Bool.false_eq_true, if_false]
          rw [← List.map_set]
          exact ih _ _ _ hset

theorem filterLoop_mem : ∀ (n i k : ℕ) (arr : List (R3.Vector F64)), (∀ v ∈ arr, v ∈ Vs) → ∀ v ∈ filterLoop n i k arr, v ∈ Vs := by
  intro n
  induction n with
  | zero => intro i k arr harr v hv; exact harr v (List.mem_of_mem_take hv)
  | succ n ih =>
    intro i k arr harr
    simp only [filterLoop]
    cases hi : arr[i]? with
    | none => intro v hv; exact harr v (List.mem_of_mem_take hv)
    | some p =>
      have hset : ∀ v ∈ arr.set k p, v ∈ Vs := by
        intro v hv
        rcases List.mem_or_eq_of_mem_set hv with h | h
        · exact harr v h
        · rw [h]; exact harr p (List.mem_of_getElem? hi)
      have hif : ∀ (d : Bool), ∀ v ∈ (if d = true then filterLoop n (i + 1) k arr else filterLoop n (i + 1) (k + 1) (arr.set k p)), v ∈ Vs := by
        intro d
        cases d
        · exact ih _ _ _ hset
        · exact ih _ _ _ harr
      exact hif _

theorem popU_map (H : HullAgrees Vs) {p : R3.Vector F64} (hp : p ∈ Vs) : ∀ l : List (R3.Vector F64), (∀ v ∈ l, v ∈ Vs) →
    popU (exactV p) (l.map exactV) = (popU p l).map exactV ∧ ∀ v ∈ popU p l, v ∈ Vs := by
  intro l
  induction l with
  | nil => intro h; exact ⟨rfl, h⟩
  | cons b l ih =>
    cases l with
    | nil => intro h; exact ⟨rfl, h⟩
    | cons a rest =>
      intro h
      have e := H.pos a (h a (by simp)) b (h b (by simp)) p hp
      have hr : ∀ v ∈ a :: rest, v ∈ Vs := fun v hv => h v (List.mem_cons_of_mem _ hv)
      simp only [List.map_cons, popU]
      by_cases hc : (0 : F64) < cross2D a b p
      · rw [if_pos hc, if_pos (e.mp hc)]
        exact ih hr
      · rw [if_neg hc, if_neg (fun h => hc (e.mpr h))]
        exact ⟨rfl, h⟩

theorem popL_map (H : HullAgrees Vs) {p : R3.Vector F64} (hp : p ∈ Vs) : ∀ l : List (R3.Vector F64), (∀ v ∈ l, v ∈ Vs) →
    popL (exactV p) (l.map exactV) = (popL p l).map exactV ∧ ∀ v ∈ popL p l, v ∈ Vs := by
  intro l
  induction l with
  | nil => intro h; exact ⟨rfl, h⟩
  | cons b l ih =>
    cases l with
    | nil => intro h; exact ⟨rfl, h⟩
    | cons a rest =>
      intro h
      have e := H.neg a (h a (by simp)) b (h b (by simp)) p hp
      have hr : ∀ v ∈ a :: rest, v ∈ Vs := fun v hv => h v (List.mem_cons_of_mem _ hv)
      simp only [List.map_cons, popL]
      by_cases hc : cross2D a b p < (0 : F64)
      · rw [if_pos hc, if_pos (e.mp hc)]
        exact ih hr
      · rw [if_neg hc, if_neg (fun h => hc (e.mpr h))]
        exact ⟨rfl, h⟩

theorem hullLoop_map (H : HullAgrees Vs) (L : List (R3.Vector F64)) (hL : ∀ v ∈ L, v ∈ Vs) :
    hullLoop (L.map exactV) = ((hullLoop L).1.map exactV, (hullLoop L).2.map exactV) := by
  have key : ∀ (L : List (R3.Vector F64)), (∀ v ∈ L, v ∈ Vs) → ∀ U W : List (R3.Vector F64), (∀ v ∈ U, v ∈ Vs) → (∀ v ∈ W, v ∈ Vs) →
      (L.map exactV).foldl (fun st p => (p :: popU p st.1, p :: popL p st.2)) (U.map exactV, W.map exactV) =
        ((L.foldl (fun st p => (p :: popU p st.1, p :: popL p st.2)) (U, W)).1.map exactV, (L.foldl (fun st p => (p :: popU p st.1, p :: popL p st.2)) (U, W)).2.map exactV) := by
    intro L
    induction L with
    | nil => intro _ U W _ _; rfl
    | cons p L ih =>
      intro h U W hU hW
      have hp := h p (by simp)
      obtain ⟨u1, u2⟩ := popU_map H hp U hU
      obtain ⟨l1, l2⟩ := popL_map H hp W hW
      rw [List.map_cons, List.foldl_cons, List.foldl_cons]
      dsimp only
      rw [u1, l1]
      exact ih (fun v hv => h v (List.mem_cons_of_mem _ hv)) (p :: popU p U) (p :: popL p W)
        (fun v hv => by rcases List.mem_cons.mp hv with rfl | hv; exacts [hp, u2 v hv])
        (fun v hv => by rcases List.mem_cons.mp hv with rfl | hv; exacts [hp, l2 v hv])
  exact key L hL [] [] (by simp) (by simp)

/-- sorting the exact coordinates in the way `srt` sorts `Vs` -/
def sortAs (srt : List (R3.Vector F64) → List (R3.Vector F64)) (Vs : List (R3.Vector F64)) (l : List (R3.Vector ℚ)) : List (R3.Vector ℚ) :=
  if l = Vs.map exactV then (srt Vs).map exactV else l.mergeSort (fun a b => !hullLess b a)

/-- `srt` sorts the points `Vs` by the comparison of `ConvexHull` -/
def SortsHullF (srt : List (R3.Vector F64) → List (R3.Vector F64)) (Vs : List (R3.Vector F64)) : Prop :=
  (srt Vs).Perm Vs ∧ (srt Vs).Pairwise (fun a b => hullLess b a = false)

theorem sortAs_sorts (H : HullAgrees Vs) {srt : List (R3.Vector F64) → List (R3.Vector F64)} (hs : SortsHullF srt Vs) : SortsHull (sortAs srt Vs) := by
  intro l
  unfold sortAs
  split_ifs with h
  · rw [h]
    refine ⟨hs.1.map exactV, ?_⟩
    rw [List.pairwise_map]
    refine List.Pairwise.imp_of_mem ?_ hs.2
    intro a b ha hb hab
    rw [← H.less b (hs.1.subset hb) a (hs.1.subset ha)]; exact hab
  · exact sortsHull_exists l

/-- the result of `ConvexHull` at binary64 is that for the exact coordinates -/
theorem convexHull_map (H : HullAgrees Vs) {srt : List (R3.Vector F64) → List (R3.Vector F64)} (hs : SortsHullF srt Vs) :
    (ConvexHull srt Vs).map exactV = ConvexHull (sortAs srt Vs) (Vs.map exactV) := by
  have hsub : ∀ v ∈ srt Vs, v ∈ Vs := fun v hv => hs.1.subset hv
  have e1 : sortAs srt Vs (Vs.map exactV) = (srt Vs).map exactV := by simp [sortAs]
  have e2 : filterDup ((srt Vs).map exactV) = (filterDup (srt Vs)).map exactV := by
    unfold filterDup; rw [List.length_map]; exact filterLoop_map H _ _ _ _ hsub
  have e3 := hullLoop_map H (filterDup (srt Vs)) (filterLoop_mem _ _ _ _ hsub)
  unfold ConvexHull
  simp only [e1, e2, e3]
  rw [List.map_append, List.map_dropLast, List.map_dropLast, List.map_reverse]

end

/-! ## Integer coordinates -/

/-- the point `v` has the integer coordinates `a`, of size at most `2^24` -/
structure IPt (v : R3.Vector F64) (a : R3.Vector ℤ) : Prop where
  x : Ex v.X a.X 16777216
  y : Ex v.Y a.Y 16777216
  z : Ex v.Z a.Z 16777216

theorem IPt.exact {v : R3.Vector F64} {a : R3.Vector ℤ} (h : IPt v a) : exactV v = castQ a := by
  unfold exactV castQ
  rw [h.x.val, h.y.val, h.z.val]

section
variable {u v w : R3.Vector F64} {a b c : R3.Vector ℤ}

theorem IPt.dx (hu : IPt u a) (hv : IPt v b) : Ex (u.X - v.X) (a.X - b.X) 33554432 := hu.x.sub hv.x (by norm_num)
theorem IPt.dy (hu : IPt u a) (hv : IPt v b) : Ex (u.Y - v.Y) (a.Y - b.Y) 33554432 := hu.y.sub hv.y (by norm_num)
theorem IPt.dz (hu : IPt u a) (hv : IPt v b) : Ex (u.Z - v.Z) (a.Z - b.Z) 33554432 := hu.z.sub hv.z (by norm_num)

theorem IPt.cross (hu : IPt u a) (hv : IPt v b) (hw : IPt w c) : Ex (cross2D u v w) (cross2D a b c) 2251799813685248 :=
  ((hv.dx hu).mul (hw.dy hu) (by norm_num)).sub ((hv.dy hu).mul (hw.dx hu) (by norm_num)) (by norm_num)

theorem IPt.sq (hu : IPt u a) (hv : IPt v b) : Ex (R3.SquaredDistance u v) (R3.SquaredDistance a b) 3377699720527872 :=
  (((hu.dx hv).mul (hu.dx hv) (by norm_num)).add ((hu.dy hv).mul (hu.dy hv) (by norm_num)) (by norm_num)).add
    ((hu.dz hv).mul (hu.dz hv) (by norm_num)) (by norm_num)

theorem castQ_cross (a b c : R3.Vector ℤ) : cross2D (castQ a) (castQ b) (castQ c) = ((cross2D a b c : ℤ) : ℚ) := by
  simp only [cross2D, castQ]; push_cast; ring

end

/-- every point has integer coordinates of size at most `2^24` -/
def IntPts (Vs : List (R3.Vector F64)) : Prop := ∀ v ∈ Vs, ∃ a, IPt v a

theorem IntPts.agrees {Vs : List (R3.Vector F64)} (h : IntPts Vs) : HullAgrees Vs := by
  have h0 : (0 : F64).toQ = 0 := by rw [Ex.zero.val]; simp
  constructor
  · intro a ha b hb c hc
    obtain ⟨_, ga⟩ := h a ha
    obtain ⟨_, gb⟩ := h b hb
    obtain ⟨_, gc⟩ := h c hc
    have e := ga.cross gb gc
    rw [lt_fin Ex.zero.fin e.fin, e.val, h0, ga.exact, gb.exact, gc.exact, castQ_cross]
  · intro a ha b hb c hc
    obtain ⟨_, ga⟩ := h a ha
    obtain ⟨_, gb⟩ := h b hb
    obtain ⟨_, gc⟩ := h c hc
    have e := ga.cross gb gc
    rw [lt_fin e.fin Ex.zero.fin, e.val, h0, ga.exact, gb.exact, gc.exact, castQ_cross]
  · intro a ha b hb
    obtain ⟨_, ga⟩ := h a ha
    obtain ⟨_, gb⟩ := h b hb
    have e := ga.sq gb
    rw [lt_fin e.fin eps_float.1, e.val, eps_float.2, ga.exact, gb.exact, castQ_sq]
    simp [eps]
  · intro a ha b hb
    obtain ⟨_, ga⟩ := h a ha
    obtain ⟨_, gb⟩ := h b hb
    unfold hullLess
    have e1 : (a.X != b.X) = ((exactV a).X != (exactV b).X) := by
      have := beq_fin ga.x.fin gb.x.fin
      rw [bne, bne, Bool.not_inj_iff, Bool.eq_iff_iff, this]
      simp [exactV]
    have e2 := lt_fin ga.x.fin gb.x.fin
    have e3 := lt_fin ga.y.fin gb.y.fin
    rw [e1]
    simp only [e2, e3]
    rfl

theorem GPt.ipt {v : R3.Vector F64} {a : R3.Vector ℤ} (h : GPt v a) : IPt v a :=
  ⟨⟨h.x.fin, h.x.val, h.x.le.trans (by norm_num)⟩, ⟨h.y.fin, h.y.val, h.y.le.trans (by norm_num)⟩, ⟨h.z.fin, h.z.val, h.z.le.trans (by norm_num)⟩⟩

theorem Grid.ints {Vs : List (R3.Vector F64)} (h : Grid Vs) : IntPts Vs := fun v hv => by
  obtain ⟨a, ga⟩ := h v hv
  exact ⟨a, ga.ipt⟩

end Verif.Proofs
