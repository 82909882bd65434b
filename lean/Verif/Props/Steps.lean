import Verif.Model.Steps
import Verif.Proofs.Work
import Verif.Props.BowyerWatson
import Verif.Props.NurbsFloat
import Verif.Props.HullFloat
import Mathlib.Data.Finset.Powerset
import Mathlib.Order.Interval.Finset.Basic
/-!
# C103: number of steps of `findSpan`, `ConvexHull` and `bowyerWatson`
-/
set_option linter.unusedSectionVars false

namespace Verif.Props
open Verif Verif.R3 Verif.Proofs Verif.Tri2 Verif.Meshing Verif.Nurbs

/-! ## Loops with a counter -/

theorem foldlM_run {α β : Type} (F : β → α → Wk β) (f : β → α → β) (c : α → ℕ) (l : List α) (h : ∀ b a, a ∈ l → (F b a).run = .ok (f b a, c a)) (b : β) :
    (l.foldlM F b).run = .ok (l.foldl f b, (l.map c).sum) := by
  induction l generalizing b with
  | nil => rfl
  | cons a l ih =>
    rw [List.foldlM_cons, List.map_cons, List.sum_cons]
    exact run_bind_ok (h b a List.mem_cons_self) (ih (fun b a ha => h b a (List.mem_cons_of_mem _ ha)) _)

theorem tick_run {α : Type} (k : ℕ) (a : α) : (do Wk.tick k; pure a : Wk α).run = .ok (a, k) := rfl

theorem sum_map_const {α : Type} (l : List α) (c : ℕ) : (l.map fun _ => c).sum = c * l.length := by
  induction l with
  | nil => rfl
  | cons a l ih => rw [List.map_cons, List.sum_cons, ih, List.length_cons]; ring

theorem foldlM_tick {α β : Type} (f : β → α → β) (k : ℕ) (l : List α) (b : β) :
    (l.foldlM (fun b a => do Wk.tick k; pure (f b a)) b : Wk β).run = .ok (l.foldl f b, k * l.length) := by
  rw [foldlM_run _ f (fun _ => k) l (fun _ _ _ => tick_run _ _), sum_map_const]

/-! ## Bowyer-Watson -/

/-- the four vertices -/
def vset (t : Tetra) : Finset ℤ := {t.ia, t.ib, t.ic, t.id}

/-- no two tetrahedra have the same four vertices -/
def Different (t : Tetrahedrisation) : Prop := ∀ v ∈ tets t, ∀ w ∈ tets t, vset v = vset w → v = w

theorem Good.tets_nodup {t : Tetrahedrisation} (g : Good t) : (tets t).Nodup := by
  have := g.1
  have e : t.map Prod.fst = (tets t).map tetraHash := by
    unfold tets
    rw [List.map_map]
    exact List.map_congr_left fun kv hk => (g.2 kv hk).1
  rw [e] at this
  exact List.Nodup.of_map _ this

theorem tets_length (t : Tetrahedrisation) : (tets t).length = t.length := List.length_map _

/-- four distinct indices below `n` can be chosen in `n choose 4` ways -/
theorem tets_choose {n : ℕ} {t : Tetrahedrisation} (g : Good t) (hv : ValidMesh n t) (hd : Different t) : t.length ≤ n.choose 4 := by
  have e : (tets t).toFinset.card = t.length := by rw [List.toFinset_card_of_nodup g.tets_nodup, tets_length]
  have e2 : ((Finset.Ico (0:ℤ) n).powersetCard 4).card = n.choose 4 := by rw [Finset.card_powersetCard, Int.card_Ico]; simp
  rw [← e, ← e2]
  refine Finset.card_le_card_of_injOn vset ?_ ?_
  · intro v hv'
    obtain ⟨h1, h2⟩ := tets_valid hv (List.mem_toFinset.mp hv')
    rw [Finset.mem_coe, Finset.mem_powersetCard]
    constructor
    · intro i hi
      rw [Finset.mem_Ico]
      refine h1 i ?_
      simpa [vset] using hi
    · have : vset v = [v.ia, v.ib, v.ic, v.id].toFinset := by simp [vset]
      rw [this, List.toFinset_card_of_nodup h2]; rfl
  · intro v hv' w hw' h
    exact hd v (List.mem_toFinset.mp hv') w (List.mem_toFinset.mp hw') h

theorem different_initial : Different (addTetra [] initialTetra) := by
  intro v hv w hw _
  simp only [tets, addTetra, GoMap.set, List.map_cons, List.map_nil, List.mem_cons, List.not_mem_nil, or_false] at hv hw
  rw [hv, hw]

theorem countP_one {α : Type} {p : α → Bool} {l : List α} (h : l.countP p = 1) {a b : α} (ha : a ∈ l) (hb : b ∈ l) (pa : p a = true) (pb : p b = true) : a = b := by
  rw [List.countP_eq_length_filter] at h
  obtain ⟨c, hc⟩ := List.length_eq_one_iff.mp h
  have h1 : a ∈ l.filter p := List.mem_filter.mpr ⟨ha, pa⟩
  have h2 : b ∈ l.filter p := List.mem_filter.mpr ⟨hb, pb⟩
  rw [hc, List.mem_singleton] at h1 h2
  rw [h1, h2]

theorem boundary_face {n : ℕ} {t : Tetrahedrisation} (g : Good t) (hv : ValidMesh n t) {q : Tetra → Bool} {f : Face} (hf : OnBoundary ((tets t).filter q) f) :
    (∀ i ∈ [f.pa, f.pb, f.pc], 0 ≤ i ∧ i < n) ∧ [f.pa, f.pb, f.pc].Nodup := by
  obtain ⟨v, hv', hfv⟩ := List.mem_flatMap.mp hf.1
  exact face_of_good g hv (List.mem_filter.mp hv').1 hfv

theorem bwStep_different {P : Type} (test : P → P → P → P → P → Bool) (points : List P) (t t' : Tetrahedrisation) (g : Good t) (hd : Different t)
    (k : ℕ) (hv : ValidMesh (k+4) t) (p : P) (hm : ∀ v, v ∈ tets t' ↔
      (v ∈ tets t ∧ isBad test points p v = false) ∨
      ∃ f, OnBoundary ((tets t).filter (isBad test points p)) f ∧ v = connect f (k + 4)) : Different t' := by
  have old : ∀ v ∈ tets t, (k + 4 : ℤ) ∉ vset v := by
    intro v hv' hk
    have h1 := (tets_valid hv hv').1 (k + 4) (by simpa [vset] using hk)
    push_cast at h1
    omega
  have new : ∀ f : Face, (k + 4 : ℤ) ∈ vset (connect f (k + 4)) := fun f => by simp [vset, connect]
  intro v hv' w hw' h
  rcases (hm v).mp hv' with ⟨h1, _⟩ | ⟨f, hf, rfl⟩ <;> rcases (hm w).mp hw' with ⟨h2, _⟩ | ⟨e, he, rfl⟩
  · exact hd v h1 w h2 h
  · exact absurd (h ▸ new e) (old v h1)
  · exact absurd (h ▸ new f) (old w h2)
  · obtain ⟨rf, nf⟩ := boundary_face g hv hf
    obtain ⟨re, ne⟩ := boundary_face g hv he
    have same : SameFace f e := by
      unfold SameFace
      rw [List.perm_ext_iff_of_nodup nf ne]
      have key : ∀ x : Face, (∀ i ∈ [x.pa, x.pb, x.pc], 0 ≤ i ∧ i < ((k + 4 : ℕ) : ℤ)) → ∀ i, i ∈ [x.pa, x.pb, x.pc] ↔ i ∈ vset (connect x (k + 4)) ∧ i ≠ k + 4 := by
        intro x hx i
        simp only [vset, connect, Finset.mem_insert, Finset.mem_singleton, List.mem_cons, List.not_mem_nil, or_false] at hx ⊢
        constructor
        · intro hi
          have := hx i hi
          push_cast at this
          exact ⟨by tauto, by omega⟩
        · rintro ⟨hi, hne⟩
          tauto
      intro i
      rw [key f rf, key e re, h]
    have : f = e := countP_one he.2 hf.1 he.1 (by simpa using same) (by simp [SameFace])
    rw [this]

/-- one insertion: the counter, and the number of tetrahedra looked at -/
theorem findBadCt_run {P : Type} (w : BwWeights) (test : P → P → P → P → P → Bool) (points : List P) (p : P) (t : Tetrahedrisation) {r : List Tetra}
    (h : findBad test points p t = .ok r) : (findBadCt w test points p t).run = .ok (r, w.sphere * t.length) := by
  induction t generalizing r with
  | nil => cases h; rfl
  | cons kv t ih =>
    obtain ⟨k, v⟩ := kv
    simp only [findBad] at h
    obtain ⟨a, ea, h⟩ := Res.bind_eq_ok.mp h
    obtain ⟨b, eb, h⟩ := Res.bind_eq_ok.mp h
    obtain ⟨c, ec, h⟩ := Res.bind_eq_ok.mp h
    obtain ⟨d, ed, h⟩ := Res.bind_eq_ok.mp h
    obtain ⟨r', er, h⟩ := Res.bind_eq_ok.mp h
    simp only [Res.pure_eq, Res.ok.injEq] at h
    simp only [findBadCt, liftM_wk]
    have e : w.sphere * ((k, v) :: t).length = 0 + (0 + (0 + (0 + (w.sphere + (w.sphere * t.length + 0))))) := by
      rw [List.length_cons]; ring
    rw [e]
    refine run_bind_ok (run_lift ea) (run_bind_ok (run_lift eb) (run_bind_ok (run_lift ec) (run_bind_ok (run_lift ed) (run_bind_ok (a := ()) rfl
      (run_bind_ok (ih er) ?_)))))
    rw [← h]; rfl

theorem collectFacesCt_run (w : BwWeights) (bad : List Tetra) (fs : FaceSet) {r : List Face} (h : collectFaces bad fs = .ok r) :
    (collectFacesCt w bad fs).run = .ok (r, w.entry * fs.length) ∧ r.length ≤ fs.length := by
  induction fs generalizing r with
  | nil => cases h; exact ⟨rfl, le_refl _⟩
  | cons e fs ih =>
    obtain ⟨k, fc⟩ := e
    simp only [collectFaces] at h
    simp only [collectFacesCt, liftM_wk]
    rw [List.length_cons]
    by_cases hc : fc.check = false
    · rw [if_pos hc] at h ⊢
      obtain ⟨bt, e1, h⟩ := Res.bind_eq_ok.mp h
      obtain ⟨f, e2, h⟩ := Res.bind_eq_ok.mp h
      obtain ⟨r', e3, h⟩ := Res.bind_eq_ok.mp h
      simp only [Res.pure_eq, Res.ok.injEq] at h
      obtain ⟨i1, i2⟩ := ih e3
      subst h
      refine ⟨?_, by rw [List.length_cons]; omega⟩
      have e : w.entry * (fs.length + 1) = w.entry + (0 + (0 + (w.entry * fs.length + 0))) := by ring
      rw [e]
      exact run_bind_ok (a := ()) rfl (run_bind_ok (run_lift e1) (run_bind_ok (run_lift e2) (run_bind_ok i1 rfl)))
    · rw [if_neg hc] at h ⊢
      obtain ⟨i1, i2⟩ := ih h
      refine ⟨?_, by omega⟩
      have e : w.entry * (fs.length + 1) = w.entry + w.entry * fs.length := by ring
      rw [e]
      exact run_bind_ok (a := ()) rfl i1

theorem faceLoopCt_run (w : BwWeights) (bad : List Tetra) (h4 : ∀ b ∈ bad, b.faces.length = 4) :
    (faceLoopCt w bad).run = .ok (faceLoop bad, w.face * (4 * bad.length)) := by
  unfold faceLoopCt faceLoop
  rw [foldlM_run _ (fun fs tk => tk.1.faces.zipIdx.foldl (fun fs fk => faceStep fs fk.1 tk.2 fk.2) fs) (fun _ => w.face * 4)]
  · rw [sum_map_const, List.length_zipIdx, mul_assoc]
  · intro fs tk hk
    rw [foldlM_tick (fun (fs : FaceSet) (fk : Face × ℕ) => faceStep fs fk.1 tk.2 fk.2), List.length_zipIdx, h4]
    exact (List.mem_zipIdx' hk).2 ▸ List.getElem_mem _

theorem faceStep_length (fs : FaceSet) (f : Face) (i j : ℕ) : (faceStep fs f i j).length ≤ fs.length + 1 := by
  have set : ∀ (m : FaceSet) k v, (GoMap.set m k v).length ≤ m.length + 1 := by
    intro m k v
    induction m with
    | nil => simp [GoMap.set]
    | cons e m ih =>
      obtain ⟨ke, ve⟩ := e
      simp only [GoMap.set]
      split_ifs
      · simp
      · simp only [List.length_cons]; omega
  unfold faceStep
  split <;> exact set _ _ _

theorem faceLoop_length (bad : List Tetra) (h4 : ∀ b ∈ bad, b.faces.length = 4) : (faceLoop bad).length ≤ 4 * bad.length := by
  rw [faceLoop_eq]
  have h1 : ∀ (os : List (Face × ℕ × ℕ)) (acc : FaceSet), (os.foldl (fun fs o => faceStep fs o.1 o.2.1 o.2.2) acc).length ≤ acc.length + os.length := by
    intro os
    induction os with
    | nil => intro acc; simp
    | cons o os ih =>
      intro acc
      rw [List.foldl_cons, List.length_cons]
      have := faceStep_length acc o.1 o.2.1 o.2.2
      have := ih (faceStep acc o.1 o.2.1 o.2.2)
      omega
  have h2 := h1 (occs bad) []
  have h3 : (occs bad).length = (bad.flatMap (·.faces)).length := by rw [← occs_fst, List.length_map]
  have h5 : (bad.flatMap (·.faces)).length = 4 * bad.length := by
    rw [List.length_flatMap, List.map_congr_left (g := fun _ => 4) (fun b hb => h4 b hb), sum_map_const]
  simp only [List.length_nil] at h2
  omega

/-- what one tetrahedron can cost per insertion -/
def unitCost (w : BwWeights) : ℕ := w.sphere + 4 * w.face + 4 * w.entry + w.drop + 4 * w.add

theorem faceLoop_key (bad : List Tetra) (k : List Char) (fc : FaceCheck) (h : (k, fc) ∈ faceLoop bad)
    (hc : fc.check = false) : ∃ f t, ∃ i j : ℕ, f.hash = k ∧ fc.tetraID = i ∧ fc.faceID = j ∧ bad[i]? = some t ∧ t.faces[j]? = some f := by
  obtain ⟨f, t, i, j, hb, h1, h2, h3, h4⟩ := faceLoop_entry bad k fc h hc
  refine ⟨f, t, i, j, ?_, h1, h2, h3, h4⟩
  rw [faceLoop_eq] at h
  obtain ⟨hn, hg⟩ := faceFold_spec (occs bad)
  have := (mapGet_iff _ hn k fc).mpr h
  rw [hg] at this
  generalize hl : (occs bad).filter (fun o => decide (o.1.hash = k)) = l at this
  match l, this with
  | [], this => simp [recorded] at this
  | [o], this =>
    simp only [recorded, Option.some.injEq] at this
    have ho : o ∈ (occs bad).filter (fun o => decide (o.1.hash = k)) := by rw [hl]; exact List.mem_cons_self
    obtain ⟨ho1, hk⟩ := List.mem_filter.mp ho
    simp only [decide_eq_true_eq] at hk
    obtain ⟨f', i', j'⟩ := o
    obtain ⟨t', e1, e2⟩ := (mem_occs bad f' i' j').mp ho1
    rw [← this] at h1 h2
    dsimp only at h1 h2
    have ei : i' = i := by exact_mod_cast h1
    have ej : j' = j := by exact_mod_cast h2
    subst ei ej
    rw [h3] at e1; injection e1 with e1; subst e1
    rw [h4] at e2; injection e2 with e2; subst e2
    exact hk
  | a :: b :: l, this =>
    have e : recorded (a :: b :: l) = some ⟨true, -1, -1⟩ := by cases l <;> rfl
    rw [e] at this
    injection this with this
    rw [← this] at hc
    simp at hc

/-- the polyhedron lists every face once -/
theorem collectFaces_nodup (bad : List Tetra) (fs : FaceSet) (hfs : fs.Perm (faceLoop bad)) {l : List Face} (h : collectFaces bad fs = .ok l) : l.Nodup := by
  have gen : ∀ (fs : FaceSet), (∀ e ∈ fs, e ∈ faceLoop bad) → ∀ l, collectFaces bad fs = .ok l → (l.map Face.hash).Sublist (fs.map Prod.fst) := by
    intro fs
    induction fs with
    | nil => intro _ l h; cases h; exact List.Sublist.refl _
    | cons e fs ih =>
      intro hm l h
      obtain ⟨k, fc⟩ := e
      have ih' := ih fun e he => hm e (List.mem_cons_of_mem _ he)
      simp only [collectFaces] at h
      by_cases hc : fc.check = false
      · rw [if_pos hc] at h
        obtain ⟨f, t, i, j, hk, hi, hj, ht, hf⟩ := faceLoop_key bad k fc (hm _ List.mem_cons_self) hc
        rw [goGet_eq hi ht, Res.bind_ok, goGet_eq hj hf, Res.bind_ok] at h
        obtain ⟨l', e', h⟩ := Res.bind_eq_ok.mp h
        simp only [Res.pure_eq, Res.ok.injEq] at h
        subst h
        rw [List.map_cons, List.map_cons, hk]
        exact (ih' l' e').cons_cons _
      · rw [if_neg hc] at h
        exact (ih' l h).cons _
  have hn : ((faceLoop bad).map Prod.fst).Nodup := by rw [faceLoop_eq]; exact (faceFold_spec (occs bad)).1
  have := gen fs (fun e he => hfs.subset he) l h
  exact List.Nodup.of_map _ (((hfs.map Prod.fst).nodup_iff.mpr hn).sublist this)

/-- the number of faces on the boundary -/
def boundaryFaces (bad : List Tetra) : ℕ :=
  (bad.flatMap (·.faces)).countP fun f => decide ((bad.flatMap (·.faces)).countP (fun g => decide (SameFace g f)) = 1)

theorem boundary_length {bad : List Tetra} {l : List Face} (hn : l.Nodup) (hm : ∀ f, f ∈ l ↔ OnBoundary bad f) : l.length = boundaryFaces bad := by
  unfold boundaryFaces
  rw [List.countP_eq_length_filter]
  refine List.Perm.length_eq ?_
  rw [List.perm_ext_iff_of_nodup hn]
  · intro f
    rw [hm, List.mem_filter]
    simp [OnBoundary]
  · rw [List.nodup_iff_count_le_one]
    intro f
    by_cases hf : f ∈ (bad.flatMap (·.faces)).filter fun f => decide ((bad.flatMap (·.faces)).countP (fun g => decide (SameFace g f)) = 1)
    · obtain ⟨h1, h2⟩ := List.mem_filter.mp hf
      simp only [decide_eq_true_eq] at h2
      refine (List.Sublist.count_le _ List.filter_sublist).trans ?_
      rw [← h2, List.count_eq_countP]
      refine List.countP_mono_left fun g _ hg => ?_
      have : g = f := by simpa using hg
      rw [this]; simp [SameFace]
    · rw [List.count_eq_zero_of_not_mem hf]; omega

/-- one insertion: the exact number of steps, and the number of tetrahedra afterwards -/
theorem bwStepCt_run {P : Type} (w : BwWeights) (test : P → P → P → P → P → Bool) (s : Sched) (hs : s.WF) (points : List P)
    (t : Tetrahedrisation) (g : Good t) (k : ℕ) (hv : ValidMesh (k + 4) t) (hl : k + 4 ≤ points.length) (p : P) {t' : Tetrahedrisation} (h : bwStep test s points t k p = .ok t') :
    ∃ bad : List Tetra, ∃ e : ℕ, bad.Perm ((tets t).filter (isBad test points p)) ∧ e ≤ 4 * bad.length ∧ boundaryFaces bad ≤ e ∧
      (bwStepCt w test s points t k p).run = .ok (t', w.sphere * t.length + (w.face * (4 * bad.length) + (w.entry * e +
        (w.drop * bad.length + w.add * boundaryFaces bad)))) ∧ t'.length + bad.length = t.length + boundaryFaces bad := by
  have hv' : ValidMesh points.length t := hv.mono hl
  obtain ⟨t0, e0, g0, m0⟩ := bwStep_spec test s hs points t g hv' k p
  rw [h] at e0
  injection e0 with e0
  subst e0
  unfold bwStep at h
  obtain ⟨bad, e1, h⟩ := Res.bind_eq_ok.mp h
  obtain ⟨poly, e2, h⟩ := Res.bind_eq_ok.mp h
  simp only [Res.pure_eq, Res.ok.injEq] at h
  have hp := hs.1 k t
  have eb := findBad_spec test points p (s.tetras k t) (fun kv hk => hv' kv (hp.subset hk))
  rw [e1] at eb
  injection eb with eb
  have hbp : bad.Perm ((tets t).filter (isBad test points p)) := by
    rw [eb]; exact (hp.map Prod.snd).filter _
  have h4 : ∀ b ∈ bad, b.faces.length = 4 := by
    intro b hb
    have hb' : b ∈ tets t := (List.mem_filter.mp (hbp.subset hb)).1
    have := (g.2 _ ((g.mem_iff _ _).mpr ⟨rfl, hb'⟩)).2
    dsimp only at this
    rw [this]; rfl
  have hn := collectFaces_nodup bad _ (hs.2.1 k (faceLoop bad)) e2
  obtain ⟨poly', e3, hm⟩ := collectFaces_spec bad _ (hs.2.1 k (faceLoop bad))
  rw [e2] at e3
  injection e3 with e3
  subst e3
  have hq := boundary_length hn hm
  have r1 := findBadCt_run w test points p _ e1
  have r2 := faceLoopCt_run w bad h4
  obtain ⟨r3, lp⟩ := collectFacesCt_run w bad _ e2
  rw [(hs.2.1 k (faceLoop bad)).length_eq] at r3 lp
  rw [hp.length_eq] at r1
  have r4 := foldlM_tick (fun (t : Tetrahedrisation) (b : Tetra) => GoMap.erase t (tetraHash b)) w.drop bad t
  have r5 := foldlM_tick (fun (t : Tetrahedrisation) (f : Face) => addTetra t (connect f (k + 4))) w.add poly (bad.foldl (fun t b => GoMap.erase t (tetraHash b)) t)
  refine ⟨bad, (faceLoop bad).length, hbp, faceLoop_length bad h4, by omega, ?_, ?_⟩
  · rw [← h, ← hq]
    exact run_bind_ok r1 (run_bind_ok r2 (run_bind_ok r3 (run_bind_ok r4 r5)))
  · have inj : ∀ f ∈ poly, ∀ f' ∈ poly, connect f (k + 4) = connect f' (k + 4) → f = f' := by
      intro f _ f' _ he
      simp only [connect, Tetra.mk.injEq] at he
      obtain ⟨a, b, c, _⟩ := he
      cases f; cases f'; simp_all
    have perm : (tets t').Perm ((tets t).filter (fun v => !isBad test points p v) ++ poly.map fun f => connect f (k + 4)) := by
      rw [List.perm_ext_iff_of_nodup g0.tets_nodup]
      · intro v
        rw [m0, List.mem_append, List.mem_filter, List.mem_map]
        simp only [Bool.not_eq_true']
        refine or_congr Iff.rfl ⟨?_, ?_⟩
        · rintro ⟨f, hf, rfl⟩; exact ⟨f, (hm f).mpr ((onBoundary_perm hbp f).mpr hf), rfl⟩
        · rintro ⟨f, hf, rfl⟩; exact ⟨f, (onBoundary_perm hbp f).mp ((hm f).mp hf), rfl⟩
      · rw [List.nodup_append]
        refine ⟨g.tets_nodup.filter _, (List.nodup_map_iff_inj_on hn).mpr inj, ?_⟩
        intro v hv1 v' hv2 hvv
        subst hvv
        obtain ⟨f, hf, rfl⟩ := List.mem_map.mp hv2
        have := (tets_valid hv (List.mem_filter.mp hv1).1).1 (k + 4) (by simp [connect])
        push_cast at this
        omega
    have l1 := perm.length_eq
    rw [List.length_append, List.length_map, tets_length, hq] at l1
    have l2 := hbp.length_eq
    have l3 := List.length_eq_length_filter_add (l := tets t) (isBad test points p)
    rw [tets_length] at l3
    omega

theorem bwLoopCt_run {P : Type} (w : BwWeights) (test : P → P → P → P → P → Bool) (s : Sched) (hs : s.WF) (points : List P) (ps : List P) :
    ∀ (k : ℕ) (t : Tetrahedrisation), Good t → ValidMesh (k+4) t → Different t → k + 4 + ps.length ≤ points.length →
      ∃ t' m, bwLoop test s points (ps.zipIdx k) t = .ok t' ∧ (bwLoopCt w test s points (ps.zipIdx k) t).run = .ok (t', m) ∧ Good t' ∧
        ValidMesh (k + ps.length + 4) t' ∧ Different t' ∧ m + unitCost w * (k + 4).choose 5 ≤ unitCost w * (k + ps.length + 4).choose 5 := by
  induction ps with
  | nil => intro k t g v d _; exact ⟨t, 0, rfl, rfl, g, v, d, by simp⟩
  | cons p ps ih =>
    intro k t g v d hl
    rw [List.length_cons] at hl
    obtain ⟨t1, e1, g1, m1⟩ := bwStep_spec test s hs points t g (v.mono (by omega)) k p
    have v1 := bwStep_valid test points t t1 g k v p m1
    have d1 := bwStep_different test points t t1 g d k v p m1
    obtain ⟨bad, e, hb, he, hq, r1, _⟩ := bwStepCt_run w test s hs points t g k v (by omega) p e1
    have lb : bad.length ≤ t.length := by
      rw [hb.length_eq, ← tets_length t]
      exact List.length_filter_le _ _
    obtain ⟨c1, ec, b1⟩ : ∃ c, c = w.sphere * t.length + (w.face * (4 * bad.length) + (w.entry * e + (w.drop * bad.length + w.add * boundaryFaces bad))) ∧
        c ≤ unitCost w * t.length := by
      refine ⟨_, rfl, ?_⟩
      unfold unitCost
      have a1 : w.face * (4 * bad.length) ≤ w.face * (4 * t.length) := Nat.mul_le_mul_left _ (by omega)
      have a2 : w.entry * e ≤ w.entry * (4 * t.length) := Nat.mul_le_mul_left _ (by omega)
      have a3 : w.drop * bad.length ≤ w.drop * t.length := Nat.mul_le_mul_left _ (by omega)
      have a4 : w.add * boundaryFaces bad ≤ w.add * (4 * t.length) := Nat.mul_le_mul_left _ (by omega)
      have : (w.sphere + 4 * w.face + 4 * w.entry + w.drop + 4 * w.add) * t.length =
        w.sphere * t.length + (w.face * (4 * t.length) + (w.entry * (4 * t.length) + (w.drop * t.length + w.add * (4 * t.length)))) := by ring
      omega
    rw [← ec] at r1
    obtain ⟨t2, c2, e2, r2, g2, v2, d2, b2⟩ := ih (k+1) t1 g1 (v1.mono (by omega)) d1 (by omega)
    refine ⟨t2, c1 + c2, ?_, ?_, g2, v2.mono (by rw [List.length_cons]; omega), d2, ?_⟩
    · rw [List.zipIdx_cons, bwLoop, e1, Res.bind_ok, e2]
    · rw [List.zipIdx_cons, bwLoopCt]
      exact run_bind_ok r1 r2
    · have hc := tets_choose g v d
      have hs : (k + 5).choose 5 = (k + 4).choose 4 + (k + 4).choose 5 := Nat.choose_succ_succ _ _
      have e : k + 1 + ps.length + 4 = k + (p :: ps).length + 4 := by rw [List.length_cons]; omega
      have e' : k + 1 + 4 = k + 5 := by omega
      rw [e, e', hs, Nat.mul_add] at b2
      have := Nat.mul_le_mul_left (unitCost w) hc
      omega

/-- C103: the insertion of point number `k`, after the earlier ones. With `b` tetrahedra whose sphere test is positive, `e` different faces among theirs and
`q` faces that occur once, there is one sphere test for each of the tetrahedra of the moment, `4b` faces are looked at, `e` entries of the face map are visited, `b` tetrahedra are
deleted and `q` added, none of them in place of another -/
theorem C103_insert {P : Type} (w : BwWeights) (test : P → P → P → P → P → Bool) (s : Sched) (hs : s.WF) (englobed points : List P)
    (hl : englobed.length = points.length + 4) {k : ℕ} {p : P} (hp : points[k]? = some p) :
    ∃ (t t' : Tetrahedrisation) (bad : List Tetra) (e : ℕ), bwLoop test s englobed (points.take k).zipIdx (addTetra [] initialTetra) = .ok t ∧
      bwLoop test s englobed (points.take (k + 1)).zipIdx (addTetra [] initialTetra) = .ok t' ∧
      bad.Perm ((tets t).filter (isBad test englobed p)) ∧ boundaryFaces bad ≤ e ∧ e ≤ 4 * bad.length ∧
      (bwStepCt w test s englobed t k p).run = .ok (t', w.sphere * t.length + (w.face * (4 * bad.length) + (w.entry * e +
        (w.drop * bad.length + w.add * boundaryFaces bad)))) ∧ t'.length + bad.length = t.length + boundaryFaces bad := by
  obtain ⟨hk, hp'⟩ := List.getElem?_eq_some_iff.mp hp
  have lk : (points.take k).length = k := by rw [List.length_take]; omega
  obtain ⟨t, e1, g, v⟩ := bwLoop_spec test s hs englobed (points.take k) 0 _ good_initial valid_initial (by rw [lk]; omega)
  rw [lk] at v
  have v' : ValidMesh (k + 4) t := v.mono (by omega)
  obtain ⟨t', e2, g2, m2⟩ := bwStep_spec test s hs englobed t g (v'.mono (by omega)) k p
  obtain ⟨bad, e, h1, h2, h3, h4, h5⟩ := bwStepCt_run w test s hs englobed t g k v' (by omega) p e2
  refine ⟨t, t', bad, e, e1, ?_, h1, h3, h2, h4, h5⟩
  have split : (points.take (k + 1)).zipIdx = (points.take k).zipIdx ++ [(p, k)] := by
    rw [List.take_add_one, hp, List.zipIdx_append, lk]
    simp
  have app : ∀ (l l' : List (P × ℕ)) (t : Tetrahedrisation), bwLoop test s englobed (l ++ l') t = bwLoop test s englobed l t >>= fun t => bwLoop test s englobed l' t := by
    intro l
    induction l with
    | nil => intro l' t; rfl
    | cons a l ih =>
      intro l' t
      rw [List.cons_append, bwLoop, bwLoop]
      cases bwStep test s englobed t a.2 a.1 with
      | ok t1 => exact ih l' t1
      | panic => rfl
      | fuel => rfl
  rw [split, app, e1, Res.bind_ok, bwLoop, e2, Res.bind_ok]
  rfl

theorem meshFacesCt_run (w : BwWeights) (t : Tetrahedrisation) (h4 : ∀ b ∈ tets t, b.faces.length = 4) :
    (meshFacesCt w t).run = .ok (meshFaces t, w.out * (4 * t.length)) := by
  unfold meshFacesCt meshFaces
  rw [foldlM_run _ (fun acc kt => kt.2.faces.foldl (fun acc f => if f.isPartOfMesh then addFace acc f else acc) acc) (fun _ => w.out * 4)]
  · rw [sum_map_const, mul_assoc]
  · intro acc kt hk
    rw [foldlM_tick (fun (acc : List Int) (f : Face) => if f.isPartOfMesh then addFace acc f else acc), h4 _ (List.mem_map_of_mem (f := Prod.snd) hk)]

/-- C103: whatever the sphere test answers and in whatever order the maps are visited, after all insertions no two tetrahedra have the same four
vertices, there are at most `n + 4` choose `4` of them, and the counted run returns the same list; the counter is bounded by the number of ways to choose five
vertices times the cost of one tetrahedron, and four steps for each final tetrahedron -/
theorem C103_bowyer {P : Type} (w : BwWeights) (test : P → P → P → P → P → Bool) (s : Sched) (hs : s.WF) (englobed points : List P)
    (hl : englobed.length = points.length + 4) :
    ∃ (t : Tetrahedrisation) (out : List Int) (m : ℕ), bwLoop test s englobed points.zipIdx (addTetra [] initialTetra) = .ok t ∧
      (∀ v ∈ tets t, (vset v).card = 4 ∧ ∀ i ∈ vset v, 0 ≤ i ∧ i < points.length + 4) ∧ ((tets t).map vset).Nodup ∧
      t.length ≤ (points.length + 4).choose 4 ∧
      bowyerWatsonWith test s englobed points = .ok out ∧ (bowyerWatsonCt w test s englobed points).run = .ok (out, m) ∧
      m ≤ unitCost w * (points.length + 4).choose 5 + w.out * (4 * (points.length + 4).choose 4) := by
  obtain ⟨t, m, e, r, g, v, d, b⟩ := bwLoopCt_run w test s hs englobed points 0 _ good_initial valid_initial different_initial (by omega)
  have hv : ValidMesh (points.length + 4) t := v.mono (by omega)
  have hc := tets_choose g hv d
  have hp := hs.2.2 t
  have r2 := meshFacesCt_run w (s.final t) (by
    intro b hb
    have hb' : b ∈ tets t := (hp.map Prod.snd).subset hb
    have := (g.2 _ ((g.mem_iff _ _).mpr ⟨rfl, hb'⟩)).2
    dsimp only at this
    rw [this]; rfl)
  refine ⟨t, _, _, e, ?_, ?_, hc, ?_, run_bind_ok r r2, ?_⟩
  · intro x hx
    obtain ⟨h1, h2⟩ := tets_valid hv hx
    constructor
    · have : vset x = [x.ia, x.ib, x.ic, x.id].toFinset := by simp [vset]
      rw [this, List.toFinset_card_of_nodup h2]; rfl
    · intro i hi
      have := h1 i (by simpa [vset] using hi)
      push_cast at this
      exact this
  · rw [List.nodup_map_iff_inj_on g.tets_nodup]
    exact d
  · unfold bowyerWatsonWith
    dsimp only
    rw [e, Res.bind_ok]; rfl
  · rw [hp.length_eq]
    have h5 : (0 + 4).choose 5 = 0 := by decide
    rw [h5] at b
    have e0 : 0 + points.length + 4 = points.length + 4 := by omega
    rw [e0] at b
    have := Nat.mul_le_mul_left w.out (Nat.mul_le_mul_left 4 hc)
    omega

/-- C103 for `bowyerWatson` itself, at every number type, in particular float64 -/
theorem C103_bowyer_any {F : Type} [_root_.Add F] [_root_.Sub F] [Mul F] [Neg F] [LT F] [DecidableLT F] [LE F] [DecidableLE F] [GoConst F] [OfNat F 0] [OfNat F 3]
    (w : BwWeights) (s : Sched) (hs : s.WF) (points : List (R3.Vector F)) : ∃ (out : List Int) (m : ℕ), bowyerWatson s points = .ok out ∧
      (bowyerWatsonCt w (fun a b c d e => decide ((0 : F) ≤ Predicates.InSphereFast a b c d e)) s (englobe points).1 points).run = .ok (out, m) ∧
      m ≤ unitCost w * (points.length + 4).choose 5 + w.out * (4 * (points.length + 4).choose 4) ∧ out.length ≤ 12 * (points.length + 4).choose 4 := by
  obtain ⟨t, out, m, e, _, _, h1, h2, h3, h4⟩ := C103_bowyer w (fun a b c d e => decide ((0 : F) ≤ Predicates.InSphereFast a b c d e)) s hs (englobe points).1 points rfl
  refine ⟨out, m, h2, h3, h4, ?_⟩
  have g := (bwLoop_spec (fun a b c d e => decide ((0 : F) ≤ Predicates.InSphereFast a b c d e)) s hs (englobe points).1 points 0 _ good_initial valid_initial
    (by show 0 + 4 + points.length ≤ points.length + 4; omega))
  obtain ⟨t', e', g, _⟩ := g
  rw [e] at e'
  injection e' with e'
  subst e'
  unfold bowyerWatsonWith at h2
  dsimp only at h2
  rw [e, Res.bind_ok] at h2
  simp only [Res.pure_eq, Res.ok.injEq] at h2
  rw [← h2, meshFaces_eq]
  have len : ∀ l : List (Int × Int × Int), (flatInt l).length = 3 * l.length := by
    intro l
    induction l with
    | nil => rfl
    | cons a l ih => simp only [flatInt, List.flatMap_cons, List.length_append, List.length_cons, List.length_nil] at ih ⊢; omega
  have four : ∀ v ∈ tets (s.final t), (meshTris v).length ≤ 4 := by
    intro v hv
    have hv' : v ∈ tets t := ((hs.2.2 t).map Prod.snd).subset hv
    have e4 := (g.2 _ ((g.mem_iff _ _).mpr ⟨rfl, hv'⟩)).2
    dsimp only at e4
    unfold meshTris
    rw [List.length_map]
    refine (List.length_filter_le _ _).trans ?_
    rw [e4]; exact le_refl 4
  have sum : ∀ l : List Tetra, (∀ v ∈ l, (meshTris v).length ≤ 4) → (l.flatMap meshTris).length ≤ 4 * l.length := by
    intro l hl
    induction l with
    | nil => simp
    | cons a l ih =>
      rw [List.flatMap_cons, List.length_append, List.length_cons]
      have := hl a List.mem_cons_self
      have := ih fun v hv => hl v (List.mem_cons_of_mem _ hv)
      omega
  have := sum _ four
  rw [tets_length, (hs.2.2 t).length_eq] at this
  rw [len]
  omega

/-! ## The convex hull -/

section hull
variable {F : Type} [_root_.Add F] [_root_.Sub F] [Mul F] [LT F] [DecidableLT F] [GoConst F] [OfNat F 0]

theorem popUCt_run (p : R3.Vector F) (l : List (R3.Vector F)) : ∃ c, (popUCt p l).run = .ok (popU p l, c) ∧ c + (popU p l).length ≤ l.length + 1 ∧ l.length ≤ c + (popU p l).length ∧
    (l ≠ [] → 1 ≤ (popU p l).length) ∧ (l.length ≤ 1 → c = 0 ∧ popU p l = l) := by
  induction l with
  | nil => exact ⟨0, rfl, by simp [popU], by simp [popU], by simp, fun _ => ⟨rfl, rfl⟩⟩
  | cons b l ih =>
    cases l with
    | nil => exact ⟨0, rfl, by simp [popU], by simp [popU], by simp [popU], fun _ => ⟨rfl, rfl⟩⟩
    | cons a rest =>
      obtain ⟨c, h1, h2, h2', h3, _⟩ := ih
      by_cases h : (0 : F) < cross2D a b p
      · have e1 : popU p (b :: a :: rest) = popU p (a :: rest) := by rw [popU, if_pos h]
        have e2 : popUCt p (b :: a :: rest) = (do Wk.tick 1; popUCt p (a :: rest)) := by rw [popUCt, if_pos h]
        refine ⟨1 + c, ?_, ?_, ?_, ?_, ?_⟩
        · rw [e1, e2]; exact run_bind_ok (a := ()) rfl h1
        · rw [e1, List.length_cons]; omega
        · rw [e1, List.length_cons]; omega
        · rw [e1]; exact fun _ => h3 (by simp)
        · intro hl; simp at hl
      · have e1 : popU p (b :: a :: rest) = b :: a :: rest := by rw [popU, if_neg h]
        have e2 : popUCt p (b :: a :: rest) = (do Wk.tick 1; pure (b :: a :: rest)) := by rw [popUCt, if_neg h]
        refine ⟨1, ?_, ?_, ?_, ?_, ?_⟩
        · rw [e1, e2]; rfl
        · rw [e1]; omega
        · rw [e1]; omega
        · rw [e1]; intro _; simp
        · intro hl; simp at hl

theorem popLCt_run (p : R3.Vector F) (l : List (R3.Vector F)) : ∃ c, (popLCt p l).run = .ok (popL p l, c) ∧ c + (popL p l).length ≤ l.length + 1 ∧ l.length ≤ c + (popL p l).length ∧
    (l ≠ [] → 1 ≤ (popL p l).length) ∧ (l.length ≤ 1 → c = 0 ∧ popL p l = l) := by
  induction l with
  | nil => exact ⟨0, rfl, by simp [popL], by simp [popL], by simp, fun _ => ⟨rfl, rfl⟩⟩
  | cons b l ih =>
    cases l with
    | nil => exact ⟨0, rfl, by simp [popL], by simp [popL], by simp [popL], fun _ => ⟨rfl, rfl⟩⟩
    | cons a rest =>
      obtain ⟨c, h1, h2, h2', h3, _⟩ := ih
      by_cases h : cross2D a b p < (0 : F)
      · have e1 : popL p (b :: a :: rest) = popL p (a :: rest) := by rw [popL, if_pos h]
        have e2 : popLCt p (b :: a :: rest) = (do Wk.tick 1; popLCt p (a :: rest)) := by rw [popLCt, if_pos h]
        refine ⟨1 + c, ?_, ?_, ?_, ?_, ?_⟩
        · rw [e1, e2]; exact run_bind_ok (a := ()) rfl h1
        · rw [e1, List.length_cons]; omega
        · rw [e1, List.length_cons]; omega
        · rw [e1]; exact fun _ => h3 (by simp)
        · intro hl; simp at hl
      · have e1 : popL p (b :: a :: rest) = b :: a :: rest := by rw [popL, if_neg h]
        have e2 : popLCt p (b :: a :: rest) = (do Wk.tick 1; pure (b :: a :: rest)) := by rw [popLCt, if_neg h]
        refine ⟨1, ?_, ?_, ?_, ?_, ?_⟩
        · rw [e1, e2]; rfl
        · rw [e1]; omega
        · rw [e1]; omega
        · rw [e1]; intro _; simp
        · intro hl; simp at hl

/-- two stacks after `m` points and `c` tests -/
def Stacks (m c : ℕ) (st : List (R3.Vector F) × List (R3.Vector F)) : Prop :=
  (m ≤ 1 ∧ st.1.length = m ∧ st.2.length = m ∧ c = 0) ∨ (2 ≤ m ∧ 2 ≤ st.1.length ∧ 2 ≤ st.2.length ∧ c + st.1.length + st.2.length + 4 ≤ 4 * m ∧ 2 * m ≤ c + st.1.length + st.2.length)

theorem hullLoopCt_run (Vs : List (R3.Vector F)) : ∃ c, (hullLoopCt Vs).run = .ok (hullLoop Vs, c) ∧ Stacks Vs.length c (hullLoop Vs) := by
  unfold hullLoopCt hullLoop
  have gen : ∀ (l : List (R3.Vector F)) (m c : ℕ) (st : List (R3.Vector F) × List (R3.Vector F)), Stacks m c st → ∃ c',
      (l.foldlM (fun st p => do
        let U ← popUCt p st.1
        let L ← popLCt p st.2
        pure (p :: U, p :: L)) st : Wk _).run = .ok (l.foldl (fun st p => (p :: popU p st.1, p :: popL p st.2)) st, c') ∧
      Stacks (m + l.length) (c + c') (l.foldl (fun st p => (p :: popU p st.1, p :: popL p st.2)) st) := by
    intro l
    induction l with
    | nil => intro m c st h; exact ⟨0, rfl, h⟩
    | cons p l ih =>
      intro m c st h
      obtain ⟨cu, u1, u2, u5, u3, u4⟩ := popUCt_run p st.1
      obtain ⟨cl, l1, l2, l5, l3, l4⟩ := popLCt_run p st.2
      have h' : Stacks (m + 1) (c + (cu + cl)) (p :: popU p st.1, p :: popL p st.2) := by
        unfold Stacks at h ⊢
        dsimp only
        rw [List.length_cons, List.length_cons]
        rcases h with ⟨hm, h1, h2, h3⟩ | ⟨hm, h1, h2, h3, h4⟩
        · obtain ⟨a1, a2⟩ := u4 (by omega)
          obtain ⟨b1, b2⟩ := l4 (by omega)
          rw [a2, b2]
          omega
        · have := u3 (by intro e; rw [e] at h1; simp at h1)
          have := l3 (by intro e; rw [e] at h2; simp at h2)
          omega
      obtain ⟨c', e, s⟩ := ih (m + 1) (c + (cu + cl)) _ h'
      refine ⟨cu + (cl + 0) + c', ?_, ?_⟩
      · rw [List.foldlM_cons, List.foldl_cons]
        exact run_bind_ok (run_bind_ok u1 (run_bind_ok l1 rfl)) e
      · rw [List.foldl_cons, List.length_cons]
        have e1 : m + 1 + l.length = m + (l.length + 1) := by omega
        have e2 : c + (cu + cl) + c' = c + (cu + (cl + 0) + c') := by omega
        rw [e1, e2] at s
        exact s
  obtain ⟨c, h1, h2⟩ := gen Vs 0 0 ([], []) (Or.inl ⟨by omega, rfl, rfl, rfl⟩)
  rw [Nat.zero_add, Nat.zero_add] at h2
  exact ⟨c, h1, h2⟩

theorem filterLoop_length : ∀ (n i k : ℕ) (arr : List (R3.Vector F)), (filterLoop n i k arr).length ≤ k + n := by
  intro n
  induction n with
  | zero => intro i k arr; simp [filterLoop]
  | succ n ih =>
    intro i k arr
    simp only [filterLoop]
    split
    · rw [List.length_take]; omega
    · split_ifs
      · exact (ih _ _ _).trans (by omega)
      · exact (ih _ _ _).trans (by omega)

/-- C103: `ConvexHull` evaluates `cross2D` at most four times for each point that is left after the removal of duplicates, beyond the first two. With `m` points left and a
hull of `h` points the number of evaluations is between `2m - h - 2` and `4m - h - 6`. The result does not depend on counting. For every number type and every sort. -/
theorem C103_hull (srt : List (R3.Vector F) → List (R3.Vector F)) (hsrt : ∀ l, (srt l).Perm l) (Vs : List (R3.Vector F)) :
    ∃ c, (ConvexHullCt srt Vs).run = .ok (ConvexHull srt Vs, c) ∧ c ≤ 4 * ((filterDup (srt Vs)).length - 2) ∧ (filterDup (srt Vs)).length ≤ Vs.length ∧
      2 * (filterDup (srt Vs)).length ≤ c + (ConvexHull srt Vs).length + 2 ∧
      (2 ≤ (filterDup (srt Vs)).length → c + (ConvexHull srt Vs).length + 6 ≤ 4 * (filterDup (srt Vs)).length) := by
  obtain ⟨c, h1, h2⟩ := hullLoopCt_run (filterDup (srt Vs))
  have el : (ConvexHull srt Vs).length = ((hullLoop (filterDup (srt Vs))).2.length - 1) + ((hullLoop (filterDup (srt Vs))).1.length - 1) := by
    unfold ConvexHull
    dsimp only
    rw [List.length_append, List.length_dropLast, List.length_dropLast, List.length_reverse]
  refine ⟨c + 0, ?_, ?_, ?_, ?_, ?_⟩
  · unfold ConvexHullCt ConvexHull
    exact run_bind_ok h1 rfl
  · rcases h2 with ⟨_, _, _, h⟩ | ⟨_, _, _, h, _⟩ <;> omega
  · have := filterLoop_length (srt Vs).length 0 0 (srt Vs)
    unfold filterDup
    have e := (hsrt Vs).length_eq
    omega
  · rcases h2 with ⟨_, _, _, h⟩ | ⟨_, _, _, h, _⟩ <;> omega
  · rcases h2 with ⟨_, _, _, h⟩ | ⟨_, _, _, h, _⟩ <;> omega

end hull

/-! ## The binary search -/

section span
variable {K : Type} [Field K] [LinearOrder K] [IsStrictOrderedRing K]

theorem findSpanLoop_log (u : K) (U : List Int) (j low high : ℕ) (hl : low < high) (hh : high < U.length)
    (h1 : knot K U low ≤ u) (h2 : u < knot K U high) (hf : high - low ≤ 2 ^ j) :
    ∃ k : ℕ, findSpanLoop u U (j + 1) low high ((low + high) / 2 : ℕ) = .ok (k : Int) ∧ low ≤ k ∧ k < high ∧
      knot K U k ≤ u ∧ u < knot K U (k+1) := by
  induction j generalizing low high with
  | zero =>
    have : high = low + 1 := by simp only [pow_zero] at hf; omega
    subst this
    have e : (low + (low + 1)) / 2 = low := by omega
    rw [e, findSpanLoop_step u U 0 low ((low + 1 : ℕ) : Int) low (by omega), if_neg (not_lt.mpr h1), if_neg (not_le.mpr h2)]
    exact ⟨low, rfl, le_refl _, by omega, h1, h2⟩
  | succ j ih =>
    have hp : 2 ^ (j + 1) = 2 * 2 ^ j := by rw [pow_succ]; ring
    rw [hp] at hf
    rw [findSpanLoop_step u U (j + 1) low high ((low + high) / 2) (by omega)]
    by_cases c1 : u < knot K U ((low + high) / 2)
    · rw [if_pos c1, tdiv2]
      have hne : low ≠ (low + high) / 2 := by
        intro e; rw [← e] at c1; exact absurd (lt_of_lt_of_le c1 h1) (lt_irrefl _)
      obtain ⟨k, e, a, b, c, d⟩ := ih low ((low + high) / 2) (by omega) (by omega) h1 c1 (by omega)
      exact ⟨k, e, a, by omega, c, d⟩
    · rw [if_neg c1]
      by_cases c2 : knot K U ((low + high) / 2 + 1) ≤ u
      · rw [if_pos c2, tdiv2]
        obtain ⟨k, e, a, b, c, d⟩ := ih ((low + high) / 2) high (by omega) hh (not_lt.mp c1) h2 (by omega)
        exact ⟨k, e, by omega, b, c, d⟩
      · rw [if_neg c2]
        exact ⟨_, rfl, by omega, by omega, not_lt.mp c1, not_le.mp c2⟩

/-- C103: for a parameter in the range of the knots, `findSpan` finds the span of the parameter, and evaluates the condition of its loop at most `j + 1` times if there are at most `2^j` spans -/
theorem C103_span (n p j : ℕ) (u : K) (U : List Int) (hpn : p ≤ n) (hlen : n + 1 < U.length) (h1 : knot K U p ≤ u) (h2 : u ≤ knot K U (n+1))
    (hj : n + 1 - p ≤ 2 ^ j) : ∃ k : ℕ, findSpan (j + 1) n p u U = .ok (k : Int) ∧ p ≤ k ∧ k ≤ n ∧
      (u ≠ knot K U (n+1) → knot K U k ≤ u ∧ u < knot K U (k+1)) ∧ (u = knot K U (n+1) → k = n) := by
  unfold findSpan
  rw [goGet_knot U _ (n+1) (by push_cast; rfl) hlen]
  simp only [Res.bind_ok, goOfInt_field, Res.pure_eq, beq_iff_eq]
  by_cases he : u = knot K U (n+1)
  · rw [if_pos (by exact he)]
    exact ⟨n, rfl, hpn, le_refl _, fun h => absurd he h, fun _ => rfl⟩
  · rw [if_neg (by exact he)]
    have e : (Int.tdiv ((p : Int) + ((n : Int) + 1)) 2) = ((p + (n + 1)) / 2 : ℕ) := by
      have := tdiv2 p (n + 1)
      push_cast at this ⊢
      exact this
    rw [e]
    obtain ⟨k, hk, a, b, c, d⟩ := findSpanLoop_log u U j p (n + 1) (by omega) hlen h1 (lt_of_le_of_ne h2 he) hj
    push_cast at hk ⊢
    exact ⟨k, hk, a, by omega, fun _ => ⟨c, d⟩, fun h => absurd h he⟩

/-- the knots `0, 1, …, m` -/
def stairs (m : ℕ) : List Int := (List.range (m + 1)).map fun (i : ℕ) => (i : Int)

theorem knot_stairs {m i : ℕ} (h : i ≤ m) : knot K (stairs m) i = i := by
  unfold knot stairs
  rw [List.getD_eq_getElem?_getD, List.getElem?_map, List.getElem?_range (by omega)]
  simp

/-- C103: with `2^j` spans the search can need all `j + 1` evaluations: after `j` of them it has not ended -/
theorem C103_span_sharp (j : ℕ) : ∃ (n p : ℕ) (u : K) (U : List Int), Nondec U ∧ p ≤ n ∧ n + 1 < U.length ∧ knot K U p ≤ u ∧ u ≤ knot K U (n+1) ∧
    n + 1 - p = 2 ^ j ∧ findSpan j n p u U = .fuel := by
  have hpos : 0 < 2 ^ j := Nat.two_pow_pos j
  have hn : 2 ^ j - 1 + 1 = 2 ^ j := by omega
  refine ⟨2 ^ j - 1, 0, 0, stairs (2 ^ j), ?_, by omega, ?_, ?_, ?_, by omega, ?_⟩
  · intro a b hab hb
    have hb' : b ≤ 2 ^ j := by simp only [stairs, List.length_map, List.length_range] at hb; omega
    have get : ∀ i ≤ 2 ^ j, (stairs (2 ^ j)).getD i 0 = i := by
      intro i hi
      unfold stairs
      rw [List.getD_eq_getElem?_getD, List.getElem?_map, List.getElem?_range (by omega)]
      rfl
    rw [get a (by omega), get b hb']
    exact_mod_cast hab
  · simp [stairs]
  · rw [knot_stairs (by omega)]; simp
  · rw [hn, knot_stairs (le_refl _)]; positivity
  · unfold findSpan
    rw [goGet_knot (stairs (2 ^ j)) _ (2 ^ j - 1 + 1) (by push_cast; rfl) (by simp [stairs]), Res.bind_ok]
    have hne : ¬ ((0 : K) = knot K (stairs (2 ^ j)) (2 ^ j - 1 + 1)) := by
      rw [hn, knot_stairs (le_refl _)]
      have : (0:K) < (2 ^ j : ℕ) := by exact_mod_cast hpos
      exact this.ne
    simp only [goOfInt_field, beq_iff_eq]
    rw [if_neg (by exact hne)]
    have loop : ∀ i ≤ j, findSpanLoop (0 : K) (stairs (2 ^ j)) i ((0 : ℕ) : Int) ((2 ^ i : ℕ) : Int) ((0 + 2 ^ i) / 2 : ℕ) = .fuel := by
      intro i
      induction i with
      | zero => intro _; rfl
      | succ i ih =>
        intro hi
        have hle : 2 ^ (i + 1) ≤ 2 ^ j := Nat.pow_le_pow_right (by norm_num) hi
        have hp : 2 ^ (i + 1) = 2 * 2 ^ i := by rw [pow_succ]; ring
        have hi0 : 0 < 2 ^ i := Nat.two_pow_pos i
        have hm : (0 + 2 ^ (i + 1)) / 2 = 2 ^ i := by omega
        rw [hm, findSpanLoop_step (0 : K) (stairs (2 ^ j)) i ((0 : ℕ) : Int) ((2 ^ (i + 1) : ℕ) : Int) (2 ^ i) (by simp only [stairs, List.length_map, List.length_range]; omega), if_pos, tdiv2]
        · exact ih (by omega)
        · rw [knot_stairs (by omega)]; exact_mod_cast hi0
    have e : (Int.tdiv (((0 : ℕ) : Int) + (((2 ^ j - 1 : ℕ) : Int) + 1)) 2) = ((0 + 2 ^ j) / 2 : ℕ) := by
      have := tdiv2 0 (2 ^ j)
      rw [← this, ← hn]; push_cast; rfl
    have e2 : (((2 ^ j - 1 : ℕ) : Int) + 1) = ((2 ^ j : ℕ) : Int) := by exact_mod_cast congrArg (Nat.cast (R := Int)) hn
    rw [e, e2]
    exact loop j (le_refl _)

end span

/-- C103 in float64: knots up to `2^53`, finite parameter -/
theorem C103_span_float (n p j : ℕ) {u : F64} (hu : u.Finite) {U : List Int} (hfit : ∀ k ∈ U, |k| ≤ 2 ^ 53) (hpn : p ≤ n) (hlen : n + 1 < U.length)
    (h1 : knot ℚ U p ≤ u.toQ) (h2 : u.toQ ≤ knot ℚ U (n+1)) (hj : n + 1 - p ≤ 2 ^ j) : ∃ k : ℕ, findSpan (j + 1) n p u U = .ok (k : Int) ∧ p ≤ k ∧ k ≤ n ∧
      (u.toQ ≠ knot ℚ U (n+1) → knot ℚ U k ≤ u.toQ ∧ u.toQ < knot ℚ U (k+1)) ∧ (u.toQ = knot ℚ U (n+1) → k = n) := by
  rw [C79_span hfit hu]
  exact C103_span n p j u.toQ U hpn hlen h1 h2 hj

/-! ## The hypotheses hold -/

/-- six sorted points: eleven evaluations of `cross2D`, of at most sixteen -/
example : ((ConvexHullCt (fun l => l) ([⟨0, 0, 0⟩, ⟨1, 3, 0⟩, ⟨2, 1, 0⟩, ⟨3, 4, 0⟩, ⟨4, 2, 0⟩, ⟨5, 0, 0⟩] : List (R3.Vector ℚ))).run =
    .ok ([⟨0, 0, 0⟩, ⟨5, 0, 0⟩, ⟨4, 2, 0⟩, ⟨3, 4, 0⟩, ⟨1, 3, 0⟩], 11)) := by decide +kernel

/-- five points: 37 sphere tests and 315 steps -/
example : schedId.WF ∧ ∀ points : List (R3.Vector ℚ), points = [⟨0, 0, 0⟩, ⟨1, 0, 0⟩, ⟨0, 1, 0⟩, ⟨0, 0, 1⟩, ⟨1, 1, 2⟩] →
    (∃ out, (bowyerWatsonCt ⟨1, 0, 0, 0, 0, 0⟩ (fun a b c d e => decide ((0 : ℚ) ≤ Predicates.InSphereFast a b c d e)) schedId (englobe points).1 points).run = .ok (out, 37)) ∧
    (∃ out, (bowyerWatsonCt ⟨1, 1, 1, 1, 1, 1⟩ (fun a b c d e => decide ((0 : ℚ) ≤ Predicates.InSphereFast a b c d e)) schedId (englobe points).1 points).run = .ok (out, 315)) := by
  refine ⟨⟨fun _ _ => List.Perm.refl _, fun _ _ => List.Perm.refl _, fun _ => List.Perm.refl _⟩, ?_⟩
  rintro _ rfl
  have get : ∀ (x : Wk (List Int)) (k : ℕ), (match x.run with | .ok (_, m) => decide (m = k) | _ => false) = true → ∃ out, x.run = .ok (out, k) := by
    intro x k h
    rcases hx : x.run with ⟨out, m⟩ | _ | _ <;> rw [hx] at h <;> simp at h
    exact ⟨out, by rw [h]⟩
  exact ⟨get _ _ (by decide +kernel), get _ _ (by decide +kernel)⟩

/-- eight spans: four evaluations -/
example : findSpan 4 7 0 (1/2 : ℚ) [0, 1, 2, 3, 4, 5, 6, 7, 8] = .ok 0 ∧ findSpan 3 7 0 (1/2 : ℚ) [0, 1, 2, 3, 4, 5, 6, 7, 8] = .fuel ∧ 7 + 1 - 0 ≤ 2 ^ 3 := by
  refine ⟨by decide +kernel, by decide +kernel, by norm_num⟩

end Verif.Props
