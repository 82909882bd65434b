import Verif.Props.Meshing
/-!
# C35 - C37: Bowyer-Watson, for every predicate and every map iteration order
-/
set_option linter.unusedSectionVars false

namespace Verif.Props
open Verif Verif.R3 Verif.Meshing

/-! ## Go maps as association lists -/

section maps
variable {κ α : Type} [DecidableEq κ]

theorem mapGet_iff (m : List (κ × α)) (hn : (m.map Prod.fst).Nodup) (k : κ) (v : α) :
    GoMap.get? m k = some v ↔ (k, v) ∈ m := by
  induction m with
  | nil => simp [GoMap.get?]
  | cons e m ih =>
    obtain ⟨k', v'⟩ := e
    rw [List.map_cons, List.nodup_cons] at hn
    simp only [GoMap.get?]
    split_ifs with h
    · subst h
      simp only [Option.some.injEq, List.mem_cons, Prod.mk.injEq, true_and]
      constructor
      · intro h; exact Or.inl h.symm
      · rintro (h | h)
        · exact h.symm
        · exact absurd (List.mem_map_of_mem h) hn.1
    · rw [ih hn.2]
      simp only [List.mem_cons, Prod.mk.injEq]
      constructor
      · exact Or.inr
      · rintro (⟨h', _⟩ | h')
        · exact absurd h'.symm h
        · exact h'

theorem mapGet_set (m : List (κ × α)) (k k' : κ) (v : α) :
    GoMap.get? (GoMap.set m k v) k' = if k = k' then some v else GoMap.get? m k' := by
  induction m with
  | nil => simp only [GoMap.set, GoMap.get?]
  | cons e m ih =>
    obtain ⟨ke, ve⟩ := e
    simp only [GoMap.set]
    split_ifs with h1 h2 h2
    · simp [GoMap.get?, h2]
    · subst h1; simp [GoMap.get?, h2]
    · subst h2; simp only [GoMap.get?, h1, if_false]; rw [ih]; simp
    · simp only [GoMap.get?]; rw [ih]; simp [h2]

theorem mapKeys_set (m : List (κ × α)) (k : κ) (v : α) (k' : κ) :
    k' ∈ (GoMap.set m k v).map Prod.fst ↔ k' = k ∨ k' ∈ m.map Prod.fst := by
  induction m with
  | nil => simp [GoMap.set]
  | cons e m ih =>
    obtain ⟨ke, ve⟩ := e
    simp only [GoMap.set]
    split_ifs with h
    · subst h; simp
    · rw [List.map_cons, List.map_cons, List.mem_cons, List.mem_cons, ih]
      tauto

theorem mapNodup_set (m : List (κ × α)) (hn : (m.map Prod.fst).Nodup) (k : κ) (v : α) :
    ((GoMap.set m k v).map Prod.fst).Nodup := by
  induction m with
  | nil => simp [GoMap.set]
  | cons e m ih =>
    obtain ⟨ke, ve⟩ := e
    rw [List.map_cons, List.nodup_cons] at hn
    simp only [GoMap.set]
    split_ifs with h
    · subst h; rw [List.map_cons, List.nodup_cons]; exact hn
    · rw [List.map_cons, List.nodup_cons]
      refine ⟨?_, ih hn.2⟩
      intro hm
      rcases (mapKeys_set m k v ke).mp hm with h' | h'
      · exact h h'
      · exact hn.1 h'

theorem mapMem_set (m : List (κ × α)) (hn : (m.map Prod.fst).Nodup) (k : κ) (v : α) (k' : κ) (v' : α) :
    (k', v') ∈ GoMap.set m k v ↔ (k' = k ∧ v' = v) ∨ ((k', v') ∈ m ∧ k' ≠ k) := by
  rw [← mapGet_iff _ (mapNodup_set m hn k v), mapGet_set, ← mapGet_iff m hn]
  split_ifs with h
  · subst h; simp [eq_comm]
  · constructor
    · intro h'; exact Or.inr ⟨h', fun e => h e.symm⟩
    · rintro (⟨e, _⟩ | ⟨h', _⟩)
      · exact absurd e.symm h
      · exact h'

theorem mapErase_sublist (m : List (κ × α)) (k : κ) : (GoMap.erase m k).Sublist m := by
  induction m with
  | nil => exact List.Sublist.refl _
  | cons e m ih =>
    obtain ⟨ke, ve⟩ := e
    simp only [GoMap.erase]
    split_ifs with h
    · exact List.sublist_cons_self _ _
    · exact ih.cons_cons _

theorem mapNodup_erase (m : List (κ × α)) (hn : (m.map Prod.fst).Nodup) (k : κ) :
    ((GoMap.erase m k).map Prod.fst).Nodup := hn.sublist ((mapErase_sublist m k).map _)

theorem mapMem_erase (m : List (κ × α)) (hn : (m.map Prod.fst).Nodup) (k : κ) (k' : κ) (v' : α) :
    (k', v') ∈ GoMap.erase m k ↔ (k', v') ∈ m ∧ k' ≠ k := by
  induction m with
  | nil => simp [GoMap.erase]
  | cons e m ih =>
    obtain ⟨ke, ve⟩ := e
    rw [List.map_cons, List.nodup_cons] at hn
    simp only [GoMap.erase]
    split_ifs with h
    · subst h
      constructor
      · intro hm
        refine ⟨List.mem_cons_of_mem _ hm, ?_⟩
        intro he
        apply hn.1
        have := List.mem_map_of_mem (f := Prod.fst) hm
        rwa [he] at this
      · rintro ⟨hm, hne⟩
        rcases List.mem_cons.mp hm with h | h
        · simp only [Prod.mk.injEq] at h; exact absurd h.1 hne
        · exact h
    · rw [List.mem_cons, ih hn.2, List.mem_cons]
      constructor
      · rintro (h' | h')
        · refine ⟨Or.inl h', ?_⟩
          simp only [Prod.mk.injEq] at h'
          rw [h'.1]; exact h
        · exact ⟨Or.inr h'.1, h'.2⟩
      · rintro ⟨h' | h', hne⟩
        · exact Or.inl h'
        · exact Or.inr ⟨h', hne⟩

end maps

/-! ## The cavity -/

/-- the same three vertices in any order -/
def SameFace (f g : Face) : Prop := [f.pa, f.pb, f.pc].Perm [g.pa, g.pb, g.pc]

instance (f g : Face) : Decidable (SameFace f g) := by unfold SameFace; infer_instance

/-- `f` is a face of one of the tetrahedra and no other of their faces has the same vertices -/
def OnBoundary (bad : List Tetra) (f : Face) : Prop :=
  f ∈ bad.flatMap (·.faces) ∧ (bad.flatMap (·.faces)).countP (fun g => decide (SameFace g f)) = 1

theorem onBoundary_perm {b b' : List Tetra} (h : b.Perm b') (f : Face) : OnBoundary b f ↔ OnBoundary b' f := by
  unfold OnBoundary
  have := h.flatMap_right (·.faces)
  rw [this.mem_iff, this.countP_eq]

/-- all faces with their positions, in loop order -/
def occs (bad : List Tetra) : List (Face × ℕ × ℕ) :=
  bad.zipIdx.flatMap fun tk => tk.1.faces.zipIdx.map fun fk => (fk.1, tk.2, fk.2)

theorem faceLoop_eq (bad : List Tetra) : faceLoop bad = (occs bad).foldl (fun fs o => faceStep fs o.1 o.2.1 o.2.2) [] := by
  unfold faceLoop occs
  generalize bad.zipIdx = l
  generalize ([] : FaceSet) = acc
  induction l generalizing acc with
  | nil => rfl
  | cons a l ih =>
    rw [List.foldl_cons, List.flatMap_cons, List.foldl_append, ih, List.foldl_map]

theorem mem_occs (bad : List Tetra) (f : Face) (i j : ℕ) :
    (f, i, j) ∈ occs bad ↔ ∃ t, bad[i]? = some t ∧ t.faces[j]? = some f := by
  unfold occs
  simp only [List.mem_flatMap, List.mem_map, Prod.mk.injEq, Prod.exists, List.mem_zipIdx_iff_getElem?]
  constructor
  · rintro ⟨t, k, hk, f', j', hj, rfl, rfl, rfl⟩; exact ⟨t, hk, hj⟩
  · rintro ⟨t, hk, hj⟩; exact ⟨t, i, hk, f, j, hj, rfl, rfl, rfl⟩

theorem occs_fst (bad : List Tetra) : (occs bad).map Prod.fst = bad.flatMap (·.faces) := by
  unfold occs
  rw [List.map_flatMap]
  have : ∀ (l : List Tetra) (n : ℕ), (l.zipIdx n).flatMap (fun tk => (tk.1.faces.zipIdx.map fun fk => (fk.1, tk.2, fk.2)).map Prod.fst)
      = l.flatMap (·.faces) := by
    intro l
    induction l with
    | nil => intro n; rfl
    | cons a l ih =>
      intro n
      rw [List.zipIdx_cons, List.flatMap_cons, List.flatMap_cons, ih]
      congr 1
      rw [List.map_map]
      exact List.zipIdx_map_fst 0 a.faces
  exact this bad 0

/-- what the face map records for a hash -/
def recorded : List (Face × ℕ × ℕ) → Option FaceCheck
  | [] => none
  | [o] => some ⟨false, o.2.1, o.2.2⟩
  | _ => some ⟨true, -1, -1⟩

theorem faceFold_spec (os : List (Face × ℕ × ℕ)) :
    ((os.foldl (fun fs o => faceStep fs o.1 o.2.1 o.2.2) ([] : FaceSet)).map Prod.fst).Nodup ∧
    ∀ h, GoMap.get? (os.foldl (fun fs o => faceStep fs o.1 o.2.1 o.2.2) ([] : FaceSet)) h =
      recorded (os.filter fun o => decide (o.1.hash = h)) := by
  induction os using List.reverseRecOn with
  | nil => exact ⟨by simp, fun h => rfl⟩
  | append_singleton os o ih =>
    obtain ⟨ih1, ih2⟩ := ih
    rw [List.foldl_append, List.foldl_cons, List.foldl_nil]
    generalize os.foldl (fun fs o => faceStep fs o.1 o.2.1 o.2.2) ([] : FaceSet) = fs at ih1 ih2
    constructor
    · unfold faceStep
      split <;> exact mapNodup_set _ ih1 _ _
    · intro h
      rw [List.filter_append]
      have := ih2 o.1.hash
      by_cases he : o.1.hash = h
      · subst he
        simp only [List.filter_cons, decide_true, if_true, List.filter_nil]
        unfold faceStep
        generalize hl : os.filter (fun x => decide (x.1.hash = o.1.hash)) = l at this
        match l, this with
        | [], this =>
          simp only [recorded] at this
          rw [this]; dsimp only
          rw [mapGet_set, if_pos rfl]; rfl
        | [a], this =>
          simp only [recorded] at this
          rw [this]; dsimp only
          rw [mapGet_set, if_pos rfl]; rfl
        | a :: b :: l, this =>
          simp only [recorded] at this
          rw [this]; dsimp only
          rw [mapGet_set, if_pos rfl]
          cases l <;> rfl
      · have e : List.filter (fun o => decide (o.1.hash = h)) [o] = [] := by simp [he]
        rw [e, List.append_nil, ← ih2 h]
        unfold faceStep
        split <;> rw [mapGet_set, if_neg he]

theorem filter_singleton_iff (bad : List Tetra) (f : Face) (i j : ℕ) :
    (occs bad).filter (fun o => decide (o.1.hash = f.hash)) = [(f, i, j)] →
      OnBoundary bad f ∧ ∃ t, bad[i]? = some t ∧ t.faces[j]? = some f := by
  intro h
  have hm : (f, i, j) ∈ occs bad := by
    have : (f, i, j) ∈ (occs bad).filter (fun o => decide (o.1.hash = f.hash)) := by rw [h]; exact List.mem_cons_self
    exact (List.mem_filter.mp this).1
  refine ⟨⟨?_, ?_⟩, (mem_occs bad f i j).mp hm⟩
  · rw [← occs_fst]; exact List.mem_map_of_mem (f := Prod.fst) hm
  · rw [← occs_fst, List.countP_map]
    have : (occs bad).countP ((fun g => decide (SameFace g f)) ∘ Prod.fst) =
        ((occs bad).filter (fun o => decide (o.1.hash = f.hash))).length := by
      rw [List.countP_eq_length_filter]
      congr 1
      apply List.filter_congr
      intro o _
      simp only [Function.comp]
      exact decide_eq_decide.mpr (C32_face_hash _ _).symm
    rw [this, h]; rfl

theorem onBoundary_filter (bad : List Tetra) (f : Face) (h : OnBoundary bad f) :
    ∃ i j, (occs bad).filter (fun o => decide (o.1.hash = f.hash)) = [(f, i, j)] := by
  obtain ⟨h1, h2⟩ := h
  rw [← occs_fst, List.countP_map] at h2
  have e : (occs bad).countP ((fun g => decide (SameFace g f)) ∘ Prod.fst) =
      ((occs bad).filter (fun o => decide (o.1.hash = f.hash))).length := by
    rw [List.countP_eq_length_filter]
    congr 1
    apply List.filter_congr
    intro o _
    simp only [Function.comp]
    exact decide_eq_decide.mpr (C32_face_hash _ _).symm
  rw [e] at h2
  obtain ⟨a, ha⟩ := List.length_eq_one_iff.mp h2
  rw [← occs_fst] at h1
  obtain ⟨o, ho, rfl⟩ := List.mem_map.mp h1
  have : o ∈ (occs bad).filter (fun x => decide (x.1.hash = o.1.hash)) := List.mem_filter.mpr ⟨ho, by simp⟩
  rw [ha] at this
  simp only [List.mem_cons, List.not_mem_nil, or_false] at this
  exact ⟨o.2.1, o.2.2, by rw [ha, ← this]⟩

/-- an unchecked entry of the face map is a boundary face, and every boundary face has an entry -/
theorem faceLoop_entry (bad : List Tetra) (k : List Char) (fc : FaceCheck) (h : (k, fc) ∈ faceLoop bad)
    (hc : fc.check = false) : ∃ f t, ∃ i j : ℕ, OnBoundary bad f ∧ fc.tetraID = i ∧ fc.faceID = j ∧ bad[i]? = some t ∧ t.faces[j]? = some f := by
  rw [faceLoop_eq] at h
  obtain ⟨hn, hg⟩ := faceFold_spec (occs bad)
  have := (mapGet_iff _ hn k fc).mpr h
  rw [hg] at this
  generalize hl : (occs bad).filter (fun o => decide (o.1.hash = k)) = l at this
  match l, this with
  | [], this => simp [recorded] at this
  | [o], this =>
    simp only [recorded, Option.some.injEq] at this
    have ho : o ∈ (occs bad).filter (fun o => decide (o.1.hash = k)) := by rw [hl]; exact List.mem_cons_self
    have hk := (List.mem_filter.mp ho).2
    simp only [decide_eq_true_eq] at hk
    subst hk
    obtain ⟨f, i, j⟩ := o
    obtain ⟨hb, t, ht, hf⟩ := filter_singleton_iff bad f i j hl
    exact ⟨f, t, i, j, hb, by rw [← this], by rw [← this], ht, hf⟩
  | a :: b :: l, this =>
    have e : recorded (a :: b :: l) = some ⟨true, -1, -1⟩ := by cases l <;> rfl
    rw [e] at this
    injection this with this
    rw [← this] at hc
    simp at hc

theorem faceLoop_boundary (bad : List Tetra) (f : Face) (h : OnBoundary bad f) :
    ∃ t, ∃ i j : ℕ, (f.hash, (⟨false, i, j⟩ : FaceCheck)) ∈ faceLoop bad ∧ bad[i]? = some t ∧ t.faces[j]? = some f := by
  obtain ⟨i, j, e⟩ := onBoundary_filter bad f h
  obtain ⟨_, t, ht, hf⟩ := filter_singleton_iff bad f i j e
  refine ⟨t, i, j, ?_, ht, hf⟩
  rw [faceLoop_eq]
  obtain ⟨hn, hg⟩ := faceFold_spec (occs bad)
  rw [← mapGet_iff _ hn, hg, e]; rfl

/-- the collected polyhedron consists of the boundary faces, in any iteration order -/
theorem collectFaces_spec (bad : List Tetra) (fs : FaceSet) (hfs : fs.Perm (faceLoop bad)) :
    ∃ l, collectFaces bad fs = .ok l ∧ ∀ f, f ∈ l ↔ OnBoundary bad f := by
  have gen : ∀ (fs : FaceSet), (∀ e ∈ fs, e ∈ faceLoop bad) → ∃ l, collectFaces bad fs = .ok l ∧
      ∀ f, f ∈ l ↔ ∃ k fc t, ∃ i j : ℕ, (k, fc) ∈ fs ∧ fc.check = false ∧ fc.tetraID = i ∧ fc.faceID = j ∧ bad[i]? = some t ∧ t.faces[j]? = some f := by
    intro fs
    induction fs with
    | nil => intro _; exact ⟨[], rfl, by simp⟩
    | cons e fs ih =>
      intro h
      obtain ⟨k, fc⟩ := e
      obtain ⟨l, hl, hm⟩ := ih (fun e he => h e (List.mem_cons_of_mem _ he))
      by_cases hc : fc.check = false
      · obtain ⟨f, t, i, j, _, hi, hj, ht, hf⟩ := faceLoop_entry bad k fc (h _ List.mem_cons_self) hc
        refine ⟨f :: l, ?_, ?_⟩
        · simp only [collectFaces, hc, if_true]
          rw [goGet_eq hi ht, Res.bind_ok, goGet_eq hj hf, Res.bind_ok, hl]; rfl
        · intro g
          rw [List.mem_cons, hm]
          constructor
          · rintro (rfl | ⟨k', fc', t', i', j', hk, r⟩)
            · exact ⟨k, fc, t, i, j, List.mem_cons_self, hc, hi, hj, ht, hf⟩
            · exact ⟨k', fc', t', i', j', List.mem_cons_of_mem _ hk, r⟩
          · rintro ⟨k', fc', t', i', j', hk, r1, r2, r3, r4, r5⟩
            rcases List.mem_cons.mp hk with hk | hk
            · left
              simp only [Prod.mk.injEq] at hk
              obtain ⟨rfl, rfl⟩ := hk
              rw [hi] at r2; rw [hj] at r3
              have e1 : i = i' := by exact_mod_cast r2
              have e2 : j = j' := by exact_mod_cast r3
              subst e1 e2
              rw [ht] at r4; injection r4 with r4; subst r4
              rw [hf] at r5; injection r5 with r5; exact r5.symm
            · right; exact ⟨k', fc', t', i', j', hk, r1, r2, r3, r4, r5⟩
      · refine ⟨l, ?_, ?_⟩
        · simp only [collectFaces, if_neg hc]; exact hl
        · intro g
          rw [hm]
          constructor
          · rintro ⟨k', fc', t', i', j', hk, r⟩
            exact ⟨k', fc', t', i', j', List.mem_cons_of_mem _ hk, r⟩
          · rintro ⟨k', fc', t', i', j', hk, r1, r2⟩
            rcases List.mem_cons.mp hk with hk | hk
            · simp only [Prod.mk.injEq] at hk
              obtain ⟨rfl, rfl⟩ := hk
              exact absurd r1 hc
            · exact ⟨k', fc', t', i', j', hk, r1, r2⟩
  obtain ⟨l, hl, hm⟩ := gen fs (fun e he => hfs.subset he)
  refine ⟨l, hl, ?_⟩
  intro f
  rw [hm]
  constructor
  · rintro ⟨k, fc, t, i, j, hk, r1, r2, r3, r4, r5⟩
    obtain ⟨f', t', i', j', hb, s2, s3, s4, s5⟩ := faceLoop_entry bad k fc (hfs.subset hk) r1
    rw [r2] at s2; rw [r3] at s3
    have e1 : i = i' := by exact_mod_cast s2
    have e2 : j = j' := by exact_mod_cast s3
    subst e1 e2
    rw [r4] at s4; injection s4 with s4; subst s4
    rw [r5] at s5; injection s5 with s5; subst s5
    exact hb
  · intro hb
    obtain ⟨t, i, j, hm, ht, hf⟩ := faceLoop_boundary bad f hb
    exact ⟨_, _, t, i, j, hfs.symm.subset hm, rfl, rfl, rfl, ht, hf⟩

/-! ## One insertion -/

/-- the key of an entry is the hash of its tetrahedron, the face list is the one `connect` builds, keys are unique -/
def Good (t : Tetrahedrisation) : Prop :=
  (t.map Prod.fst).Nodup ∧ ∀ kv ∈ t, kv.1 = tetraHash kv.2 ∧ kv.2 = connect ⟨kv.2.ia, kv.2.ib, kv.2.ic⟩ kv.2.id

/-- four distinct indices below `n` -/
def ValidTetra (n : ℕ) (t : Tetra) : Prop :=
  (∀ i ∈ [t.ia, t.ib, t.ic, t.id], 0 ≤ i ∧ i < n) ∧ [t.ia, t.ib, t.ic, t.id].Nodup

def ValidMesh (n : ℕ) (t : Tetrahedrisation) : Prop := ∀ kv ∈ t, ValidTetra n kv.2

/-- the tetrahedra of the map -/
def tets (t : Tetrahedrisation) : List Tetra := t.map Prod.snd

theorem Good.perm {t t' : Tetrahedrisation} (h : t.Perm t') (g : Good t) : Good t' :=
  ⟨(h.map Prod.fst).nodup_iff.mp g.1, fun kv hk => g.2 kv (h.symm.subset hk)⟩

theorem Good.mem_iff {t : Tetrahedrisation} (g : Good t) (k : List Char) (v : Tetra) :
    (k, v) ∈ t ↔ k = tetraHash v ∧ v ∈ tets t := by
  constructor
  · intro h; exact ⟨(g.2 _ h).1, List.mem_map_of_mem (f := Prod.snd) h⟩
  · rintro ⟨rfl, h⟩
    obtain ⟨⟨k', v'⟩, h1, h2⟩ := List.mem_map.mp h
    dsimp only at h2
    subst h2
    have := (g.2 _ h1).1
    dsimp only at this
    rw [← this]; exact h1

theorem Good.tetra_eq {t t' : Tetrahedrisation} (g : Good t) (g' : Good t') {v v' : Tetra} (h : v ∈ tets t) (h' : v' ∈ tets t')
    (he : tetraHash v = tetraHash v') : v = v' := by
  obtain ⟨h1, h2, h3, h4⟩ := (C33_tetra_hash v v').mp he
  have e := (g.2 _ ((g.mem_iff _ _).mpr ⟨rfl, h⟩)).2
  have e' := (g'.2 _ ((g'.mem_iff _ _).mpr ⟨rfl, h'⟩)).2
  dsimp only at e e'
  rw [e, e', h1, h2, h3, h4]

/-- two good maps with the same tetrahedra are equal up to order -/
theorem Good.perm_of_tets {t t' : Tetrahedrisation} (g : Good t) (g' : Good t') (h : ∀ v, v ∈ tets t ↔ v ∈ tets t') : t.Perm t' := by
  have n : t.Nodup := List.Nodup.of_map _ g.1
  have n' : t'.Nodup := List.Nodup.of_map _ g'.1
  rw [List.perm_ext_iff_of_nodup n n']
  rintro ⟨k, v⟩
  rw [g.mem_iff, g'.mem_iff, h]

theorem good_initial : Good (addTetra [] initialTetra) := by
  constructor
  · simp [addTetra, GoMap.set]
  · intro kv hk
    simp only [addTetra, GoMap.set, List.mem_cons, List.not_mem_nil, or_false] at hk
    subst hk
    exact ⟨rfl, rfl⟩

theorem good_erase {t : Tetrahedrisation} (g : Good t) (b : Tetra) :
    Good (GoMap.erase t (tetraHash b)) ∧ ∀ v, v ∈ tets (GoMap.erase t (tetraHash b)) ↔ v ∈ tets t ∧ tetraHash v ≠ tetraHash b := by
  have g' : Good (GoMap.erase t (tetraHash b)) :=
    ⟨mapNodup_erase t g.1 _, fun kv hk => g.2 kv ((mapErase_sublist t _).subset hk)⟩
  refine ⟨g', fun v => ?_⟩
  have h1 := g'.mem_iff (tetraHash v) v
  have h2 := g.mem_iff (tetraHash v) v
  simp only [true_and] at h1 h2
  rw [← h1, mapMem_erase t g.1, h2]

theorem good_eraseAll {t : Tetrahedrisation} (g : Good t) (bad : List Tetra) :
    Good (bad.foldl (fun t b => GoMap.erase t (tetraHash b)) t) ∧
    ∀ v, v ∈ tets (bad.foldl (fun t b => GoMap.erase t (tetraHash b)) t) ↔ v ∈ tets t ∧ ∀ b ∈ bad, tetraHash v ≠ tetraHash b := by
  induction bad generalizing t with
  | nil => exact ⟨g, by simp⟩
  | cons b bad ih =>
    obtain ⟨g1, m1⟩ := good_erase g b
    obtain ⟨g2, m2⟩ := ih g1
    refine ⟨g2, fun v => ?_⟩
    rw [List.foldl_cons, m2, m1]
    simp only [List.mem_cons, forall_eq_or_imp, and_assoc]

theorem good_add {t : Tetrahedrisation} (g : Good t) (f : Face) (p : Int) :
    Good (addTetra t (connect f p)) ∧ ∀ v, v ∈ tets (addTetra t (connect f p)) ↔ v = connect f p ∨ v ∈ tets t := by
  have gc : connect f p = connect ⟨(connect f p).ia, (connect f p).ib, (connect f p).ic⟩ (connect f p).id := rfl
  have g' : Good (addTetra t (connect f p)) := by
    refine ⟨mapNodup_set t g.1 _ _, ?_⟩
    rintro ⟨k, v⟩ hk
    rcases (mapMem_set t g.1 _ _ k v).mp hk with ⟨h1, h2⟩ | ⟨h1, _⟩
    · subst h1 h2; exact ⟨rfl, gc⟩
    · exact g.2 _ h1
  refine ⟨g', fun v => ?_⟩
  have h1 := g'.mem_iff (tetraHash v) v
  simp only [true_and] at h1
  rw [← h1]
  unfold addTetra
  rw [mapMem_set t g.1, g.mem_iff]
  constructor
  · rintro (⟨_, h⟩ | ⟨⟨_, h⟩, _⟩)
    · exact Or.inl h
    · exact Or.inr h
  · rintro (h | h)
    · exact Or.inl ⟨by rw [h], h⟩
    · by_cases he : tetraHash v = tetraHash (connect f p)
      · left
        refine ⟨he, ?_⟩
        have hc : connect f p ∈ tets (addTetra t (connect f p)) := by
          have := (g'.mem_iff (tetraHash (connect f p)) (connect f p)).mp
            ((mapMem_set t g.1 _ _ _ _).mpr (Or.inl ⟨rfl, rfl⟩))
          exact this.2
        exact g.tetra_eq g' h hc he
      · exact Or.inr ⟨⟨rfl, h⟩, he⟩

theorem good_addAll {t : Tetrahedrisation} (g : Good t) (poly : List Face) (p : Int) :
    Good (poly.foldl (fun t f => addTetra t (connect f p)) t) ∧
    ∀ v, v ∈ tets (poly.foldl (fun t f => addTetra t (connect f p)) t) ↔ (∃ f ∈ poly, v = connect f p) ∨ v ∈ tets t := by
  induction poly generalizing t with
  | nil => exact ⟨g, by simp⟩
  | cons f poly ih =>
    obtain ⟨g1, m1⟩ := good_add g f p
    obtain ⟨g2, m2⟩ := ih g1
    refine ⟨g2, fun v => ?_⟩
    rw [List.foldl_cons, m2, m1]
    simp only [List.mem_cons, exists_eq_or_imp]
    rw [or_left_comm, or_assoc]

/-- the sphere test of the point `p` against a tetrahedron -/
def isBad {P : Type} (test : P → P → P → P → P → Bool) (points : List P) (p : P) (t : Tetra) : Bool :=
  match points[t.ia.toNat]?, points[t.ib.toNat]?, points[t.ic.toNat]?, points[t.id.toNat]? with
  | some a, some b, some c, some d => test a b c d p
  | _, _, _, _ => false

theorem findBad_spec {P : Type} (test : P → P → P → P → P → Bool) (points : List P) (p : P) (t : Tetrahedrisation)
    (hv : ValidMesh points.length t) : findBad test points p t = .ok ((tets t).filter (isBad test points p)) := by
  induction t with
  | nil => rfl
  | cons kv t ih =>
    obtain ⟨k, v⟩ := kv
    have hr := (hv _ List.mem_cons_self).1
    simp only [List.mem_cons, List.not_mem_nil, or_false, forall_eq_or_imp, forall_eq] at hr
    obtain ⟨ha, hb, hc, hd⟩ := hr
    have get : ∀ i : Int, 0 ≤ i ∧ i < points.length → ∃ x, points[i.toNat]? = some x ∧ goGet points i = .ok x := by
      intro i hi
      have hlt : i.toNat < points.length := by omega
      refine ⟨points[i.toNat], List.getElem?_eq_getElem hlt, goGet_eq (n := i.toNat) (by omega) (List.getElem?_eq_getElem hlt)⟩
    obtain ⟨a, a1, a2⟩ := get _ ha
    obtain ⟨b, b1, b2⟩ := get _ hb
    obtain ⟨c, c1, c2⟩ := get _ hc
    obtain ⟨d, d1, d2⟩ := get _ hd
    have e : isBad test points p v = test a b c d p := by
      unfold isBad; rw [a1, b1, c1, d1]
    simp only [findBad]
    rw [a2, Res.bind_ok, b2, Res.bind_ok, c2, Res.bind_ok, d2, Res.bind_ok,
      ih (fun kv hk => hv kv (List.mem_cons_of_mem _ hk)), Res.bind_ok]
    simp only [tets, List.map_cons, List.filter_cons, e, Res.pure_eq]

/-- one insertion replaces the bad tetrahedra by the connections of their boundary faces to the new point -/
theorem bwStep_spec {P : Type} (test : P → P → P → P → P → Bool) (s : Sched) (hs : s.WF) (points : List P)
    (t : Tetrahedrisation) (g : Good t) (hv : ValidMesh points.length t) (k : ℕ) (p : P) :
    ∃ t', bwStep test s points t k p = .ok t' ∧ Good t' ∧ ∀ v, v ∈ tets t' ↔
      (v ∈ tets t ∧ isBad test points p v = false) ∨
      ∃ f, OnBoundary ((tets t).filter (isBad test points p)) f ∧ v = connect f (k + 4) := by
  obtain ⟨hs1, hs2, _⟩ := hs
  have hp := hs1 k t
  have hv' : ValidMesh points.length (s.tetras k t) := fun kv hk => hv kv (hp.subset hk)
  have hb := findBad_spec test points p _ hv'
  have hbp : ((tets (s.tetras k t)).filter (isBad test points p)).Perm ((tets t).filter (isBad test points p)) :=
    (hp.map Prod.snd).filter _
  set bad := (tets (s.tetras k t)).filter (isBad test points p) with hbad
  obtain ⟨poly, hc, hm⟩ := collectFaces_spec bad _ (hs2 k (faceLoop bad))
  obtain ⟨g1, m1⟩ := good_eraseAll g bad
  obtain ⟨g2, m2⟩ := good_addAll g1 poly (k + 4)
  refine ⟨_, ?_, g2, ?_⟩
  · unfold bwStep
    rw [hb, Res.bind_ok]
    dsimp only
    rw [hc, Res.bind_ok]
    rfl
  · intro v
    rw [m2, m1]
    constructor
    · rintro (⟨f, hf, rfl⟩ | ⟨h1, h2⟩)
      · exact Or.inr ⟨f, (onBoundary_perm hbp f).mp ((hm f).mp hf), rfl⟩
      · left
        refine ⟨h1, ?_⟩
        by_contra hcon
        have : v ∈ bad := by
          rw [hbp.mem_iff, List.mem_filter]
          exact ⟨h1, by simpa using hcon⟩
        exact h2 v this rfl
    · rintro (⟨h1, h2⟩ | ⟨f, hf, rfl⟩)
      · right
        refine ⟨h1, ?_⟩
        intro b hb' he
        rw [hbp.mem_iff, List.mem_filter] at hb'
        have := g.tetra_eq g h1 hb'.1 he
        subst this
        rw [h2] at hb'
        exact absurd hb'.2 (by simp)
      · exact Or.inl ⟨f, (hm f).mpr ((onBoundary_perm hbp f).mpr hf), rfl⟩

theorem ValidMesh.mono {n m : ℕ} (h : n ≤ m) {t : Tetrahedrisation} (hv : ValidMesh n t) : ValidMesh m t := by
  intro kv hk
  obtain ⟨h1, h2⟩ := hv kv hk
  refine ⟨fun i hi => ?_, h2⟩
  have := h1 i hi
  omega

theorem tets_valid {n : ℕ} {t : Tetrahedrisation} (hv : ValidMesh n t) {v : Tetra} (h : v ∈ tets t) : ValidTetra n v := by
  obtain ⟨kv, hk, rfl⟩ := List.mem_map.mp h
  exact hv kv hk

theorem face_of_good {n : ℕ} {t : Tetrahedrisation} (g : Good t) (hv : ValidMesh n t) {v : Tetra} (h : v ∈ tets t) {f : Face} (hf : f ∈ v.faces) :
    (∀ i ∈ [f.pa, f.pb, f.pc], 0 ≤ i ∧ i < n) ∧ [f.pa, f.pb, f.pc].Nodup := by
  have e := (g.2 _ ((g.mem_iff _ _).mpr ⟨rfl, h⟩)).2
  obtain ⟨hr, hn⟩ := tets_valid hv h
  dsimp only at e
  rw [e] at hf
  simp only [connect, List.mem_cons, List.not_mem_nil, or_false] at hf
  simp only [List.mem_cons, List.not_mem_nil, or_false, forall_eq_or_imp, forall_eq, List.nodup_cons, not_or,
    List.nodup_nil, and_true, not_false_eq_true] at hr hn
  rcases hf with rfl | rfl | rfl | rfl <;>
    simp only [List.mem_cons, List.not_mem_nil, or_false, forall_eq_or_imp, forall_eq, List.nodup_cons, not_or,
      List.nodup_nil, and_true, not_false_eq_true] <;> refine ⟨?_, ?_⟩ <;> omega

theorem bwStep_valid {P : Type} (test : P → P → P → P → P → Bool) (points : List P) (t t' : Tetrahedrisation) (g : Good t)
    (k : ℕ) (hv : ValidMesh (k+4) t) (p : P) (hm : ∀ v, v ∈ tets t' ↔
      (v ∈ tets t ∧ isBad test points p v = false) ∨
      ∃ f, OnBoundary ((tets t).filter (isBad test points p)) f ∧ v = connect f (k + 4)) : ValidMesh (k+5) t' := by
  intro kv hk
  have h := (hm kv.2).mp (List.mem_map_of_mem (f := Prod.snd) hk)
  rcases h with ⟨h, _⟩ | ⟨f, hf, he⟩
  · obtain ⟨kv', hk', e⟩ := List.mem_map.mp h
    rw [← e]
    exact (ValidMesh.mono (by omega) hv) kv' hk'
  · rw [he]
    obtain ⟨v, hv', hfv⟩ := List.mem_flatMap.mp hf.1
    obtain ⟨hr, hn⟩ := face_of_good g hv (List.mem_filter.mp hv').1 hfv
    simp only [List.mem_cons, List.not_mem_nil, or_false, forall_eq_or_imp, forall_eq, List.nodup_cons, not_or,
      List.nodup_nil, and_true, not_false_eq_true] at hr hn
    unfold ValidTetra connect
    simp only [List.mem_cons, List.not_mem_nil, or_false, forall_eq_or_imp, forall_eq, List.nodup_cons, not_or,
      List.nodup_nil, and_true, not_false_eq_true]
    push_cast
    refine ⟨?_, ?_⟩ <;> omega

theorem valid_initial : ValidMesh 4 (addTetra [] initialTetra) := by
  intro kv hk
  simp only [addTetra, GoMap.set, List.mem_cons, List.not_mem_nil, or_false] at hk
  subst hk
  constructor <;> decide

/-! ## All insertions -/

theorem bwLoop_spec {P : Type} (test : P → P → P → P → P → Bool) (s : Sched) (hs : s.WF) (points : List P) (ps : List P) :
    ∀ (k : ℕ) (t : Tetrahedrisation), Good t → ValidMesh (k+4) t → k + 4 + ps.length ≤ points.length →
      ∃ t', bwLoop test s points (ps.zipIdx k) t = .ok t' ∧ Good t' ∧ ValidMesh (k + ps.length + 4) t' := by
  induction ps with
  | nil => intro k t g v _; exact ⟨t, rfl, g, v⟩
  | cons p ps ih =>
    intro k t g v hl
    rw [List.length_cons] at hl
    obtain ⟨t1, e1, g1, m1⟩ := bwStep_spec test s hs points t g (v.mono (by omega)) k p
    have v1 := bwStep_valid test points t t1 g k v p m1
    obtain ⟨t2, e2, g2, v2⟩ := ih (k+1) t1 g1 (v1.mono (by omega)) (by omega)
    refine ⟨t2, ?_, g2, v2.mono (by rw [List.length_cons]; omega)⟩
    rw [List.zipIdx_cons, bwLoop, e1, Res.bind_ok, e2]

theorem bwLoop_perm {P : Type} (test : P → P → P → P → P → Bool) (s s' : Sched) (hs : s.WF) (hs' : s'.WF) (points : List P) (ps : List P) :
    ∀ (k : ℕ) (t t' : Tetrahedrisation), Good t → ValidMesh (k+4) t → t.Perm t' → k + 4 + ps.length ≤ points.length →
      ∃ u u', bwLoop test s points (ps.zipIdx k) t = .ok u ∧ bwLoop test s' points (ps.zipIdx k) t' = .ok u' ∧ u.Perm u' := by
  induction ps with
  | nil => intro k t t' _ _ h _; exact ⟨t, t', rfl, rfl, h⟩
  | cons p ps ih =>
    intro k t t' g v h hl
    rw [List.length_cons] at hl
    have g' := g.perm h
    have v' : ValidMesh (k+4) t' := fun kv hk => v kv (h.symm.subset hk)
    obtain ⟨t1, e1, g1, m1⟩ := bwStep_spec test s hs points t g (v.mono (by omega)) k p
    obtain ⟨t1', e1', g1', m1'⟩ := bwStep_spec test s' hs' points t' g' (v'.mono (by omega)) k p
    have v1 := bwStep_valid test points t t1 g k v p m1
    have ht : (tets t).Perm (tets t') := h.map Prod.snd
    have hp : t1.Perm t1' := by
      apply g1.perm_of_tets g1'
      intro w
      rw [m1, m1', ht.mem_iff]
      constructor
      · rintro (h | ⟨f, hf, e⟩)
        · exact Or.inl h
        · exact Or.inr ⟨f, (onBoundary_perm (ht.filter _) f).mp hf, e⟩
      · rintro (h | ⟨f, hf, e⟩)
        · exact Or.inl h
        · exact Or.inr ⟨f, (onBoundary_perm (ht.filter _) f).mpr hf, e⟩
    obtain ⟨u, u', e2, e2', hu⟩ := ih (k+1) t1 t1' g1 (v1.mono (by omega)) hp (by omega)
    refine ⟨u, u', ?_, ?_, hu⟩
    · rw [List.zipIdx_cons, bwLoop, e1, Res.bind_ok, e2]
    · rw [List.zipIdx_cons, bwLoop, e1', Res.bind_ok, e2']

/-- the triangles of one tetrahedron that are returned -/
def meshTris (t : Tetra) : List (Int × Int × Int) :=
  (t.faces.filter Face.isPartOfMesh).map fun f => (f.pa - 4, f.pb - 4, f.pc - 4)

def flatInt (l : List (Int × Int × Int)) : List Int := l.flatMap fun t => [t.1, t.2.1, t.2.2]

theorem meshFaces_eq (t : Tetrahedrisation) : meshFaces t = flatInt ((tets t).flatMap meshTris) := by
  unfold meshFaces
  have inner : ∀ (fs : List Face) (acc : List Int), fs.foldl (fun acc f => if f.isPartOfMesh then addFace acc f else acc) acc =
      acc ++ flatInt ((fs.filter Face.isPartOfMesh).map fun f => (f.pa - 4, f.pb - 4, f.pc - 4)) := by
    intro fs
    induction fs with
    | nil => intro acc; simp [flatInt]
    | cons f fs ih =>
      intro acc
      rw [List.foldl_cons, ih, List.filter_cons]
      by_cases h : f.isPartOfMesh = true
      · simp [h, addFace, flatInt]
      · simp [h]
  have outer : ∀ (t : Tetrahedrisation) (acc : List Int), t.foldl (fun acc kt => kt.2.faces.foldl (fun acc f =>
      if f.isPartOfMesh then addFace acc f else acc) acc) acc = acc ++ flatInt ((tets t).flatMap meshTris) := by
    intro t
    induction t with
    | nil => intro acc; simp [tets, flatInt]
    | cons kv t ih =>
      intro acc
      rw [List.foldl_cons, ih, inner]
      simp [tets, flatInt, meshTris]
  rw [outer]; rfl

/-- C35: any two iteration orders give the same tetrahedra, and the same triangles grouped per tetrahedron, up to the
order of the tetrahedra; in particular neither run panics. ValidMesh for every predicate. -/
theorem C35_order {P : Type} (test : P → P → P → P → P → Bool) (s s' : Sched) (hs : s.WF) (hs' : s'.WF)
    (englobed points : List P) (hl : englobed.length = points.length + 4) :
    ∃ T T' : List Tetra, T.Perm T' ∧
      bowyerWatsonWith test s englobed points = .ok (flatInt (T.flatMap meshTris)) ∧
      bowyerWatsonWith test s' englobed points = .ok (flatInt (T'.flatMap meshTris)) := by
  obtain ⟨u, u', e, e', hu⟩ := bwLoop_perm test s s' hs hs' englobed points 0 _ _ good_initial valid_initial (List.Perm.refl _) (by omega)
  refine ⟨tets (s.final u), tets (s'.final u'), ?_, ?_, ?_⟩
  · exact (((hs.2.2 u).trans hu).trans (hs'.2.2 u').symm).map _
  · unfold bowyerWatsonWith
    dsimp only
    rw [e, Res.bind_ok, meshFaces_eq]; rfl
  · unfold bowyerWatsonWith
    dsimp only
    rw [e', Res.bind_ok, meshFaces_eq]; rfl

/-- C36: indices, for every predicate and iteration order -/
theorem C36_indices {P : Type} (test : P → P → P → P → P → Bool) (s : Sched) (hs : s.WF)
    (englobed points : List P) (hl : englobed.length = points.length + 4) :
    ∃ tris : List (Int × Int × Int), bowyerWatsonWith test s englobed points = .ok (flatInt tris) ∧
      ∀ a b c, (a, b, c) ∈ tris → (∀ i ∈ [a, b, c], 0 ≤ i ∧ i < points.length) ∧ [a, b, c].Nodup := by
  obtain ⟨u, e, g, v⟩ := bwLoop_spec test s hs englobed points 0 _ good_initial valid_initial (by omega)
  refine ⟨(tets (s.final u)).flatMap meshTris, ?_, ?_⟩
  · unfold bowyerWatsonWith
    dsimp only
    rw [e, Res.bind_ok, meshFaces_eq]; rfl
  · intro a b c h
    obtain ⟨w, hw, hm⟩ := List.mem_flatMap.mp h
    have hw' : w ∈ tets u := ((hs.2.2 u).map Prod.snd).subset hw
    simp only [meshTris, List.mem_map, List.mem_filter, Prod.mk.injEq] at hm
    obtain ⟨f, ⟨hf, hp⟩, rfl, rfl, rfl⟩ := hm
    obtain ⟨hr, hn⟩ := face_of_good g v hw' hf
    have hpm := (C36_isPartOfMesh f).mp hp
    simp only [List.mem_cons, List.not_mem_nil, or_false, forall_eq_or_imp, forall_eq, List.nodup_cons, not_or,
      List.nodup_nil, and_true, not_false_eq_true] at hr hn hpm ⊢
    refine ⟨?_, ?_⟩ <;> omega

/-- C36 for `bowyerWatson` itself -/
theorem C36_bowyerWatson {K : Type} [Field K] [LinearOrder K] [IsStrictOrderedRing K] (s : Sched) (hs : s.WF) (points : List (R3.Vector K)) :
    ∃ tris : List (Int × Int × Int), bowyerWatson s points = .ok (flatInt tris) ∧ (flatInt tris).length = 3 * tris.length ∧
      ∀ a b c, (a, b, c) ∈ tris → (∀ i ∈ [a, b, c], 0 ≤ i ∧ i < points.length) ∧ [a, b, c].Nodup := by
  obtain ⟨p1, p2, p3, p4, e, _⟩ := C34_englobe points
  obtain ⟨tris, h1, h2⟩ := C36_indices (fun a b c d e => decide ((0 : K) ≤ Predicates.InSphereFast a b c d e)) s hs
    (englobe points).1 points (by rw [e]; simp)
  refine ⟨tris, h1, ?_, h2⟩
  clear h1 h2
  induction tris with
  | nil => rfl
  | cons a l ih => simp only [flatInt, List.flatMap_cons, List.length_append, List.length_cons, List.length_nil] at ih ⊢; omega

/-- C35 for `bowyerWatson` itself -/
theorem C35_bowyerWatson {K : Type} [Field K] [LinearOrder K] [IsStrictOrderedRing K] (s s' : Sched) (hs : s.WF) (hs' : s'.WF)
    (points : List (R3.Vector K)) : ∃ T T' : List Tetra, T.Perm T' ∧ bowyerWatson s points = .ok (flatInt (T.flatMap meshTris)) ∧
      bowyerWatson s' points = .ok (flatInt (T'.flatMap meshTris)) := by
  obtain ⟨p1, p2, p3, p4, e, _⟩ := C34_englobe points
  exact C35_order _ s s' hs hs' (englobe points).1 points (by rw [e]; simp)

/-- the two schedules "insertion order" and "reversed" are legal and differ -/
def schedId : Sched := ⟨fun _ t => t, fun _ f => f, fun t => t⟩
def schedRev : Sched := ⟨fun _ t => t.reverse, fun _ f => f.reverse, fun t => t.reverse⟩

example : schedId.WF ∧ schedRev.WF :=
  ⟨⟨fun _ _ => List.Perm.refl _, fun _ _ => List.Perm.refl _, fun _ => List.Perm.refl _⟩,
   ⟨fun _ _ => List.reverse_perm _, fun _ _ => List.reverse_perm _, fun _ => List.reverse_perm _⟩⟩

/-! ## C37 -/

/-- the tetrahedra after all insertions -/
def finalTetras {K : Type} [Field K] [LinearOrder K] [IsStrictOrderedRing K] (s : Sched) (points : List (R3.Vector K)) : Res Tetrahedrisation :=
  bwLoop (fun a b c d e => decide ((0 : K) ≤ Predicates.InSphereFast a b c d e)) s (englobe points).1 points.zipIdx
    (addTetra [] initialTetra)

/-- C37, what holds: each insertion removes the tetrahedra whose sphere test is `>= 0` and connects their boundary.
The test means "in the closed circumsphere" for negatively oriented tetrahedra and "not inside the open circumsphere" for
positively oriented ones. What is missing from C37 is false (C37_refuted). -/
theorem C37_step_partial {K : Type} [Field K] [LinearOrder K] [IsStrictOrderedRing K] (s : Sched) (hs : s.WF) (points : List (R3.Vector K))
    (t : Tetrahedrisation) (g : Good t) (hv : ValidMesh points.length t) (k : ℕ) (p : R3.Vector K) :
    ∃ t', bwStep (fun a b c d e => decide ((0 : K) ≤ Predicates.InSphereFast a b c d e)) s points t k p = .ok t' ∧ Good t' ∧
      ∀ v, v ∈ tets t' ↔
        (v ∈ tets t ∧ isBad (fun a b c d e => decide ((0 : K) ≤ Predicates.InSphereFast a b c d e)) points p v = false) ∨
        ∃ f, OnBoundary ((tets t).filter (isBad (fun a b c d e => decide ((0 : K) ≤ Predicates.InSphereFast a b c d e)) points p)) f ∧
          v = ⟨f.pa, f.pb, f.pc, k + 4, [⟨f.pa, f.pb, f.pc⟩, ⟨f.pb, f.pc, k + 4⟩, ⟨f.pc, k + 4, f.pa⟩, ⟨k + 4, f.pa, f.pb⟩]⟩ := bwStep_spec _ s hs points t g hv k p

theorem C37_test_partial {K : Type} [Field K] [LinearOrder K] [IsStrictOrderedRing K] (a b c d p o : R3.Vector K) (R : K)
    (h : Circumsphere a b c d o R) :
    (Predicates.orient3dfast a b c d < 0 → (0 ≤ Predicates.InSphereFast a b c d p ↔ d2 p o ≤ R)) ∧
    (0 < Predicates.orient3dfast a b c d → (0 ≤ Predicates.InSphereFast a b c d p ↔ R ≤ d2 p o)) := by
  rw [inSphereFast_power a b c d p o R h]
  constructor
  · intro ho
    rw [← neg_mul_neg, mul_nonneg_iff_of_pos_right (neg_pos.mpr ho), neg_nonneg, sub_nonpos]
  · intro ho
    rw [mul_nonneg_iff_of_pos_right ho, sub_nonneg]

/-- C37 is false: five points in a box; one of them is a vertex of no tetrahedron and lies strictly inside the
circumsphere of a non-degenerate tetrahedron formed by four of the others -/
theorem C37_refuted : ∃ points : List (R3.Vector ℚ), points.Nodup ∧ ∃ t, finalTetras schedId points = .ok t ∧
    (∀ v ∈ tets t, (4 : Int) ∉ [v.ia, v.ib, v.ic, v.id]) ∧
    ∃ v ∈ tets t, (v.ia, v.ib, v.ic, v.id) = (6, 5, 7, 8) ∧
      ∃ a b c d p, points[2]? = some a ∧ points[1]? = some b ∧ points[3]? = some c ∧ points[4]? = some d ∧ points[0]? = some p ∧
        ¬ Coplanar4 a b c d ∧ ∀ o R, Circumsphere a b c d o R → d2 p o < R := by
  refine ⟨[⟨2,1,2⟩, ⟨2,2,1⟩, ⟨2,1,0⟩, ⟨2,2,2⟩, ⟨1,0,0⟩], by decide +kernel, ?_⟩
  have h : (match finalTetras schedId ([⟨2,1,2⟩, ⟨2,2,1⟩, ⟨2,1,0⟩, ⟨2,2,2⟩, ⟨1,0,0⟩] : List (R3.Vector ℚ)) with
    | .ok t => decide (∀ v ∈ tets t, (4 : Int) ∉ [v.ia, v.ib, v.ic, v.id]) && decide (∃ v ∈ tets t, (v.ia, v.ib, v.ic, v.id) = ((6, 5, 7, 8) : Int × Int × Int × Int))
    | _ => false) = true := by decide +kernel
  cases e : finalTetras schedId ([⟨2,1,2⟩, ⟨2,2,1⟩, ⟨2,1,0⟩, ⟨2,2,2⟩, ⟨1,0,0⟩] : List (R3.Vector ℚ)) with
  | panic => rw [e] at h; simp at h
  | fuel => rw [e] at h; simp at h
  | ok t =>
    rw [e] at h
    simp only [Bool.and_eq_true, decide_eq_true_eq] at h
    obtain ⟨h1, v, hv, h2⟩ := h
    refine ⟨t, rfl, h1, v, hv, h2, _, _, _, _, _, rfl, rfl, rfl, rfl, rfl, ?_, ?_⟩
    · rw [← C09_zero_iff]; norm_num [Predicates.orient3dfast]
    · intro o R hc
      have hnd : ¬ Coplanar4 (⟨2,1,0⟩ : R3.Vector ℚ) ⟨2,2,1⟩ ⟨2,2,2⟩ ⟨1,0,0⟩ := by
        rw [← C09_zero_iff]; norm_num [Predicates.orient3dfast]
      rw [← (C10_inSphere _ _ _ _ ⟨2,1,2⟩ o R hnd hc).1]
      norm_num [Predicates.orient3dfast, Predicates.InSphereFast]

/-- ... and so for every iteration order -/
theorem C37_refuted_any_order : ∃ points : List (R3.Vector ℚ), points.Nodup ∧ ∀ s : Sched, s.WF → ∃ t, finalTetras s points = .ok t ∧
    (∀ v ∈ tets t, (4 : Int) ∉ [v.ia, v.ib, v.ic, v.id]) ∧
    ∃ v ∈ tets t, (v.ia, v.ib, v.ic, v.id) = (6, 5, 7, 8) ∧
      ∃ a b c d p, points[2]? = some a ∧ points[1]? = some b ∧ points[3]? = some c ∧ points[4]? = some d ∧ points[0]? = some p ∧
        ¬ Coplanar4 a b c d ∧ ∀ o R, Circumsphere a b c d o R → d2 p o < R := by
  obtain ⟨points, hn, t, e, h1, v, hv, h2⟩ := C37_refuted
  refine ⟨points, hn, fun s hs => ?_⟩
  obtain ⟨p1, p2, p3, p4, he, _⟩ := C34_englobe points
  have wf : schedId.WF := ⟨fun _ _ => List.Perm.refl _, fun _ _ => List.Perm.refl _, fun _ => List.Perm.refl _⟩
  obtain ⟨u, u', e1, e2, hu⟩ := bwLoop_perm (fun a b c d e => decide ((0 : ℚ) ≤ Predicates.InSphereFast a b c d e)) schedId s wf hs
    (englobe points).1 points 0 _ _ good_initial valid_initial (List.Perm.refl _) (by rw [he]; simp; omega)
  have : Res.ok u = Res.ok t := e1.symm.trans e
  injection this with this
  subst this
  have hp : (tets u).Perm (tets u') := hu.map Prod.snd
  exact ⟨u', e2, fun v hv => h1 v (hp.symm.subset hv), v, hp.subset hv, h2⟩

end Verif.Props
