import Mathlib.Data.Prod.Lex
import Mathlib.Data.Finset.Max
import Verif.Proofs.Core
import Verif.Proofs.DelGeom
/-!
# The Delaunay condition on a half-edge table
-/
namespace Verif.Proofs
open Verif Verif.Tri2

variable {K : Type} [Field K] [LinearOrder K] [IsStrictOrderedRing K]

/-- the signed area of the triangle of slot `k` -/
def tArea (pz : ℤ → R3.Vector K) (tr : ℕ → ℤ) (k : ℕ) : K := area (pz (tr (pv k))) (pz (tr k)) (pz (tr (nx k)))

/-- the in-circle determinant of the triangle of slot `k` -/
def tDet (pz : ℤ → R3.Vector K) (tr : ℕ → ℤ) (k : ℕ) (v : R3.Vector K) : K := inCircleDet (pz (tr (pv k))) (pz (tr k)) (pz (tr (nx k))) v

/-- the position of `v` with respect to the edge of slot `k` -/
def side (pz : ℤ → R3.Vector K) (tr : ℕ → ℤ) (v : R3.Vector K) (k : ℕ) : K := area v (pz (tr k)) (pz (tr (nx k)))

variable {pz : ℤ → R3.Vector K}

omit [LinearOrder K] [IsStrictOrderedRing K] in
theorem tArea_nx (tr : ℕ → ℤ) (k : ℕ) : tArea pz tr (nx k) = tArea pz tr k := by
  unfold tArea; rw [pv_nx, nx_nx]; exact area_cyc _ _ _
omit [LinearOrder K] [IsStrictOrderedRing K] in
theorem tArea_pv (tr : ℕ → ℤ) (k : ℕ) : tArea pz tr (pv k) = tArea pz tr k := by
  rw [← tArea_nx tr (pv k), nx_pv]
omit [LinearOrder K] [IsStrictOrderedRing K] in
theorem tDet_nx (tr : ℕ → ℤ) (k : ℕ) (v : R3.Vector K) : tDet pz tr (nx k) v = tDet pz tr k v := by
  unfold tDet; rw [pv_nx, nx_nx]; exact det_cyc _ _ _ _
omit [LinearOrder K] [IsStrictOrderedRing K] in
theorem tDet_pv (tr : ℕ → ℤ) (k : ℕ) (v : R3.Vector K) : tDet pz tr (pv k) v = tDet pz tr k v := by
  rw [← tDet_nx tr (pv k), nx_pv]

/-- walking through a Delaunay triangulation towards `p` ends in a triangle that contains `p` -/
theorem descent {n T : ℕ} {tr he : ℕ → ℤ} (M : MeshF n T tr he) (V : Finset ℕ) (Q : ℕ → Prop) (p : R3.Vector K)
    (pos : ∀ k < 3*T, 0 < tArea pz tr k) (emp : ∀ k < 3*T, Q k → ∀ v ∈ V, 0 ≤ tDet pz tr k (pz (v:ℕ)))
    (hV : ∀ k < 3*T, Q k → ∃ v ∈ V, tr k = (v:ℕ)) (Qnx : ∀ k < 3*T, Q k → Q (nx k))
    (cross : ∀ k < 3*T, Q k → side pz tr p k < 0 → ∃ j : ℕ, he k = j ∧ Q j) {k : ℕ} (hk : k < 3*T) (hQ : Q k) :
    ∃ j < 3*T, Q j ∧ 0 ≤ side pz tr p j ∧ 0 ≤ side pz tr p (nx j) ∧ 0 ≤ side pz tr p (pv j) := by
  classical
  by_contra hcon
  push Not at hcon
  have beyond : ∀ j < 3*T, Q j → side pz tr p j < 0 ∨ side pz tr p (nx j) < 0 ∨ side pz tr p (pv j) < 0 := by
    intro j hj hq
    by_contra h
    push Not at h
    exact absurd h.2.2 (not_le.mpr (hcon j hj hq h.1 h.2.1))
  have Qpv : ∀ k < 3*T, Q k → Q (pv k) := fun k hk h => by
    rw [← nx_nx]; exact Qnx _ (nx_lt hk) (Qnx k hk h)
  let bad : Finset ℕ := (Finset.range (3*T)).filter (fun k => Q k ∧ side pz tr p k < 0)
  have memb : ∀ k, k ∈ bad ↔ k < 3*T ∧ Q k ∧ side pz tr p k < 0 := fun k => by simp [bad]
  have hne : bad.Nonempty := by
    rcases beyond k hk hQ with h | h | h
    · exact ⟨k, (memb k).mpr ⟨hk, hQ, h⟩⟩
    · exact ⟨nx k, (memb _).mpr ⟨nx_lt hk, Qnx k hk hQ, h⟩⟩
    · exact ⟨pv k, (memb _).mpr ⟨pv_lt hk, Qpv k hk hQ, h⟩⟩
  let on : ℕ → Finset ℕ := fun k => V.filter (fun v => tDet pz tr k (pz (v:ℕ)) = 0 ∧ side pz tr (pz (v:ℕ)) k < 0)
  let f : ℕ → K ×ₗ ℕ := fun k => toLex (tDet pz tr k p / tArea pz tr k, (on k).card)
  obtain ⟨m, hm, hmin⟩ := Finset.exists_min_image bad f hne
  obtain ⟨mlt, mQ, ms⟩ := (memb m).mp hm
  obtain ⟨b, hb, bQ⟩ := cross m mlt mQ ms
  obtain ⟨blt, hbm, t1, t2, _⟩ := M.twin mlt hb
  -- the neighbour
  have am := pos m mlt
  have ab := pos b blt
  obtain ⟨o, oV, ho⟩ := hV (pv b) (pv_lt blt) (Qpv b blt bQ)
  have em := emp m mlt mQ o oV
  have sb : side pz tr p b = - side pz tr p m := by unfold side; rw [t1, t2]; exact area_swap _ _ _
  have ps := power_step (x := pz (tr m)) (y := pz (tr (nx m))) (z := pz (tr (pv m))) (o := pz (o:ℕ)) (p := p) am
    (by unfold tArea at ab; rw [ho, t1, t2] at ab; exact ab) em ms
  have eb : ∀ v, tDet pz tr b v = inCircleDet (pz (o:ℕ)) (pz (tr (nx m))) (pz (tr m)) v := fun v => by unfold tDet; rw [ho, t1, t2]
  have ea : tArea pz tr b = area (pz (o:ℕ)) (pz (tr (nx m))) (pz (tr m)) := by unfold tArea; rw [ho, t1, t2]
  rw [← eb, ← ea] at ps
  -- the next slot, in the triangle of b
  have next : ∀ c, (c = nx b ∨ c = pv b) → side pz tr p c < 0 → False := by
    intro c hc hcs
    have clt : c < 3*T := by rcases hc with rfl | rfl; exacts [nx_lt blt, pv_lt blt]
    have cQ : Q c := by rcases hc with rfl | rfl; exacts [Qnx b blt bQ, Qpv b blt bQ]
    have hle := hmin c ((memb c).mpr ⟨clt, cQ, hcs⟩)
    have ec : ∀ v, tDet pz tr c v = tDet pz tr b v := fun v => by rcases hc with rfl | rfl; exacts [tDet_nx _ _ _, tDet_pv _ _ _]
    have eac : tArea pz tr c = tArea pz tr b := by rcases hc with rfl | rfl; exacts [tArea_nx _ _, tArea_pv _ _]
    rw [Prod.Lex.toLex_le_toLex, ec, eac] at hle
    rcases hle with h | ⟨h, hcard⟩
    · exact absurd ps.1 (not_le.mpr h)
    · have h0 := ps.2 h.symm
      refine absurd hcard (not_le.mpr (Finset.card_lt_card ?_))
      have om : o ∈ on m := by
        rw [Finset.mem_filter]
        refine ⟨oV, h0, ?_⟩
        unfold side
        rw [show area (pz (o:ℕ)) (pz (tr m)) (pz (tr (nx m))) = - area (pz (o:ℕ)) (pz (tr (nx m))) (pz (tr m)) from area_swap _ _ _, ← ea]
        linarith
      have oc : o ∉ on c := by
        rw [Finset.mem_filter]
        rintro ⟨_, _, h2⟩
        unfold side at h2
        rcases hc with rfl | rfl
        · rw [nx_nx, ho, area_aba] at h2; exact lt_irrefl _ h2
        · rw [nx_pv, ho, area_aa] at h2; exact lt_irrefl _ h2
      refine Finset.ssubset_iff_subset_ne.mpr ⟨?_, fun e => oc (e ▸ om)⟩
      intro v hv
      rw [Finset.mem_filter] at hv ⊢
      obtain ⟨v1, v2, v3⟩ := hv
      rw [ec] at v2
      refine ⟨v1, ?_, ?_⟩
      · have v2' := v2
        rw [eb] at v2'
        rw [ea] at ab
        exact same_circle am ab h0 v2'
      · have sv : side pz tr (pz (v:ℕ)) m = - side pz tr (pz (v:ℕ)) b := by unfold side; rw [t1, t2]; exact area_swap _ _ _
        rw [sv]
        have : 0 < side pz tr (pz (v:ℕ)) b := by
          unfold side at v3 ⊢
          unfold tDet at v2
          unfold tArea at ab
          rcases hc with rfl | rfl
          · rw [nx_nx] at v3
            exact circle_beyond' (a := pz (tr (nx b))) (b := pz (tr (pv b))) (c := pz (tr b)) (by rw [area_cyc']; exact ab) (by rw [det_cyc']; exact v2) v3
          · rw [nx_pv] at v3
            exact circle_beyond (a := pz (tr (pv b))) (b := pz (tr b)) (c := pz (tr (nx b))) ab v2 v3
        linarith
  rcases beyond b blt bQ with h | h | h
  · rw [sb] at h; linarith
  · exact next _ (Or.inl rfl) h
  · exact next _ (Or.inr rfl) h

/-- what holds of the table while the point `p` is being inserted into a Delaunay triangulation with vertices `V`;
the slots in `S` have not been checked yet -/
structure Mid (pz : ℤ → R3.Vector K) (n T p : ℕ) (V : Finset ℕ) (S : ℕ → Prop) (tr he : ℕ → ℤ) : Prop where
  mesh : MeshF n T tr he
  pos : ∀ k < 3*T, 0 < tArea pz tr k
  /-- the circumcircles of the triangles without `p` are empty -/
  emp : ∀ k < 3*T, ¬ HasP tr p k → ∀ v ∈ V, 0 ≤ tDet pz tr k (pz (v:ℕ))
  /-- in a triangle with `p` the circumcircle is empty on the side of `p` -/
  near : ∀ k < 3*T, tr (pv k) = p → ∀ v ∈ V, 0 ≤ side pz tr (pz (v:ℕ)) k → 0 ≤ tDet pz tr k (pz (v:ℕ))
  legal : ∀ k < 3*T, ¬ S k → tr (pv k) = p → ∀ j : ℕ, he k = j → 0 ≤ tDet pz tr k (pz (tr (pv j)))

section flip
variable {n T p a b : ℕ} {V : Finset ℕ} {S : ℕ → Prop} {tr he : ℕ → ℤ}

/-- one flip -/
theorem Mid.flip (M : Mid pz n T p V (fun k => k = a ∨ S k) tr he) (ha : a < 3*T) (hpa : tr (pv a) = p) (hab : he a = (b:ℤ))
    (hin : tDet pz tr a (pz (tr (pv b))) < 0) (hne : tr (pv b) ≠ p) :
    Mid pz n T p V (fun k => k = a ∨ k = nx b ∨ S k) (flipTr tr a b) (flipHe he a b) := by
  obtain ⟨hb, hba, t1, t2, hd⟩ := M.mesh.twin ha hab
  have hd' : a / 3 ≠ b / 3 := fun e => hd e.symm
  obtain ⟨M', f1, f2, f3, f4⟩ := flip_spec M.mesh ha hab (by rw [hpa]; exact hne)
  obtain ⟨p1, p2, p3, p4, p5⟩ := flipPerm_spec hd'
  have na := nx_div a
  have pa := pv_div a
  have nb := nx_div b
  have pb := pv_div b
  have n1 : nx a ≠ a := nx_ne a
  have n2 : pv a ≠ a := pv_ne a
  have n3 : nx b ≠ b := nx_ne b
  have n4 : pv b ≠ b := pv_ne b
  have d1 : ∀ {u v : ℕ}, u / 3 = a / 3 → v / 3 = b / 3 → u ≠ v := fun h1 h2 e => hd' (by rw [← h1, ← h2, e])
  have ra : tr a ≠ p := by rw [← hpa]; exact M.mesh.dst2 ha
  have la : tr (nx a) ≠ p := by
    rw [← hpa, ← nx_nx]; exact M.mesh.dst (nx a) (nx_lt ha)
  -- values of the new vertex table
  have ft : ∀ k, flipTr tr a b k = if k = b then tr (pv a) else if k = a then tr (pv b) else tr k := fun k => rfl
  have va : flipTr tr a b a = tr (pv b) := by rw [ft, if_neg (d1 rfl rfl), if_pos rfl]
  have vna : flipTr tr a b (nx a) = tr (nx a) := by rw [ft, if_neg (d1 na rfl), if_neg n1]
  have vpa : flipTr tr a b (pv a) = p := by rw [ft, if_neg (d1 pa rfl), if_neg n2, hpa]
  have vb : flipTr tr a b b = p := by rw [ft, if_pos rfl, hpa]
  have vnb : flipTr tr a b (nx b) = tr a := by rw [ft, if_neg n3, if_neg (d1 rfl nb).symm, t2]
  have vpb : flipTr tr a b (pv b) = tr (pv b) := by rw [ft, if_neg n4, if_neg (d1 rfl pb).symm]
  have vo : ∀ k, k / 3 ≠ a / 3 → k / 3 ≠ b / 3 → flipTr tr a b k = tr k := fun k h1 h2 => by
    rw [ft, if_neg (fun e => h2 (by rw [e])), if_neg (fun e => h1 (by rw [e]))]
  have vo3 : ∀ k, k / 3 ≠ a / 3 → k / 3 ≠ b / 3 → flipTr tr a b k = tr k ∧ flipTr tr a b (nx k) = tr (nx k) ∧ flipTr tr a b (pv k) = tr (pv k) := fun k h1 h2 =>
    ⟨vo k h1 h2, vo _ (by rw [nx_div]; exact h1) (by rw [nx_div]; exact h2), vo _ (by rw [pv_div]; exact h1) (by rw [pv_div]; exact h2)⟩
  have oArea : ∀ k, k / 3 ≠ a / 3 → k / 3 ≠ b / 3 → tArea pz (flipTr tr a b) k = tArea pz tr k := fun k h1 h2 => by
    obtain ⟨e1, e2, e3⟩ := vo3 k h1 h2
    unfold tArea; rw [e1, e2, e3]
  have oDet : ∀ k v, k / 3 ≠ a / 3 → k / 3 ≠ b / 3 → tDet pz (flipTr tr a b) k v = tDet pz tr k v := fun k v h1 h2 => by
    obtain ⟨e1, e2, e3⟩ := vo3 k h1 h2
    unfold tDet; rw [e1, e2, e3]
  -- the geometry
  have A1 := M.pos a ha
  have A2 := M.pos b hb
  unfold tArea at A1 A2
  unfold tDet at hin
  rw [hpa] at A1 hin
  rw [t1, t2] at A2
  obtain ⟨B1, B2⟩ := flip_pos A1 A2 hin
  have ha1 : 0 < tArea pz (flipTr tr a b) a := by
    unfold tArea; rw [va, vna, vpa, area_cyc']; exact B1
  have hb1 : 0 < tArea pz (flipTr tr a b) b := by
    unfold tArea; rw [vb, vnb, vpb, area_cyc']; exact B2
  -- slots of the two new triangles
  have inA : ∀ k, k / 3 = a / 3 → flipTr tr a b (pv k) = p → k = a := by
    intro k hk h
    rcases same_div hk with rfl | rfl | rfl
    · rfl
    · rw [pv_nx, va] at h; exact absurd h hne
    · rw [pv_pv, vna] at h; exact absurd h la
  have inB : ∀ k, k / 3 = b / 3 → flipTr tr a b (pv k) = p → k = nx b := by
    intro k hk h
    rcases same_div hk with rfl | rfl | rfl
    · rw [vpb] at h; exact absurd h hne
    · rfl
    · rw [pv_pv, vnb] at h; exact absurd h ra
  -- the old triangle of b
  have nonb : ¬ HasP tr p b := by
    rintro (h | h | h)
    · rw [t1] at h; exact la h
    · rw [t2] at h; exact ra h
    · exact hne h
  have eb : ∀ v ∈ V, 0 ≤ inCircleDet (pz (tr (pv b))) (pz (tr (nx a))) (pz (tr a)) (pz (v:ℕ)) := by
    intro v hv
    have := M.emp b hb nonb v hv
    unfold tDet at this
    rwa [t1, t2] at this
  have dp : inCircleDet (pz (tr (pv b))) (pz (tr (nx a))) (pz (tr a)) (pz (p:ℕ)) < 0 := by rw [det_flip]; exact hin
  refine ⟨M', ?_, ?_, ?_, ?_⟩
  · intro k hk
    by_cases h1 : k / 3 = a / 3
    · rcases same_div h1 with rfl | rfl | rfl
      · exact ha1
      · rw [tArea_nx]; exact ha1
      · rw [tArea_pv]; exact ha1
    by_cases h2 : k / 3 = b / 3
    · rcases same_div h2 with rfl | rfl | rfl
      · exact hb1
      · rw [tArea_nx]; exact hb1
      · rw [tArea_pv]; exact hb1
    rw [oArea k h1 h2]; exact M.pos k hk
  · intro k hk hP v hv
    have h1 : k / 3 ≠ a / 3 := fun h => hP ((hasP_div h).mpr (Or.inr (Or.inr vpa)))
    have h2 : k / 3 ≠ b / 3 := fun h => hP ((hasP_div h).mpr (Or.inl vb))
    rw [oDet k _ h1 h2]
    refine M.emp k hk ?_ v hv
    obtain ⟨e1, e2, e3⟩ := vo3 k h1 h2
    unfold HasP at hP
    rw [e1, e2, e3] at hP
    exact hP
  · intro k hk hP v hv hs
    by_cases h1 : k / 3 = a / 3
    · have := inA k h1 hP
      subst this
      unfold side at hs
      unfold tDet
      rw [va, vna] at hs
      rw [va, vna, vpa]
      refine flip_far (r := pz (tr k)) ?_ ?_ ?_ ?_ hs
      · rw [area_cyc']; exact A2
      · rw [area_cyc']; exact B1
      · rw [det_cyc']; exact eb v hv
      · rw [det_cyc']; exact dp.le
    by_cases h2 : k / 3 = b / 3
    · have := inB k h2 hP
      subst this
      unfold side at hs
      unfold tDet
      rw [vnb, nx_nx, vpb] at hs
      rw [pv_nx, nx_nx, vb, vnb, vpb]
      refine flip_far (r := pz (tr (nx a))) ?_ ?_ ?_ ?_ hs
      · rw [area_cyc]; exact A2
      · exact B2
      · rw [det_cyc]; exact eb v hv
      · rw [det_cyc]; exact dp.le
    obtain ⟨e1, e2, e3⟩ := vo3 k h1 h2
    rw [oDet k _ h1 h2]
    unfold side at hs
    rw [e1, e2] at hs
    exact M.near k hk (by rw [← e3]; exact hP) v hv hs
  · intro k hk hS hP j hj
    push Not at hS
    obtain ⟨s1, s2, s3⟩ := hS
    have h1 : k / 3 ≠ a / 3 := fun h => s1 (inA k h hP)
    have h2 : k / 3 ≠ b / 3 := fun h => s2 (inB k h hP)
    obtain ⟨e1, e2, e3⟩ := vo3 k h1 h2
    rw [e3] at hP
    rw [oDet k _ h1 h2]
    have fixk : flipPerm a b k = k := p5 k (fun e => h1 (by rw [e])) (fun e => h2 (by rw [e])) (fun e => h1 (by rw [e, pa])) (fun e => h2 (by rw [e, pb]))
    have zero : 0 ≤ tDet pz tr k (pz (p:ℕ)) := by unfold tDet; rw [hP, det_1]
    rcases M.mesh.inv k hk with hh | ⟨j0, hj0, hh, hh', w1, w2⟩
    · have := f2 k hk hh
      rw [fixk, hj] at this; omega
    · have := f3 k hk j0 hh
      rw [fixk, hj] at this
      have hjj : j = flipPerm a b j0 := by exact_mod_cast this
      have kp : tr k ≠ p := by rw [← hP]; exact M.mesh.dst2 hk
      have kn : tr (nx k) ≠ p := by rw [← hP, ← nx_nx]; exact M.mesh.dst (nx k) (nx_lt hk)
      have c1 : j0 ≠ a := by
        rintro rfl
        rw [hab] at hh'; exact h2 (by have : b = k := by exact_mod_cast hh'
                                      rw [this])
      have c2 : j0 ≠ b := by
        rintro rfl
        rw [hba] at hh'; exact h1 (by have : a = k := by exact_mod_cast hh'
                                      rw [this])
      have c3 : j0 ≠ pv a := by
        rintro rfl
        rw [hpa] at w1; exact kn w1.symm
      by_cases c4 : j0 = pv b
      · rw [hjj, c4, p4, vpa]; exact zero
      rw [p5 j0 c1 c2 c3 c4] at hjj
      subst hjj
      by_cases c5 : pv j = b
      · rw [c5, vb]; exact zero
      have c6 : pv j ≠ a := by
        intro h
        have : j = nx a := by rw [← h, nx_pv]
        subst this
        rw [nx_nx, hpa] at w2; exact kp w2.symm
      rw [show flipTr tr a b (pv j) = tr (pv j) by rw [ft, if_neg c5, if_neg c6]]
      exact M.legal k hk (by rintro (h | h); exacts [s1 h, s3 h]) hP j hh

/-- the answer of a test between two clockwise triangles -/
theorem Test.det {g : Geo (R3.Vector K)} {Vs : List (R3.Vector K)}
    (hg : ∀ a ∈ Vs, ∀ b ∈ Vs, ∀ c ∈ Vs, ∀ d ∈ Vs, 0 < area a b c → 0 < area d c b → g.inC a b c d = decide (inCircleDet a b c d < 0))
    (hpz : ∀ (i : ℕ) v, Vs[i]? = some v → pz i = v) {a b : ℕ} {x : (ℕ → ℤ) × (ℕ → ℤ)} {ans : Bool} (h : Test g Vs n T p a b x ans)
    (hpos : ∀ k < 3*T, 0 < tArea pz x.1 k) : a < 3*T ∧ x.1 (pv a) = p ∧ x.2 a = b ∧ ans = decide (tDet pz x.1 a (pz (x.1 (pv b))) < 0) := by
  obtain ⟨h1, hM, h2, h3, r, l, o, v0, vr, vl, v1, e1, e2, e3, w0, wr, wl, w1, hans⟩ := h
  refine ⟨h1, h2, h3, ?_⟩
  have pa : 0 < area v0 vr vl := by
    have := hpos a h1
    unfold tArea at this
    rw [h2, e1, e2, hpz _ _ w0, hpz _ _ wr, hpz _ _ wl] at this; exact this
  have pb : 0 < area v1 vl vr := by
    rcases hM.inv a h1 with h | ⟨j, hj, hh, _, u1, u2⟩
    · rw [h3] at h; omega
    · have hjb : j = b := by rw [h3] at hh; exact_mod_cast hh.symm
      subst hjb
      have := hpos j hj
      unfold tArea at this
      rw [u1, u2, e1, e2, e3, hpz _ _ w1, hpz _ _ wr, hpz _ _ wl] at this; exact this
  unfold tDet
  rw [h2, e1, e2, e3, hpz _ _ w0, hpz _ _ wr, hpz _ _ wl, hpz _ _ w1,
    ← hg _ (List.mem_of_getElem? w0) _ (List.mem_of_getElem? wr) _ (List.mem_of_getElem? wl) _ (List.mem_of_getElem? w1) pa pb]
  exact hans.symm

/-- `legalize` -/
theorem Mid.leg {g : Geo (R3.Vector K)} {Vs : List (R3.Vector K)}
    (hg : ∀ a ∈ Vs, ∀ b ∈ Vs, ∀ c ∈ Vs, ∀ d ∈ Vs, 0 < area a b c → 0 < area d c b → g.inC a b c d = decide (inCircleDet a b c d < 0))
    (hpz : ∀ (i : ℕ) v, Vs[i]? = some v → pz i = v) {x y : (ℕ → ℤ) × (ℕ → ℤ)} (L : Leg g Vs n T p a x y) :
    ∀ {S : ℕ → Prop}, Mid pz n T p V (fun k => k = a ∨ S k) x.1 x.2 → Mid pz n T p V S y.1 y.2 := by
  induction L with
  | bd h1 h2 h3 h4 =>
    intro S M
    refine ⟨M.mesh, M.pos, M.emp, M.near, ?_⟩
    intro k hk hS hP j hj
    refine M.legal k hk ?_ hP j hj
    rintro (rfl | h)
    · rw [h4] at hj; omega
    · exact hS h
  | legal h1 =>
    rename_i a' b' x'
    intro S M
    obtain ⟨t1, t2, t3, t4⟩ := h1.det hg hpz M.pos
    refine ⟨M.mesh, M.pos, M.emp, M.near, ?_⟩
    intro k hk hS hP j hj
    by_cases hka : k = a'
    · subst hka
      rw [t3] at hj
      have : b' = j := by exact_mod_cast hj
      subst this
      simpa using t4
    · exact M.legal k hk (by rintro (h | h); exacts [hka h, hS h]) hP j hj
  | flip h1 h2 _ _ ih1 ih2 =>
    intro S M
    obtain ⟨t1, t2, t3, t4⟩ := h1.det hg hpz M.pos
    have := M.flip t1 t2 t3 (by simpa using t4.symm) h2
    exact ih2 (ih1 this)

/-- adding the triangle `q p r` outside the hull edge from `q` to `r` -/
theorem Mid.add {t1 h1 : ℕ → ℤ} {q r : ℕ} {x y z : ℤ} (M : Mid pz n T p V (fun _ => False) tr he) (A : Added T tr he t1 h1 q p r x y z)
    (M1 : MeshF n (T+1) t1 h1) (hvis : area (pz p) (pz q) (pz r) < 0) (hleft : ∀ v ∈ V, 0 ≤ area (pz (v:ℕ)) (pz q) (pz r))
    (hq : q ≠ p) (hr : r ≠ p) {t : ℕ} (ht : t < 3*T) (tq : tr t = q) (tr' : tr (nx t) = r) :
    Mid pz n (T+1) p V (fun k => k = 3*T+2 ∨ False) t1 h1 := by
  have told3 : ∀ k < 3*T, t1 k = tr k ∧ t1 (nx k) = tr (nx k) ∧ t1 (pv k) = tr (pv k) := fun k hk =>
    ⟨A.told k hk, A.told _ (nx_lt hk), A.told _ (pv_lt hk)⟩
  have oDet : ∀ k < 3*T, ∀ v, tDet pz t1 k v = tDet pz tr k v := fun k hk v => by
    obtain ⟨e1, e2, e3⟩ := told3 k hk
    unfold tDet; rw [e1, e2, e3]
  have anew : 0 < tArea pz t1 (3*T) := by
    unfold tArea; rw [nx_T0, pv_T0, A.t0, A.t1, A.t2, area_cyc', area_swap']; linarith
  have hqz : (q:ℤ) ≠ p := by exact_mod_cast hq
  have hrz : (r:ℤ) ≠ p := by exact_mod_cast hr
  have newSlot : ∀ k < 3*(T+1), ¬ k < 3*T → t1 (pv k) = p → k = 3*T+2 := by
    intro k hk hk' hP
    rcases new_slot hk hk' with rfl | rfl | rfl
    · rw [pv_T0, A.t2] at hP; exact absurd hP hrz
    · rw [pv_T1, A.t0] at hP; exact absurd hP hqz
    · rfl
  have nont : ¬ HasP tr p t := by
    rintro (h | h | h)
    · exact hqz (tq ▸ h)
    · exact hrz (tr' ▸ h)
    · have := M.pos t ht
      unfold tArea at this
      rw [tq, tr', h] at this
      linarith
  refine ⟨M1, ?_, ?_, ?_, ?_⟩
  · intro k hk
    by_cases hk' : k < 3*T
    · obtain ⟨e1, e2, e3⟩ := told3 k hk'
      unfold tArea; rw [e1, e2, e3]; exact M.pos k hk'
    · rcases new_slot hk hk' with rfl | rfl | rfl
      · exact anew
      · rw [← nx_T0, tArea_nx]; exact anew
      · rw [← pv_T0, tArea_pv]; exact anew
  · intro k hk hP v hv
    have hk' : k < 3*T := by
      by_contra hk'
      rcases new_slot hk hk' with rfl | rfl | rfl
      · exact hP (Or.inr (Or.inl (by rw [nx_T0]; exact A.t1)))
      · exact hP (Or.inl A.t1)
      · exact hP (Or.inr (Or.inr (by rw [pv_T2]; exact A.t1)))
    rw [oDet k hk']
    refine M.emp k hk' ?_ v hv
    obtain ⟨e1, e2, e3⟩ := told3 k hk'
    unfold HasP at hP
    rwa [e1, e2, e3] at hP
  · intro k hk hP v hv hs
    by_cases hk' : k < 3*T
    · obtain ⟨e1, e2, e3⟩ := told3 k hk'
      rw [oDet k hk']
      unfold side at hs
      rw [e1, e2] at hs
      exact M.near k hk' (by rw [← e3]; exact hP) v hv hs
    · have := newSlot k hk hk' hP
      subst this
      unfold side at hs
      unfold tDet
      rw [nx_T2, A.t2, A.t0] at hs
      rw [pv_T2, nx_T2, A.t2, A.t1, A.t0]
      have h0 : area (pz (v:ℕ)) (pz r) (pz q) = 0 := by
        have := hleft v hv
        rw [area_swap] at hs ⊢; linarith
      have e := M.emp t ht nont v hv
      have at' := M.pos t ht
      unfold tDet at e
      unfold tArea at at'
      rw [tq, tr'] at e at'
      exact line_far at' (by rw [area_swap]; linarith) e h0
  · intro k hk hS hP j hj
    by_cases hk' : k < 3*T
    swap
    · exact absurd (Or.inl (newSlot k hk hk' hP)) hS
    obtain ⟨e1, e2, e3⟩ := told3 k hk'
    have hP' : tr (pv k) = p := by rw [← e3]; exact hP
    have kp : t1 k ≠ p := by rw [← hP]; exact M1.dst2 hk
    have kn : t1 (nx k) ≠ p := by rw [← hP, ← nx_nx]; exact M1.dst (nx k) (nx_lt hk)
    obtain ⟨_, _, w1, w2, _⟩ := M1.twin hk hj
    by_cases cz : (k:ℤ) = z
    · have := A.hc k hk' cz
      rw [hj] at this
      have : j = 3*T+2 := by exact_mod_cast this
      subst this
      rw [pv_T2, A.t1]
      unfold tDet; rw [hP, det_1]
    by_cases cx : (k:ℤ) = x
    · have := A.ha k hk' cx
      rw [hj] at this
      have : j = 3*T := by exact_mod_cast this
      subst this
      rw [nx_T0, A.t1] at w2
      exact absurd w2.symm kp
    by_cases cy : (k:ℤ) = y
    · have := A.hb k hk' cy
      rw [hj] at this
      have : j = 3*T+1 := by exact_mod_cast this
      subst this
      rw [A.t1] at w1
      exact absurd w1.symm kn
    have hh := A.hold k hk' cx cy cz
    rw [hj] at hh
    obtain ⟨j1, _⟩ := M.mesh.twin hk' hh.symm
    rw [oDet k hk', A.told _ (pv_lt j1)]
    exact M.legal k hk' (fun h => h) hP' j hh.symm

/-- a Delaunay triangulation of the points with indices in `V` -/
structure Del (pz : ℤ → R3.Vector K) (n T : ℕ) (V : Finset ℕ) (tr he : ℕ → ℤ) : Prop where
  mesh : MeshF n T tr he
  vert : ∀ k < 3*T, ∃ v ∈ V, tr k = (v:ℕ)
  pos : ∀ k < 3*T, 0 < tArea pz tr k
  emp : ∀ k < 3*T, ∀ v ∈ V, 0 ≤ tDet pz tr k (pz (v:ℕ))

theorem Del.mid (D : Del pz n T V tr he) (hp : p ∉ V) : Mid pz n T p V (fun _ => False) tr he := by
  have nP : ∀ k < 3*T, tr k ≠ p := by
    intro k hk h
    obtain ⟨v, hv, e⟩ := D.vert k hk
    rw [h] at e
    have : p = v := by exact_mod_cast e
    exact hp (this ▸ hv)
  exact ⟨D.mesh, D.pos, fun k hk _ v hv => D.emp k hk v hv, fun k hk h => absurd h (nP _ (pv_lt hk)), fun k hk _ h => absurd h (nP _ (pv_lt hk))⟩

/-- the insertion of `p` is complete -/
theorem Mid.done (M : Mid pz n T p V (fun _ => False) tr he) (hpV : p ∉ V) (vert : ∀ k < 3*T, ∃ v ∈ insert p V, tr k = (v:ℕ))
    (hull : ∀ k < 3*T, he k = -1 → ∀ v ∈ insert p V, 0 ≤ side pz tr (pz (v:ℕ)) k)
    (out : ∃ e y : R3.Vector K, area (pz p) e y < 0 ∧ ∀ v ∈ V, 0 ≤ area (pz (v:ℕ)) e y) : Del pz n T (insert p V) tr he := by
  refine ⟨M.mesh, vert, M.pos, ?_⟩
  -- the apex across an edge opposite p is not p
  have apex : ∀ k < 3*T, tr (pv k) = p → ∀ j : ℕ, he k = j → ¬ HasP tr p j := by
    intro k hk hP j hj
    obtain ⟨j1, _, w1, w2, _⟩ := M.mesh.twin hk hj
    rintro (h | h | h)
    · rw [w1] at h
      have := M.mesh.dst (nx k) (nx_lt hk)
      rw [nx_nx] at this
      exact this (by rw [h, hP])
    · rw [w2] at h; exact M.mesh.dst2 hk (by rw [h, hP])
    · have a1 := M.pos k hk
      have a2 := M.pos j j1
      unfold tArea at a1 a2
      rw [hP] at a1
      rw [h, w1, w2, area_swap] at a2
      linarith
  have pcase : ∀ k < 3*T, tr (pv k) = p → ∀ v ∈ insert p V, 0 ≤ tDet pz tr k (pz (v:ℕ)) := by
    intro k hk hP v hv
    rcases Finset.mem_insert.mp hv with rfl | hvV
    · unfold tDet; rw [hP, det_1]
    · by_cases hs : 0 ≤ side pz tr (pz (v:ℕ)) k
      · exact M.near k hk hP v hvV hs
      · rcases M.mesh.inv k hk with h | ⟨j, hj, hh, hh', w1, w2⟩
        · exact absurd (hull k hk h v hv) hs
        · have np := apex k hk hP j hh
          have e := M.emp j hj np v hvV
          have l := M.legal k hk (fun h => h) hP j hh
          have a1 := M.pos k hk
          have a2 := M.pos j hj
          unfold tArea at a1 a2
          unfold tDet at e l ⊢
          unfold side at hs
          rw [w1, w2] at e a2
          exact legal_far a1 a2 e l (not_le.mp hs).le
  have nonp : ∀ k < 3*T, ¬ HasP tr p k → 0 ≤ tDet pz tr k (pz p) := by
    intro k hk hP
    by_contra hneg
    rw [not_le] at hneg
    obtain ⟨j, hj, ⟨jP, jneg⟩, s1, s2, s3⟩ := descent (pz := pz) M.mesh V (fun k => ¬ HasP tr p k ∧ tDet pz tr k (pz p) < 0) (pz p) M.pos
      (fun k hk h v hv => M.emp k hk h.1 v hv)
      (by
        intro k hk h
        obtain ⟨v, hv, e⟩ := vert k hk
        rcases Finset.mem_insert.mp hv with rfl | hv
        · exact absurd (Or.inl e) h.1
        · exact ⟨v, hv, e⟩)
      (by
        intro k hk h
        exact ⟨fun h' => h.1 ((hasP_nx _ _ _).mp h'), by rw [tDet_nx]; exact h.2⟩)
      (by
        intro k hk h hs
        rcases M.mesh.inv k hk with hb | ⟨j, hj, hh, hh', w1, w2⟩
        · exact absurd (hull k hk hb p (Finset.mem_insert_self _ _)) (not_le.mpr hs)
        · refine ⟨j, hh, ?_⟩
          have njP : ¬ HasP tr p j := by
            rintro (c | c | c)
            · rw [w1] at c; exact h.1 (Or.inr (Or.inl c))
            · rw [w2] at c; exact h.1 (Or.inl c)
            · have := M.legal j hj (fun h => h) c k hh'
              unfold tDet at this
              rw [c, w1, w2, det_flip] at this
              exact absurd this (not_le.mpr h.2)
          refine ⟨njP, ?_⟩
          obtain ⟨o, ho, e⟩ := vert (pv j) (pv_lt hj)
          have hoV : o ∈ V := by
            rcases Finset.mem_insert.mp ho with rfl | ho
            · exact absurd (Or.inr (Or.inr e)) njP
            · exact ho
          have a1 := M.pos k hk
          have a2 := M.pos j hj
          have em := M.emp k hk h.1 o hoV
          have hd := h.2
          unfold tArea at a1 a2
          unfold tDet at em hd ⊢
          unfold side at hs
          rw [w1, w2, e] at a2 ⊢
          have ps := (power_step a1 a2 em hs).1
          by_contra hge
          rw [not_lt] at hge
          have l1 := div_nonneg hge a2.le
          have l2 := div_neg_of_neg_of_pos hd a1
          linarith)
      hk ⟨hP, hneg⟩
    -- p would lie in the triangle of j
    obtain ⟨e, y, h1, h2⟩ := out
    have vin : ∀ m < 3*T, ¬ HasP tr p m → 0 ≤ area (pz (tr m)) e y := by
      intro m hm hmP
      obtain ⟨v, hv, ev⟩ := vert m hm
      rcases Finset.mem_insert.mp hv with rfl | hv
      · exact absurd (Or.inl ev) hmP
      · rw [ev]; exact h2 v hv
    have a := M.pos j hj
    unfold tArea at a
    unfold side at s1 s2 s3
    rw [nx_nx] at s2
    rw [nx_pv] at s3
    exact absurd (inside_left a s3 s1 s2 (vin _ (pv_lt hj) (fun h => jP ((hasP_pv _ _ _).mp h))) (vin _ hj jP)
      (vin _ (nx_lt hj) (fun h => jP ((hasP_nx _ _ _).mp h)))) (not_le.mpr h1)
  intro k hk v hv
  by_cases hP : HasP tr p k
  · rcases hP with h | h | h
    · have := pcase (nx k) (nx_lt hk) (by rw [pv_nx]; exact h) v hv
      rwa [tDet_nx] at this
    · have := pcase (pv k) (pv_lt hk) (by rw [pv_pv]; exact h) v hv
      rwa [tDet_pv] at this
    · exact pcase k hk h v hv
  · rcases Finset.mem_insert.mp hv with rfl | hv
    · exact nonp k hk hP
    · exact M.emp k hk hP v hv

end flip

end Verif.Proofs
