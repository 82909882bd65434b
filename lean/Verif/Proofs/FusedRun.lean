import Verif.Proofs.Fused
import Verif.Proofs.GridRun
import Verif.Model.Fused
/-!
# Runs of the triangulator on small integer coordinates with any arithmetic that is exact enough
-/
namespace Verif.Proofs
open Verif Verif.F64 Verif.Tri2 Verif.Props Verif.Spec

/-- what the proofs need of the arithmetic on small integer coordinates -/
structure Faithful (A : Arith) : Prop where
  sqSeed : ∀ {u v : R3.Vector F64} {a b : R3.Vector ℤ}, GPt u a → GPt v b → Ex (A.sqSeed u v) (R3.SquaredDistance a b) 32768
  sqPrev : ∀ {u v : R3.Vector F64} {a b : R3.Vector ℤ}, GPt u a → GPt v b → Ex (A.sqPrev u v) (R3.SquaredDistance a b) 32768
  radius : ∀ {u v w : R3.Vector F64} {a b c : R3.Vector ℤ}, GPt u a → GPt v b → GPt w c → 0 < dist2 (castQ b) (castQ a) →
    (dOf (castQ a) (castQ b) (castQ c) = 0 → A.radius u v w = none) ∧
    (dOf (castQ a) (castQ b) (castQ c) ≠ 0 → ∃ r, A.radius u v w = some r ∧
      Rel r (dist2 (castQ b) (castQ a) / 4 * (1 + (fOf (castQ a) (castQ b) (castQ c) / dOf (castQ a) (castQ b) (castQ c))^2)) 4)
  radius0 : ∀ {u v w : R3.Vector F64} {a b c : R3.Vector ℤ}, GPt u a → GPt v b → GPt w c → lZ a b = 0 → A.radius u v w = none
  areaSwap : ∀ {u v w : R3.Vector F64} {a b c : R3.Vector ℤ}, GPt u a → GPt v b → GPt w c → Ex (A.areaSwap u v w) (area a b c) 32768
  areaGe : ∀ {u v w : R3.Vector F64} {a b c : R3.Vector ℤ}, GPt u a → GPt v b → GPt w c → Ex (A.areaGe u v w) (area a b c) 32768
  areaLt : ∀ {u v w : R3.Vector F64} {a b c : R3.Vector ℤ}, GPt u a → GPt v b → GPt w c → Ex (A.areaLt u v w) (area a b c) 32768
  inDet : ∀ {u v w p : R3.Vector F64} {a b c d : R3.Vector ℤ}, GPt u a → GPt v b → GPt w c → GPt p d →
    Ex (A.inDet u v w p) (inCircleDet a b c d) 3221225472
  center : ∀ {u v w : R3.Vector F64} {a b c : R3.Vector ℤ}, GPt u a → GPt v b → GPt w c → dZ a b c ≠ 0 → Ctr a b c (A.center u v w)
  dist : ∀ {o p : R3.Vector F64} {a b c e : R3.Vector ℤ}, Ctr a b c o → GPt p e → (A.sqCenter p o).Finite ∧
    |(A.sqCenter p o).toQ - dist2 (castQ e) (circumcenter (castQ a) (castQ b) (castQ c))| ≤ 34 * uro * Mz (dZ a b c) ^ 2

section
variable {A : Arith} (HA : Faithful A)
include HA

theorem Faithful.exact_sq {u v : R3.Vector F64} {a b : R3.Vector ℤ} (hu : GPt u a) (hv : GPt v b) :
    (A.sqSeed u v).Finite ∧ (A.sqSeed u v).toQ = dist2 (exactV u) (exactV v) := by
  have h := HA.sqSeed hu hv
  refine ⟨h.fin, ?_⟩
  rw [h.val, ← castQ_sq, hu.exact, hv.exact]
  exact sq_planar (by simp [castQ, hu.z0, hv.z0])

theorem Faithful.seed1 {Vs : List (R3.Vector F64)} (hg : Grid Vs) (i0 : ℕ) {p0 : R3.Vector F64} (h0 : p0 ∈ Vs) :
    (A.seed1 Vs i0 p0 = 0 ∧ ∀ i v, Vs[i]? = some v → i ≠ i0 → ¬ 0 < dist2 (exactV v) (exactV p0)) ∨
    ∃ p1, Vs[A.seed1 Vs i0 p0]? = some p1 ∧ A.seed1 Vs i0 p0 ≠ i0 ∧ 0 < dist2 (exactV p1) (exactV p0) ∧
      ∀ i v, Vs[i]? = some v → i ≠ i0 → 0 < dist2 (exactV v) (exactV p0) → dist2 (exactV p1) (exactV p0) ≤ dist2 (exactV v) (exactV p0) := by
  obtain ⟨a0, g0⟩ := hg p0 h0
  set f : R3.Vector F64 × ℕ → Option F64 := fun pi => if pi.2 = i0 then none else if 0 < A.sqSeed pi.1 p0 then some (A.sqSeed pi.1 p0) else none with hf
  have e : A.seed1 Vs i0 p0 = (Vs.zipIdx.foldl (aminF f) (0, none)).1 := by
    unfold Arith.seed1
    congr 2
    funext acc pi
    unfold aminF
    simp only [hf]
    by_cases h1 : pi.2 = i0
    · simp [h1]
    · by_cases h2 : 0 < A.sqSeed pi.1 p0
      · simp [h1, h2]
      · simp [h1, h2]
  rw [e]
  have hsq : ∀ {i : ℕ} {v : R3.Vector F64}, Vs[i]? = some v → (A.sqSeed v p0).Finite ∧ (A.sqSeed v p0).toQ = dist2 (exactV v) (exactV p0) := by
    intro i v hv
    obtain ⟨a, ga⟩ := hg v (List.mem_of_getElem? hv)
    exact HA.exact_sq ga g0
  have hlt : ∀ {i : ℕ} {v : R3.Vector F64}, Vs[i]? = some v → ((0 : F64) < A.sqSeed v p0 ↔ 0 < dist2 (exactV v) (exactV p0)) := by
    intro i v hv
    rw [lt_fin Ex.zero.fin (hsq hv).1, (hsq hv).2, Ex.zero.val]; simp
  rcases aminF_spec f Vs.zipIdx (by
      intro x hx d hd
      rw [mem_zipIdx'] at hx
      simp only [hf] at hd
      split_ifs at hd
      injection hd with hd; rw [← hd]; exact (hsq hx).1) with ⟨h, h'⟩ | ⟨x, hx, d, h, hfx, hmin⟩
  · left
    refine ⟨by rw [h], fun i v hv hi hl => ?_⟩
    have := h' (v, i) (by rw [mem_zipIdx']; exact hv)
    rw [← hlt hv] at hl
    simp [hf, hi, hl] at this
  · right
    rw [h]
    rw [mem_zipIdx'] at hx
    have hx0 : x.2 ≠ i0 := by intro e; simp [hf, e] at hfx
    have hxp : 0 < A.sqSeed x.1 p0 := by
      by_contra e; simp [hf, e] at hfx
    refine ⟨x.1, hx, hx0, (hlt hx).mp hxp, fun i v hv hi hl => ?_⟩
    have := hmin (v, i) (by rw [mem_zipIdx']; exact hv) (A.sqSeed v p0) (by
      rw [← hlt hv] at hl; simp [hf, hi, hl])
    simp [hf, hx0, hxp] at hfx
    rw [← hfx, (hsq hx).2, (hsq hv).2] at this
    exact this

theorem Faithful.seed2 {Vs : List (R3.Vector F64)} (hg : Grid Vs) (i0 i1 : ℕ) {p0 p1 : R3.Vector F64} (h0 : p0 ∈ Vs) (h1 : p1 ∈ Vs)
    (hp : 0 < dist2 (exactV p1) (exactV p0)) :
    ((A.seed2 Vs i0 i1 p0 p1) = (0, none) ∧ ∀ i v, Vs[i]? = some v → i ≠ i0 → i ≠ i1 → dOf (exactV p0) (exactV p1) (exactV v) = 0) ∨
    ∃ i2 p2 r, A.seed2 Vs i0 i1 p0 p1 = (i2, some r) ∧ Vs[i2]? = some p2 ∧ i2 ≠ i0 ∧ i2 ≠ i1 ∧ dOf (exactV p0) (exactV p1) (exactV p2) ≠ 0 ∧
      ∀ i v, Vs[i]? = some v → i ≠ i0 → i ≠ i1 → dOf (exactV p0) (exactV p1) (exactV v) ≠ 0 →
        (fOf (exactV p0) (exactV p1) (exactV p2) / dOf (exactV p0) (exactV p1) (exactV p2)) ^ 2 ≤
        (fOf (exactV p0) (exactV p1) (exactV v) / dOf (exactV p0) (exactV p1) (exactV v)) ^ 2 := by
  obtain ⟨a0, g0⟩ := hg p0 h0
  obtain ⟨a1, g1⟩ := hg p1 h1
  rw [g0.exact, g1.exact] at *
  have hrad : ∀ {i : ℕ} {v : R3.Vector F64}, Vs[i]? = some v → ∃ a, GPt v a ∧ exactV v = castQ a := by
    intro i v hv
    obtain ⟨a, ga⟩ := hg v (List.mem_of_getElem? hv)
    exact ⟨a, ga, ga.exact⟩
  set f : R3.Vector F64 × ℕ → Option F64 := fun pi => if pi.2 = i0 ∨ pi.2 = i1 then none else A.radius p0 p1 pi.1 with hf
  have e : A.seed2 Vs i0 i1 p0 p1 = (Vs.zipIdx.foldl (aminF f) (0, none)) := by
    unfold Arith.seed2
    congr 1
    funext acc pi
    unfold aminF
    simp only [hf]
    by_cases h1 : pi.2 = i0 ∨ pi.2 = i1
    · simp [h1]
    · simp only [h1, if_false]
      cases A.radius p0 p1 pi.1 <;> rfl
  rw [e]
  rcases aminF_spec f Vs.zipIdx (by
      intro x hx d hd
      rw [mem_zipIdx'] at hx
      obtain ⟨a, ga, ea⟩ := hrad hx
      simp only [hf] at hd
      split_ifs at hd
      by_cases hz : dOf (castQ a0) (castQ a1) (castQ a) = 0
      · rw [(HA.radius g0 g1 ga hp).1 hz] at hd; cases hd
      · obtain ⟨r, hr, hrel⟩ := (HA.radius g0 g1 ga hp).2 hz
        rw [hr] at hd; injection hd with hd; rw [← hd]; exact hrel.fin) with ⟨h, h'⟩ | ⟨x, hx, d, h, hfx, hmin⟩
  · left
    refine ⟨h, fun i v hv hi hi' => ?_⟩
    obtain ⟨a, ga, ea⟩ := hrad hv
    rw [ea]
    by_contra hz
    obtain ⟨r, hr, _⟩ := (HA.radius g0 g1 ga hp).2 hz
    have := h' (v, i) (by rw [mem_zipIdx']; exact hv)
    simp [hf, hi, hi', hr] at this
  · right
    rw [mem_zipIdx'] at hx
    have hx0 : ¬ (x.2 = i0 ∨ x.2 = i1) := by intro e; simp only [hf, if_pos e] at hfx; cases hfx
    simp only [hf, if_neg hx0] at hfx
    push Not at hx0
    obtain ⟨a2, g2, e2⟩ := hrad hx
    have hd2 : dOf (castQ a0) (castQ a1) (castQ a2) ≠ 0 := by
      intro hz
      rw [(HA.radius g0 g1 g2 hp).1 hz] at hfx; cases hfx
    refine ⟨x.2, x.1, d, h, hx, hx0.1, hx0.2, by rw [e2]; exact hd2, fun i v hv hi hi' hdv => ?_⟩
    obtain ⟨a, ga, ea⟩ := hrad hv
    rw [ea] at hdv
    rw [e2, ea]
    obtain ⟨r2, hr2, rel2⟩ := (HA.radius g0 g1 g2 hp).2 hd2
    obtain ⟨rv, hrv, relv⟩ := (HA.radius g0 g1 ga hp).2 hdv
    rw [hr2] at hfx; injection hfx with hfx; subst hfx
    have := hmin (v, i) (by rw [mem_zipIdx']; exact hv) rv (by simp only [hf]; rw [if_neg (by tauto)]; exact hrv)
    rw [fOf_castQ, fOf_castQ, dOf_castQ, dOf_castQ] at *
    have b1 := (g0.dd g1 g2).le
    have b2 := (g0.dd g1 ga).le
    exact radius_gap (by exact_mod_cast hd2) (by exact_mod_cast hdv) (g0.fb g1 g2) (b1.trans (by norm_num)) (b2.trans (by norm_num)) hp rel2 relv this

omit HA in
theorem _root_.Verif.Tri2.Arith.seed0_lt (Vs : List (R3.Vector F64)) (m : R3.Vector F64) (hne : Vs ≠ []) : A.seed0 Vs m < Vs.length := by
  unfold Arith.seed0
  rcases fold_pick (fun (acc : Nat × Option F64) (pi : R3.Vector F64 × ℕ) =>
    let d := A.sqMid pi.1 m
    if ltInf d acc.2 then (pi.2, some d) else acc) (fun _ => True) (by
      intro acc x
      dsimp only
      split_ifs
      · exact Or.inr ⟨trivial, rfl⟩
      · exact Or.inl rfl) Vs.zipIdx with h | ⟨x, hx, _, h⟩
  · rw [h]; exact List.length_pos_iff.mpr hne
  · rw [h]
    rw [mem_zipIdx'] at hx
    exact (List.getElem?_eq_some_iff.mp hx).1

/-- triangulator.go:50-128 -/
theorem Faithful.seeds {Vs : List (R3.Vector F64)} (hg : Grid Vs) (hn : 2 ≤ Vs.length) :
    (Collinear (Vs.map exactV) ∧ A.seeds Vs = .ok none) ∨
    (¬ Collinear (Vs.map exactV) ∧ ∃ i0 i1 i2 p0 p1 p2, Vs[i0]? = some p0 ∧ Vs[i1]? = some p1 ∧ Vs[i2]? = some p2 ∧
      Seeds (Vs.map exactV) i0 i1 i2 (exactV p0) (exactV p1) (exactV p2) ∧ A.seeds Vs = .ok (some (i0, i1, i2, A.center p0 p1 p2))) := by
  obtain ⟨⟨x0, x1, y0, y1⟩, hb⟩ := bounds_okF hn
  have hne : Vs ≠ [] := by rintro rfl; simp at hn
  have mem : ∀ {i : ℕ} {v : R3.Vector F64}, Vs[i]? = some v → v ∈ Vs := fun h => List.mem_of_getElem? h
  have memQ : ∀ v ∈ Vs.map exactV, ∃ (i : ℕ) (w : R3.Vector F64), Vs[i]? = some w ∧ v = exactV w := by
    intro v hv
    obtain ⟨w, hw, rfl⟩ := List.mem_map.mp hv
    obtain ⟨i, hi, e⟩ := List.mem_iff_getElem.mp hw
    exact ⟨i, w, by rw [← e]; simp, rfl⟩
  have hget : ∀ {i : ℕ} {v : R3.Vector F64}, Vs[i]? = some v → (Vs.map exactV)[i]? = some (exactV v) := fun h => by rw [List.getElem?_map, h]; rfl
  set i0 := A.seed0 Vs ⟨(x0 + x1) / 2, (y0 + y1) / 2, 0⟩ with hi0
  have h0 : i0 < Vs.length := Arith.seed0_lt _ _ hne
  obtain ⟨p0, hp0⟩ : ∃ p0, Vs[i0]? = some p0 := ⟨Vs[i0], by simp⟩
  set i1 := A.seed1 Vs i0 p0 with hi1
  rcases HA.seed1 hg i0 (mem hp0) with ⟨e1, hall⟩ | ⟨p1, hp1, hne1, hpos1, hmin1⟩
  · left
    have hco : ∀ {i : ℕ} {v : R3.Vector F64}, Vs[i]? = some v → (exactV v).X = (exactV p0).X ∧ (exactV v).Y = (exactV p0).Y := by
      intro i v hiv
      by_cases c : i = i0
      · subst c; rw [hp0] at hiv; injection hiv with hiv; subst hiv; exact ⟨rfl, rfl⟩
      · have := hall i v hiv c
        rw [dist2_pos, not_not] at this
        exact this
    obtain ⟨p1, hp1⟩ : ∃ p1, Vs[i1]? = some p1 := by
      have : i1 < Vs.length := by rw [hi1, e1]; omega
      exact ⟨Vs[i1], by simp [this]⟩
    have h01 := hco hp1
    have hcr : ∀ v ∈ Vs, A.radius p0 p1 v = none := by
      intro v hv
      obtain ⟨a0, g0⟩ := hg _ (mem hp0)
      obtain ⟨a1, g1⟩ := hg _ (mem hp1)
      obtain ⟨a, ga⟩ := hg _ hv
      rw [g0.exact, g1.exact] at h01
      refine HA.radius0 g0 g1 ga ?_
      simp only [castQ] at h01
      have x1 : a1.X = a0.X := by exact_mod_cast h01.1
      have x2 : a1.Y = a0.Y := by exact_mod_cast h01.2
      unfold lZ; rw [x1, x2]; ring
    have e2 : A.seed2 Vs i0 i1 p0 p1 = (0, none) := by
      unfold Arith.seed2
      have : ∀ L : List (R3.Vector F64 × ℕ), (∀ x ∈ L, x.1 ∈ Vs) → L.foldl (fun (acc : ℕ × Option F64) pi =>
          if pi.2 = i0 ∨ pi.2 = i1 then acc
          else match A.radius p0 p1 pi.1 with
            | none => acc
            | some r => if ltInf r acc.2 then (pi.2, some r) else acc) (0, none) = (0, none) := by
        intro L
        induction L with
        | nil => intro _; rfl
        | cons x L ih =>
          intro h
          rw [List.foldl_cons]
          rw [hcr _ (h x (by simp))]
          simp only [ite_self]
          exact ih fun y hy => h y (by simp [hy])
      exact this _ fun x hx => mem (mem_zipIdx'.mp hx)
    refine ⟨?_, ?_⟩
    · intro a ha b hb c hc
      obtain ⟨i, u, hu, rfl⟩ := memQ a ha
      obtain ⟨j, v, hv, rfl⟩ := memQ b hb
      unfold area
      rw [(hco hu).1, (hco hu).2, (hco hv).1, (hco hv).2]; ring
    · unfold Arith.seeds
      rw [hb, Res.bind_ok]
      dsimp only
      rw [← hi0, goGet_eq rfl hp0, Res.bind_ok, ← hi1, goGet_eq rfl hp1, Res.bind_ok, e2]
      rfl
  · rw [← hi1] at hp1 hne1
    rcases HA.seed2 hg i0 i1 (mem hp0) (mem hp1) hpos1 with ⟨e2, hall⟩ | ⟨i2, p2, r, e2, hp2, hne20, hne21, hd2, hmin2⟩
    · left
      have hd : ∀ {i : ℕ} {v : R3.Vector F64}, Vs[i]? = some v → dOf (exactV p0) (exactV p1) (exactV v) = 0 := by
        intro i v hiv
        by_cases c0 : i = i0
        · subst c0; rw [hp0] at hiv; injection hiv with hiv; subst hiv; unfold dOf; ring
        by_cases c1 : i = i1
        · subst c1; rw [hp1] at hiv; injection hiv with hiv; subst hiv; unfold dOf; ring
        exact hall i v hiv c0 c1
      refine ⟨?_, ?_⟩
      · intro a ha b hb c hc
        obtain ⟨i, u, hu, rfl⟩ := memQ a ha
        obtain ⟨j, v, hv, rfl⟩ := memQ b hb
        obtain ⟨k, w, hw, rfl⟩ := memQ c hc
        exact area_aux hpos1.ne' (hd hu) (hd hv) (hd hw)
      · unfold Arith.seeds
        rw [hb, Res.bind_ok]
        dsimp only
        rw [← hi0, goGet_eq rfl hp0, Res.bind_ok, ← hi1, goGet_eq rfl hp1, Res.bind_ok, e2]
        rfl
    · right
      have hm1 : ∀ v ∈ Vs.map exactV, 0 < dist2 v (exactV p0) → dist2 (exactV p1) (exactV p0) ≤ dist2 v (exactV p0) := by
        intro v hv hl
        obtain ⟨i, w, hw, rfl⟩ := memQ v hv
        by_cases c : i = i0
        · subst c; rw [hp0] at hw; injection hw with hw; subst hw
          simp [dist2] at hl
        · exact hmin1 i w hw c hl
      have hm2 : ∀ v ∈ Vs.map exactV, dOf (exactV p0) (exactV p1) v ≠ 0 → (fOf (exactV p0) (exactV p1) (exactV p2) / dOf (exactV p0) (exactV p1) (exactV p2)) ^ 2 ≤
          (fOf (exactV p0) (exactV p1) v / dOf (exactV p0) (exactV p1) v) ^ 2 := by
        intro v hv hl
        obtain ⟨i, w, hw, rfl⟩ := memQ v hv
        by_cases c0 : i = i0
        · subst c0; rw [hp0] at hw; injection hw with hw; subst hw
          exact absurd (by unfold dOf; ring) hl
        by_cases c1 : i = i1
        · subst c1; rw [hp1] at hw; injection hw with hw; subst hw
          exact absurd (by unfold dOf; ring) hl
        exact hmin2 i w hw c0 c1 hl
      obtain ⟨hc, s1, s2⟩ := seeds_of (hget hp0) (hget hp1) (hget hp2) hne1 hne20 hne21 hpos1 hd2 hm1 hm2
      refine ⟨hc, ?_⟩
      have harea : A.areaSwap p0 p1 p2 < 0 ↔ area (exactV p0) (exactV p1) (exactV p2) < 0 := by
        obtain ⟨a0, g0⟩ := hg _ (mem hp0)
        obtain ⟨a1, g1⟩ := hg _ (mem hp1)
        obtain ⟨a2, g2⟩ := hg _ (mem hp2)
        have := HA.areaSwap g0 g1 g2
        rw [lt_fin this.fin Ex.zero.fin, this.val, Ex.zero.val, g0.exact, g1.exact, g2.exact, castQ_area]; simp
      have key : ∃ i1' i2' p1' p2', Vs[i1']? = some p1' ∧ Vs[i2']? = some p2' ∧ Seeds (Vs.map exactV) i0 i1' i2' (exactV p0) (exactV p1') (exactV p2') ∧
          A.seeds Vs = .ok (some (i0, i1', i2', A.center p0 p1' p2')) := by
        by_cases ha : A.areaSwap p0 p1 p2 < 0
        · refine ⟨i2, i1, p2, p1, hp2, hp1, s1 (harea.mp ha), ?_⟩
          unfold Arith.seeds
          rw [hb, Res.bind_ok]
          dsimp only
          rw [← hi0, goGet_eq rfl hp0, Res.bind_ok, ← hi1, goGet_eq rfl hp1, Res.bind_ok, e2]
          dsimp only
          rw [goGet_eq rfl hp2, Res.bind_ok, if_pos ha]
          dsimp only
          rw [goGet_eq rfl hp2, Res.bind_ok, goGet_eq rfl hp1, Res.bind_ok]
          rfl
        · refine ⟨i1, i2, p1, p2, hp1, hp2, s2 (fun h => ha (harea.mpr h)), ?_⟩
          unfold Arith.seeds
          rw [hb, Res.bind_ok]
          dsimp only
          rw [← hi0, goGet_eq rfl hp0, Res.bind_ok, ← hi1, goGet_eq rfl hp1, Res.bind_ok, e2]
          dsimp only
          rw [goGet_eq rfl hp2, Res.bind_ok, if_neg ha]
          dsimp only
          rw [goGet_eq rfl hp1, Res.bind_ok, goGet_eq rfl hp2, Res.bind_ok]
          rfl
      obtain ⟨j1, j2, q1, q2, hq1, hq2, S, hs⟩ := key
      exact ⟨i0, j1, j2, p0, q1, q2, hp0, hq1, hq2, S, hs⟩

theorem Faithful.agree {Vs : List (R3.Vector F64)} (hg : Grid Vs) (m : ℕ) (o : R3.Vector F64) :
    Agree Vs id exactV (A.geo m o) (gridGeo m o) := by
  have h0 : (0 : F64).toQ = 0 := by rw [Ex.zero.val]; simp
  constructor
  · intro a ha b hb c hc
    obtain ⟨_, ga⟩ := hg a ha
    obtain ⟨_, gb⟩ := hg b hb
    obtain ⟨_, gc⟩ := hg c hc
    have h := HA.areaGe ga gb gc
    simp only [Arith.geo, gridGeo, id]
    rw [decide_eq_decide, le_fin Ex.zero.fin h.fin, h.val, h0, ga.exact, gb.exact, gc.exact, castQ_area]
  · intro a ha b hb c hc
    obtain ⟨_, ga⟩ := hg a ha
    obtain ⟨_, gb⟩ := hg b hb
    obtain ⟨_, gc⟩ := hg c hc
    have h := HA.areaLt ga gb gc
    simp only [Arith.geo, gridGeo, id]
    rw [decide_eq_decide, lt_fin h.fin Ex.zero.fin, h.val, h0, ga.exact, gb.exact, gc.exact, castQ_area]
  · intro a ha b hb c hc d hd
    obtain ⟨_, ga⟩ := hg a ha
    obtain ⟨_, gb⟩ := hg b hb
    obtain ⟨_, gc⟩ := hg c hc
    obtain ⟨_, gd⟩ := hg d hd
    have h := HA.inDet ga gb gc gd
    simp only [Arith.geo, gridGeo, id, inCircle]
    rw [decide_eq_decide, lt_fin h.fin Ex.zero.fin, h.val, h0, ga.exact, gb.exact, gc.exact, gd.exact, castQ_det]
  · intro a ha b hb
    obtain ⟨_, ga⟩ := hg a ha
    obtain ⟨_, gb⟩ := hg b hb
    have h := HA.sqPrev ga gb
    simp only [Arith.geo, gridGeo, id]
    rw [decide_eq_decide, lt_fin h.fin eps_float.1, h.val, eps_float.2, ga.exact, gb.exact, castQ_sq]
    simp [eps]
  · intro a ha
    obtain ⟨_, ga⟩ := hg a ha
    exact hashKey_eqZ _ _ (ofQ_eqZ ga.x.fin) (ofQ_eqZ ga.y.fin)

omit HA in
/-- `srt` sorts the ids correctly by the distances computed in the call -/
def _root_.Verif.Tri2.Arith.Sorts (A : Arith) (srt : R3.Vector F64 → List ℤ → List ℤ) (Vs : List (R3.Vector F64)) : Prop :=
  ∀ i0 i1 i2 c, A.seeds Vs = .ok (some (i0, i1, i2, c)) →
    (srt c (fids Vs.length)).Perm (fids Vs.length) ∧ (srt c (fids Vs.length)).Pairwise fun a b => A.idLess c (fpt Vs b) (fpt Vs a) = false

/-- the order asked for by `Less` -/
theorem Faithful.order {a b c e f : R3.Vector ℤ} {p q o : R3.Vector F64} (C : Ctr a b c o) (hp : GPt p e) (hq : GPt q f) (h : A.idLess o q p = false) :
    dist2 (castQ e) (circumcenter (castQ a) (castQ b) (castQ c)) ≤ dist2 (castQ f) (circumcenter (castQ a) (castQ b) (castQ c)) := by
  obtain ⟨_, _, m3⟩ := Mz_bounds C.d0 C.db
  obtain ⟨fp, ep⟩ := HA.dist C hp
  obtain ⟨fq, eq⟩ := HA.dist C hq
  have hle : (A.sqCenter p o).toQ ≤ (A.sqCenter q o).toQ := by
    by_contra hlt
    rw [not_le] at hlt
    unfold Arith.idLess at h
    have h1 : (A.sqCenter q o != A.sqCenter p o) = true := by
      rw [bne, Bool.not_eq_true', ← Bool.not_eq_true, beq_fin fq fp]; exact hlt.ne
    simp only [h1, if_true, decide_eq_false_iff_not] at h
    exact h ((lt_fin fq fp).mpr hlt)
  by_contra hlt
  rw [not_le] at hlt
  have hg := dist_gap C.d0 hlt
  have h1 := (abs_le.mp ep).1
  have h2 := (abs_le.mp eq).2
  linarith

/-- `Triangulate` for small integer coordinates -/
theorem Faithful.run (srt : R3.Vector F64 → List ℤ → List ℤ) (hsrt : ∀ c l, (srt c l).Perm l) (hashSize : ℕ → ℕ)
    {fuel : ℕ} {Vs : List (R3.Vector F64)} (hg : Grid Vs) (hn : 2 ≤ Vs.length) (hash : 0 < hashSize Vs.length) (hash' : hashSize Vs.length < 2 ^ 53)
    (hf : 6 * Vs.length < fuel) :
    (Collinear (Vs.map exactV) ∧ TriangulateA A srt hashSize fuel Vs = .ok .noTriangulation) ∨
    (¬ Collinear (Vs.map exactV) ∧ ∃ hull ts hs, TriangulateA A srt hashSize fuel Vs = .ok (.triangulation hull ts hs) ∧
      Consistent (Vs.map exactV) (hull.map exactV) ts hs ∧
      Final (Vs.map exactV) (hull.map exactV) ts hs (A.Sorts srt Vs) (fun a b => R3.SquaredDistance a b < (1 / 2^52 : ℚ))) := by
  have h0 : Vs.length ≠ 0 := by omega
  rcases HA.seeds hg hn with ⟨h, e⟩ | ⟨hc, i0, i1, i2, p0, p1, p2, g0, g1, g2, S, hseeds⟩
  · refine Or.inl ⟨h, ?_⟩
    unfold TriangulateA
    dsimp only
    rw [if_neg h0, e]
    rfl
  · right
    refine ⟨hc, ?_⟩
    have mem : ∀ {i : ℕ} {v : R3.Vector F64}, Vs[i]? = some v → v ∈ Vs := fun h => List.mem_of_getElem? h
    obtain ⟨a0, q0⟩ := hg _ (mem g0)
    obtain ⟨a1, q1⟩ := hg _ (mem g1)
    obtain ⟨a2, q2⟩ := hg _ (mem g2)
    have hpos : 0 < area (castQ a0) (castQ a1) (castQ a2) := by have := S.pos; rwa [q0.exact, q1.exact, q2.exact] at this
    have hd : dZ a0 a1 a2 ≠ 0 := by
      intro h0
      rw [area_dOf, dOf_castQ, h0] at hpos
      simp at hpos
    have C := HA.center q0 q1 q2 hd
    set o := A.center p0 p1 p2 with ho
    set m := hashSize Vs.length with hm
    set ids := srt o (fids Vs.length) with hids
    have hperm : ids.Perm ((List.range (Vs.map exactV).length).map Int.ofNat) := by
      rw [List.length_map]; exact hsrt o _
    have hf' : 6 * (Vs.map exactV).length < fuel := by rw [List.length_map]; exact hf
    obtain ⟨_, m2, _⟩ := Mz_bounds C.d0 C.db
    have small : ∀ {x y : ℚ}, |x - y| ≤ 3 * uro * Mz (dZ a0 a1 a2) → |y| + 64 ≤ Mz (dZ a0 a1 a2) → |x| ≤ 2 ^ 1022 := by
      intro x y h1 h2
      have h3 : 3 * uro * Mz (dZ a0 a1 a2) ≤ 1 := by
        calc 3 * uro * Mz (dZ a0 a1 a2) ≤ 3 * uro * 2 ^ 23 := mul_le_mul_of_nonneg_left m2 (by unfold uro; norm_num)
          _ ≤ 1 := by unfold uro; norm_num
      have h4 := abs_add_le (x - y) y
      rw [sub_add_cancel] at h4
      have h5 : |x| ≤ 2 ^ 23 := by linarith
      exact h5.trans (pow_le_pow_right₀ (by norm_num) (by norm_num))
    have hkey : ∀ v ∈ Vs.map exactV, 0 ≤ (gridGeo m o).key v ∧ (gridGeo m o).key v < m := by
      intro v hv
      have hin := S.empty v hv
      obtain ⟨w, hw, rfl⟩ := List.mem_map.mp hv
      obtain ⟨b, gb⟩ := hg w hw
      have hk : (gridGeo m o).key (exactV w) = hashKey m o w := ((HA.agree hg m o).key w hw).symm
      rw [q0.exact, q1.exact, q2.exact, gb.exact] at hin
      rw [hk]
      have hb : ∀ n : ℤ, |n| ≤ (64 : ℕ) → |(n:ℚ)| ≤ 2 ^ 1022 := by
        intro n h
        have : |(n:ℚ)| ≤ 2 ^ 53 := by
          have : |(n:ℚ)| ≤ 64 := by exact_mod_cast h
          exact this.trans (by norm_num)
        exact this.trans (pow_le_pow_right₀ (by norm_num) (by norm_num))
      exact C14_hashKey_float o w m hash hash' ⟨C.fx, C.fy⟩ ⟨gb.x.fin, gb.y.fin⟩ ⟨small C.ex C.bx, small C.ey C.bY⟩
        ⟨by rw [gb.x.val]; exact hb _ gb.x.le, by rw [gb.y.val]; exact hb _ gb.y.le⟩ (centre_ne C gb hpos hin)
    obtain ⟨s, hullQ, e1, e2, hcons⟩ := geo_run (gridGeo_tells m o _) hkey hperm hf' S (safeSeed_of rfl S)
    obtain ⟨s', hullQ', e1', e2', hfin⟩ := geo_final (gridGeo_tells m o _) hkey hperm hf' S (safeSeed_of rfl S)
    rw [e1] at e1'; injection e1' with e1'; subst e1'
    rw [e2] at e2'; injection e2' with e2'; subst e2'
    have ec := core_map (HA.agree hg m o) fuel m i0 i1 i2 ids
    rw [List.map_id, e1] at ec
    have eh := hullWalk_map (L := Vs) (e := exactV) s fuel s.hull []
    rw [List.map_nil, e2] at eh
    obtain ⟨hull, eh1, eh2⟩ := map'_eq_ok eh.symm
    refine ⟨hull, s.triangles, s.halfedges, ?_, ?_, ?_⟩
    · unfold TriangulateA
      dsimp only
      rw [if_neg h0, hseeds, Res.bind_ok]
      dsimp only
      show (triangulateCore (A.geo m o) Vs fuel m i0 i1 i2 ids >>= _) = _
      rw [ec, Res.bind_ok, eh1, Res.bind_ok]; rfl
    · rw [eh2]; exact hcons
    · rw [eh2]
      obtain ⟨s', T, V, R, x, l, c, j0, j1, j2, F, hR, hpa, h2, h3, h4, hq⟩ := hfin
      refine ⟨s', T, V, R, x, l, c, j0, j1, j2, F, hR, hpa, h2, h3, h4, fun hs j hj => ?_⟩
      obtain ⟨hperm', hsorted⟩ := hs i0 i1 i2 o hseeds
      have hord : ids.Pairwise fun i j => dist2 (pz (Vs.map exactV) i) (circumcenter (exactV p0) (exactV p1) (exactV p2)) ≤ dist2 (pz (Vs.map exactV) j) (circumcenter (exactV p0) (exactV p1) (exactV p2)) := by
        refine List.Pairwise.imp_of_mem ?_ hsorted
        intro i k hi hk hik
        have getQ : ∀ w ∈ ids, ∃ b, GPt (fpt Vs w) b ∧ pz (Vs.map exactV) w = castQ b := by
          intro w hw
          have := hperm'.mem_iff.mp hw
          obtain ⟨n, hn, rfl⟩ := List.mem_map.mp this
          have hn' := List.mem_range.mp hn
          have hv : fpt Vs (Int.ofNat n) = Vs[n] := by
            unfold fpt; simp [hn']
          obtain ⟨b, gb⟩ := hg Vs[n] (List.getElem_mem hn')
          refine ⟨b, by rw [hv]; exact gb, ?_⟩
          rw [← gb.exact]
          show ptOf (Vs.map exactV) n = _
          exact ptOf_eq (by simp [hn'])
        obtain ⟨bi, gi, ei⟩ := getQ i hi
        obtain ⟨bk, gk, ek⟩ := getQ k hk
        rw [ei, ek, q0.exact, q1.exact, q2.exact]
        exact HA.order C gi gk hik
      obtain ⟨u, hu, hd⟩ := hq ⟨hg.planar, hord⟩ j hj
      refine ⟨u, hu, hd.imp id fun hd => ?_⟩
      simpa [gridGeo, eps] using hd

end

end Verif.Proofs
