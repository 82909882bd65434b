import Verif.Proofs.GridSort
import Verif.Proofs.CoreMap
import Verif.Props.HullAgree
/-!
# Runs of the triangulator at binary64 for small integer coordinates
-/
namespace Verif.Proofs
open Verif Verif.F64 Verif.Tri2 Verif.Props Verif.Spec

/-! ## The sign of zero does not matter for the hash keys -/

theorem EqZ.refl (x : F64) : EqZ x x := Or.inl rfl

theorem sub_eqZ {x y : F64} (h : EqZ x y) (c : F64) : EqZ (x - c) (y - c) := by
  rcases h with rfl | ⟨s, t, rfl, rfl⟩
  · exact EqZ.refl _
  · show EqZ (F64.add (zero s) (F64.neg c)) (F64.add (zero t) (F64.neg c))
    cases c with
    | nan => exact Or.inl rfl
    | inf => exact Or.inl rfl
    | zero r => exact Or.inr ⟨_, _, rfl, rfl⟩
    | fin q h => exact Or.inl rfl

theorem abs_eqZ {x y : F64} (h : EqZ x y) : GoAbs.abs x = GoAbs.abs y := by
  rcases h with rfl | ⟨s, t, rfl, rfl⟩
  · rfl
  · rfl

attribute [local irreducible] rnd F64.round

theorem div_eqZ {x y : F64} (h : EqZ x y) (c : F64) : EqZ (x / c) (y / c) := by
  rcases h with rfl | ⟨s, t, rfl, rfl⟩
  · exact EqZ.refl _
  · show EqZ (F64.div (zero s) c) (F64.div (zero t) c)
    cases c with
    | nan => exact Or.inl rfl
    | inf => exact Or.inr ⟨_, _, rfl, rfl⟩
    | zero r => exact Or.inl rfl
    | fin q h => exact round_eqZ _ _ _

theorem lt_eqZ {x y : F64} (h : EqZ x y) : (0 : F64) < x ↔ (0 : F64) < y := by
  rcases h with rfl | ⟨s, t, rfl, rfl⟩
  · rfl
  · exact Iff.rfl

theorem angle_eqZ {x y x' y' : F64} (hx : EqZ x x') (hy : EqZ y y') : pseudoAngle x y = pseudoAngle x' y' := by
  unfold pseudoAngle
  rw [abs_eqZ hx, abs_eqZ hy]
  have hp := div_eqZ hx (GoAbs.abs x' + GoAbs.abs y')
  generalize x / (GoAbs.abs x' + GoAbs.abs y') = p at hp ⊢
  generalize x' / (GoAbs.abs x' + GoAbs.abs y') = p' at hp ⊢
  have h3 : (3 : F64) - p = 3 - p' := by
    rcases hp with rfl | ⟨s, t, rfl, rfl⟩ <;> rfl
  have h1 : (1 : F64) + p = 1 + p' := by
    rcases hp with rfl | ⟨s, t, rfl, rfl⟩ <;> rfl
  simp only [h3, h1, lt_eqZ hy]

theorem hashKey_eqZ (m : ℕ) (o : R3.Vector F64) {v w : R3.Vector F64} (hx : EqZ v.X w.X) (hy : EqZ v.Y w.Y) : hashKey m o v = hashKey m o w := by
  unfold hashKey
  simp only [R3.Sub]
  rw [angle_eqZ (sub_eqZ hx _) (sub_eqZ hy _)]

/-- the float with a given value, with the positive zero -/
def ofQ (q : ℚ) : F64 := F64.round false q

theorem ofQ_eqZ {x : F64} (h : x.Finite) : EqZ x (ofQ x.toQ) := by
  unfold ofQ
  have hr : rnd x.toQ = x.toQ := by
    obtain ⟨m, e, h1, h2, _, h4⟩ := toQ_bin x
    have := rnd_id (K := ℚ) (q := x.toQ) ⟨m, e, h1, h2, h4⟩
    simpa using this
  obtain ⟨f, v⟩ := round_fin (s := false) (x := x.toQ) (by rw [hr]; exact abs_lt.mpr (toQ_lt x))
  rw [hr] at v
  by_cases h0 : x.toQ = 0
  · right
    have z : ∀ y : F64, y.Finite → y.toQ = 0 → ∃ s, y = zero s := by
      intro y hy h
      cases y with
      | nan => exact hy.elim
      | inf => exact hy.elim
      | zero s => exact ⟨s, rfl⟩
      | fin q hq => exact absurd h hq.1
    obtain ⟨s, hs⟩ := z x h h0
    obtain ⟨t, ht⟩ := z _ f (v.trans h0)
    exact ⟨s, t, hs, ht⟩
  · exact Or.inl (toQ_inj h f v.symm h0)

/-! ## The exact predicates with the hash keys of the program -/

/-- exact areas and in-circle tests; the hash keys are those the program computes around `o` -/
def gridGeo (m : ℕ) (o : R3.Vector F64) : Geo (R3.Vector ℚ) where
  areaGe a b c := decide (0 ≤ area a b c)
  areaLt a b c := decide (area a b c < 0)
  inC := inCircle
  near p q := decide (R3.SquaredDistance p q < eps)
  key q := hashKey m o ⟨ofQ q.X, ofQ q.Y, 0⟩

theorem gridGeo_tells (m : ℕ) (o : R3.Vector F64) (Vs : List (R3.Vector ℚ)) : Tells (gridGeo m o) Vs :=
  tells_of rfl rfl rfl Vs

theorem grid_agree {Vs : List (R3.Vector F64)} (hg : Grid Vs) (m : ℕ) (o : R3.Vector F64) :
    Agree Vs id exactV (Geo.ofScalar m o) (gridGeo m o) := by
  have h0 : (0 : F64).toQ = 0 := by rw [Ex.zero.val]; simp
  constructor
  · intro a ha b hb c hc
    obtain ⟨_, ga⟩ := hg a ha
    obtain ⟨_, gb⟩ := hg b hb
    obtain ⟨_, gc⟩ := hg c hc
    have h := ga.area gb gc
    simp only [Geo.ofScalar, gridGeo, id]
    rw [decide_eq_decide, le_fin Ex.zero.fin h.fin, h.val, h0, ga.exact, gb.exact, gc.exact, castQ_area]
  · intro a ha b hb c hc
    obtain ⟨_, ga⟩ := hg a ha
    obtain ⟨_, gb⟩ := hg b hb
    obtain ⟨_, gc⟩ := hg c hc
    have h := ga.area gb gc
    simp only [Geo.ofScalar, gridGeo, id]
    rw [decide_eq_decide, lt_fin h.fin Ex.zero.fin, h.val, h0, ga.exact, gb.exact, gc.exact, castQ_area]
  · intro a ha b hb c hc d hd
    obtain ⟨_, ga⟩ := hg a ha
    obtain ⟨_, gb⟩ := hg b hb
    obtain ⟨_, gc⟩ := hg c hc
    obtain ⟨_, gd⟩ := hg d hd
    have h := ga.det gb gc gd
    simp only [Geo.ofScalar, gridGeo, id, inCircle]
    rw [decide_eq_decide, lt_fin h.fin Ex.zero.fin, h.val, h0, ga.exact, gb.exact, gc.exact, gd.exact, castQ_det]
  · intro a ha b hb
    obtain ⟨_, ga⟩ := hg a ha
    obtain ⟨_, gb⟩ := hg b hb
    have h := ga.sq gb
    simp only [Geo.ofScalar, gridGeo, id]
    rw [decide_eq_decide, lt_fin h.fin eps_float.1, h.val, eps_float.2, ga.exact, gb.exact, castQ_sq]
    simp [eps]
  · intro a ha
    obtain ⟨_, ga⟩ := hg a ha
    exact hashKey_eqZ _ _ (ofQ_eqZ ga.x.fin) (ofQ_eqZ ga.y.fin)

theorem Grid.planar {Vs : List (R3.Vector F64)} (hg : Grid Vs) : Planar (Vs.map exactV) := by
  refine ⟨0, fun v hv => ?_⟩
  obtain ⟨w, hw, rfl⟩ := List.mem_map.mp hv
  obtain ⟨a, ga⟩ := hg w hw
  rw [ga.exact]; simp [castQ, ga.z0]

/-- different positions are farther apart than `eps` -/
theorem Grid.near {Vs : List (R3.Vector F64)} (hg : Grid Vs) : ∀ p ∈ Vs.map exactV, ∀ q ∈ Vs.map exactV, R3.SquaredDistance p q < (1 / 2^52 : ℚ) → p = q := by
  intro p hp q hq h
  obtain ⟨p, hp', rfl⟩ := List.mem_map.mp hp
  obtain ⟨q, hq', rfl⟩ := List.mem_map.mp hq
  obtain ⟨a, ga⟩ := hg p hp'
  obtain ⟨b, gb⟩ := hg q hq'
  rw [ga.exact, gb.exact] at h ⊢
  rw [castQ_sq] at h
  have h1 : R3.SquaredDistance a b < 1 := by
    have : ((R3.SquaredDistance a b : ℤ) : ℚ) < 1 := h.trans (by norm_num)
    exact_mod_cast this
  simp only [R3.SquaredDistance, R3.Vector.Norm2, R3.Dot, R3.Sub] at h1
  have e1 : a.X - b.X = 0 := by nlinarith [mul_self_nonneg (a.X - b.X), mul_self_nonneg (a.Y - b.Y), mul_self_nonneg (a.Z - b.Z)]
  have e2 : a.Y - b.Y = 0 := by nlinarith [mul_self_nonneg (a.X - b.X), mul_self_nonneg (a.Y - b.Y), mul_self_nonneg (a.Z - b.Z)]
  have e3 : a.Z = b.Z := by rw [ga.z0, gb.z0]
  simp only [castQ, e3, show a.X = b.X by omega, show a.Y = b.Y by omega]

/-- the computed centre is not one of the points -/
theorem centre_ne {p : R3.Vector F64} {a b c e : R3.Vector ℤ} {o : R3.Vector F64} (C : Ctr a b c o) (hp : GPt p e)
    (hpos : 0 < area (castQ a) (castQ b) (castQ c)) (hin : 0 ≤ inCircleDet (castQ a) (castQ b) (castQ c) (castQ e)) :
    p.X.toQ ≠ o.X.toQ ∨ p.Y.toQ ≠ o.Y.toQ := by
  by_contra hc
  push Not at hc
  obtain ⟨hx, hy⟩ := hc
  obtain ⟨m1, m2, _⟩ := Mz_bounds C.d0 C.db
  obtain ⟨k1, k2, k3⟩ := center_spec hpos.ne'
  have h1 := k3 (castQ e)
  rw [h1] at hin
  have h2 := nonneg_of_mul_nonneg_right hin hpos
  have eX := C.ex
  have eY := C.ey
  rw [← hx, hp.x.val] at eX
  rw [← hy, hp.y.val] at eY
  rw [← circumcenter_castQ.1] at eX
  rw [← circumcenter_castQ.2] at eY
  set O := circumcenter (castQ a) (castQ b) (castQ c) with hO
  have hu : 3 * uro * Mz (dZ a b c) ≤ 1 / 10 := by
    calc 3 * uro * Mz (dZ a b c) ≤ 3 * uro * 2 ^ 23 := mul_le_mul_of_nonneg_left m2 (by unfold uro; norm_num)
      _ ≤ 1 / 10 := by unfold uro; norm_num
  have hd : sqd O (castQ e) ≤ 1 / 50 := by
    have q1 : (O.X - e.X) ^ 2 ≤ (1 / 10) ^ 2 := by
      rw [← sq_abs, abs_sub_comm]; exact pow_le_pow_left₀ (abs_nonneg _) (eX.trans hu) 2
    have q2 : (O.Y - e.Y) ^ 2 ≤ (1 / 10) ^ 2 := by
      rw [← sq_abs, abs_sub_comm]; exact pow_le_pow_left₀ (abs_nonneg _) (eY.trans hu) 2
    unfold sqd castQ
    norm_num at q1 q2 ⊢
    linarith
  have hR : sqd O (castQ a) ≤ 1 / 50 := by linarith
  have hR2 : sqd O (castQ b) ≤ 1 / 50 := by linarith
  -- two different integer points at distance less than one
  have hl : ((lZ a b : ℤ) : ℚ) ≤ 2 * (sqd O (castQ a) + sqd O (castQ b)) := by
    simp only [lZ, sqd, castQ]
    push_cast
    nlinarith [sq_nonneg ((O.X - a.X) + (O.X - b.X)), sq_nonneg ((O.Y - a.Y) + (O.Y - b.Y))]
  have hl1 : lZ a b < 1 := by
    have : ((lZ a b : ℤ) : ℚ) < 1 := by linarith
    exact_mod_cast this
  have e1 : b.X - a.X = 0 := by unfold lZ at hl1; nlinarith [mul_self_nonneg (b.X - a.X), mul_self_nonneg (b.Y - a.Y)]
  have e2 : b.Y - a.Y = 0 := by unfold lZ at hl1; nlinarith [mul_self_nonneg (b.X - a.X), mul_self_nonneg (b.Y - a.Y)]
  apply C.d0
  unfold dZ; rw [e1, e2]; ring

theorem map'_eq_ok {α β : Type} {f : α → β} {r : Res α} {y : β} (h : Res.map' f r = .ok y) : ∃ x, r = .ok x ∧ f x = y := by
  cases r with
  | ok x => exact ⟨x, rfl, by injection h⟩
  | panic => cases h
  | fuel => cases h

/-- `Triangulate` at binary64 for small integer coordinates -/
theorem grid_run (srt : R3.Vector F64 → List ℤ → List ℤ) (hsrt : ∀ c l, (srt c l).Perm l) (hashSize : ℕ → ℕ)
    {fuel : ℕ} {Vs : List (R3.Vector F64)} (hg : Grid Vs) (hn : 2 ≤ Vs.length) (hash : 0 < hashSize Vs.length) (hash' : hashSize Vs.length < 2 ^ 53)
    (hf : 6 * Vs.length < fuel) :
    (Collinear (Vs.map exactV) ∧ Triangulate srt hashSize fuel Vs = .ok .noTriangulation) ∨
    (¬ Collinear (Vs.map exactV) ∧ ∃ hull ts hs, Triangulate srt hashSize fuel Vs = .ok (.triangulation hull ts hs) ∧
      Consistent (Vs.map exactV) (hull.map exactV) ts hs ∧
      Final (Vs.map exactV) (hull.map exactV) ts hs (SortsCall srt Vs) (fun a b => R3.SquaredDistance a b < (1 / 2^52 : ℚ))) := by
  rcases grid_seeds srt hashSize fuel hg hn with h | ⟨hc, i0, i1, i2, p0, p1, p2, g0, g1, g2, S, hseeds, e⟩
  · exact Or.inl h
  · right
    refine ⟨hc, ?_⟩
    have mem : ∀ {i : ℕ} {v : R3.Vector F64}, Vs[i]? = some v → v ∈ Vs := fun h => List.mem_of_getElem? h
    obtain ⟨a0, q0⟩ := hg _ (mem g0)
    obtain ⟨a1, q1⟩ := hg _ (mem g1)
    obtain ⟨a2, q2⟩ := hg _ (mem g2)
    have hpos : 0 < area (castQ a0) (castQ a1) (castQ a2) := by have := S.pos; rwa [q0.exact, q1.exact, q2.exact] at this
    have hd : dZ a0 a1 a2 ≠ 0 := by
      intro h0
      rw [area_dOf, dOf_castQ, h0] at hpos
      simp at hpos
    have C := q0.ctr q1 q2 hd
    set o := circumcenter p0 p1 p2 with ho
    set m := hashSize Vs.length with hm
    set ids := srt o (fids Vs.length) with hids
    have hperm : ids.Perm ((List.range (Vs.map exactV).length).map Int.ofNat) := by
      rw [List.length_map]; exact hsrt o _
    have hf' : 6 * (Vs.map exactV).length < fuel := by rw [List.length_map]; exact hf
    obtain ⟨_, m2, _⟩ := Mz_bounds C.d0 C.db
    have small : ∀ {x y : ℚ}, |x - y| ≤ 3 * uro * Mz (dZ a0 a1 a2) → |y| + 64 ≤ Mz (dZ a0 a1 a2) → |x| ≤ 2 ^ 1022 := by
      intro x y h1 h2
      have h3 : 3 * uro * Mz (dZ a0 a1 a2) ≤ 1 := by
        calc 3 * uro * Mz (dZ a0 a1 a2) ≤ 3 * uro * 2 ^ 23 := mul_le_mul_of_nonneg_left m2 (by unfold uro; norm_num)
          _ ≤ 1 := by unfold uro; norm_num
      have h4 := abs_add_le (x - y) y
      rw [sub_add_cancel] at h4
      have h5 : |x| ≤ 2 ^ 23 := by linarith
      exact h5.trans (pow_le_pow_right₀ (by norm_num) (by norm_num))
    have hkey : ∀ v ∈ Vs.map exactV, 0 ≤ (gridGeo m o).key v ∧ (gridGeo m o).key v < m := by
      intro v hv
      have hin := S.empty v hv
      obtain ⟨w, hw, rfl⟩ := List.mem_map.mp hv
      obtain ⟨b, gb⟩ := hg w hw
      have hk : (gridGeo m o).key (exactV w) = hashKey m o w := ((grid_agree hg m o).key w hw).symm
      rw [q0.exact, q1.exact, q2.exact, gb.exact] at hin
      rw [hk]
      have hb : ∀ n : ℤ, |n| ≤ (64 : ℕ) → |(n:ℚ)| ≤ 2 ^ 1022 := by
        intro n h
        have : |(n:ℚ)| ≤ 2 ^ 53 := by
          have : |(n:ℚ)| ≤ 64 := by exact_mod_cast h
          exact this.trans (by norm_num)
        exact this.trans (pow_le_pow_right₀ (by norm_num) (by norm_num))
      exact C14_hashKey_float o w m hash hash' ⟨C.fx, C.fy⟩ ⟨gb.x.fin, gb.y.fin⟩ ⟨small C.ex C.bx, small C.ey C.bY⟩
        ⟨by rw [gb.x.val]; exact hb _ gb.x.le, by rw [gb.y.val]; exact hb _ gb.y.le⟩ (centre_ne C gb hpos hin)
    obtain ⟨s, hullQ, e1, e2, hcons⟩ := geo_run (gridGeo_tells m o _) hkey hperm hf' S (safeSeed_of rfl S)
    obtain ⟨s', hullQ', e1', e2', hfin⟩ := geo_final (gridGeo_tells m o _) hkey hperm hf' S (safeSeed_of rfl S)
    rw [e1] at e1'; injection e1' with e1'; subst e1'
    rw [e2] at e2'; injection e2' with e2'; subst e2'
    have ec := core_map (grid_agree hg m o) fuel m i0 i1 i2 ids
    rw [List.map_id, e1] at ec
    have eh := hullWalk_map (L := Vs) (e := exactV) s fuel s.hull []
    rw [List.map_nil, e2] at eh
    obtain ⟨hull, eh1, eh2⟩ := map'_eq_ok eh.symm
    refine ⟨hull, s.triangles, s.halfedges, ?_, ?_, ?_⟩
    · rw [e]
      unfold restOf
      rw [ec, Res.bind_ok, eh1, Res.bind_ok]; rfl
    · rw [eh2]; exact hcons
    · rw [eh2]
      obtain ⟨s', T, V, R, x, l, c, j0, j1, j2, F, hR, hpa, h2, h3, h4, hq⟩ := hfin
      refine ⟨s', T, V, R, x, l, c, j0, j1, j2, F, hR, hpa, h2, h3, h4, fun hs j hj => ?_⟩
      obtain ⟨hperm', hsorted⟩ := hs i0 i1 i2 o hseeds
      have hord : ids.Pairwise fun i j => dist2 (pz (Vs.map exactV) i) (circumcenter (exactV p0) (exactV p1) (exactV p2)) ≤ dist2 (pz (Vs.map exactV) j) (circumcenter (exactV p0) (exactV p1) (exactV p2)) := by
        refine List.Pairwise.imp_of_mem ?_ hsorted
        intro i k hi hk hik
        have getQ : ∀ w ∈ ids, ∃ b, GPt (fpt Vs w) b ∧ pz (Vs.map exactV) w = castQ b := by
          intro w hw
          have := hperm'.mem_iff.mp hw
          obtain ⟨n, hn, rfl⟩ := List.mem_map.mp this
          have hn' := List.mem_range.mp hn
          have hv : fpt Vs (Int.ofNat n) = Vs[n] := by
            unfold fpt; simp [hn']
          obtain ⟨b, gb⟩ := hg Vs[n] (List.getElem_mem hn')
          refine ⟨b, by rw [hv]; exact gb, ?_⟩
          rw [← gb.exact]
          show ptOf (Vs.map exactV) n = _
          exact ptOf_eq (by simp [hn'])
        obtain ⟨bi, gi, ei⟩ := getQ i hi
        obtain ⟨bk, gk, ek⟩ := getQ k hk
        rw [ei, ek, q0.exact, q1.exact, q2.exact]
        exact C.order gi gk hik
      obtain ⟨u, hu, hd⟩ := hq ⟨hg.planar, hord⟩ j hj
      refine ⟨u, hu, hd.imp id fun hd => ?_⟩
      simpa [gridGeo, eps] using hd

end Verif.Proofs
