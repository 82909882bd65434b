import Verif.Proofs.Walk
/-!
# The whole construction (triangulator.go:137-246) for arbitrary predicates
-/
namespace Verif.Proofs
open Verif Verif.Tri2

variable {K : Type} [Field K] [LinearOrder K] [IsStrictOrderedRing K]
variable {P : Type} {g : Geo P} {Vs : List P} {κ : ℕ → ℕ → K} {Ex : Prop} {n i0 i1 i2 m : ℕ}

/-- the invariant for the seed triangle -/
theorem init_inv {c : ℕ} {s1 : St} {tr0 he0 : ℕ → ℤ} (h0 : i0 < n) (h1 : i1 < n) (h2 : i2 < n)
    (d01 : i0 ≠ i1) (d12 : i1 ≠ i2) (d20 : i2 ≠ i0) (hpos : Ex → 0 < κ i0 i1 + κ i1 i2 + κ i2 i0) (S1 : Shape c n (0+1) s1)
    (A1 : Added 0 tr0 he0 (tr s1) (he s1) i0 i1 i2 (-1) (-1) (-1)) (M1 : MeshF n (0+1) (tr s1) (he s1)) (hull : s1.hull = some i2)
    (ndi : ∀ x, nd s1 x = if x = i0 then ⟨i0, 0, some i2, some i1⟩ else if x = i1 then ⟨i1, 1, some i0, some i2⟩ else
      if x = i2 then ⟨i2, 2, some i1, some i0⟩ else Node.zero)
    (hhash : ∀ z ∈ s1.hash, z = none ∨ ∃ x ∈ ({i0, i1, i2} : Finset ℕ), z = some x) :
    RInv κ Ex c n i0 i1 i2 1 {i0, i1, i2} [i2, i0, i1] s1 := by
  have d10 := d01.symm
  have d21 := d12.symm
  have d02 := d20.symm
  have t0 := A1.t0
  have t1 := A1.t1
  have t2 := A1.t2
  simp only [Nat.mul_zero, Nat.zero_add] at t0 t1 t2
  have g0 := A1.h0
  have g1 := A1.h1
  have g2 := A1.h2
  simp only [Nat.mul_zero, Nat.zero_add] at g0 g1 g2
  have w0 : nd s1 i0 = ⟨i0, 0, some i2, some i1⟩ := by rw [ndi, if_pos rfl]
  have w1 : nd s1 i1 = ⟨i1, 1, some i0, some i2⟩ := by rw [ndi, if_neg d10, if_pos rfl]
  have w2 : nd s1 i2 = ⟨i2, 2, some i1, some i0⟩ := by rw [ndi, if_neg d20, if_neg d21, if_pos rfl]
  have mem : ∀ x, x ∈ [i2, i0, i1] ↔ x = i0 ∨ x = i1 ∨ x = i2 := by intro x; simp; tauto
  refine ⟨S1, M1, ⟨i2, [i0, i1], rfl, hull, ?_⟩, ?_, ?_, ?_, ?_, by simp, ⟨by omega, t0, t1, t2⟩, ?_, ?_, ?_, ?_, ?_, ?_, ?_, ?_, ?_⟩
  · simp [Path, Lk, w0, w1, w2]
  · simp [d20, d21, d01]
  · intro x hx
    rcases (mem x).mp hx with rfl | rfl | rfl
    · exact ⟨0, i1, by rw [w0]; rfl, by rw [w0], by omega, g0, t0, t1⟩
    · exact ⟨1, i2, by rw [w1]; rfl, by rw [w1], by omega, g1, t1, t2⟩
    · exact ⟨2, i0, by rw [w2]; rfl, by rw [w2], by omega, g2, t2, t0⟩
  · intro k hk _
    have : k = 0 ∨ k = 1 ∨ k = 2 := by omega
    rcases this with rfl | rfl | rfl
    · exact ⟨i0, by simp, by rw [w0]; rfl⟩
    · exact ⟨i1, by simp, by rw [w1]; rfl⟩
    · exact ⟨i2, by simp, by rw [w2]; rfl⟩
  · intro x hx
    rcases (mem x).mp hx with rfl | rfl | rfl
    · rw [w0]
    · rw [w1]
    · rw [w2]
  · intro x hx
    rcases (mem x).mp hx with rfl | rfl | rfl <;> simp
  · intro x hx
    simp only [Finset.mem_insert, Finset.mem_singleton] at hx
    rcases hx with rfl | rfl | rfl <;> assumption
  · intro k hk
    have : k = 0 ∨ k = 1 ∨ k = 2 := by omega
    rcases this with rfl | rfl | rfl
    · exact ⟨i0, by simp, t0⟩
    · exact ⟨i1, by simp, t1⟩
    · exact ⟨i2, by simp, t2⟩
  · intro v hv
    simp only [Finset.mem_insert, Finset.mem_singleton] at hv
    rcases hv with rfl | rfl | rfl
    · exact ⟨0, by omega, t0⟩
    · exact ⟨1, by omega, t1⟩
    · exact ⟨2, by omega, t2⟩
  · intro x hx
    simp only [Finset.mem_insert, Finset.mem_singleton, not_or] at hx
    rw [ndi, if_neg hx.1, if_neg hx.2.1, if_neg hx.2.2]
  · rw [Finset.card_insert_of_notMem (by simp [d01, d02]), Finset.card_insert_of_notMem (by simp [d12]), Finset.card_singleton]
    simp
  · intro hex
    unfold ringSum
    simp only [List.map_cons, List.map_nil, List.sum_cons, List.sum_nil, w0, w1, w2, Option.getD_some]
    have := hpos hex
    linarith
  · intro x hx hx'
    exfalso
    simp only [Finset.mem_insert, Finset.mem_singleton] at hx
    exact hx' ((mem x).mpr hx)
  · exact hhash

/-- triangulator.go:137-162 -/
theorem initState_ok (O : Orc g Vs κ Ex m i0 i1 i2) (hVs : Vs.length = n) (h0 : i0 < n) (h1 : i1 < n) (h2 : i2 < n)
    (d01 : i0 ≠ i1) (d12 : i1 ≠ i2) (d20 : i2 ≠ i0) (hpos : Ex → 0 < κ i0 i1 + κ i1 i2 + κ i2 i0) :
    (∃ s, initState g Vs m i0 i1 i2 = .ok s ∧ RInv κ Ex (3*(2*n-5)) n i0 i1 i2 1 {i0, i1, i2} [i2, i0, i1] s ∧ s.hash.length = m ∧
      (∃ x ∈ [i2, i0, i1], some x ∈ s.hash) ∧ ∃ tr0 he0, Added 0 tr0 he0 (tr s) (he s) i0 i1 i2 (-1) (-1) (-1)) ∨
    (initState g Vs m i0 i1 i2 = .panic ∧ ¬ Ex) := by
  have noEx : ∀ (H : List (Option ℕ)), H.length = m → (∃ v ∈ Vs, ¬ (0 ≤ g.key v ∧ g.key v < (H.length : ℤ))) → ¬ Ex := by
    rintro H hH ⟨v, hv, hk⟩ hex
    rw [hH] at hk
    exact hk (O.key hex v hv)
  have d10 := d01.symm
  have d21 := d12.symm
  have d02 := d20.symm
  unfold initState
  dsimp only
  rw [hVs]
  set sa : St := ⟨[], [], 0, none, List.replicate m none, List.replicate n Node.zero⟩ with hsa
  have nda : ∀ x, nd sa x = Node.zero := by
    intro x
    show (List.replicate n Node.zero).getD x Node.zero = _
    simp [List.getD_eq_getElem?_getD, List.getElem?_replicate]
    split_ifs <;> rfl
  have la : sa.nodes.length = n := by simp [hsa]
  have ha : sa.hash.length = m := by simp [hsa]
  rw [newNode_nil (i := i0) rfl (by omega), Res.bind_ok]
  simp only
  rw [nda]
  set sb : St := { sa with nodes := sa.nodes.set i0 ⟨i0, Node.zero.t, some i0, some i0⟩ } with hsb
  have lb : sb.nodes.length = n := by simp [hsb, la]
  have ndb : ∀ x, nd sb x = if x = i0 then ⟨i0, 0, some i0, some i0⟩ else Node.zero := fun x => by
    rw [← nda x]; exact nd_set (by omega) _ x
  rw [modNode_ok (by omega), Res.bind_ok]
  set sc : St := { sb with nodes := sb.nodes.set i0 { nd sb i0 with t := 0 } } with hsc
  have lc : sc.nodes.length = n := by simp [hsc, lb]
  have ndc : ∀ x, nd sc x = if x = i0 then ⟨i0, 0, some i0, some i0⟩ else Node.zero := fun x => by
    rw [show nd sc x = if x = i0 then { nd sb i0 with t := 0 } else nd sb x from nd_set (by omega) _ x, ndb, ndb]
    by_cases h : x = i0 <;> simp [h]
  rcases hashEdge_nd (g := g) (Vs := Vs) (s := sc) (x := i0) (by omega) (by rw [ndc, if_pos rfl]) (by omega) with
    ⟨H1, e1, hH1, _, hz1⟩ | ⟨e1, hk⟩
  swap
  · rw [e1]; exact Or.inr ⟨rfl, noEx sc.hash ha hk⟩
  rw [e1, Res.bind_ok]
  replace hH1 : H1.length = m := by rw [hH1]; exact ha
  set sd : St := { sc with hash := H1 } with hsd
  have ndd : ∀ x, nd sd x = if x = i0 then ⟨i0, 0, some i0, some i0⟩ else Node.zero := ndc
  have ld : sd.nodes.length = n := lc
  obtain ⟨N1, f1, lN1, n1n, n1p, n1t, n1i⟩ := newNode_ok (s := sd) (e := i0) (i := i1) (y := i0) (z := i1) rfl (by omega) (by omega) (by omega) d10 d10
    (by rw [ndd, if_pos rfl])
  rw [f1, Res.bind_ok]
  simp only
  set se : St := { sd with nodes := N1 } with hse
  have le : se.nodes.length = n := by show N1.length = n; omega
  rw [modNode_ok (by omega), Res.bind_ok]
  set sf : St := { se with nodes := se.nodes.set i1 { nd se i1 with t := 1 } } with hsf
  have lf : sf.nodes.length = n := by simp [hsf, le]
  have ndf : ∀ x, nd sf x = if x = i0 then ⟨i0, 0, some i1, some i1⟩ else if x = i1 then ⟨i1, 1, some i0, some i0⟩ else Node.zero := fun x => by
    rw [show nd sf x = if x = i1 then { nd se i1 with t := 1 } else nd se x from nd_set (by omega) _ x]
    have en : ∀ x, nd se x = ⟨(nd se x).i, (nd se x).t, (nd se x).prev, (nd se x).next⟩ := fun x => rfl
    have q1 : ∀ x, (nd se x).next = _ := n1n
    have q2 : ∀ x, (nd se x).prev = _ := n1p
    have q3 : ∀ x, (nd se x).t = _ := n1t
    have q4 : ∀ x, (nd se x).i = _ := n1i
    by_cases c1 : x = i1
    · subst c1
      rw [if_pos rfl, if_neg d10, if_pos rfl]
      show (⟨(nd se x).i, 1, (nd se x).prev, (nd se x).next⟩ : Node) = _
      rw [q1, q2, q4]
      simp [ndd, d10]
    · rw [if_neg c1, en x, q1, q2, q3, q4]
      simp only [ndd, if_true]
      by_cases c0 : x = i0
      · subst c0; simp [d01]
      · simp [c0, c1, Node.zero]
  rcases hashEdge_nd (g := g) (Vs := Vs) (s := sf) (x := i1) (by omega) (by rw [ndf, if_neg d10, if_pos rfl]) (by omega) with
    ⟨H2, e2, hH2, _, hz2⟩ | ⟨e2, hk⟩
  swap
  · rw [e2]; exact Or.inr ⟨rfl, noEx sf.hash hH1 hk⟩
  rw [e2, Res.bind_ok]
  replace hH2 : H2.length = m := by rw [hH2]; exact hH1
  set sg : St := { sf with hash := H2 } with hsg
  have ndg : ∀ x, nd sg x = if x = i0 then ⟨i0, 0, some i1, some i1⟩ else if x = i1 then ⟨i1, 1, some i0, some i0⟩ else Node.zero := ndf
  have lg : sg.nodes.length = n := lf
  obtain ⟨N2, f2, lN2, n2n, n2p, n2t, n2i⟩ := newNode_ok (s := sg) (e := i1) (i := i2) (y := i0) (z := i2) rfl (by omega) (by omega) (by omega) d21 d20
    (by rw [ndg, if_neg d10, if_pos rfl])
  rw [f2, Res.bind_ok]
  simp only
  set sh : St := { sg with nodes := N2 } with hsh
  have lh : sh.nodes.length = n := by show N2.length = n; omega
  rw [modNode_ok (by omega), Res.bind_ok]
  set si : St := { sh with nodes := sh.nodes.set i2 { nd sh i2 with t := 2 } } with hsi
  have li : si.nodes.length = n := by simp [hsi, lh]
  have ndi : ∀ x, nd si x = if x = i0 then ⟨i0, 0, some i2, some i1⟩ else if x = i1 then ⟨i1, 1, some i0, some i2⟩ else
      if x = i2 then ⟨i2, 2, some i1, some i0⟩ else Node.zero := fun x => by
    rw [show nd si x = if x = i2 then { nd sh i2 with t := 2 } else nd sh x from nd_set (by omega) _ x]
    have en : ∀ x, nd sh x = ⟨(nd sh x).i, (nd sh x).t, (nd sh x).prev, (nd sh x).next⟩ := fun x => rfl
    have q1 : ∀ x, (nd sh x).next = _ := n2n
    have q2 : ∀ x, (nd sh x).prev = _ := n2p
    have q3 : ∀ x, (nd sh x).t = _ := n2t
    have q4 : ∀ x, (nd sh x).i = _ := n2i
    by_cases c2 : x = i2
    · subst c2
      rw [if_pos rfl, if_neg d20, if_neg d21, if_pos rfl]
      show (⟨(nd sh x).i, 2, (nd sh x).prev, (nd sh x).next⟩ : Node) = _
      rw [q1, q2, q4]
      simp [ndg, d10, d20, d21]
    · rw [if_neg c2, en x, q1, q2, q3, q4]
      simp only [ndg, if_true]
      by_cases c0 : x = i0
      · subst c0; simp [d01, d10, d02]
      · by_cases c1 : x = i1
        · subst c1; simp [d10, d12]
        · simp [c0, c1, c2, Node.zero, d10]
  rcases hashEdge_nd (g := g) (Vs := Vs) (s := si) (x := i2) (by omega) (by rw [ndi, if_neg d20, if_neg d21, if_pos rfl]) (by omega) with
    ⟨H3, e3, hH3, hm3, hz3⟩ | ⟨e3, hk⟩
  swap
  · rw [e3]; exact Or.inr ⟨rfl, noEx si.hash hH2 hk⟩
  rw [e3, Res.bind_ok]
  replace hH3 : H3.length = m := by rw [hH3]; exact hH2
  have hn3 : 3 ≤ n := by omega
  rw [if_neg (by omega)]
  have hc : ((2 * (n:ℤ) - 5) * 3).toNat = 3 * (2*n - 5) := by omega
  rw [hc]
  set sj : St := ⟨List.replicate (3*(2*n-5)) 0, List.replicate (3*(2*n-5)) 0, si.trianglesLen, some i2, H3, si.nodes⟩ with hsj
  have ndj : nd sj = nd si := rfl
  have Sj : Shape (3*(2*n-5)) n 0 sj := ⟨by simp [hsj], by simp [hsj], li, rfl, by omega⟩
  have dz : ∀ {x z : ℕ}, x ≠ z → (x:ℤ) ≠ (z:ℤ) := fun h => by exact_mod_cast h
  have zr : ∀ {x : ℕ}, x < n → (0:ℤ) ≤ x ∧ (x:ℤ) < n := fun h => by omega
  obtain ⟨s1, a1, S1, A1, hu1, ha1, no1⟩ := addTriangle_ok Sj (by omega) (x0 := i0) (x1 := i1) (x2 := i2) (a := -1) (b := -1) (d := -1)
    (dz d01) (dz d12) (dz d20) (Or.inl rfl) (Or.inl rfl) (Or.inl rfl)
  have M0 : MeshF n 0 (tr sj) (he sj) := ⟨fun k hk => by omega, fun k hk => by omega, fun k hk => by omega⟩
  have M1 := mesh_add M0 A1 (zr h0) (zr h1) (zr h2) (dz d01) (dz d12) (dz d20) (Or.inl rfl) (Or.inl rfl) (Or.inl rfl)
  left
  refine ⟨s1, ?_, ?_, by rw [ha1]; exact hH3, ⟨i2, by simp, by rw [ha1]; exact hm3⟩, _, _, A1⟩
  · show (do let (s, _) ← addTriangle sj i0 i1 i2 (-1) (-1) (-1); pure s) = Res.ok s1
    rw [a1]
    rfl
  · have nds : nd s1 = nd si := by unfold nd; rw [no1]
    refine init_inv h0 h1 h2 d01 d12 d20 hpos S1 A1 M1 (by rw [hu1]) (by rw [nds]; exact ndi) ?_
    intro z hz
    rw [ha1] at hz
    rcases hz3 z hz with hz | rfl
    · rcases hz2 z hz with hz | rfl
      · rcases hz1 z hz with hz | rfl
        · left
          exact List.eq_of_mem_replicate hz
        · exact Or.inr ⟨i0, by simp, rfl⟩
      · exact Or.inr ⟨i1, by simp, rfl⟩
    · exact Or.inr ⟨i2, by simp, rfl⟩

/-- the invariant holds for the final state, before the arrays are cut to length (lines 243-244) -/
theorem core_ok (O : Orc g Vs κ Ex m i0 i1 i2) (hVs : Vs.length = n) (h0 : i0 < n) (h1 : i1 < n) (h2 : i2 < n)
    (d01 : i0 ≠ i1) (d12 : i1 ≠ i2) (d20 : i2 ≠ i0) (hpos : Ex → 0 < κ i0 i1 + κ i1 i2 + κ i2 i0)
    {ids : List ℤ} (hnd : ids.Nodup) (hids : ∀ z ∈ ids, 0 ≤ z ∧ z < n) {fuel : ℕ} (hf : 6*n < fuel) :
    (∃ s T V R, triangulateCore g Vs fuel m i0 i1 i2 ids = .ok { s with
        triangles := s.triangles.take (3*T), halfedges := s.halfedges.take (3*T) } ∧
      RInv κ Ex (3*(2*n-5)) n i0 i1 i2 T V R s ∧
      ∃ s0 tr0 he0, RInv κ Ex (3*(2*n-5)) n i0 i1 i2 1 {i0, i1, i2} [i2, i0, i1] s0 ∧ Added 0 tr0 he0 (tr s0) (he s0) i0 i1 i2 (-1) (-1) (-1) ∧
        Run g Vs κ Ex (3*(2*n-5)) n i0 i1 i2 ids none 1 {i0, i1, i2} [i2, i0, i1] s0 T V R s ∧
        MainW n m ids.length 1 T 3 V.card { s with triangles := s.triangles.take (3*T), halfedges := s.halfedges.take (3*T) }
          fun w => triangulateCoreCt w g Vs fuel m i0 i1 i2 ids) ∨
    (triangulateCore g Vs fuel m i0 i1 i2 ids = .panic ∧ ¬ Ex) := by
  have hn3 : 3 ≤ n := by omega
  unfold triangulateCore
  rcases initState_ok O hVs h0 h1 h2 d01 d12 d20 hpos with ⟨s, e, I, hm, hlive, tr0, he0, A0⟩ | ⟨e, hn⟩
  swap
  · rw [e]; exact Or.inr ⟨rfl, hn⟩
  rw [e, Res.bind_ok]
  rcases mainLoop_ok O hVs (by omega) (fuel := fuel) (by omega) (by omega) ids none s 1 {i0, i1, i2} [i2, i0, i1] I hm hlive hnd (by
      intro z hz
      obtain ⟨q1, q2⟩ := hids z hz
      refine ⟨z.toNat, by omega, by omega, fun h => ?_⟩
      simpa using h) with ⟨s', T', V', R', e', I', RR, hT, f, hff, WW⟩ | ⟨e', hn⟩
  · rw [e', Res.bind_ok]
    left
    have h3 : ({i0, i1, i2} : Finset ℕ).card = 3 := Finset.card_eq_three.mpr ⟨i0, i1, i2, d01, d20.symm, d12, rfl⟩
    rw [h3] at hff
    refine ⟨s', T', V', R', ?_, I', s, tr0, he0, I, A0, RR, hT, f, hff, fun w => ?_⟩
    · rw [I'.shape.len]
      rfl
    · obtain ⟨k, hk, ek⟩ := WW w
      refine ⟨k, hk, ?_⟩
      unfold triangulateCoreCt
      refine run_lift_bind e (run_bind_ok (l := 0) ek ?_)
      rw [I'.shape.len]
      rfl
  · rw [e']; exact Or.inr ⟨rfl, hn⟩

/-- triangulator.go:347-358: the walk along `prev` -/
theorem hullWalk_ok {s : St} {h : ℕ} (hh : s.hull = some h) :
    ∀ (r : List ℕ) (e : ℕ) (acc : List P) (fuel : ℕ), Path (nd s) h r.reverse e → h ∉ r →
      (∀ x ∈ e :: r, x < s.nodes.length ∧ (nd s x).i = x ∧ x < Vs.length) → r.length < fuel →
      ∃ ps, hullWalk Vs s fuel (some e) acc = .ok (acc ++ ps) ∧ ps.map some = (e :: r).map (fun x => Vs[x]?) := by
  intro r
  induction r with
  | nil =>
    intro e acc fuel hp _ hm hf
    obtain ⟨f, rfl⟩ : ∃ f, fuel = f + 1 := ⟨fuel - 1, by omega⟩
    obtain ⟨m1, m2, m3⟩ := hm e (by simp)
    obtain ⟨va, wa, ma, ga⟩ := getVs (Vs := Vs) (x := e) m3
    rw [hullWalk]
    simp only
    rw [deref_ok m1, Res.bind_ok, ga _ m2, Res.bind_ok, if_pos (by rw [hh]; exact hp.2)]
    exact ⟨[va], rfl, by simp [wa]⟩
  | cons z r ih =>
    intro e acc fuel hp hn hm hf
    obtain ⟨f, rfl⟩ : ∃ f, fuel = f + 1 := ⟨fuel - 1, by omega⟩
    obtain ⟨m1, m2, m3⟩ := hm e (by simp)
    obtain ⟨va, wa, ma, ga⟩ := getVs (Vs := Vs) (x := e) m3
    rw [List.reverse_cons, path_append] at hp
    have hpe : (nd s e).prev = some z := hp.2.2
    have hzh : z ≠ h := by rintro rfl; exact hn (by simp)
    rw [hullWalk]
    simp only
    rw [deref_ok m1, Res.bind_ok, ga _ m2, Res.bind_ok, if_neg (by rw [hh, hpe]; intro e; injection e with e; exact hzh e), hpe]
    obtain ⟨ps, e1, e2⟩ := ih z (acc ++ [va]) f hp.1 (fun h' => hn (List.mem_cons_of_mem _ h')) (fun x hx => hm x (List.mem_cons_of_mem _ hx))
      (by simp only [List.length_cons] at hf; omega)
    refine ⟨va :: ps, by rw [e1]; simp, ?_⟩
    rw [List.map_cons, e2]
    simp [wa]

/-- the returned hull lists the ring backwards, starting at the hull pointer -/
theorem hull_ok {c T : ℕ} {V : Finset ℕ} {R : List ℕ} {s : St} (I : RInv κ Ex c n i0 i1 i2 T V R s) (hVs : Vs.length = n) {fuel : ℕ} (hf : n < fuel)
    (ts hs : List ℤ) :
    ∃ h l ps, R = h :: l ∧ hullWalk Vs { s with triangles := ts, halfedges := hs } fuel s.hull [] = .ok ps ∧
      ps.map some = (h :: l.reverse).map (fun x => Vs[x]?) := by
  obtain ⟨h, l, hR, hhull, hp⟩ := I.ring
  have hnl := I.shape.nl
  have hcard : R.length ≤ n := by
    have := Finset.card_le_card (s := R.toFinset) (t := Finset.range n) (fun x hx => by
      rw [List.mem_toFinset] at hx; exact Finset.mem_range.mpr (I.rlt hx))
    rwa [List.toFinset_card_of_nodup I.nodup, Finset.card_range] at this
  have hnd := I.nodup
  rw [hR] at hnd hcard
  simp only [List.length_cons] at hcard
  obtain ⟨ps, e1, e2⟩ := hullWalk_ok (Vs := Vs) (s := { s with triangles := ts, halfedges := hs }) (h := h) hhull l.reverse h [] fuel
    (by rw [List.reverse_reverse]; exact hp) (by rw [List.mem_reverse]; exact (List.nodup_cons.mp hnd).1)
    (by
      intro x hx
      have hxR : x ∈ R := by
        rw [hR]
        rcases List.mem_cons.mp hx with rfl | hx
        · simp
        · simp [List.mem_reverse.mp hx]
      have := I.rlt hxR
      exact ⟨by show x < s.nodes.length; omega, I.ids x hxR, by omega⟩)
    (by simp; omega)
  rw [← hhull] at e1
  exact ⟨h, l, ps, hR, by rw [e1]; simp, e2⟩

end Verif.Proofs
