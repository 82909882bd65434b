import Verif.Proofs.DelTable
import Verif.Proofs.Exact
/-!
# The hull ring stays the convex hull, the table stays Delaunay (exact arithmetic)
-/
namespace Verif.Proofs
open Verif Verif.Tri2 Verif.Props

variable {K : Type} [Field K] [LinearOrder K] [IsStrictOrderedRing K]

/-- every point of `V` lies weakly left of every ring edge -/
def Conv (pz : ℤ → R3.Vector K) (V : Finset ℕ) (R : List ℕ) (s : St) : Prop :=
  ∀ x ∈ R, ∀ y : ℕ, (nd s x).next = some y → ∀ v ∈ V, 0 ≤ area (pz (v:ℕ)) (pz x) (pz y)

/-- no two points of `V` have the same position -/
def Dist (pz : ℤ → R3.Vector K) (V : Finset ℕ) : Prop := ∀ u ∈ V, ∀ v ∈ V, u ≠ v → ¬ SameXY (pz (u:ℕ)) (pz (v:ℕ))

variable {pz : ℤ → R3.Vector K} {κ : ℕ → ℕ → K} {c n i0 i1 i2 T : ℕ} {V : Finset ℕ} {R : List ℕ} {s : St}

theorem RInv.next_mem {Ex : Prop} (I : RInv κ Ex c n i0 i1 i2 T V R s) {x y : ℕ} (hx : x ∈ R) (hy : (nd s x).next = some y) : y ∈ R := by
  obtain ⟨l, hp, _⟩ := I.at hx hy
  exact hp.mem_iff.mp (by simp)

/-- the ring has at least three vertices -/
theorem RInv.no_two (I : RInv κ True c n i0 i1 i2 T V R s) (hκ : ∀ x y, κ x y = - κ y x) {x y : ℕ} (hx : x ∈ R) (hy : (nd s x).next = some y) :
    (nd s y).next ≠ some x := by
  intro hyx
  obtain ⟨l, hp, hpath⟩ := I.at hx hy
  have hnd : (x :: y :: l).Nodup := hp.nodup_iff.mpr I.nodup
  have hl : l = [] := by
    cases l with
    | nil => rfl
    | cons z l =>
      have := hpath.2.1.1
      rw [hyx] at this; injection this with this; subst this
      simp at hnd
  subst hl
  have hpos := I.pos trivial
  rw [ringSum_perm hp.symm] at hpos
  simp only [ringSum, List.map_cons, List.map_nil, List.sum_cons, List.sum_nil, hy, hyx, Option.getD_some] at hpos
  have := hκ x y
  linarith

theorem RInv.next_ne {Ex : Prop} (I : RInv κ Ex c n i0 i1 i2 T V R s) {x y : ℕ} (hx : x ∈ R) (hy : (nd s x).next = some y) : x ≠ y := by
  obtain ⟨l, hp, _⟩ := I.at hx hy
  have hnd : (x :: y :: l).Nodup := hp.nodup_iff.mpr I.nodup
  rintro rfl
  simp at hnd

/-- `next` is injective on the ring -/
theorem RInv.next_inj {Ex : Prop} (I : RInv κ Ex c n i0 i1 i2 T V R s) {x x' y : ℕ} (hx : x ∈ R) (hx' : x' ∈ R) (hy : (nd s x).next = some y)
    (hy' : (nd s x').next = some y) : x = x' := by
  have prev : ∀ {x}, x ∈ R → (nd s x).next = some y → (nd s y).prev = some x := by
    intro x hx hy
    obtain ⟨l, hp, hpath⟩ := I.at hx hy
    exact hpath.1.2
  have h1 := prev hx hy
  rw [prev hx' hy'] at h1
  injection h1 with h1; exact h1.symm

/-- a point strictly left of a ring edge -/
theorem third {Ex : Prop} (I : RInv κ Ex c n i0 i1 i2 T V R s) (D : Del pz n T V (tr s) (he s)) {x y : ℕ} (hx : x ∈ R) (hy : (nd s x).next = some y) :
    ∃ v ∈ V, 0 < area (pz (v:ℕ)) (pz x) (pz y) := by
  obtain ⟨t, y', _, h2, h3, _, h5, h6⟩ := I.own x hx
  have : y' = y := by rw [hy] at h2; injection h2 with h2; exact h2.symm
  subst this
  obtain ⟨v, hv, e⟩ := D.vert (pv t) (pv_lt h3)
  have := D.pos t h3
  unfold tArea at this
  rw [h5, h6, e] at this
  exact ⟨v, hv, this⟩

/-- the first change from invisible to visible along a path -/
theorem path_find {nd : ℕ → Node} (vis : ℕ → ℕ → Prop) : ∀ (l : List ℕ) (b e : ℕ), Path nd b l e → (∀ y, (nd b).next = some y → ¬ vis b y) →
    ∀ x ∈ b :: l, ∀ y, (nd x).next = some y → vis x y →
      ∃ u ∈ b :: l, ∃ w ∈ b :: l, ∃ z, (nd u).next = some w ∧ (nd w).next = some z ∧ ¬ vis u w ∧ vis w z := by
  intro l
  induction l with
  | nil =>
    intro b e hp hb x hx y hy hv
    rw [List.mem_singleton] at hx; subst hx
    exact absurd hv (hb y hy)
  | cons d l ih =>
    intro b e hp hb x hx y hy hv
    rcases List.mem_cons.mp hx with rfl | hx
    · exact absurd hv (hb y hy)
    · by_cases hd : ∃ z, (nd d).next = some z ∧ vis d z
      · obtain ⟨z, h1, h2⟩ := hd
        exact ⟨b, by simp, d, by simp, z, hp.1.1, h1, hb d hp.1.1, h2⟩
      · push Not at hd
        obtain ⟨u, hu, w, hw, r⟩ := ih d e hp.2 hd x hx y hy hv
        exact ⟨u, List.mem_cons_of_mem _ hu, w, List.mem_cons_of_mem _ hw, r⟩

/-- the ring while `p` is being inserted, compared with the ring `R0`, `s0` before; `a` and `b` are the neighbours of `p` -/
structure MRing (pz : ℤ → R3.Vector K) (R0 : List ℕ) (s0 : St) (p : ℕ) (R : List ℕ) (s : St) (a b : ℕ) : Prop where
  aR0 : a ∈ R0
  na : (nd s a).next = some p
  nb : (nd s p).next = some b
  aR : a ∈ R
  pR : p ∈ R
  seeA : ∃ a', (nd s0 a).next = some a' ∧ area (pz p) (pz a) (pz a') < 0
  seeB : ∃ b' ∈ R0, (nd s0 b').next = some b ∧ area (pz p) (pz b') (pz b) < 0
  old : ∀ x ∈ R, x ≠ p → x ≠ a → x ∈ R0 ∧ (nd s x).next = (nd s0 x).next

section final
variable {T0 : ℕ} {R0 : List ℕ} {s0 : St} {p a b : ℕ}

/-- the ring after the insertion of `p` is convex -/
theorem ring_final (I0 : RInv κ True c n i0 i1 i2 T0 V R0 s0) (D0 : Del pz n T0 V (tr s0) (he s0)) (C0 : Conv pz V R0 s0) (hD : Dist pz V) (hpV : p ∉ V)
    (I : RInv κ True c n i0 i1 i2 T (insert p V) R s) (hκ : ∀ x y, κ x y = - κ y x) (M : MRing pz R0 s0 p R s a b)
    (hA : ∃ w ∈ R0, (nd s0 w).next = some a ∧ 0 ≤ area (pz p) (pz w) (pz a))
    (hB : ∃ b2, (nd s0 b).next = some b2 ∧ 0 ≤ area (pz p) (pz b) (pz b2)) : Conv pz (insert p V) R s := by
  have maxAt : ∀ {u w z : ℕ}, u ∈ R0 → w ∈ R0 → (nd s0 u).next = some w → (nd s0 w).next = some z → 0 ≤ area (pz p) (pz u) (pz w) →
      area (pz p) (pz w) (pz z) < 0 → ∀ v ∈ V, 0 ≤ area (pz p) (pz (v:ℕ)) (pz w) := by
    intro u w z hu hw h1 h2 h3 h4 v hv
    obtain ⟨v0, hv0, e0⟩ := third I0 D0 hu h1
    exact tangent_max h3 h4 (C0 u hu w h1 v hv) (C0 w hw z h2 v hv) (C0 u hu w h1 z (I0.rV z (I0.next_mem hw h2))) e0 (C0 w hw z h2 v0 hv0)
  obtain ⟨w0, hw0, w1, w2⟩ := hA
  obtain ⟨a', a1, a2⟩ := M.seeA
  have maxA := maxAt hw0 M.aR0 w1 a1 w2 a2
  obtain ⟨b', hb', b1, b2⟩ := M.seeB
  obtain ⟨d, d1, d2⟩ := hB
  have hbR0 : b ∈ R0 := I0.next_mem hb' b1
  have minB : ∀ v ∈ V, 0 ≤ area (pz (v:ℕ)) (pz p) (pz b) := by
    intro v hv
    obtain ⟨v0, hv0, e0⟩ := third I0 D0 hbR0 d1
    exact tangent_min b2 d2 (C0 b' hb' b b1 v hv) (C0 b hbR0 d d1 v hv) (C0 b hbR0 d d1 b' (I0.rV b' hb')) (C0 b' hb' b b1 v0 hv0) e0
  have hap : a ≠ p := by rintro rfl; exact hpV (I0.rV a M.aR0)
  have hba : b ≠ a := by
    rintro rfl
    exact I.no_two hκ M.pR M.nb M.na
  have hbp : b ≠ p := by rintro rfl; exact hpV (I0.rV b hbR0)
  -- all other edges
  have rest : ∀ x ∈ R, x ≠ p → x ≠ a → ∀ y : ℕ, (nd s x).next = some y → 0 ≤ area (pz p) (pz x) (pz y) := by
    intro x hx hxp hxa y hy
    by_contra hneg
    rw [not_le] at hneg
    obtain ⟨l, hperm, hpath⟩ := I.at M.pR M.nb
    have hnd : (p :: b :: l).Nodup := hperm.nodup_iff.mpr I.nodup
    have hpnot : p ∉ b :: l := (List.nodup_cons.mp hnd).1
    have hxl : x ∈ b :: l := by
      rcases List.mem_cons.mp (hperm.mem_iff.mpr hx) with h | h
      · exact absurd h hxp
      · exact h
    have inR : ∀ {z}, z ∈ b :: l → z ∈ R ∧ z ≠ p := fun h => ⟨hperm.mem_iff.mp (List.mem_cons_of_mem _ h), fun e => hpnot (e ▸ h)⟩
    have hbR := (inR (z := b) (by simp)).1
    obtain ⟨u, hu, w, hw, z, g1, g2, g3, g4⟩ := path_find (fun x y => area (pz p) (pz x) (pz y) < 0) l b p hpath.2 (by
        intro y hy
        have := (M.old b hbR hbp hba).2
        rw [hy, d1] at this; injection this with this; subst this
        exact not_lt.mpr d2) x hxl y hy hneg
    have hwa : w ≠ a := by
      rintro rfl
      rw [M.na] at g2; injection g2 with g2; subst g2
      rw [area_aba] at g4; exact lt_irrefl _ g4
    have hua : u ≠ a := by
      rintro rfl
      rw [M.na] at g1; injection g1 with g1
      exact (inR hw).2 g1.symm
    obtain ⟨o1, o2⟩ := M.old u (inR hu).1 (inR hu).2 hua
    obtain ⟨o3, o4⟩ := M.old w (inR hw).1 (inR hw).2 hwa
    rw [g1] at o2
    rw [g2] at o4
    have maxW := maxAt o1 o3 o2.symm o4.symm (not_lt.mp g3) g4
    have e1 := maxW a (I0.rV a M.aR0)
    have e2 := maxA w (I0.rV w o3)
    have e3 : area (pz p) (pz a) (pz w) = 0 := by
      rw [area_swap] at e2; linarith
    exact hD a (I0.rV a M.aR0) w (I0.rV w o3) (fun h => hwa h.symm)
      (tangent_unique e3 g4 (C0 w o3 z o4.symm a (I0.rV a M.aR0)) a2 (C0 a M.aR0 a' a1 w (I0.rV w o3)))
  intro x hx y hy v hv
  by_cases hxp : x = p
  · subst hxp
    rw [M.nb] at hy; injection hy with hy; subst hy
    rcases Finset.mem_insert.mp hv with rfl | hv
    · rw [area_aa]
    · exact minB v hv
  by_cases hxa : x = a
  · subst hxa
    rw [M.na] at hy; injection hy with hy; subst hy
    rcases Finset.mem_insert.mp hv with rfl | hv
    · rw [area_aba]
    · have := maxA v hv
      rwa [← area_cyc] at this
  · rcases Finset.mem_insert.mp hv with rfl | hv
    · exact rest x hx hxp hxa y hy
    · obtain ⟨o1, o2⟩ := M.old x hx hxp hxa
      rw [hy] at o2
      exact C0 x o1 y o2.symm v hv

end final

/-- the predicates are the exact ones -/
structure ExactGeo (g : Geo (R3.Vector K)) (Vs : List (R3.Vector K)) (pz : ℤ → R3.Vector K) : Prop where
  inC : ∀ a ∈ Vs, ∀ b ∈ Vs, ∀ c ∈ Vs, ∀ d ∈ Vs, 0 < area a b c → 0 < area d c b → g.inC a b c d = decide (inCircleDet a b c d < 0)
  lt : ∀ a ∈ Vs, ∀ b ∈ Vs, ∀ c ∈ Vs, g.areaLt a b c = decide (area a b c < 0)
  ge : ∀ a ∈ Vs, ∀ b ∈ Vs, ∀ c ∈ Vs, g.areaGe a b c = decide (0 ≤ area a b c)
  pz : ∀ (i : ℕ) v, Vs[i]? = some v → pz i = v

/-- the state between two insertions -/
structure Full (pz : ℤ → R3.Vector K) (κ : ℕ → ℕ → K) (c n i0 i1 i2 T : ℕ) (V : Finset ℕ) (R : List ℕ) (s : St) : Prop where
  inv : RInv κ True c n i0 i1 i2 T V R s
  del : Del pz n T V (tr s) (he s)
  conv : Conv pz V R s
  dist : Dist pz V

section steps
variable {g : Geo (R3.Vector K)} {Vs : List (R3.Vector K)} {p : ℕ} {v : R3.Vector K} {T0 : ℕ} {R0 R' : List ℕ} {s0 s' : St} {q r a b w : ℕ}

theorem addLeg_mid {Ex : Prop} (G : ExactGeo g Vs pz) {V' : Finset ℕ} (I : RInv κ Ex c n i0 i1 i2 T V' R s) (M : Mid pz n T p V (fun _ => False) (tr s) (he s))
    (A : AddLeg g Vs n T p q r s s') (hqR : q ∈ R) (hnext : (nd s q).next = some r) (hvis : area (pz p) (pz q) (pz r) < 0)
    (hleft : ∀ v ∈ V, 0 ≤ area (pz (v:ℕ)) (pz q) (pz r)) (hq : q ≠ p) (hr : r ≠ p) :
    Mid pz n (T+1) p V (fun _ => False) (tr s') (he s') := by
  obtain ⟨t1, h1, x, y, z, A1, M1, L⟩ := A
  obtain ⟨t, r', _, o2, o3, _, o5, o6⟩ := I.own q hqR
  have : r' = r := by rw [hnext] at o2; injection o2 with o2; exact o2.symm
  subst this
  exact Mid.leg G.inC G.pz L (M.add A1 M1 hvis hleft hq hr o3 o5 o6)

theorem fwd_step (G : ExactGeo g Vs pz) (hκ : ∀ x y, κ x y = - κ y x) (F : Full pz κ c n i0 i1 i2 T0 V R0 s0) (hpV : p ∉ V) (hvm : v ∈ Vs) (hv : pz p = v)
    (M : MRing pz R0 s0 p R s a b) (D : Mid pz n T p V (fun _ => False) (tr s) (he s))
    (S : FwdStep g Vs κ True c n i0 i1 i2 (insert p V) p v q r T R R' s s') :
    MRing pz R0 s0 p R' s' a r ∧ Mid pz n (T+1) p V (fun _ => False) (tr s') (he s') := by
  have hqb : q = b := by
    have := M.nb
    rw [S.nextp] at this; injection this
  subst hqb
  have hqR : q ∈ R := S.inv.next_mem S.mem S.nextp
  have hap : a ≠ p := by rintro rfl; exact hpV (F.inv.rV a M.aR0)
  have hqa : q ≠ a := by
    rintro rfl
    exact S.inv.no_two hκ M.pR M.nb M.na
  have hqp : q ≠ p := (S.inv.next_ne S.mem S.nextp).symm
  obtain ⟨o1, o2⟩ := M.old q hqR hqp hqa
  rw [S.nextq] at o2
  have hrR0 : r ∈ R0 := F.inv.next_mem o1 o2.symm
  have hvis : area (pz p) (pz q) (pz r) < 0 := by
    obtain ⟨vq, vr, e1, e2, e3⟩ := S.seen
    rw [G.lt _ hvm _ (List.mem_of_getElem? e1) _ (List.mem_of_getElem? e2), decide_eq_true_eq] at e3
    rw [hv, G.pz _ _ e1, G.pz _ _ e2]; exact e3
  have sub : ∀ {x}, x ∈ R → x ≠ q → x ∈ R' := fun h hne => by
    rcases List.mem_cons.mp (S.perm.mem_iff.mp h) with h | h
    · exact absurd h hne
    · exact h
  refine ⟨⟨M.aR0, ?_, S.nextp', sub M.aR (Ne.symm hqa), sub S.mem (Ne.symm hqp), M.seeA, ⟨q, o1, o2.symm, hvis⟩, ?_⟩, ?_⟩
  · rw [S.old a hap]; exact M.na
  · intro x hx hxp hxa
    rw [S.old x hxp]
    exact M.old x (S.perm.mem_iff.mpr (List.mem_cons_of_mem _ hx)) hxp hxa
  · exact addLeg_mid G S.inv D S.add hqR S.nextq hvis (F.conv q o1 r o2.symm) hqp (Ne.symm S.ne)

theorem fwd_all (G : ExactGeo g Vs pz) (hκ : ∀ x y, κ x y = - κ y x) (F : Full pz κ c n i0 i1 i2 T0 V R0 s0) (hpV : p ∉ V) (hvm : v ∈ Vs) (hv : pz p = v) {T' : ℕ}
    (W : Fwd g Vs κ True c n i0 i1 i2 (insert p V) p v T R s T' R' s') : ∀ {b : ℕ}, MRing pz R0 s0 p R s a b → Mid pz n T p V (fun _ => False) (tr s) (he s) →
    ∃ b', MRing pz R0 s0 p R' s' a b' ∧ Mid pz n T' p V (fun _ => False) (tr s') (he s') ∧ RInv κ True c n i0 i1 i2 T' (insert p V) R' s' ∧
      ∃ b2, (nd s0 b').next = some b2 ∧ 0 ≤ area (pz p) (pz b') (pz b2) := by
  induction W with
  | @stop T R s d d' vb vb' I hp h1 h2 e1 e2 h3 =>
    intro b M D
    have hdb : d = b := by
      have := M.nb
      rw [h1] at this; injection this
    subst hdb
    refine ⟨d, M, D, I, d', ?_, ?_⟩
    · have hqa : d ≠ a := by
        rintro rfl
        exact I.no_two hκ M.pR M.nb M.na
      have := (M.old d (I.next_mem hp h1) (I.next_ne hp h1).symm hqa).2
      rw [← this]; exact h2
    · rw [G.lt _ hvm _ (List.mem_of_getElem? e1) _ (List.mem_of_getElem? e2), decide_eq_false_iff_not, not_lt] at h3
      rw [hv, G.pz _ _ e1, G.pz _ _ e2]; exact h3
  | step S _ ih =>
    intro b M D
    obtain ⟨M1, D1⟩ := fwd_step G hκ F hpV hvm hv M D S
    exact ih M1 D1

theorem bwd_step (G : ExactGeo g Vs pz) (F : Full pz κ c n i0 i1 i2 T0 V R0 s0) (hpV : p ∉ V) (hvm : v ∈ Vs) (hv : pz p = v)
    (M : MRing pz R0 s0 p R s a b) (D : Mid pz n T p V (fun _ => False) (tr s) (he s))
    (S : BwdStep g Vs κ True c n i0 i1 i2 (insert p V) p v w q T R R' s s') :
    MRing pz R0 s0 p R' s' w b ∧ Mid pz n (T+1) p V (fun _ => False) (tr s') (he s') := by
  have hqR : q ∈ R := S.perm.mem_iff.mpr (by simp)
  have hqa : q = a := S.inv.next_inj hqR M.aR S.nextq M.na
  subst hqa
  have hwq : w ≠ q := S.inv.next_ne S.memw S.nextw
  obtain ⟨o1, o2⟩ := M.old w S.memw (Ne.symm S.ne) hwq
  rw [S.nextw] at o2
  have hqp : q ≠ p := by rintro rfl; exact hpV (F.inv.rV q M.aR0)
  have hvis : area (pz p) (pz w) (pz q) < 0 := by
    obtain ⟨vq, vr, e1, e2, e3⟩ := S.seen
    rw [G.lt _ hvm _ (List.mem_of_getElem? e1) _ (List.mem_of_getElem? e2), decide_eq_true_eq] at e3
    rw [hv, G.pz _ _ e1, G.pz _ _ e2]; exact e3
  have sub : ∀ {x}, x ∈ R → x ≠ q → x ∈ R' := fun h hne => by
    rcases List.mem_cons.mp (S.perm.mem_iff.mp h) with h | h
    · exact absurd h hne
    · exact h
  have hnd : (q :: R').Nodup := S.perm.nodup_iff.mp S.inv.nodup
  refine ⟨⟨o1, S.nextw', ?_, sub S.memw hwq, sub S.mem (Ne.symm hqp), ⟨q, o2.symm, hvis⟩, M.seeB, ?_⟩, ?_⟩
  · rw [S.old p S.ne]; exact M.nb
  · intro x hx hxp hxw
    rw [S.old x hxw]
    refine M.old x (S.perm.mem_iff.mpr (List.mem_cons_of_mem _ hx)) hxp ?_
    rintro rfl
    exact (List.nodup_cons.mp hnd).1 hx
  · exact addLeg_mid G S.inv D S.add S.memw S.nextw hvis (F.conv w o1 q o2.symm) (Ne.symm S.ne) hqp

theorem bwd_all (G : ExactGeo g Vs pz) (hκ : ∀ x y, κ x y = - κ y x) (F : Full pz κ c n i0 i1 i2 T0 V R0 s0) (hpV : p ∉ V) (hvm : v ∈ Vs) (hv : pz p = v) {T' : ℕ}
    (W : Bwd g Vs κ True c n i0 i1 i2 (insert p V) p v T R s T' R' s') : ∀ {a : ℕ}, MRing pz R0 s0 p R s a b → Mid pz n T p V (fun _ => False) (tr s) (he s) →
    ∃ a', MRing pz R0 s0 p R' s' a' b ∧ Mid pz n T' p V (fun _ => False) (tr s') (he s') ∧
      ∃ w ∈ R0, (nd s0 w).next = some a' ∧ 0 ≤ area (pz p) (pz w) (pz a') := by
  induction W with
  | @stop T R s w d vw va I hp hd hw h1 h2 e1 e2 h3 =>
    intro a M D
    have hda : d = a := I.next_inj hd M.aR h1 M.na
    subst hda
    have hwp : w ≠ p := by
      rintro rfl
      exact I.no_two hκ hd h1 h2
    obtain ⟨o1, o2⟩ := M.old w hw hwp (I.next_ne hw h2)
    rw [h2] at o2
    refine ⟨d, M, D, w, o1, o2.symm, ?_⟩
    rw [G.lt _ hvm _ (List.mem_of_getElem? e1) _ (List.mem_of_getElem? e2), decide_eq_false_iff_not, not_lt] at h3
    rw [hv, G.pz _ _ e1, G.pz _ _ e2]; exact h3
  | step S _ ih =>
    intro b M D
    obtain ⟨M1, D1⟩ := bwd_step G F hpV hvm hv M D S
    exact ih M1 D1

/-- one insertion keeps the Delaunay property and the convexity of the ring -/
theorem inserted_full (G : ExactGeo g Vs pz) (hκ : ∀ x y, κ x y = - κ y x) (F : Full pz κ c n i0 i1 i2 T V R s) (hpV : p ∉ V) (hv : Vs[p]? = some v) {T' : ℕ}
    (J : Inserted g Vs κ True c n i0 i1 i2 V p v T R s T' R' s') : Full pz κ c n i0 i1 i2 T' (insert p V) R' s' := by
  obtain @⟨e, y, R1, s1, T2, R2, s2, s3, ve, vy, H, I, e1, e2, e3, S, I1, W, B, rfl, I'⟩ := J
  have hpz := G.pz _ _ hv
  have hvm := List.mem_of_getElem? hv
  have hvis : area (pz p) (pz e) (pz y) < 0 := by
    rw [G.ge _ hvm _ (List.mem_of_getElem? e1) _ (List.mem_of_getElem? e2), decide_eq_false_iff_not, not_le] at e3
    rw [hpz, G.pz _ _ e1, G.pz _ _ e2]; exact e3
  have hyR := I.next_mem S.mem S.next
  have hep : e ≠ p := by rintro rfl; exact hpV (I.rV e S.mem)
  have hyp : y ≠ p := by rintro rfl; exact hpV (I.rV y hyR)
  have hleft := F.conv e S.mem y S.next
  have D1 := addLeg_mid G I (F.del.mid hpV) S.add S.mem S.next hvis hleft hep hyp
  have M1 : MRing pz R s p R1 s1 e y := by
    refine ⟨S.mem, S.nexte, S.nextp, S.perm.mem_iff.mpr (List.mem_cons_of_mem _ S.mem), S.perm.mem_iff.mpr (by simp), ⟨y, S.next, hvis⟩,
      ⟨e, S.mem, S.next, hvis⟩, ?_⟩
    intro x hx hxp hxe
    refine ⟨?_, S.old x hxe hxp⟩
    rcases List.mem_cons.mp (S.perm.mem_iff.mp hx) with h | h
    · exact absurd h hxp
    · exact h
  obtain ⟨b, M2, D2, _, hB⟩ := fwd_all G hκ F hpV hvm hpz W M1 D1
  have key : ∃ a, MRing pz R s p R' s3 a b ∧ Mid pz n T' p V (fun _ => False) (tr s3) (he s3) ∧
      ∃ w ∈ R, (nd s w).next = some a ∧ 0 ≤ area (pz p) (pz w) (pz a) := by
    rcases B with B | ⟨rfl, rfl, rfl, w, vw, hw, h1, h2, h3⟩
    · exact bwd_all G hκ F hpV hvm hpz B M2 D2
    · refine ⟨e, M2, D2, w, hw, h1, ?_⟩
      rw [G.ge _ hvm _ (List.mem_of_getElem? h2) _ (List.mem_of_getElem? e1), decide_eq_true_eq] at h3
      rw [hpz, G.pz _ _ e1, G.pz _ _ h2]; exact h3
  obtain ⟨a, M3, D3, hA⟩ := key
  have M4 : MRing pz R s p R' { s3 with hash := H } a b := ⟨M3.aR0, M3.na, M3.nb, M3.aR, M3.pR, M3.seeA, M3.seeB, M3.old⟩
  have C := ring_final F.inv F.del F.conv F.dist hpV I' hκ M4 hA hB
  refine ⟨I', Mid.done D3 hpV I'.tV ?_ ⟨_, _, hvis, hleft⟩, C, ?_⟩
  · intro k hk hb u hu
    obtain ⟨x, hx, hxk⟩ := I'.cov k hk hb
    obtain ⟨t, z, o1, o2, _, _, o5, o6⟩ := I'.own x hx
    have htk : t = k := by
      rw [hxk] at o1; exact_mod_cast o1.symm
    subst htk
    have := C x hx z o2 u hu
    unfold side
    rw [o5, o6]; exact this
  · have hnot : ∀ u ∈ V, ¬ SameXY (pz p) (pz (u:ℕ)) := by
      intro u hu h
      have := hleft u hu
      rw [← (h.area _ _)] at this
      exact absurd hvis (not_lt.mpr this)
    intro u hu w hw huw h
    rcases Finset.mem_insert.mp hu with rfl | hu' <;> rcases Finset.mem_insert.mp hw with rfl | hw'
    · exact huw rfl
    · exact hnot w hw' h
    · exact hnot u hu' ⟨h.1.symm, h.2.symm⟩
    · exact F.dist u hu' w hw' huw h

theorem run_full (G : ExactGeo g Vs pz) (hκ : ∀ x y, κ x y = - κ y x) {ids : List ℤ} {pp : Option (R3.Vector K)} {T' : ℕ} {V' : Finset ℕ}
    (J : Run g Vs κ True c n i0 i1 i2 ids pp T V R s T' V' R' s') : Full pz κ c n i0 i1 i2 T V R s → Full pz κ c n i0 i1 i2 T' V' R' s' := by
  induction J with
  | nil _ => exact id
  | near _ _ _ ih => exact ih
  | seed _ _ _ ih => exact ih
  | hidden _ _ _ _ ih => exact ih
  | ins h1 h2 h3 _ ih => exact fun F => ih (inserted_full G hκ F h2 h1 h3)

end steps

end Verif.Proofs
