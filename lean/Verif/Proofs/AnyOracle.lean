import Verif.Proofs.Core
import Verif.Proofs.Fuel
/-!
# The triangulator for arbitrary answers of the predicates

No assumption on the predicates at all. `AInv` holds in every state of every run: the hull is a ring of distinct live
nodes, the number of triangles is determined by the number of inserted points and the length of the ring, and all
entries of the tables are in range. (That twin half-edges belong together is *not* part of it, see
Props/DelaunatorFloat.lean.)
-/
namespace Verif.Proofs
open Verif Verif.Tri2

variable {P : Type} {g : Geo P} {Vs : List P} {c n T : ℕ} {s s' : St}

theorem deref_eq_ok {e : Option ℕ} {x : Node} (h : s.deref e = .ok x) : ∃ k, e = some k ∧ k < s.nodes.length ∧ x = nd s k := by
  cases e with
  | none => cases h
  | some k =>
    by_cases hk : k < s.nodes.length
    · rw [deref_ok hk] at h; injection h with h
      exact ⟨k, rfl, hk, h.symm⟩
    · unfold St.deref at h
      simp only [List.getElem?_eq_none (Nat.le_of_not_lt hk)] at h
      cases h

theorem modNode_eq_ok {e : Option ℕ} {f : Node → Node} (h : s.modNode e f = .ok s') :
    ∃ k, e = some k ∧ k < s.nodes.length ∧ s' = { s with nodes := s.nodes.set k (f (nd s k)) } := by
  cases e with
  | none => cases h
  | some k =>
    by_cases hk : k < s.nodes.length
    · rw [modNode_ok hk] at h; injection h with h
      exact ⟨k, rfl, hk, h.symm⟩
    · unfold St.modNode at h
      simp only [List.getElem?_eq_none (Nat.le_of_not_lt hk)] at h
      cases h

/-- all entries of the tables are in range -/
structure Rng (c n T : ℕ) (s : St) : Prop where
  shape : Shape c n T s
  one : 1 ≤ T
  tri : ∀ k < 3*T, 0 ≤ tr s k ∧ tr s k < n
  hed : ∀ k < 3*T, -1 ≤ he s k ∧ he s k < (3*T : ℕ)
  slot : ∀ x, 0 ≤ (nd s x).t ∧ (nd s x).t < (3*T : ℕ)

/-- the ring is unchanged -/
structure Same (s s' : St) : Prop where
  hull : s'.hull = s.hull
  fld : ∀ x, (nd s' x).next = (nd s x).next ∧ (nd s' x).prev = (nd s x).prev ∧ (nd s' x).i = (nd s x).i

theorem Same.refl (s : St) : Same s s := ⟨rfl, fun _ => ⟨rfl, rfl, rfl⟩⟩

theorem Same.trans {s1 s2 s3 : St} (h : Same s1 s2) (h' : Same s2 s3) : Same s1 s3 :=
  ⟨h'.hull.trans h.hull, fun x => ⟨(h'.fld x).1.trans (h.fld x).1, (h'.fld x).2.1.trans (h.fld x).2.1, (h'.fld x).2.2.trans (h.fld x).2.2⟩⟩

/-- assignment to the slot of a node -/
theorem setT_ok {e : Option ℕ} {a : ℤ} (R : Rng c n T s) (ha : 0 ≤ a ∧ a < (3*T : ℕ)) (h : s.modNode e (fun n => { n with t := a }) = .ok s') :
    Same s s' ∧ Rng c n T s' := by
  obtain ⟨k, rfl, hk, rfl⟩ := modNode_eq_ok h
  have hnd := nd_set hk ({ nd s k with t := a })
  constructor
  · refine ⟨rfl, fun x => ?_⟩
    rw [hnd]
    split_ifs with hx
    · rw [hx]; exact ⟨rfl, rfl, rfl⟩
    · exact ⟨rfl, rfl, rfl⟩
  · refine ⟨⟨R.shape.tl, R.shape.hl, by simp [R.shape.nl], R.shape.len, R.shape.cap⟩, R.one, R.tri, R.hed, fun x => ?_⟩
    rw [hnd]
    split_ifs
    · exact ha
    · exact R.slot x

theorem fixHull_rng {bl a : ℤ} (R : Rng c n T s) (ha : 0 ≤ a ∧ a < (3*T : ℕ)) : ∀ {f : ℕ} {e : Option ℕ}, fixHull bl a f s e = .ok s' →
    Same s s' ∧ Rng c n T s'
  | 0, _, h => by cases h
  | f + 1, e, h => by
    rw [fixHull, Res.bind_eq_ok] at h
    obtain ⟨ne, hne, h⟩ := h
    split_ifs at h with c1 c2
    · exact setT_ok R ha h
    · injection h with h; subst h
      exact ⟨Same.refl _, R⟩
    · exact fixHull_rng R ha h

theorem link_rng {a b : ℤ} (R : Rng c n T s) (ha : 0 ≤ a ∧ a < (3*T : ℕ)) (hb : -1 ≤ b ∧ b < (3*T : ℕ)) (h : link s a b = .ok s') :
    Same s s' ∧ Rng c n T s' := by
  have hcap := R.shape.cap
  have hhl := R.shape.hl
  obtain ⟨H, e, hl, hk⟩ := link_ok (s := s) (a := a.toNat) (z := a) (b := b) (by omega) (by omega) (by
    by_cases h0 : b < 0
    · left; omega
    · exact Or.inr ⟨b.toNat, by omega, by omega⟩)
  rw [e] at h; injection h with h; subst h
  refine ⟨⟨rfl, fun _ => ⟨rfl, rfl, rfl⟩⟩, ⟨R.shape.tl, hl.trans hhl, R.shape.nl, R.shape.len, R.shape.cap⟩, R.one, R.tri, fun k hk' => ?_, R.slot⟩
  show -1 ≤ H.getD k 0 ∧ H.getD k 0 < _
  rw [hk]
  have := R.hed k hk'
  unfold linkF
  split_ifs <;> omega

theorem tmod_range {a d : ℤ} {T : ℕ} (h : 0 ≤ a ∧ a < (3*T : ℕ)) (hd : 0 ≤ d) :
    0 ≤ a - Int.tmod a 3 + Int.tmod (a + d) 3 ∧ a - Int.tmod a 3 + Int.tmod (a + d) 3 < (3*T : ℕ) := by
  rw [Int.tmod_eq_emod_of_nonneg h.1, Int.tmod_eq_emod_of_nonneg (by omega)]
  omega

theorem goGet_tr (R : Rng c n T s) {a z : ℤ} (ha : 0 ≤ a ∧ a < (3*T : ℕ)) (h : goGet s.triangles a = .ok z) : 0 ≤ z ∧ z < n := by
  have hcap := R.shape.cap
  have htl := R.shape.tl
  rw [getTr (k := a.toNat) (by omega) (by omega)] at h
  injection h with h; subst h
  exact R.tri _ (by omega)

theorem goGet_he (R : Rng c n T s) {a z : ℤ} (ha : 0 ≤ a ∧ a < (3*T : ℕ)) (h : goGet s.halfedges a = .ok z) : -1 ≤ z ∧ z < (3*T : ℕ) := by
  have hcap := R.shape.cap
  have hhl := R.shape.hl
  rw [getHe (k := a.toNat) (by omega) (by omega)] at h
  injection h with h; subst h
  exact R.hed _ (by omega)

theorem set_tri {a b p q : ℤ} {t1 t2 : List ℤ} (R : Rng c n T s) (hp : 0 ≤ p ∧ p < n) (hq : 0 ≤ q ∧ q < n)
    (h1 : goSet s.triangles a p = .ok t1) (h2 : goSet t1 b q = .ok t2) : Rng c n T { s with triangles := t2 } := by
  rw [goSet_eq_ok] at h1 h2
  obtain ⟨x, rfl, hx, rfl⟩ := h1
  obtain ⟨y, rfl, hy, rfl⟩ := h2
  refine ⟨⟨by simp [R.shape.tl], R.shape.hl, R.shape.nl, R.shape.len, R.shape.cap⟩, R.one, fun k hk => ?_, R.hed, R.slot⟩
  show 0 ≤ ((s.triangles.set x p).set y q).getD k 0 ∧ ((s.triangles.set x p).set y q).getD k 0 < _
  rw [getD_set' k hy, getD_set' k hx]
  split_ifs
  · exact hq
  · exact hp
  · exact R.tri k hk

theorem flipStep_rng {a : ℤ} (R : Rng c n T s) (ha : 0 ≤ a ∧ a < (3*T : ℕ)) {r : Option (St × ℤ) × ℤ} (h : flipStep g Vs s a = .ok r) :
    (0 ≤ r.2 ∧ r.2 < (3*T : ℕ)) ∧ ∀ s' br, r.1 = some (s', br) → Same s s' ∧ Rng c n T s' ∧ 0 ≤ br ∧ br < (3*T : ℕ) := by
  unfold flipStep at h
  rw [Res.bind_eq_ok] at h
  obtain ⟨b, hb, h⟩ := h
  have rb := goGet_he R ha hb
  dsimp only at h
  have rar := tmod_range (d := 2) ha (by omega)
  split_ifs at h with hb0
  · injection h with h; subst h
    exact ⟨rar, fun s' br e => by cases e⟩
  have hb' : 0 ≤ b ∧ b < (3*T : ℕ) := by omega
  have rbl := tmod_range (d := 2) hb' (by omega)
  have rbr := tmod_range (d := 1) hb' (by omega)
  simp only [Res.bind_eq_ok] at h
  obtain ⟨p0, hp0, pr, hpr, pl, hpl, p1, hp1, v0, hv0, vr, hvr, vl, hvl, v1, hv1, h⟩ := h
  split_ifs at h with hin
  swap
  · injection h with h; subst h
    exact ⟨rar, fun s' br e => by cases e⟩
  rw [Res.bind_eq_ok] at h; obtain ⟨t1, ht1, h⟩ := h
  rw [Res.bind_eq_ok] at h; obtain ⟨t2, ht2, h⟩ := h
  rw [Res.bind_eq_ok] at h; obtain ⟨hbl, hhbl, h⟩ := h
  have R0 := set_tri R (goGet_tr R rbl hp1) (goGet_tr R rar hp0) ht1 ht2
  have S0 : Same s { s with triangles := t2 } := ⟨rfl, fun _ => ⟨rfl, rfl, rfl⟩⟩
  have e : ∃ s1, Same s s1 ∧ Rng c n T s1 ∧ (goGet s1.halfedges (b - b.tmod 3 + (b + 2).tmod 3) >>= fun hbl => link s1 a hbl >>= fun s2 =>
      goGet s2.halfedges (a - a.tmod 3 + (a + 2).tmod 3) >>= fun har => link s2 b har >>= fun s3 =>
      link s3 (a - a.tmod 3 + (a + 2).tmod 3) (b - b.tmod 3 + (b + 2).tmod 3) >>= fun s4 =>
      Res.ok (some (s4, b - b.tmod 3 + (b + 1).tmod 3), a - a.tmod 3 + (a + 2).tmod 3)) = .ok r := by
    split_ifs at h with hc
    · rw [Res.bind_eq_ok] at h; obtain ⟨s1, hs1, h⟩ := h
      have := fixHull_rng R0 ha hs1
      exact ⟨s1, S0.trans this.1, this.2, h⟩
    · exact ⟨_, S0, R0, h⟩
  clear h
  obtain ⟨s1, k11, k12, h⟩ := e
  simp only [Res.bind_eq_ok] at h
  obtain ⟨hbl', hhbl', s2, hs2, har, hhar, s3, hs3, s4, hs4, h⟩ := h
  injection h with h; subst h
  refine ⟨rar, ?_⟩
  intro s' br e
  simp only [Option.some.injEq, Prod.mk.injEq] at e
  obtain ⟨rfl, rfl⟩ := e
  have k1 : Same s s1 ∧ Rng c n T s1 := ⟨k11, k12⟩
  have k2 := link_rng k1.2 ha (goGet_he k1.2 rbl hhbl') hs2
  have k3 := link_rng k2.2 hb' (goGet_he k2.2 rar hhar) hs3
  have k4 := link_rng k3.2 rar ⟨by omega, rbl.2⟩ hs4
  exact ⟨((k1.1.trans k2.1).trans k3.1).trans k4.1, k4.2, rbr⟩

theorem legalize_rng : ∀ {f : ℕ} {s : St} {a : ℤ} {r : St × ℤ}, Rng c n T s → (0 ≤ a ∧ a < (3*T : ℕ)) → legalize g Vs f s a = .ok r →
    Same s r.1 ∧ Rng c n T r.1 ∧ 0 ≤ r.2 ∧ r.2 < (3*T : ℕ)
  | 0, _, _, _, _, _, h => by cases h
  | f + 1, s, a, r, R, ha, h => by
    rw [legalize_flip, Res.bind_eq_ok] at h
    obtain ⟨x, hx, h⟩ := h
    obtain ⟨k1, k2⟩ := flipStep_rng R ha hx
    obtain ⟨o, ar⟩ := x
    cases o with
    | none =>
      injection h with h; subst h
      exact ⟨Same.refl _, R, k1⟩
    | some sb =>
      obtain ⟨s', br⟩ := sb
      simp only [Res.bind_eq_ok] at h
      obtain ⟨y, hy, h⟩ := h
      obtain ⟨q1, q2, q3, q4⟩ := k2 s' br rfl
      obtain ⟨w1, w2, _⟩ := legalize_rng q2 ha hy
      obtain ⟨z1, z2, z3⟩ := legalize_rng w2 ⟨q3, q4⟩ h
      exact ⟨(q1.trans w1).trans z1, z2, z3⟩

theorem link_frame {a b : ℤ} (ha : 0 ≤ a ∧ a < s.halfedges.length) (hb : -1 ≤ b ∧ b < s.halfedges.length) (h : link s a b = .ok s') :
    ∃ H, s' = { s with halfedges := H } ∧ H.length = s.halfedges.length ∧ ∀ k, H.getD k 0 = if (k:ℤ) = b then a else if (k:ℤ) = a then b else s.halfedges.getD k 0 := by
  obtain ⟨H, e, hl, hk⟩ := link_ok (s := s) (a := a.toNat) (z := a) (b := b) (by omega) (by omega) (by
    by_cases h0 : b < 0
    · left; omega
    · exact Or.inr ⟨b.toNat, by omega, by omega⟩)
  rw [e] at h; injection h with h; subst h
  refine ⟨H, rfl, hl, fun k => ?_⟩
  rw [hk]
  show (if _ then _ else _) = _
  have e1 : ((a.toNat : ℕ) : ℤ) = a := by omega
  have e2 : k = a.toNat ↔ (k:ℤ) = a := by omega
  simp only [e1, e2]
  rfl

/-- a triangle is added: there was room for it -/
theorem addTriangle_rng {x0 x1 x2 a b d : ℤ} {r : St × ℤ} (R : Rng c n T s) (h0 : 0 ≤ x0 ∧ x0 < n) (h1 : 0 ≤ x1 ∧ x1 < n) (h2 : 0 ≤ x2 ∧ x2 < n)
    (ha : -1 ≤ a ∧ a < (3*T : ℕ)) (hb : -1 ≤ b ∧ b < (3*T : ℕ)) (hd : -1 ≤ d ∧ d < (3*T : ℕ)) (h : addTriangle s x0 x1 x2 a b d = .ok r) :
    Same s r.1 ∧ Rng c n (T+1) r.1 ∧ r.2 = (3*T : ℕ) ∧ r.1.hash = s.hash := by
  unfold addTriangle at h
  simp only [Res.bind_eq_ok] at h
  obtain ⟨t1, ht1, t2, ht2, t3, ht3, s1, hs1, s2, hs2, s3, hs3, h⟩ := h
  injection h with h; subst h
  have hlen := R.shape.len
  rw [goSet_eq_ok] at ht1 ht2 ht3
  obtain ⟨j1, e1, l1, rfl⟩ := ht1
  obtain ⟨j2, e2, l2, rfl⟩ := ht2
  obtain ⟨j3, e3, l3, rfl⟩ := ht3
  have htl := R.shape.tl
  have hhl := R.shape.hl
  rw [List.length_set] at l2
  rw [List.length_set, List.length_set] at l3
  have q1 : j1 = 3*T := by omega
  have q2 : j2 = 3*T+1 := by omega
  have q3 : j3 = 3*T+2 := by omega
  subst q1 q2 q3
  obtain ⟨H1, rfl, hl1, hv1⟩ := link_frame (s := { s with triangles := _ }) (by show _ ∧ _ < (s.halfedges.length : ℤ); omega)
    (by show _ ∧ _ < (s.halfedges.length : ℤ); omega) hs1
  replace hl1 : H1.length = c := hl1.trans hhl
  obtain ⟨H2, rfl, hl2, hv2⟩ := link_frame (s := { s with halfedges := H1, triangles := _ }) (by show _ ∧ _ < (H1.length : ℤ); omega)
    (by show _ ∧ _ < (H1.length : ℤ); omega) hs2
  replace hl2 : H2.length = c := hl2.trans hl1
  obtain ⟨H3, rfl, hl3, hv3⟩ := link_frame (s := { s with halfedges := H2, triangles := _ }) (by show _ ∧ _ < (H2.length : ℤ); omega)
    (by show _ ∧ _ < (H2.length : ℤ); omega) hs3
  replace hl3 : H3.length = c := hl3.trans hl2
  refine ⟨⟨rfl, fun _ => ⟨rfl, rfl, rfl⟩⟩, ⟨⟨by simp [htl], hl3, R.shape.nl, by show s.trianglesLen + 3 = _; rw [R.shape.len]; push_cast; ring, by omega⟩, by omega,
    fun k hk => ?_, fun k hk => ?_, fun x => ?_⟩, R.shape.len, rfl⟩
  · show 0 ≤ (((s.triangles.set (3*T) x0).set (3*T+1) x1).set (3*T+2) x2).getD k 0 ∧ (((s.triangles.set (3*T) x0).set (3*T+1) x1).set (3*T+2) x2).getD k 0 < _
    rw [getD_set' k (by simp; omega), getD_set' k (by simp; omega), getD_set' k (by omega)]
    split_ifs
    · exact h2
    · exact h1
    · exact h0
    · exact R.tri k (by omega)
  · show -1 ≤ H3.getD k 0 ∧ H3.getD k 0 < _
    have v1 := hv1 k
    have v2 := hv2 k
    have v3 := hv3 k
    have hr := R.hed k
    change H1.getD k 0 = (if (k:ℤ) = a then s.trianglesLen else if (k:ℤ) = s.trianglesLen then a else he s k) at v1
    change H2.getD k 0 = (if (k:ℤ) = b then s.trianglesLen + 1 else if (k:ℤ) = s.trianglesLen + 1 then b else H1.getD k 0) at v2
    change H3.getD k 0 = (if (k:ℤ) = d then s.trianglesLen + 2 else if (k:ℤ) = s.trianglesLen + 2 then d else H2.getD k 0) at v3
    by_cases hk' : k < 3*T
    · have hr := hr hk'
      split_ifs at v1 v2 v3 <;> omega
    · split_ifs at v1 v2 v3 <;> omega
  · have := R.slot x
    show 0 ≤ (nd s x).t ∧ (nd s x).t < _
    omega

/-! ## The invariant -/

/-- what holds in every state: `V` are the points inserted so far, `R` is the ring -/
structure AInv (c n T : ℕ) (V : Finset ℕ) (R : List ℕ) (s : St) : Prop where
  rng : Rng c n T s
  ring : ∃ h l, R = h :: l ∧ s.hull = some h ∧ Path (nd s) h l h
  nodup : R.Nodup
  ids : ∀ x ∈ R, (nd s x).i = x
  rV : ∀ x ∈ R, x ∈ V
  Vn : ∀ x ∈ V, x < n
  fresh : ∀ x, x ∉ V → (nd s x).next = none ∧ (nd s x).prev = none
  used : ∀ x ∈ V, (nd s x).next ≠ none
  dead : ∀ x ∈ V, x ∉ R → (nd s x).i = -1

variable {V : Finset ℕ} {R : List ℕ}

theorem AInv.congr (I : AInv c n T V R s) (h : Same s s') {T' : ℕ} (r : Rng c n T' s') : AInv c n T' V R s' := by
  obtain ⟨x, l, hR, hh, hp⟩ := I.ring
  refine ⟨r, ⟨x, l, hR, h.hull.trans hh, ?_⟩, I.nodup, fun x hx => (h.fld x).2.2.trans (I.ids x hx), I.rV, I.Vn,
    fun x hx => ⟨(h.fld x).1.trans (I.fresh x hx).1, (h.fld x).2.1.trans (I.fresh x hx).2⟩, fun x hx => by rw [(h.fld x).1]; exact I.used x hx,
    fun x hx hxR => (h.fld x).2.2.trans (I.dead x hx hxR)⟩
  exact (path_congr (fun x => ⟨(h.fld x).1, (h.fld x).2.1⟩) l x x).mpr hp

theorem goGet_nonneg {α : Type} {l : List α} {i : ℤ} {a : α} (h : goGet l i = .ok a) : 0 ≤ i ∧ i < l.length := by
  rw [goGet_eq_ok] at h
  obtain ⟨k, rfl, hk⟩ := h
  have := (List.getElem?_eq_some_iff.mp hk).1
  omega

/-- a node with a valid index that is linked is on the ring -/
theorem AInv.live (I : AInv c n T V R s) {x : ℕ} (h0 : 0 ≤ (nd s x).i) (h : (nd s x).next ≠ none ∨ (nd s x).prev ≠ none) : x ∈ R := by
  have hV : x ∈ V := by
    by_contra hV
    have := I.fresh x hV
    rcases h with h | h
    · exact h this.1
    · exact h this.2
  by_contra hR
  have := I.dead x hV hR
  omega

theorem AInv.rlt (I : AInv c n T V R s) {x : ℕ} (hx : x ∈ R) : x < n := I.Vn x (I.rV x hx)

/-- the ring read from any of its nodes -/
theorem AInv.from (I : AInv c n T V R s) {x : ℕ} (hx : x ∈ R) : ∃ l, (x :: l).Perm R ∧ Path (nd s) x l x ∧ (x :: l).Nodup := by
  obtain ⟨h, l, rfl, hh, hp⟩ := I.ring
  obtain ⟨l', hl, hp'⟩ := rot hp hx
  exact ⟨l', hl, hp', hl.nodup_iff.mpr I.nodup⟩

theorem AInv.lks (I : AInv c n T V R s) {x : ℕ} (hx : x ∈ R) : (∃ y ∈ R, Lk (nd s) x y) ∧ ∃ y ∈ R, Lk (nd s) y x := by
  obtain ⟨h, l, rfl, hh, hp⟩ := I.ring
  exact ⟨path_next hp hx, path_prev hp hx⟩

/-- removal of a node from a ring of at least two -/
theorem remove_any (I : AInv c n T V R s) {q : ℕ} (hq : q ∈ R) (h2 : 2 ≤ R.length) {r : St × Option ℕ} (h : remove s (some q) = .ok r) :
    ∃ R', R'.length + 1 = R.length ∧ AInv c n T V R' { r.1 with hull := r.2 } := by
  obtain ⟨⟨y, hy, ly⟩, ⟨w, hw, lw⟩⟩ := I.lks hq
  obtain ⟨l, hl, hp, hnd⟩ := I.from hw
  have hnl := I.rng.shape.nl
  cases l with
  | nil => have := hl.length_eq; simp at this; omega
  | cons q' l =>
    have : q' = q := by
      have := hp.1.1; rw [lw.1] at this; injection this with this; exact this.symm
    subst this
    have hwq : w ≠ q' := by rintro rfl; simp at hnd
    have hyq : y ≠ q' := by
      rintro rfl
      have e := lw.2
      rw [ly.2] at e
      injection e with e
      exact hwq e.symm
    obtain ⟨N, e, e1, e2, e3, e4, e5⟩ := remove_ok (s := s) (by rw [hnl]; exact I.rlt hw) (by rw [hnl]; exact I.rlt hq) (by rw [hnl]; exact I.rlt hy) hwq hyq lw.2 ly.1
    rw [e] at h; injection h with h; subst h
    have hsub : ∀ x ∈ w :: l, x ∈ R := fun x hx => hl.mem_iff.mp (by
      rcases List.mem_cons.mp hx with rfl | hx
      · simp
      · simp [hx])
    have hq' : q' ∉ w :: l := by
      simp only [List.nodup_cons, List.mem_cons, not_or] at hnd
      simp only [List.mem_cons, not_or]
      exact ⟨hwq.symm, hnd.2.1⟩
    refine ⟨w :: l, ?_, ⟨⟨I.rng.shape.tl, I.rng.shape.hl, e1.trans hnl, I.rng.shape.len, I.rng.shape.cap⟩, I.rng.one, I.rng.tri, I.rng.hed, fun x => ?_⟩,
      ⟨w, l, rfl, rfl, path_remove hp hnd e2 e3⟩, ?_, fun x hx => ?_, fun x hx => I.rV x (hsub x hx), I.Vn, fun x hx => ?_, fun x hx => ?_, fun x hx hxR => ?_⟩
    · rw [← hl.length_eq]; simp
    · show 0 ≤ (N.getD x Node.zero).t ∧ (N.getD x Node.zero).t < _
      rw [e4]; exact I.rng.slot x
    · exact hnd.sublist (by simp)
    · show (N.getD x Node.zero).i = _
      rw [e5, if_neg (by rintro rfl; exact hq' hx)]
      exact I.ids x (hsub x hx)
    · have hwV : x ≠ w := by rintro rfl; exact hx (I.rV _ hw)
      have hyV : ¬ some x = (nd s q').next := by rw [ly.1]; intro e; injection e with e; subst e; exact hx (I.rV _ hy)
      show (N.getD x Node.zero).next = none ∧ (N.getD x Node.zero).prev = none
      rw [e2, e3, if_neg hwV, if_neg hyV]
      exact I.fresh x hx
    · show (N.getD x Node.zero).next ≠ none
      rw [e2]
      split_ifs
      · rw [ly.1]; simp
      · exact I.used x hx
    · show (N.getD x Node.zero).i = _
      rw [e5]
      split_ifs with c1
      · rfl
      · refine I.dead x hx fun hR => hxR ?_
        have := hl.mem_iff.mpr hR
        simp only [List.mem_cons] at this ⊢
        tauto

/-- removal of the only node of a ring -/
theorem remove_last {q : ℕ} (hq : q < s.nodes.length) (h1 : Lk (nd s) q q) {r : St × Option ℕ} (h : remove s (some q) = .ok r) :
    (nd r.1 q).i = -1 ∧ Lk (nd r.1) q q := by
  unfold remove at h
  rw [deref_ok hq, Res.bind_ok, h1.2, modNode_ok hq, Res.bind_ok] at h
  set s1 : St := { s with nodes := s.nodes.set q { nd s q with next := (nd s q).next } } with hs1
  have l1 : s1.nodes.length = s.nodes.length := by simp [hs1]
  have n1 : nd s1 q = nd s q := by rw [hs1]; exact (nd_set hq _ q).trans (if_pos rfl)
  rw [deref_ok (by rw [l1]; exact hq), Res.bind_ok, n1, h1.1, modNode_ok (by rw [l1]; exact hq), Res.bind_ok] at h
  set s2 : St := { s1 with nodes := s1.nodes.set q { nd s1 q with prev := (nd s q).prev } } with hs2
  have l2 : s2.nodes.length = s.nodes.length := by simp [hs2, l1]
  have n2 : nd s2 q = nd s q := by
    have := (nd_set (s := s1) (by rw [l1]; exact hq) { nd s1 q with prev := (nd s q).prev } q).trans (if_pos rfl)
    rw [hs2]; rw [this, n1]
  rw [modNode_ok (by rw [l2]; exact hq), Res.bind_ok] at h
  set s3 : St := { s2 with nodes := s2.nodes.set q { nd s2 q with i := -1 } } with hs3
  have l3 : s3.nodes.length = s.nodes.length := by simp [hs3, l2]
  have n3 : nd s3 q = { nd s q with i := -1 } := by
    have := (nd_set (s := s2) (by rw [l2]; exact hq) { nd s2 q with i := -1 } q).trans (if_pos rfl)
    rw [hs3, this, n2]
  rw [deref_ok (by rw [l3]; exact hq), Res.bind_ok] at h
  injection h with h; subst h
  show (nd s3 q).i = -1 ∧ (nd s3 q).next = some q ∧ (nd s3 q).prev = some q
  rw [n3]
  exact ⟨rfl, h1⟩

theorem AInv.setT (I : AInv c n T V R s) {e : Option ℕ} {a : ℤ} (ha : 0 ≤ a ∧ a < (3*T : ℕ)) (h : s.modNode e (fun n => { n with t := a }) = .ok s') :
    AInv c n T V R s' ∧ Same s s' := by
  obtain ⟨h1, h2⟩ := setT_ok I.rng ha h
  exact ⟨I.congr h1 h2, h1⟩

/-- the forward walk -/
theorem walkForward_any {lf : ℕ} {i : ℤ} {p : P} (hi : 0 ≤ i ∧ i < n) : ∀ {f : ℕ} {T : ℕ} {R : List ℕ} {s s' : St} {q : Option ℕ}, AInv c n T V R s →
    T + R.length + 2 = 2 * V.card → walkForward g Vs lf i p f s q = .ok s' → ∃ T' R', AInv c n T' V R' s' ∧ T' + R'.length + 2 = 2 * V.card
  | 0, _, _, _, _, _, _, _, h => by cases h
  | f + 1, T, R, s, s', q, I, hc, h => by
    rw [walkForward] at h
    simp only [Res.bind_eq_ok] at h
    obtain ⟨nq, hnq, a, ha, nn, hnn, b, hb, h⟩ := h
    obtain ⟨x, rfl, hx, rfl⟩ := deref_eq_ok hnq
    obtain ⟨y, hxy, hy, rfl⟩ := deref_eq_ok hnn
    have hxR := I.live (goGet_nonneg ha).1 (Or.inl (by rw [hxy]; simp))
    obtain ⟨⟨y', hyR, ly⟩, ⟨w, hwR, lw⟩⟩ := I.lks hxR
    rw [ly.1] at hxy; injection hxy with hxy; subst hxy
    split_ifs at h with hlt
    swap
    · injection h with h; subst h
      exact ⟨T, R, I, hc⟩
    simp only [Res.bind_eq_ok] at h
    obtain ⟨np, hnp, r1, hr1, r2, hr2, nq2, hnq2, s3, hs3, r4, hr4, nq5, hnq5, h⟩ := h
    obtain ⟨w', e, _, rfl⟩ := deref_eq_ok hnp
    rw [lw.2] at e; injection e with e; subst e
    have hix := I.ids x hxR
    have hiy := I.ids y' hyR
    have xlt := I.rlt hxR
    have ylt := I.rlt hyR
    have sl1 := I.rng.slot x
    have sl2 := I.rng.slot w
    obtain ⟨k1, k2, k3, _⟩ := addTriangle_rng I.rng (by rw [hix]; omega) hi (by rw [hiy]; omega) (by omega) (by omega) (by omega) hr1
    have I1 := I.congr k1 k2
    obtain ⟨m1, m2, m3⟩ := legalize_rng I1.rng (by rw [k3]; push_cast; omega) hr2
    have I2 := I1.congr m1 m2
    obtain ⟨x', e, hx2, rfl⟩ := deref_eq_ok hnq2
    injection e with e; subst e
    obtain ⟨I3, sm3⟩ := I2.setT m3 hs3
    obtain ⟨x', e, hx5, rfl⟩ := deref_eq_ok hnq5
    injection e with e; subst e
    by_cases h2 : 2 ≤ R.length
    · obtain ⟨R', hl, I4⟩ := remove_any I3 hxR h2 hr4
      exact walkForward_any hi I4 (by omega) h
    · exfalso
      obtain ⟨l, hl, hp, _⟩ := I3.from hxR
      have : l = [] := by
        cases l with
        | nil => rfl
        | cons _ _ => have := hl.length_eq; simp at this; omega
      subst this
      have hn3 := I3.rng.shape.nl
      obtain ⟨z1, z2⟩ := remove_last (by omega) hp hr4
      change walkForward g Vs lf i p f _ (nd r4.1 x).next = _ at h
      rw [z2.1] at h
      cases f with
      | zero => cases h
      | succ f =>
        rw [walkForward] at h
        simp only [Res.bind_eq_ok] at h
        obtain ⟨nq, hnq, a, ha, _⟩ := h
        obtain ⟨x', e, _, rfl⟩ := deref_eq_ok hnq
        injection e with e; subst e
        have := (goGet_nonneg ha).1
        change 0 ≤ (nd r4.1 x).i at this
        omega

/-- the backward walk -/
theorem walkBackward_any {lf : ℕ} {i : ℤ} {p : P} (hi : 0 ≤ i ∧ i < n) : ∀ {f : ℕ} {T : ℕ} {R : List ℕ} {s s' : St} {q : Option ℕ}, AInv c n T V R s →
    T + R.length + 2 = 2 * V.card → walkBackward g Vs lf i p f s q = .ok s' → ∃ T' R', AInv c n T' V R' s' ∧ T' + R'.length + 2 = 2 * V.card
  | 0, _, _, _, _, _, _, _, h => by cases h
  | f + 1, T, R, s, s', q, I, hc, h => by
    rw [walkBackward] at h
    simp only [Res.bind_eq_ok] at h
    obtain ⟨nq, hnq, np, hnp, a, ha, b, hb, h⟩ := h
    obtain ⟨x, rfl, hx, rfl⟩ := deref_eq_ok hnq
    obtain ⟨y, hxy, hy, rfl⟩ := deref_eq_ok hnp
    have hxR := I.live (goGet_nonneg hb).1 (Or.inr (by rw [hxy]; simp))
    obtain ⟨⟨y', hyR, ly⟩, ⟨w, hwR, lw⟩⟩ := I.lks hxR
    rw [lw.2] at hxy; injection hxy with hxy; subst hxy
    split_ifs at h with hlt
    swap
    · injection h with h; subst h
      exact ⟨T, R, I, hc⟩
    simp only [Res.bind_eq_ok] at h
    obtain ⟨r1, hr1, r2, hr2, nq2, hnq2, s3, hs3, r4, hr4, nq5, hnq5, h⟩ := h
    have hix := I.ids x hxR
    have hiw := I.ids w hwR
    have xlt := I.rlt hxR
    have wlt := I.rlt hwR
    have sl1 := I.rng.slot x
    have sl2 := I.rng.slot w
    obtain ⟨k1, k2, k3, _⟩ := addTriangle_rng I.rng (by rw [hiw]; omega) hi (by rw [hix]; omega) (by omega) (by omega) (by omega) hr1
    have I1 := I.congr k1 k2
    obtain ⟨m1, m2, m3⟩ := legalize_rng I1.rng (by rw [k3]; push_cast; omega) hr2
    have I2 := I1.congr m1 m2
    obtain ⟨x', e, hx2, rfl⟩ := deref_eq_ok hnq2
    injection e with e; subst e
    obtain ⟨I3, sm3⟩ := I2.setT (by rw [k3]; push_cast; omega) hs3
    obtain ⟨x', e, hx5, rfl⟩ := deref_eq_ok hnq5
    injection e with e; subst e
    by_cases h2 : 2 ≤ R.length
    · obtain ⟨R', hl, I4⟩ := remove_any I3 hxR h2 hr4
      exact walkBackward_any hi I4 (by omega) h
    · exfalso
      obtain ⟨l, hl, hp, _⟩ := I3.from hxR
      have : l = [] := by
        cases l with
        | nil => rfl
        | cons _ _ => have := hl.length_eq; simp at this; omega
      subst this
      have hn3 := I3.rng.shape.nl
      obtain ⟨z1, z2⟩ := remove_last (by omega) hp hr4
      change walkBackward g Vs lf i p f _ (nd r4.1 x).prev = _ at h
      rw [z2.2] at h
      cases f with
      | zero => cases h
      | succ f =>
        rw [walkBackward] at h
        simp only [Res.bind_eq_ok] at h
        obtain ⟨nq, hnq, np, hnp, a, ha, b, hb, _⟩ := h
        obtain ⟨x', e, _, rfl⟩ := deref_eq_ok hnq
        injection e with e; subst e
        have := (goGet_nonneg hb).1
        change 0 ≤ (nd r4.1 x).i at this
        omega

theorem hashEdge_any (I : AInv c n T V R s) {e : Option ℕ} (h : hashEdge g Vs s e = .ok s') : AInv c n T V R s' ∧ Same s s' := by
  unfold hashEdge at h
  simp only [Res.bind_eq_ok] at h
  obtain ⟨_, _, _, _, H, _, h⟩ := h
  injection h with h; subst h
  have sm : Same s { s with hash := H } := ⟨rfl, fun _ => ⟨rfl, rfl, rfl⟩⟩
  exact ⟨I.congr sm ⟨⟨I.rng.shape.tl, I.rng.shape.hl, I.rng.shape.nl, I.rng.shape.len, I.rng.shape.cap⟩, I.rng.one, I.rng.tri, I.rng.hed, I.rng.slot⟩, sm⟩

/-- the node found by the search is on the ring -/
theorem findVisible_any (I : AInv c n T V R s) {p : P} {start : Option ℕ} : ∀ {f : ℕ} {e r : Option ℕ}, findVisible g Vs p start s f e = .ok r →
    ∀ x, r = some x → x ∈ R
  | 0, _, _, h => by cases h
  | f + 1, e, r, h => by
    rw [findVisible] at h
    simp only [Res.bind_eq_ok] at h
    obtain ⟨ne, hne, a, ha, nn, hnn, b, hb, h⟩ := h
    obtain ⟨x, rfl, hx, rfl⟩ := deref_eq_ok hne
    obtain ⟨y, hxy, hy, rfl⟩ := deref_eq_ok hnn
    split_ifs at h with h1 h2
    · injection h with h; subst h
      intro x e; cases e
    · exact findVisible_any I h
    · injection h with h; subst h
      intro x' e; injection e with e; subst e
      exact I.live (goGet_nonneg ha).1 (Or.inl (by rw [hxy]; simp))

/-- the new node -/
theorem newNode_any (I : AInv c n T V R s) {i : ℕ} (hi : i < n) (hiV : i ∉ V) {e : ℕ} (heR : e ∈ R) {r : St × Option ℕ} (h : newNode s i (some e) = .ok r) :
    r.2 = some i ∧ ∃ R', R'.length = R.length + 1 ∧ AInv c n T (insert i V) R' r.1 := by
  obtain ⟨⟨y, hy, ly⟩, _⟩ := I.lks heR
  obtain ⟨l, hl, hp, hnd⟩ := I.from heR
  have hnl := I.rng.shape.nl
  have hiR : i ∉ R := fun h => hiV (I.rV i h)
  have hie : i ≠ e := by rintro rfl; exact hiR heR
  have hiy : i ≠ y := by rintro rfl; exact hiR hy
  obtain ⟨N, e0, e1, e2, e3, e4, e5⟩ := newNode_ok (s := s) (z := (i:ℤ)) rfl (by rw [hnl]; exact I.rlt heR) (by rw [hnl]; exact hi) (by rw [hnl]; exact I.rlt hy) hie hiy ly.1
  rw [e0] at h; injection h with h; subst h
  have hil : i ∉ e :: l := fun h => hiR (hl.mem_iff.mp h)
  have hp' := path_insert (nd' := fun x => N.getD x Node.zero) hp hnd hil e2 e3
  obtain ⟨h0, l0, hR0, hh0, _⟩ := I.ring
  have hh0R : h0 ∈ e :: i :: l := by
    have : h0 ∈ e :: l := hl.mem_iff.mpr (by rw [hR0]; simp)
    simp only [List.mem_cons] at this ⊢
    tauto
  obtain ⟨l1, hl1, hp1⟩ := rot hp' hh0R
  have hmem : ∀ x, x ∈ h0 :: l1 ↔ x = i ∨ x ∈ R := by
    intro x
    rw [hl1.mem_iff, ← hl.mem_iff]
    simp only [List.mem_cons]
    tauto
  refine ⟨rfl, h0 :: l1, ?_, ⟨⟨I.rng.shape.tl, I.rng.shape.hl, e1.trans hnl, I.rng.shape.len, I.rng.shape.cap⟩, I.rng.one, I.rng.tri, I.rng.hed, fun x => ?_⟩,
    ⟨h0, l1, rfl, hh0, hp1⟩, ?_, fun x hx => ?_, fun x hx => ?_, fun x hx => ?_, fun x hx => ?_, fun x hx => ?_, fun x hx hxR => ?_⟩
  · rw [hl1.length_eq, ← hl.length_eq]; simp
  · show 0 ≤ (N.getD x Node.zero).t ∧ (N.getD x Node.zero).t < _
    rw [e4]; exact I.rng.slot x
  · rw [hl1.nodup_iff]
    simp only [List.nodup_cons, List.mem_cons, not_or] at hnd hil ⊢
    exact ⟨⟨fun h => hil.1 h.symm, hnd.1⟩, hil.2, hnd.2⟩
  · show (N.getD x Node.zero).i = _
    rw [e5]
    split_ifs with c1
    · rw [c1]
    · exact I.ids x (((hmem x).mp hx).resolve_left c1)
  · rw [Finset.mem_insert]
    exact ((hmem x).mp hx).imp_right (I.rV x)
  · rcases Finset.mem_insert.mp hx with rfl | hx
    · exact hi
    · exact I.Vn x hx
  · rw [Finset.mem_insert, not_or] at hx
    have hxe : x ≠ e := by rintro rfl; exact hx.2 (I.rV _ heR)
    have hxy : ¬ some x = (nd s e).next := by rw [ly.1]; intro e; injection e with e; subst e; exact hx.2 (I.rV _ hy)
    show (N.getD x Node.zero).next = none ∧ (N.getD x Node.zero).prev = none
    rw [e2, e3, if_neg hxe, if_neg hx.1, if_neg hxy, if_neg hx.1]
    exact I.fresh x hx.2
  · show (N.getD x Node.zero).next ≠ none
    rw [e2]
    split_ifs with c1 c2
    · simp
    · rw [ly.1]; simp
    · exact I.used x ((Finset.mem_insert.mp hx).resolve_left c2)
  · have hxR' : x ≠ i ∧ x ∉ R := by rw [hmem] at hxR; tauto
    show (N.getD x Node.zero).i = _
    rw [e5, if_neg hxR'.1]
    exact I.dead x ((Finset.mem_insert.mp hx).resolve_left hxR'.1) hxR'.2

/-- one insertion -/
theorem insertPoint_any (I : AInv c n T V R s) (hc : T + R.length + 2 = 2 * V.card) {fuel i : ℕ} (hi : i < n) (hiV : i ∉ V) {p : P}
    (h : insertPoint g Vs fuel s i p = .ok s') : ∃ T' V' R', AInv c n T' V' R' s' ∧ T' + R'.length + 2 = 2 * V'.card ∧ V ⊆ V' ∧ V' ⊆ insert i V := by
  rw [insertPoint_parts, Res.bind_eq_ok] at h
  obtain ⟨o, ho, h⟩ := h
  unfold insPre at ho
  simp only [Res.bind_eq_ok] at ho
  obtain ⟨start, _, ns, _, e, he', ho⟩ := ho
  cases e with
  | none =>
    injection ho with ho; subst ho
    injection h with h; subst h
    exact ⟨T, V, R, I, hc, subset_rfl, Finset.subset_insert _ _⟩
  | some e =>
    have heR := findVisible_any I he' e rfl
    simp only [Res.bind_eq_ok] at ho
    obtain ⟨ne, hne, nn, hnn, r1, hr1, s2, hs2, r3, hr3, ho⟩ := ho
    obtain ⟨x, e1, _, rfl⟩ := deref_eq_ok hne
    injection e1 with e1; subst e1
    obtain ⟨y, hxy, _, rfl⟩ := deref_eq_ok hnn
    obtain ⟨⟨y', hyR, ly⟩, _⟩ := I.lks heR
    rw [ly.1] at hxy; injection hxy with hxy; subst hxy
    have hix := I.ids e heR
    have hiy := I.ids y' hyR
    have xlt := I.rlt heR
    have ylt := I.rlt hyR
    have sl := I.rng.slot e
    obtain ⟨k1, k2, k3, _⟩ := addTriangle_rng I.rng (by rw [hix]; omega) (by omega) (by rw [hiy]; omega) (by omega) (by omega) (by omega) hr1
    have I1 := I.congr k1 k2
    obtain ⟨I2, _⟩ := I1.setT (by rw [k3]; push_cast; omega) hs2
    obtain ⟨er, R3, hl3, I3⟩ := newNode_any I2 hi hiV heR hr3
    have hc3 : (T+1) + R3.length + 2 = 2 * (insert i V).card := by rw [Finset.card_insert_of_notMem hiV]; omega
    injection ho with ho; subst ho
    simp only [Res.bind_eq_ok] at h
    obtain ⟨r4, hr4, r5, hr5, s6, hs6, h⟩ := h
    obtain ⟨m1, m2, m3⟩ := legalize_rng I3.rng (by rw [k3]; push_cast; omega) hr4
    have I4 := I3.congr m1 m2
    unfold insMid at hr5
    simp only [Res.bind_eq_ok] at hr5
    obtain ⟨s5, hs5, ne5, hne5, hr5⟩ := hr5
    injection hr5 with hr5; subst hr5
    obtain ⟨I5, _⟩ := I4.setT m3 hs5
    obtain ⟨T6, R6, I6, hc6⟩ := walkForward_any (by omega) I5 hc3 hs6
    unfold insEnd at h
    have e7 : ∃ s7 T7 R7, AInv c n T7 (insert i V) R7 s7 ∧ T7 + R7.length + 2 = 2 * (insert i V).card ∧
        (hashEdge g Vs s7 r3.2 >>= fun s => s.deref r3.2 >>= fun ne => hashEdge g Vs s ne.prev) = .ok s' := by
      split_ifs at h with hw
      · simp only [Res.bind_assoc'] at h
        rw [Res.bind_eq_ok] at h
        obtain ⟨ne, hne, h⟩ := h
        rw [Res.bind_eq_ok] at h
        obtain ⟨s7, hs7, h⟩ := h
        obtain ⟨T7, R7, I7, hc7⟩ := walkBackward_any (by omega) I6 hc6 hs7
        exact ⟨s7, T7, R7, I7, hc7, h⟩
      · exact ⟨s6, T6, R6, I6, hc6, h⟩
    obtain ⟨s7, T7, R7, I7, hc7, h⟩ := e7
    simp only [Res.bind_eq_ok] at h
    obtain ⟨s8, hs8, ne8, hne8, h⟩ := h
    obtain ⟨I8, _⟩ := hashEdge_any I7 hs8
    obtain ⟨I9, _⟩ := hashEdge_any I8 h
    exact ⟨T7, insert i V, R7, I9, hc7, Finset.subset_insert _ _, subset_rfl⟩

/-- the main loop -/
theorem mainLoop_any {fuel i0 i1 i2 : ℕ} : ∀ {ids : List ℤ} {pp : Option P} {s s' : St} {T : ℕ} {V : Finset ℕ} {R : List ℕ}, AInv c n T V R s →
    T + R.length + 2 = 2 * V.card → ids.Nodup → Vs.length = n → (∀ x ∈ V, (x:ℤ) ∈ ids → x = i0 ∨ x = i1 ∨ x = i2) →
    mainLoop g Vs fuel i0 i1 i2 ids pp s = .ok s' → ∃ T' V' R', AInv c n T' V' R' s' ∧ T' + R'.length + 2 = 2 * V'.card ∧ V ⊆ V'
  | [], _, _, _, T, V, R, I, hc, _, _, _, h => by
    injection h with h; subst h
    exact ⟨T, V, R, I, hc, subset_rfl⟩
  | i :: ids, pp, s, s', T, V, R, I, hc, hnd, hVs, hV, h => by
    rw [mainLoop, Res.bind_eq_ok] at h
    obtain ⟨p, hp, h⟩ := h
    have hV' : ∀ x ∈ V, (x:ℤ) ∈ ids → x = i0 ∨ x = i1 ∨ x = i2 := fun x hx hxi => hV x hx (List.mem_cons_of_mem _ hxi)
    have hnd' := (List.nodup_cons.mp hnd)
    dsimp only at h
    generalize (match pp with | none => false | some q => g.near p q) = sk at h
    split_ifs at h with h1 h2
    · exact mainLoop_any I hc hnd'.2 hVs hV' h
    · exact mainLoop_any I hc hnd'.2 hVs hV' h
    · rw [Res.bind_eq_ok] at h
      obtain ⟨s1, hs1, h⟩ := h
      have hir := goGet_nonneg hp
      obtain ⟨j, rfl⟩ := Int.eq_ofNat_of_zero_le hir.1
      have hjV : j ∉ V := by
        intro hj
        have := hV j hj (by simp)
        apply h2
        rcases this with h | h | h <;> simp [h]
      obtain ⟨T1, V1, R1, I1, hc1, a1, a2⟩ := insertPoint_any I hc (i := j) (by omega) hjV hs1
      obtain ⟨T2, V2, R2, I2, hc2, a3⟩ := mainLoop_any I1 hc1 hnd'.2 hVs (fun x hx hxi => by
        rcases Finset.mem_insert.mp (a2 hx) with rfl | hx
        · exact absurd hxi hnd'.1
        · exact hV' x hx hxi) h
      exact ⟨T2, V2, R2, I2, hc2, a1.trans a3⟩

/-- the initial state -/
theorem initState_any {m i0 i1 i2 : ℕ} (hVs : Vs.length = n) (h0 : i0 < n) (h1 : i1 < n) (h2 : i2 < n)
    (d01 : i0 ≠ i1) (d12 : i1 ≠ i2) (d20 : i2 ≠ i0) (h : initState g Vs m i0 i1 i2 = .ok s) :
    AInv (3*(2*n-5)) n 1 {i0, i1, i2} [i2, i0, i1] s ∧ 1 + [i2, i0, i1].length + 2 = 2 * ({i0, i1, i2} : Finset ℕ).card := by
  have e : initState g Vs m i0 i1 i2 = initState { g with inC := fun _ _ _ _ => false, areaLt := fun _ _ _ => false } Vs m i0 i1 i2 := rfl
  rw [e] at h
  have O : Orc { g with inC := fun _ _ _ _ => false, areaLt := fun _ _ _ => false } Vs (fun _ _ => (0:ℚ)) False m i0 i1 i2 :=
    ⟨fun p _ _ => ⟨fun _ _ _ => rfl, fun _ _ _ _ _ _ _ _ => ⟨rfl, rfl, rfl⟩⟩, fun _ _ => rfl, fun _ _ => rfl, fun h => h.elim, fun h => h.elim, fun h => h.elim, fun h => h.elim⟩
  rcases initState_ok O hVs h0 h1 h2 d01 d12 d20 (fun h => h.elim) with ⟨s1, e1, I, hm, _, A⟩ | ⟨e1, _⟩
  · rw [e1] at h; injection h with h; subst h
    have hcard : ({i0, i1, i2} : Finset ℕ).card = 3 := by
      rw [Finset.card_insert_of_notMem (by simp [d01, d20.symm]), Finset.card_insert_of_notMem (by simp [d12])]; simp
    have hmem : ∀ x, x ∈ ({i0, i1, i2} : Finset ℕ) ↔ x ∈ [i2, i0, i1] := by intro x; simp; tauto
    refine ⟨⟨⟨I.shape, le_rfl, I.mesh.rng, fun k hk => ?_, fun x => ?_⟩, I.ring, I.nodup, I.ids, I.rV, I.Vn, fun x hx => ?_, fun x hx => ?_, I.dead⟩, ?_⟩
    · rcases I.mesh.inv k hk with h | ⟨j, h1, h2, _⟩ <;> omega
    · by_cases hx : x ∈ [i2, i0, i1]
      · obtain ⟨t, y, h1, _, h2, _⟩ := I.own x hx
        omega
      · rw [I.fresh x (by rw [hmem]; exact hx)]
        exact ⟨le_rfl, by norm_num [Node.zero]⟩
    · rw [I.fresh x hx]; exact ⟨rfl, rfl⟩
    · obtain ⟨t, y, _, h2, _⟩ := I.own x ((hmem x).mp hx)
      rw [h2]; simp
    · rw [hcard]; rfl
  · rw [e1] at h; cases h

/-- a whole run -/
theorem core_any {fuel m i0 i1 i2 : ℕ} {ids : List ℤ} (h0 : i0 < Vs.length) (h1 : i1 < Vs.length) (h2 : i2 < Vs.length)
    (d01 : i0 ≠ i1) (d12 : i1 ≠ i2) (d20 : i2 ≠ i0) (hids : ids.Nodup) (h : triangulateCore g Vs fuel m i0 i1 i2 ids = .ok s) :
    ∃ s0 T V R, AInv (3*(2*Vs.length-5)) Vs.length T V R s0 ∧ T + R.length + 2 = 2 * V.card ∧ {i0, i1, i2} ⊆ V ∧
      s = { s0 with triangles := s0.triangles.take (3*T), halfedges := s0.halfedges.take (3*T) } := by
  unfold triangulateCore at h
  simp only [Res.bind_eq_ok] at h
  obtain ⟨s1, hs1, s2, hs2, h⟩ := h
  injection h with h; subst h
  obtain ⟨I1, c1⟩ := initState_any rfl h0 h1 h2 d01 d12 d20 hs1
  obtain ⟨T, V, R, I, hc, hV⟩ := mainLoop_any I1 c1 hids rfl (fun x hx _ => by simpa using hx) hs2
  have hl : s2.trianglesLen.toNat = 3*T := by have := I.rng.shape.len; omega
  exact ⟨s2, T, V, R, I, hc, hV, by rw [hl]⟩

end Verif.Proofs
