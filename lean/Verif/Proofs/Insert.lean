import Mathlib.Algebra.Order.Field.Basic
import Mathlib.Algebra.BigOperators.Group.List.Basic
import Verif.Proofs.AddTri
/-!
# The stages of one insertion (triangulator.go:209-236) for arbitrary predicates
-/
namespace Verif.Proofs
open Verif Verif.Tri2

variable {K : Type} [Field K] [LinearOrder K] [IsStrictOrderedRing K]

/-- the sum of `κ` over the hull edges -/
def ringSum (κ : ℕ → ℕ → K) (s : St) (R : List ℕ) : K := (R.map fun x => κ x ((nd s x).next.getD 0)).sum

/-- invariant of the triangulator between two triangles: `V` inserted vertices, `R` the hull, `T` triangles -/
structure RInv (κ : ℕ → ℕ → K) (Ex : Prop) (c n i0 i1 i2 T : ℕ) (V : Finset ℕ) (R : List ℕ) (s : St) : Prop where
  shape : Shape c n T s
  mesh : MeshF n T (tr s) (he s)
  ring : ∃ h l, R = h :: l ∧ s.hull = some h ∧ Path (nd s) h l h
  nodup : R.Nodup
  own : ∀ x ∈ R, Own T s x
  cov : ∀ k < 3*T, he s k = -1 → ∃ x ∈ R, (nd s x).t = k
  ids : ∀ x ∈ R, (nd s x).i = x
  two : 2 ≤ R.length
  seed : 1 ≤ T ∧ tr s 0 = i0 ∧ tr s 1 = i1 ∧ tr s 2 = i2
  rV : ∀ x ∈ R, x ∈ V
  Vn : ∀ x ∈ V, x < n
  tV : ∀ k < 3*T, ∃ v ∈ V, tr s k = (v : ℕ)
  Vt : ∀ v ∈ V, ∃ k < 3*T, tr s k = (v : ℕ)
  fresh : ∀ x, x ∉ V → nd s x = Node.zero
  cnt : T + R.length + 2 = 2 * V.card
  pos : Ex → 0 < ringSum κ s R
  dead : ∀ x ∈ V, x ∉ R → (nd s x).i = -1
  hash : ∀ z ∈ s.hash, z = none ∨ ∃ x ∈ V, z = some x

theorem RInv.rlt {κ : ℕ → ℕ → K} {Ex : Prop} {c n i0 i1 i2 T : ℕ} {V : Finset ℕ} {R : List ℕ} {s : St} (I : RInv κ Ex c n i0 i1 i2 T V R s)
    {x : ℕ} (hx : x ∈ R) : x < n := I.Vn x (I.rV x hx)

/-- the triangle `q p r` is added and its edge `r q` legalized -/
def AddLeg {P : Type} (g : Geo P) (Vs : List P) (n T p q r : ℕ) (s s' : St) : Prop :=
  ∃ (t1 h1 : ℕ → ℤ) (a b c : ℤ), Added T (tr s) (he s) t1 h1 q p r a b c ∧ MeshF n (T+1) t1 h1 ∧
    Leg g Vs n (T+1) p (3*T+2) (t1, h1) (tr s', he s')

/-- the ring after the first triangle of an insertion -/
structure FirstStep {P : Type} (g : Geo P) (Vs : List P) (n p e y T : ℕ) (R R' : List ℕ) (s s' : St) : Prop where
  add : AddLeg g Vs n T p e y s s'
  perm : R'.Perm (p :: R)
  mem : e ∈ R
  next : (nd s e).next = some y
  nexte : (nd s' e).next = some p
  nextp : (nd s' p).next = some y
  old : ∀ x, x ≠ e → x ≠ p → (nd s' x).next = (nd s x).next

/-- one step of the forward walk for the point `p` at `v` -/
structure FwdStep {P : Type} (g : Geo P) (Vs : List P) (κ : ℕ → ℕ → K) (Ex : Prop) (c n i0 i1 i2 : ℕ) (V : Finset ℕ) (p : ℕ) (v : P) (q r T : ℕ)
    (R R' : List ℕ) (s s' : St) : Prop where
  inv : RInv κ Ex c n i0 i1 i2 T V R s
  inv' : RInv κ Ex c n i0 i1 i2 (T+1) V R' s'
  add : AddLeg g Vs n T p q r s s'
  perm : R.Perm (q :: R')
  mem : p ∈ R
  nextp : (nd s p).next = some q
  nextq : (nd s q).next = some r
  ne : p ≠ r
  seen : ∃ vq vr, Vs[q]? = some vq ∧ Vs[r]? = some vr ∧ g.areaLt v vq vr = true
  nextp' : (nd s' p).next = some r
  old : ∀ x, x ≠ p → (nd s' x).next = (nd s x).next

/-- one step of the backward walk for the point `p` at `v` -/
structure BwdStep {P : Type} (g : Geo P) (Vs : List P) (κ : ℕ → ℕ → K) (Ex : Prop) (c n i0 i1 i2 : ℕ) (V : Finset ℕ) (p : ℕ) (v : P) (w q T : ℕ)
    (R R' : List ℕ) (s s' : St) : Prop where
  inv : RInv κ Ex c n i0 i1 i2 T V R s
  inv' : RInv κ Ex c n i0 i1 i2 (T+1) V R' s'
  add : AddLeg g Vs n T p w q s s'
  perm : R.Perm (q :: R')
  mem : p ∈ R
  nextw : (nd s w).next = some q
  nextq : (nd s q).next = some p
  memw : w ∈ R
  ne : p ≠ w
  seen : ∃ vw vq, Vs[w]? = some vw ∧ Vs[q]? = some vq ∧ g.areaLt v vw vq = true
  nextw' : (nd s' w).next = some p
  old : ∀ x, x ≠ w → (nd s' x).next = (nd s x).next

/-- the forward walk -/
inductive Fwd {P : Type} (g : Geo P) (Vs : List P) (κ : ℕ → ℕ → K) (Ex : Prop) (c n i0 i1 i2 : ℕ) (V : Finset ℕ) (p : ℕ) (v : P) :
    ℕ → List ℕ → St → ℕ → List ℕ → St → Prop
  | stop {T : ℕ} {R : List ℕ} {s : St} {b b' : ℕ} {vb vb' : P} : RInv κ Ex c n i0 i1 i2 T V R s → p ∈ R → (nd s p).next = some b → (nd s b).next = some b' →
      Vs[b]? = some vb → Vs[b']? = some vb' → g.areaLt v vb vb' = false → Fwd g Vs κ Ex c n i0 i1 i2 V p v T R s T R s
  | step {T q r T' : ℕ} {R R1 R' : List ℕ} {s s1 s' : St} : FwdStep g Vs κ Ex c n i0 i1 i2 V p v q r T R R1 s s1 →
      Fwd g Vs κ Ex c n i0 i1 i2 V p v (T+1) R1 s1 T' R' s' → Fwd g Vs κ Ex c n i0 i1 i2 V p v T R s T' R' s'

/-- the backward walk -/
inductive Bwd {P : Type} (g : Geo P) (Vs : List P) (κ : ℕ → ℕ → K) (Ex : Prop) (c n i0 i1 i2 : ℕ) (V : Finset ℕ) (p : ℕ) (v : P) :
    ℕ → List ℕ → St → ℕ → List ℕ → St → Prop
  | stop {T : ℕ} {R : List ℕ} {s : St} {w a : ℕ} {vw va : P} : RInv κ Ex c n i0 i1 i2 T V R s → p ∈ R → a ∈ R → w ∈ R → (nd s a).next = some p → (nd s w).next = some a →
      Vs[w]? = some vw → Vs[a]? = some va → g.areaLt v vw va = false → Bwd g Vs κ Ex c n i0 i1 i2 V p v T R s T R s
  | step {T w q T' : ℕ} {R R1 R' : List ℕ} {s s1 s' : St} : BwdStep g Vs κ Ex c n i0 i1 i2 V p v w q T R R1 s s1 →
      Bwd g Vs κ Ex c n i0 i1 i2 V p v (T+1) R1 s1 T' R' s' → Bwd g Vs κ Ex c n i0 i1 i2 V p v T R s T' R' s'

/-- one complete insertion of the point `p` at `v` -/
inductive Inserted {P : Type} (g : Geo P) (Vs : List P) (κ : ℕ → ℕ → K) (Ex : Prop) (c n i0 i1 i2 : ℕ) (V : Finset ℕ) (p : ℕ) (v : P)
    (T : ℕ) (R : List ℕ) (s : St) (T' : ℕ) (R' : List ℕ) (s' : St) : Prop
  | mk {e y : ℕ} {R1 : List ℕ} {s1 : St} {T2 : ℕ} {R2 : List ℕ} {s2 s3 : St} {ve vy : P} {H : List (Option ℕ)} :
      RInv κ Ex c n i0 i1 i2 T V R s → Vs[e]? = some ve → Vs[y]? = some vy → g.areaGe v ve vy = false →
      FirstStep g Vs n p e y T R R1 s s1 → RInv κ Ex c n i0 i1 i2 (T+1) (insert p V) R1 s1 →
      Fwd g Vs κ Ex c n i0 i1 i2 (insert p V) p v (T+1) R1 s1 T2 R2 s2 →
      (Bwd g Vs κ Ex c n i0 i1 i2 (insert p V) p v T2 R2 s2 T' R' s3 ∨
        (T' = T2 ∧ R' = R2 ∧ s3 = s2 ∧ ∃ w vw, w ∈ R ∧ (nd s w).next = some e ∧ Vs[w]? = some vw ∧ g.areaGe v vw ve = true)) →
      s' = { s3 with hash := H } → RInv κ Ex c n i0 i1 i2 T' (insert p V) R' s' →
      Inserted g Vs κ Ex c n i0 i1 i2 V p v T R s T' R' s'

/-- the main loop over the remaining ids; `pp` is the last point that was not skipped -/
inductive Run {P : Type} (g : Geo P) (Vs : List P) (κ : ℕ → ℕ → K) (Ex : Prop) (c n i0 i1 i2 : ℕ) :
    List ℤ → Option P → ℕ → Finset ℕ → List ℕ → St → ℕ → Finset ℕ → List ℕ → St → Prop
  | nil {pp : Option P} {T : ℕ} {V : Finset ℕ} {R : List ℕ} {s : St} : RInv κ Ex c n i0 i1 i2 T V R s → Run g Vs κ Ex c n i0 i1 i2 [] pp T V R s T V R s
  | near {i : ℕ} {ids : List ℤ} {q v : P} {T : ℕ} {V : Finset ℕ} {R : List ℕ} {s : St} {T' : ℕ} {V' : Finset ℕ} {R' : List ℕ} {s' : St} :
      Vs[i]? = some v → g.near v q = true → Run g Vs κ Ex c n i0 i1 i2 ids (some q) T V R s T' V' R' s' →
      Run g Vs κ Ex c n i0 i1 i2 ((i : ℤ) :: ids) (some q) T V R s T' V' R' s'
  | seed {i : ℕ} {ids : List ℤ} {v : P} {pp : Option P} {T : ℕ} {V : Finset ℕ} {R : List ℕ} {s : St} {T' : ℕ} {V' : Finset ℕ} {R' : List ℕ} {s' : St} :
      Vs[i]? = some v → (i = i0 ∨ i = i1 ∨ i = i2) → Run g Vs κ Ex c n i0 i1 i2 ids (some v) T V R s T' V' R' s' →
      Run g Vs κ Ex c n i0 i1 i2 ((i : ℤ) :: ids) pp T V R s T' V' R' s'
  | hidden {i : ℕ} {ids : List ℤ} {v : P} {pp : Option P} {T : ℕ} {V : Finset ℕ} {R : List ℕ} {s : St} {T' : ℕ} {V' : Finset ℕ} {R' : List ℕ} {s' : St} :
      Vs[i]? = some v → RInv κ Ex c n i0 i1 i2 T V R s →
      (∀ x ∈ R, ∀ y vx vy, (nd s x).next = some y → Vs[x]? = some vx → Vs[y]? = some vy → g.areaGe v vx vy = true) →
      Run g Vs κ Ex c n i0 i1 i2 ids (some v) T V R s T' V' R' s' →
      Run g Vs κ Ex c n i0 i1 i2 ((i : ℤ) :: ids) pp T V R s T' V' R' s'
  | ins {i : ℕ} {ids : List ℤ} {v : P} {pp : Option P} {T : ℕ} {V : Finset ℕ} {R : List ℕ} {s : St} {T1 : ℕ} {R1 : List ℕ} {s1 : St}
      {T' : ℕ} {V' : Finset ℕ} {R' : List ℕ} {s' : St} :
      Vs[i]? = some v → i ∉ V → Inserted g Vs κ Ex c n i0 i1 i2 V i v T R s T1 R1 s1 →
      Run g Vs κ Ex c n i0 i1 i2 ids (some v) T1 (insert i V) R1 s1 T' V' R' s' →
      Run g Vs κ Ex c n i0 i1 i2 ((i : ℤ) :: ids) pp T V R s T' V' R' s'

/-- read the ring from the node `x` -/
theorem RInv.at {κ : ℕ → ℕ → K} {Ex : Prop} {c n i0 i1 i2 T : ℕ} {V : Finset ℕ} {R : List ℕ} {s : St} (I : RInv κ Ex c n i0 i1 i2 T V R s)
    {x y : ℕ} (hx : x ∈ R) (hy : (nd s x).next = some y) : ∃ l, (x :: y :: l).Perm R ∧ Path (nd s) x (y :: l) x := by
  obtain ⟨h, l, rfl, _, hp⟩ := I.ring
  obtain ⟨l', hl, hp'⟩ := rot hp hx
  have hlen := hl.length_eq
  have := I.two
  cases l' with
  | nil => simp only [List.length_cons, List.length_nil] at hlen this; omega
  | cons y' l' =>
    have e := hp'.1.1
    rw [hy] at e; injection e with e; subst e
    exact ⟨l', hl, hp'⟩

theorem ringSum_perm {κ : ℕ → ℕ → K} {s : St} {R R' : List ℕ} (h : R.Perm R') : ringSum κ s R = ringSum κ s R' :=
  (h.map _).sum_eq

theorem nonP_card (T p : ℕ) (tr : ℕ → ℤ) : (nonP T p tr).card ≤ T := by
  have : nonP T p tr ⊆ Finset.range T := by
    intro m hm
    rw [mem_nonP] at hm
    exact Finset.mem_range.mpr hm.1
  simpa using Finset.card_le_card this

/-- the new triangle contains `p`: the number of triangles without `p` does not grow -/
theorem nonP_add {T p : ℕ} {t t1 : ℕ → ℤ} (told : ∀ k < 3*T, t1 k = t k) (h : t1 (3*T+1) = p) :
    (nonP (T+1) p t1).card ≤ (nonP T p t).card := by
  apply Finset.card_le_card
  intro m hm
  rw [mem_nonP] at hm ⊢
  have hne : m ≠ T := by
    rintro rfl
    exact hm.2 (by rw [hasP_div (m := 3*m+1) (by omega)]; exact Or.inl h)
  have hlt : m < T := by omega
  refine ⟨hlt, fun hp => hm.2 ?_⟩
  rcases hp with h | h | h
  · exact Or.inl (by rw [told _ (by omega)]; exact h)
  · exact Or.inr (Or.inl (by rw [told _ (nx_lt (by omega))]; exact h))
  · exact Or.inr (Or.inr (by rw [told _ (pv_lt (by omega))]; exact h))

/-- `addTriangle`, `newNode` and `legalize` for the first visible edge -/
theorem first_ok {P : Type} {g : Geo P} {Vs : List P} {κ : ℕ → ℕ → K} {Ex : Prop} {c n i0 i1 i2 T : ℕ} {V : Finset ℕ} {R : List ℕ} {s : St}
    (I : RInv κ Ex c n i0 i1 i2 T V R s) (hVs : Vs.length = n) (hc : c + 15 = 6*n) {fuel : ℕ} (hfuel : c < fuel)
    {i e y : ℕ} (hi : i < n) (hiV : i ∉ V) (hps : i ≠ i0 ∧ i ≠ i1 ∧ i ≠ i2) (hsafe : Safe g Vs i i0 i1 i2)
    (heR : e ∈ R) (hnext : (nd s e).next = some y) (hκ : Ex → 0 < κ e i + κ i y - κ e y) :
    ∃ (s1 s2 s3 s4 s5 : St) (r : ℤ) (R' : List ℕ),
      addTriangle s (nd s e).i i (nd s y).i (-1) (-1) (nd s e).t = .ok (s1, ((3*T : ℕ) : ℤ)) ∧
      s1.modNode (some e) (fun x => { x with t := ((3*T : ℕ) : ℤ) }) = .ok s2 ∧
      newNode s2 i (some e) = .ok (s3, some i) ∧
      legalize g Vs fuel s3 (((3*T : ℕ) : ℤ) + 2) = .ok (s4, r) ∧
      s4.modNode (some i) (fun x => { x with t := r }) = .ok s5 ∧
      RInv κ Ex c n i0 i1 i2 (T+1) (insert i V) R' s5 ∧ i ∈ R' ∧ (nd s5 i).next = some y ∧ (nd s5 i).prev = some e ∧
      s5.hash = s.hash ∧ R'.length = R.length + 1 ∧ FirstStep g Vs n i e y T R R' s s5 ∧
      ∃ f, f + (nonP (T+1) i (tr s5)).card ≤ T ∧
        ∀ w : Weights, ∃ k ≤ legBound w n 1 f, (legalizeCt w g Vs fuel s3 (((3*T : ℕ) : ℤ) + 2)).run = .ok ((s4, r), k) := by
  obtain ⟨l, hperm, hpath⟩ := I.at heR hnext
  have hnd : (e :: y :: l).Nodup := hperm.nodup_iff.mpr I.nodup
  have hyR : y ∈ R := hperm.mem_iff.mp (by simp)
  have hey : e ≠ y := by rintro rfl; simp at hnd
  have hiR : i ∉ R := fun h => hiV (I.rV i h)
  have hie : i ≠ e := by rintro rfl; exact hiR heR
  have hiy : i ≠ y := by rintro rfl; exact hiR hyR
  have hcap : 3*(T+1) ≤ c := by
    have h1 := I.cnt
    have h2 := I.two
    have h3 : V.card + 1 ≤ n := by
      have : (insert i V).card ≤ (Finset.range n).card := Finset.card_le_card (by
        intro x hx
        rcases Finset.mem_insert.mp hx with rfl | hx
        · exact Finset.mem_range.mpr hi
        · exact Finset.mem_range.mpr (I.Vn x hx))
      rw [Finset.card_insert_of_notMem hiV, Finset.card_range] at this
      exact this
    omega
  obtain ⟨te, ye, hte, hye, htelt, htebd, htetr, htenx⟩ := I.own e heR
  have : ye = y := by rw [hnext] at hye; injection hye with hye; exact hye.symm
  subst this
  have hse := I.shape
  obtain ⟨htl, hhl, hnl, hlen, _⟩ := I.shape
  rw [I.ids e heR, I.ids ye hyR, hte]
  have dz : ∀ {x z : ℕ}, x ≠ z → (x:ℤ) ≠ (z:ℤ) := fun h => by exact_mod_cast h
  have pd : Port T (tr s) (he s) (te : ℕ) ye e := Or.inr ⟨te, rfl, htelt, htebd, htetr, htenx⟩
  obtain ⟨s1, a1, S1, A1, hu1, ha1, no1⟩ := addTriangle_ok hse hcap (x0 := e) (x1 := i) (x2 := ye) (a := -1) (b := -1) (d := te)
    (dz hie.symm) (dz hiy) (dz hey.symm) (Or.inl rfl) (Or.inl rfl) pd
  have zr : ∀ {x : ℕ}, x < n → (0:ℤ) ≤ x ∧ (x:ℤ) < n := fun h => by omega
  have M1 := mesh_add I.mesh A1 (zr (I.rlt heR)) (zr hi) (zr (I.rlt hyR)) (dz hie.symm) (dz hiy) (dz hey.symm) (Or.inl rfl) (Or.inl rfl) pd
  have hn1 : s1.nodes.length = n := S1.nl
  have elt := I.rlt heR
  have ylt := I.rlt hyR
  have m2 := modNode_ok (s := s1) (x := e) (by omega) (fun x => { x with t := ((3*T : ℕ) : ℤ) })
  set s2 : St := { s1 with nodes := s1.nodes.set e { nd s1 e with t := ((3*T : ℕ) : ℤ) } } with hs2
  have nd1 : ∀ x, nd s1 x = nd s x := fun x => by unfold nd; rw [no1]
  have nd2 : ∀ x, nd s2 x = if x = e then { nd s e with t := ((3*T : ℕ) : ℤ) } else nd s x := fun x => by
    rw [← nd1 e, ← nd1 x]; exact nd_set (by omega) _ x
  have nd2n : ∀ x, (nd s2 x).next = (nd s x).next ∧ (nd s2 x).prev = (nd s x).prev ∧ (nd s2 x).i = (nd s x).i := fun x => by
    rw [nd2]; split_ifs with h
    · rw [h]; exact ⟨rfl, rfl, rfl⟩
    · exact ⟨rfl, rfl, rfl⟩
  have hn2 : s2.nodes.length = n := by simp [hs2, hn1]
  obtain ⟨N, n3, hN, Nn, Np, Nt, Ni⟩ := newNode_ok (s := s2) (e := e) (i := i) (y := ye) (z := i) rfl (by omega) (by omega) (by omega)
    hie hiy (by rw [(nd2n e).1]; exact hnext)
  simp only [(nd2n _).1, (nd2n _).2.1, (nd2n _).2.2] at Nn Np Ni
  set s3 : St := { s2 with nodes := N } with hs3
  have nd3n : ∀ x, (nd s3 x).next = if x = e then some i else if x = i then (nd s e).next else (nd s x).next := Nn
  have nd3p : ∀ x, (nd s3 x).prev = if some x = (nd s e).next then some i else if x = i then some e else (nd s x).prev := Np
  have nd3t : ∀ x, (nd s3 x).t = if x = e then ((3*T : ℕ) : ℤ) else (nd s x).t := fun x => by
    rw [show (nd s3 x).t = (nd s2 x).t from Nt x, nd2]; split_ifs <;> rfl
  have nd3i : ∀ x, (nd s3 x).i = if x = i then (i:ℤ) else (nd s x).i := Ni
  have tr3 : tr s3 = tr s1 := rfl
  have he3 : he s3 = he s1 := rfl
  have hp3 : Path (nd s3) e (i :: ye :: l) e :=
    path_insert hpath hnd (by rw [hperm.mem_iff]; exact hiR) nd3n nd3p
  obtain ⟨h, l0, hR, hhull, _⟩ := I.ring
  have hh : h ∈ e :: i :: ye :: l := by
    have : h ∈ e :: ye :: l := hperm.mem_iff.mpr (by rw [hR]; simp)
    simp only [List.mem_cons] at this ⊢
    tauto
  obtain ⟨l'', hperm', hp3'⟩ := rot hp3 hh
  set R' := h :: l'' with hR'
  have permR : R'.Perm (i :: R) := hperm'.trans ((List.Perm.swap _ _ _).trans (hperm.cons i))
  have memR : ∀ x, x ∈ R' ↔ x = i ∨ x ∈ R := fun x => by rw [permR.mem_iff]; simp
  have nodR : R'.Nodup := permR.nodup_iff.mpr (List.nodup_cons.mpr ⟨hiR, I.nodup⟩)
  -- boundary slots before legalize
  have bdold : ∀ k < 3*T, he s1 k = -1 → k ≠ te ∧ he s k = -1 := by
    intro k hk hb
    by_cases c : (k:ℤ) = (te:ℕ)
    · have := A1.hc k hk c; omega
    · refine ⟨fun e => c (by rw [e]), ?_⟩
      rw [← A1.hold k hk (by omega) (by omega) c]; exact hb
  have ownx : ∀ x ∈ R, x ≠ e → ∀ t : ℕ, (nd s x).t = t → t ≠ te := by
    intro x hx hxe t ht e'
    obtain ⟨t', _, q1, _, _, _, q2, _⟩ := I.own x hx
    have : t' = te := by omega
    subst this
    rw [htetr] at q2
    exact hxe (by exact_mod_cast q2.symm)
  have L3 : LegInv c n (T+1) i i0 i1 i2 R' (fun x => x = i) s3 := by
    refine ⟨⟨S1.tl, S1.hl, ?_, S1.len, S1.cap⟩, by rw [tr3, he3]; exact M1, ⟨h, l'', rfl, ?_, hp3'⟩, nodR, ?_, ?_, ?_, ?_, ?_⟩
    · show N.length = n
      rw [hN, hn2]
    · show s1.hull = _
      rw [hu1]; exact hhull
    · intro x hx
      rcases (memR x).mp hx with rfl | hx
      · exact hi
      · exact I.rlt hx
    · intro x hx hxi
      have hxR : x ∈ R := by
        rcases (memR x).mp hx with h | h
        · exact absurd h hxi
        · exact h
      by_cases hxe : x = e
      · subst hxe
        refine ⟨3*T, i, by rw [nd3t, if_pos rfl], by rw [nd3n, if_pos rfl], by omega, A1.h0, A1.t0, ?_⟩
        rw [nx_T0]; exact A1.t1
      · obtain ⟨t, y', q1, q2, q3, q4, q5, q6⟩ := I.own x hxR
        have hne := ownx x hxR hxe t q1
        refine ⟨t, y', by rw [nd3t, if_neg hxe]; exact q1, by rw [nd3n, if_neg hxe, if_neg hxi]; exact q2, by omega, ?_, ?_, ?_⟩
        · rw [he3, A1.hold t q3 (by omega) (by omega) (dz hne)]; exact q4
        · rw [tr3, A1.told t q3]; exact q5
        · rw [tr3, A1.told _ (nx_lt q3)]; exact q6
    · intro k hk hb hnp
      by_cases hk' : k < 3*T
      · obtain ⟨b1, b2⟩ := bdold k hk' hb
        obtain ⟨x, hx, ht⟩ := I.cov k hk' b2
        have hxe : x ≠ e := by
          rintro rfl
          rw [hte] at ht
          exact b1 (by exact_mod_cast ht.symm)
        refine ⟨x, (memR x).mpr (Or.inr hx), fun h => hiR (h ▸ hx), ?_⟩
        rw [nd3t, if_neg hxe]; exact ht
      · exfalso
        apply hnp
        rw [hasP_div (m := 3*T+1) (by omega)]
        exact Or.inl A1.t1
    · rintro x hx rfl
      refine ⟨0, ?_, by omega, Or.inr (Or.inl (by omega))⟩
      rw [nd3t, if_neg hie, I.fresh x hiV]; rfl
    · obtain ⟨s1', s2', s3', s4'⟩ := I.seed
      rw [tr3, A1.told 0 (by omega), A1.told 1 (by omega), A1.told 2 (by omega)]
      exact ⟨by omega, s2', s3', s4'⟩
  have hpa : pv (3*T+2) = 3*T+1 := pv_T2 T
  obtain ⟨s4, σ, f4, L4, P4, F4, fl, hfl, Wl⟩ := legalize_ok hVs hps hsafe fuel s3 (3*T+2) L3 (by omega) (by rw [hpa]; exact A1.t1)
    (fun _ => rfl) (by have := nonP_card (T+1) i (tr s3); omega)
  rw [hpa] at f4 Wl
  have hn4 : s4.nodes.length = n := L4.shape.nl
  have m5 := modNode_ok (s := s4) (x := i) (by omega) (fun x => { x with t := ((σ (3*T+1) : ℕ) : ℤ) })
  set s5 : St := { s4 with nodes := s4.nodes.set i { nd s4 i with t := ((σ (3*T+1) : ℕ) : ℤ) } } with hs5
  have nd5 : ∀ x, nd s5 x = if x = i then { nd s4 i with t := ((σ (3*T+1) : ℕ) : ℤ) } else nd s4 x := fun x => nd_set (by omega) _ x
  have nd5n : ∀ x, (nd s5 x).next = (nd s3 x).next ∧ (nd s5 x).prev = (nd s3 x).prev ∧ (nd s5 x).i = (nd s3 x).i := fun x => by
    obtain ⟨q1, q2, q3⟩ := P4.node x
    rw [nd5]; split_ifs with h
    · subst h; exact ⟨q2, q3, q1⟩
    · exact ⟨q2, q3, q1⟩
  have nd5t : ∀ x, x ≠ i → (nd s5 x).t = (nd s4 x).t := fun x hx => by rw [nd5, if_neg hx]
  have tr5 : tr s5 = tr s4 := rfl
  have he5 : he s5 = he s4 := rfl
  refine ⟨s1, s2, s3, s4, s5, _, R', a1, m2, n3, by
      rw [show (((3*T : ℕ) : ℤ) + 2) = ((3*T+2 : ℕ) : ℤ) by push_cast; ring]; exact f4, m5, ?_, (memR i).mpr (Or.inl rfl), ?_, ?_, ?_, ?_, ?_, fl, ?_, ?_⟩
  · refine ⟨⟨L4.shape.tl, L4.shape.hl, by simp [hs5, hn4], L4.shape.len, L4.shape.cap⟩, by rw [tr5, he5]; exact L4.mesh,
      ⟨h, l'', rfl, ?_, ?_⟩, nodR, ?_, ?_, ?_, ?_, by rw [tr5]; exact L4.seed, ?_, ?_, ?_, ?_, ?_, ?_, ?_, ?_, ?_⟩
    · show s4.hull = _
      rw [P4.hull]
      show s1.hull = _
      rw [hu1]; exact hhull
    · rw [path_congr (fun x => ⟨(nd5n x).1, (nd5n x).2.1⟩)]; exact hp3'
    · intro x hx
      by_cases hxi : x = i
      · subst hxi
        obtain ⟨b1, b2, b3⟩ := P4.bd (3*T+1) (by omega) A1.h1
        refine ⟨σ (3*T+1), ye, by rw [nd5, if_pos rfl], ?_, P4.rng _ (by omega), b1, ?_, ?_⟩
        · rw [(nd5n x).1, nd3n, if_neg hie, if_pos rfl]; exact hnext
        · rw [tr5, b2]; exact A1.t1
        · rw [tr5, b3, nx_T1]; exact A1.t2
      · obtain ⟨t, y', q1, q2, q3, q4, q5, q6⟩ := L4.own x hx hxi
        exact ⟨t, y', by rw [nd5t x hxi]; exact q1, by rw [nd5, if_neg hxi]; exact q2, q3, q4, q5, q6⟩
    · intro k hk hb
      obtain ⟨m, y1, y2, y3⟩ := P4.bdinv k hk hb
      by_cases hm : m < 3*T
      · obtain ⟨b1, b2⟩ := bdold m hm y2
        obtain ⟨x, hx, ht⟩ := I.cov m hm b2
        have hxe : x ≠ e := by
          rintro rfl
          rw [hte] at ht
          exact b1 (by exact_mod_cast ht.symm)
        have hxi : x ≠ i := fun h => hiR (h ▸ hx)
        refine ⟨x, (memR x).mpr (Or.inr hx), ?_⟩
        rw [nd5t x hxi, P4.owners x ((memR x).mpr (Or.inr hx)) hxi m (by rw [nd3t, if_neg hxe]; exact ht), y3]
      · rcases new_slot y1 hm with rfl | rfl | rfl
        · refine ⟨e, (memR e).mpr (Or.inr heR), ?_⟩
          rw [nd5t e hie.symm, P4.owners e ((memR e).mpr (Or.inr heR)) hie.symm (3*T) (by rw [nd3t, if_pos rfl]), y3]
        · exact ⟨i, (memR i).mpr (Or.inl rfl), by rw [nd5, if_pos rfl, y3]⟩
        · have := A1.h2
          rw [he3] at y2; omega
    · intro x hx
      rw [(nd5n x).2.2, nd3i]
      split_ifs with h
      · rw [h]
      · rcases (memR x).mp hx with h' | h'
        · exact absurd h' h
        · exact I.ids x h'
    · rw [permR.length_eq]; have := I.two; simp only [List.length_cons]; omega
    · intro x hx
      rcases (memR x).mp hx with rfl | h'
      · exact Finset.mem_insert_self _ _
      · exact Finset.mem_insert_of_mem (I.rV x h')
    · intro x hx
      rcases Finset.mem_insert.mp hx with rfl | hx
      · exact hi
      · exact I.Vn x hx
    · intro k hk
      obtain ⟨j, j1, j2⟩ := P4.vals k hk
      rw [tr5, j2, tr3]
      by_cases hj : j < 3*T
      · obtain ⟨v, hv, ev⟩ := I.tV j hj
        exact ⟨v, Finset.mem_insert_of_mem hv, by rw [A1.told j hj]; exact ev⟩
      · rcases new_slot j1 hj with rfl | rfl | rfl
        · exact ⟨e, Finset.mem_insert_of_mem (I.rV e heR), A1.t0⟩
        · exact ⟨i, Finset.mem_insert_self _ _, A1.t1⟩
        · exact ⟨ye, Finset.mem_insert_of_mem (I.rV ye hyR), A1.t2⟩
    · intro v hv
      obtain ⟨k, hk, hkv⟩ : ∃ k < 3*(T+1), tr s3 k = (v : ℕ) := by
        rcases Finset.mem_insert.mp hv with rfl | hv
        · exact ⟨3*T+1, by omega, A1.t1⟩
        · obtain ⟨k, hk, e'⟩ := I.Vt v hv
          exact ⟨k, by omega, by rw [tr3, A1.told k hk]; exact e'⟩
      obtain ⟨j, hj, e'⟩ := P4.vals' k hk
      exact ⟨j, hj, by rw [tr5, e', hkv]⟩
    · intro x hx
      have hxi : x ≠ i := fun h => hx (h ▸ Finset.mem_insert_self _ _)
      have hxV : x ∉ V := fun h => hx (Finset.mem_insert_of_mem h)
      have hxe : x ≠ e := fun h => hxV (h ▸ I.rV e heR)
      have hxy : x ≠ ye := fun h => hxV (h ▸ I.rV ye hyR)
      have hxR : x ∉ R' := by
        rw [memR]; rintro (h | h)
        · exact hxi h
        · exact hxV (I.rV x h)
      have e1 := (nd5n x).1
      have e2 := (nd5n x).2.1
      have e3 := (nd5n x).2.2
      have e4 : (nd s5 x).t = (nd s x).t := by
        rw [nd5t x hxi, P4.other x (Or.inr hxR), nd3t, if_neg hxe]
      rw [nd3n, if_neg hxe, if_neg hxi] at e1
      rw [nd3p, if_neg (by rw [hnext]; intro h; injection h with h; exact hxy h), if_neg hxi] at e2
      rw [nd3i, if_neg hxi] at e3
      have hf := I.fresh x hxV
      rw [hf] at e1 e2 e3 e4
      cases hq : nd s5 x
      rw [hq] at e1 e2 e3 e4
      simp only [Node.zero] at e1 e2 e3 e4 ⊢
      rw [e1, e2, e3, e4]
    · rw [permR.length_eq, Finset.card_insert_of_notMem hiV]
      have := I.cnt
      simp only [List.length_cons]; omega
    · intro hex
      have hsum := I.pos hex
      rw [ringSum_perm hperm.symm] at hsum
      rw [ringSum_perm hperm']
      unfold ringSum at hsum ⊢
      simp only [List.map_cons, List.sum_cons] at hsum ⊢
      have e1 : (nd s5 e).next = some i := by rw [(nd5n e).1, nd3n, if_pos rfl]
      have e2 : (nd s5 i).next = some ye := by rw [(nd5n i).1, nd3n, if_neg hie, if_pos rfl]; exact hnext
      have e3 : ∀ x ∈ ye :: l, (nd s5 x).next = (nd s x).next := by
        intro x hx
        have c1 : x ≠ e := by rintro rfl; exact (List.nodup_cons.mp hnd).1 hx
        have c2 : x ≠ i := by rintro rfl; exact hiR (hperm.mem_iff.mp (List.mem_cons_of_mem _ hx))
        rw [(nd5n x).1, nd3n, if_neg c1, if_neg c2]
      have e4 : l.map (fun x => κ x ((nd s5 x).next.getD 0)) = l.map (fun x => κ x ((nd s x).next.getD 0)) :=
        List.map_congr_left (fun x hx => by rw [e3 x (List.mem_cons_of_mem _ hx)])
      rw [e1, e2, e3 ye (by simp), e4]
      rw [hnext] at hsum
      simp only [Option.getD_some] at hsum ⊢
      have := hκ hex
      linarith
    · intro x hx hxR
      have hxi : x ≠ i := fun h => hxR ((memR x).mpr (Or.inl h))
      rw [(nd5n x).2.2, nd3i, if_neg hxi]
      rcases Finset.mem_insert.mp hx with h | h
      · exact absurd h hxi
      · exact I.dead x h (fun h' => hxR ((memR x).mpr (Or.inr h')))
    · intro z hz
      have : s5.hash = s.hash := by
        show s4.hash = _
        rw [P4.hash]; exact ha1
      rw [this] at hz
      rcases I.hash z hz with h | ⟨x, hx, h⟩
      · exact Or.inl h
      · exact Or.inr ⟨x, Finset.mem_insert_of_mem hx, h⟩
  · rw [(nd5n i).1, nd3n, if_neg hie, if_pos rfl]; exact hnext
  · rw [(nd5n i).2.1, nd3p, if_neg (by rw [hnext]; intro h; injection h with h; exact hiy h), if_pos rfl]
  · show s4.hash = _
    rw [P4.hash]; exact ha1
  · rw [permR.length_eq]; simp
  · refine ⟨⟨tr s1, he s1, _, _, _, A1, M1, F4⟩, permR, heR, hnext, ?_, ?_, ?_⟩
    · rw [(nd5n e).1, nd3n, if_pos rfl]
    · rw [(nd5n i).1, nd3n, if_neg hie, if_pos rfl]; exact hnext
    · intro x hxe hxi
      rw [(nd5n x).1, nd3n, if_neg hxe, if_neg hxi]
  · show fl + (nonP (T+1) i (tr s4)).card ≤ T
    have e1 := nonP_add (p := i) A1.told A1.t1
    have e2 := nonP_card T i (tr s)
    have e3 : (nonP (T+1) i (tr s3)).card = (nonP (T+1) i (tr s1)).card := rfl
    omega
  · rw [show (((3*T : ℕ) : ℤ) + 2) = ((3*T+2 : ℕ) : ℤ) by push_cast; ring]
    exact Wl

/-- the state before `legalize` in the forward and backward walks: the triangle `w q r` has been added, `w` and `q` are outdated -/
theorem walk_pre {κ : ℕ → ℕ → K} {Ex : Prop} {c n i0 i1 i2 T : ℕ} {V : Finset ℕ} {R : List ℕ} {s s1 : St}
    (I : RInv κ Ex c n i0 i1 i2 T V R s) {p w q tw tq : ℕ} {x0 x1 x2 a b d : ℤ}
    (hw : w ∈ R) (hq : q ∈ R) (htw : (nd s w).t = tw) (htq : (nd s q).t = tq)
    (S1 : Shape c n (T+1) s1) (A : Added T (tr s) (he s) (tr s1) (he s1) x0 x1 x2 a b d) (M : MeshF n (T+1) (tr s1) (he s1))
    (hu : s1.hull = s.hull) (hno : s1.nodes = s.nodes)
    (hset : ∀ k : ℕ, ((k:ℤ) = a ∨ (k:ℤ) = b ∨ (k:ℤ) = d) ↔ (k = tw ∨ k = tq)) (hp : HasP (tr s1) p (3*T)) :
    LegInv c n (T+1) p i0 i1 i2 R (fun x => x = w ∨ x = q) s1 ∧
    (∀ k < 3*T, he s1 k = -1 → ∃ x ∈ R, ¬ (x = w ∨ x = q) ∧ (nd s1 x).t = k) := by
  have nd1 : ∀ x, nd s1 x = nd s x := fun x => by unfold nd; rw [hno]
  have hnd1 : nd s1 = nd s := funext nd1
  have key : ∀ x ∈ R, ∀ t : ℕ, (nd s x).t = t → ¬ (x = w ∨ x = q) → t ≠ tw ∧ t ≠ tq := by
    intro x hx t ht hn
    obtain ⟨t', _, q1, _, _, _, q2, _⟩ := I.own x hx
    have e : t' = t := by omega
    subst e
    constructor
    · rintro rfl
      obtain ⟨t2, _, r1, _, _, _, r2, _⟩ := I.own w hw
      have e : t2 = t' := by omega
      subst e
      rw [r2] at q2
      exact hn (Or.inl (by exact_mod_cast q2.symm))
    · rintro rfl
      obtain ⟨t2, _, r1, _, _, _, r2, _⟩ := I.own q hq
      have e : t2 = t' := by omega
      subst e
      rw [r2] at q2
      exact hn (Or.inr (by exact_mod_cast q2.symm))
  have linked : ∀ k < 3*T, (k = tw ∨ k = tq) → he s1 k ≠ -1 := by
    intro k hk h
    rcases (hset k).mpr h with h | h | h
    · rw [A.ha k hk h]; omega
    · rw [A.hb k hk h]; omega
    · rw [A.hc k hk h]; omega
  have old : ∀ k < 3*T, k ≠ tw → k ≠ tq → he s1 k = he s k := by
    intro k hk h1 h2
    have : ¬ ((k:ℤ) = a ∨ (k:ℤ) = b ∨ (k:ℤ) = d) := fun h => by
      rcases (hset k).mp h with h | h
      · exact h1 h
      · exact h2 h
    push Not at this
    exact A.hold k hk this.1 this.2.1 this.2.2
  have cov : ∀ k < 3*T, he s1 k = -1 → ∃ x ∈ R, ¬ (x = w ∨ x = q) ∧ (nd s1 x).t = k := by
    intro k hk hb
    have h1 : k ≠ tw := fun e => linked k hk (Or.inl e) hb
    have h2 : k ≠ tq := fun e => linked k hk (Or.inr e) hb
    obtain ⟨x, hx, ht⟩ := I.cov k hk (by rw [← old k hk h1 h2]; exact hb)
    refine ⟨x, hx, ?_, by rw [nd1]; exact ht⟩
    rintro (rfl | rfl)
    · rw [htw] at ht; exact h1 (by exact_mod_cast ht.symm)
    · rw [htq] at ht; exact h2 (by exact_mod_cast ht.symm)
  refine ⟨⟨S1, M, ?_, I.nodup, fun x hx => I.rlt hx, ?_, ?_, ?_, ?_⟩, cov⟩
  · obtain ⟨h, l, e1, e2, e3⟩ := I.ring
    exact ⟨h, l, e1, by rw [hu]; exact e2, by rw [hnd1]; exact e3⟩
  · intro x hx hn
    obtain ⟨t, y', q1, q2, q3, q4, q5, q6⟩ := I.own x hx
    obtain ⟨k1, k2⟩ := key x hx t q1 hn
    exact ⟨t, y', by rw [nd1]; exact q1, by rw [nd1]; exact q2, by omega, by rw [old t q3 k1 k2]; exact q4, by rw [A.told t q3]; exact q5,
      by rw [A.told _ (nx_lt q3)]; exact q6⟩
  · intro k hk hb hnp
    by_cases hk' : k < 3*T
    · exact cov k hk' hb
    · exact absurd ((hasP_div (by omega)).mpr hp) hnp
  · intro x hx hex
    obtain ⟨t, y', q1, q2, q3, q4, q5, q6⟩ := I.own x hx
    refine ⟨t, by rw [nd1]; exact q1, by omega, Or.inr (Or.inr (linked t q3 ?_))⟩
    rcases hex with rfl | rfl
    · left; omega
    · right; omega
  · obtain ⟨s1', s2', s3', s4'⟩ := I.seed
    rw [A.told 0 (by omega), A.told 1 (by omega), A.told 2 (by omega)]
    exact ⟨by omega, s2', s3', s4'⟩

/-- the state after `legalize`, the assignment to `q.prev.t` and `q.remove()` -/
theorem walk_post {κ : ℕ → ℕ → K} {Ex : Prop} {c n i0 i1 i2 T : ℕ} {V : Finset ℕ} {R : List ℕ} {s s1 s2 : St}
    (I : RInv κ Ex c n i0 i1 i2 T V R s) {p w q r a b0 : ℕ} {σ : Equiv.Perm ℕ} {l : List ℕ}
    (hperm : (w :: q :: r :: l).Perm R) (hpath : Path (nd s) w (q :: r :: l) w) (hno : s1.nodes = s.nodes) (hha : s1.hash = s.hash)
    (hb0 : 3*T ≤ b0 ∧ b0 < 3*(T+1)) (hb0h : he s1 b0 = -1) (hb0w : tr s1 b0 = w) (hb0r : tr s1 (nx b0) = r)
    (honly : ∀ k < 3*(T+1), 3*T ≤ k → he s1 k = -1 → k = b0)
    (cov : ∀ k < 3*T, he s1 k = -1 → ∃ x ∈ R, ¬ (x = w ∨ x = q) ∧ (nd s1 x).t = k)
    (vals : ∀ k < 3*(T+1), ∃ v ∈ V, tr s1 k = (v : ℕ)) (told : ∀ k < 3*T, tr s1 k = tr s k)
    (L2 : LegInv c n (T+1) p i0 i1 i2 R (fun x => x = w ∨ x = q) s2) (P2 : LegPost (T+1) p R (fun x => x = w ∨ x = q) a s1 s2 σ)
    (hκ : Ex → 0 < κ w r - κ w q - κ q r) :
    ∃ s3 s4 : St, (nd s2 q).prev = some w ∧ s2.deref (some q) = .ok (nd s2 q) ∧
      s2.modNode (some w) (fun x => { x with t := ((σ b0 : ℕ) : ℤ) }) = .ok s3 ∧
      remove s3 (some q) = .ok (s4, some w) ∧ s4.deref (some q) = .ok (nd s4 q) ∧
      (nd s4 q).next = some r ∧ (nd s4 q).prev = some w ∧
      RInv κ Ex c n i0 i1 i2 (T+1) V (w :: r :: l) { s4 with hull := some w } ∧ s4.hash = s.hash ∧
      (∀ x, (nd s4 x).next = if x = w then some r else (nd s x).next) ∧
      (∀ x, (nd s4 x).prev = if x = r then some w else (nd s x).prev) ∧ tr s4 = tr s2 ∧ he s4 = he s2 := by
  have hnd : (w :: q :: r :: l).Nodup := hperm.nodup_iff.mpr I.nodup
  have hwR : w ∈ R := hperm.mem_iff.mp (by simp)
  have hqR : q ∈ R := hperm.mem_iff.mp (by simp)
  have hrR : r ∈ R := hperm.mem_iff.mp (by simp)
  have hwq : w ≠ q := by rintro rfl; simp at hnd
  have hrq : r ≠ q := by rintro rfl; simp at hnd
  have hwr : w ≠ r := by rintro rfl; simp at hnd
  have wlt := I.rlt hwR
  have qlt := I.rlt hqR
  have rlt := I.rlt hrR
  have hnd1 : nd s1 = nd s := by unfold nd; rw [hno]
  have hn2 : s2.nodes.length = n := L2.shape.nl
  have nd2 : ∀ x, (nd s2 x).i = (nd s x).i ∧ (nd s2 x).next = (nd s x).next ∧ (nd s2 x).prev = (nd s x).prev := by
    intro x; rw [← hnd1]; exact P2.node x
  have m3 := modNode_ok (s := s2) (x := w) (by omega) (fun x => { x with t := ((σ b0 : ℕ) : ℤ) })
  set s3 : St := { s2 with nodes := s2.nodes.set w { nd s2 w with t := ((σ b0 : ℕ) : ℤ) } } with hs3
  have nd3 : ∀ x, nd s3 x = if x = w then { nd s2 w with t := ((σ b0 : ℕ) : ℤ) } else nd s2 x := fun x => nd_set (by omega) _ x
  have nd3n : ∀ x, (nd s3 x).i = (nd s x).i ∧ (nd s3 x).next = (nd s x).next ∧ (nd s3 x).prev = (nd s x).prev := fun x => by
    rw [nd3]; split_ifs with h
    · subst h; exact nd2 x
    · exact nd2 x
  have hn3 : s3.nodes.length = n := by simp [hs3, hn2]
  have hqn : (nd s q).next = some r := hpath.2.1.1
  have hqp : (nd s q).prev = some w := hpath.1.2
  obtain ⟨N, r4, hN, Nn, Np, Nt, Ni⟩ := remove_ok (s := s3) (w := w) (q := q) (r := r) (by omega) (by omega) (by omega) hwq hrq
    (by rw [(nd3n q).2.2]; exact hqp) (by rw [(nd3n q).2.1]; exact hqn)
  simp only [(nd3n _).1, (nd3n _).2.1, (nd3n _).2.2, hqn] at Nn Np Ni
  set s4 : St := { s3 with nodes := N } with hs4
  have hn4 : s4.nodes.length = n := by show N.length = n; rw [hN, hn3]
  have nd4n : ∀ x, (nd s4 x).next = if x = w then some r else (nd s x).next := Nn
  have nd4p : ∀ x, (nd s4 x).prev = if x = r then some w else (nd s x).prev := fun x => by
    rw [show (nd s4 x).prev = _ from Np x]
    simp only [Option.some.injEq]
  have nd4i : ∀ x, (nd s4 x).i = if x = q then -1 else (nd s x).i := Ni
  have nd4t : ∀ x, (nd s4 x).t = if x = w then ((σ b0 : ℕ) : ℤ) else (nd s2 x).t := fun x => by
    rw [show (nd s4 x).t = (nd s3 x).t from Nt x, nd3]; split_ifs <;> rfl
  have hash4 : s4.hash = s.hash := by
    show s2.hash = _
    rw [P2.hash, hha]
  refine ⟨s3, s4, by rw [(nd2 q).2.2]; exact hqp, deref_ok (by omega), m3, r4, deref_ok (by omega), by rw [nd4n, if_neg hwq.symm]; exact hqn,
    by rw [nd4p, if_neg hrq.symm]; exact hqp, ?_, hash4, nd4n, nd4p, rfl, rfl⟩
  set s5 : St := { s4 with hull := some w } with hs5
  have nd5 : nd s5 = nd s4 := rfl
  have tr5 : tr s5 = tr s2 := rfl
  have he5 : he s5 = he s2 := rfl
  have memR : ∀ x, x ∈ w :: r :: l ↔ x ∈ R ∧ x ≠ q := by
    intro x
    rw [← hperm.mem_iff]
    have h1 : q ∉ r :: l := (List.nodup_cons.mp (List.nodup_cons.mp hnd).2).1
    constructor
    · intro h
      refine ⟨?_, ?_⟩
      · simp only [List.mem_cons] at h ⊢; tauto
      · rintro rfl
        rcases List.mem_cons.mp h with h | h
        · exact hwq h.symm
        · exact h1 h
    · rintro ⟨h, h'⟩
      simp only [List.mem_cons] at h ⊢; tauto
  have hlen := hperm.length_eq
  simp only [List.length_cons] at hlen
  refine ⟨⟨L2.shape.tl, L2.shape.hl, hn4, L2.shape.len, L2.shape.cap⟩, by rw [tr5, he5]; exact L2.mesh, ⟨w, r :: l, rfl, rfl, ?_⟩, ?_, ?_, ?_, ?_, ?_,
    by rw [tr5]; exact L2.seed, ?_, I.Vn, ?_, ?_, ?_, ?_, ?_, ?_, ?_⟩
  · refine path_remove hpath hnd ?_ ?_
    · intro x; rw [nd5, nd4n, hqn]
    · intro x; rw [nd5, nd4p, hqn]; simp only [Option.some.injEq]
  · have h1 := List.nodup_cons.mp hnd
    have h2 := List.nodup_cons.mp h1.2
    exact List.nodup_cons.mpr ⟨fun h => h1.1 (List.mem_cons_of_mem _ h), h2.2⟩
  · intro x hx
    obtain ⟨hxR, hxq⟩ := (memR x).mp hx
    by_cases hxw : x = w
    · subst hxw
      obtain ⟨b1, b2, b3⟩ := P2.bd b0 hb0.2 hb0h
      exact ⟨σ b0, r, by rw [nd5, nd4t, if_pos rfl], by rw [nd5, nd4n, if_pos rfl], P2.rng _ hb0.2, b1, by rw [tr5, b2]; exact hb0w, by rw [tr5, b3]; exact hb0r⟩
    · obtain ⟨t, y', q1, q2, q3, q4, q5, q6⟩ := L2.own x hxR (by rintro (h | h); exacts [hxw h, hxq h])
      exact ⟨t, y', by rw [nd5, nd4t, if_neg hxw]; exact q1, by rw [nd5, nd4n, if_neg hxw, ← (nd2 x).2.1]; exact q2, q3, q4, q5, q6⟩
  · intro k hk hb
    obtain ⟨m, y1, y2, y3⟩ := P2.bdinv k hk hb
    by_cases hm : m < 3*T
    · obtain ⟨x, hx, hne, ht⟩ := cov m hm y2
      have hxw : x ≠ w := fun h => hne (Or.inl h)
      have hxq : x ≠ q := fun h => hne (Or.inr h)
      refine ⟨x, (memR x).mpr ⟨hx, hxq⟩, ?_⟩
      rw [nd5, nd4t, if_neg hxw, P2.owners x hx hne m ht, y3]
    · have := honly m y1 (by omega) y2
      subst this
      exact ⟨w, by simp, by rw [nd5, nd4t, if_pos rfl, y3]⟩
  · intro x hx
    obtain ⟨hxR, hxq⟩ := (memR x).mp hx
    rw [nd5, nd4i, if_neg hxq]; exact I.ids x hxR
  · simp
  · intro x hx
    exact I.rV x ((memR x).mp hx).1
  · intro k hk
    obtain ⟨j, j1, j2⟩ := P2.vals k hk
    rw [tr5, j2]
    exact vals j j1
  · intro v hv
    obtain ⟨k, hk, e'⟩ := I.Vt v hv
    obtain ⟨j, hj, e2⟩ := P2.vals' k (by omega)
    exact ⟨j, hj, by rw [tr5, e2, told k hk]; exact e'⟩
  · intro x hx
    have hxR : x ∉ R := fun h => hx (I.rV x h)
    have hxw : x ≠ w := fun h => hxR (h ▸ hwR)
    have hxq : x ≠ q := fun h => hxR (h ▸ hqR)
    have hxr : x ≠ r := fun h => hxR (h ▸ hrR)
    have e1 : (nd s5 x).next = (nd s x).next := by rw [nd5, nd4n, if_neg hxw]
    have e2 : (nd s5 x).prev = (nd s x).prev := by rw [nd5, nd4p, if_neg hxr]
    have e3 : (nd s5 x).i = (nd s x).i := by rw [nd5, nd4i, if_neg hxq]
    have e4 : (nd s5 x).t = (nd s x).t := by
      rw [nd5, nd4t, if_neg hxw, P2.other x (Or.inr hxR), hnd1]
    have hf := I.fresh x hx
    rw [hf] at e1 e2 e3 e4
    cases hq : nd s5 x
    rw [hq] at e1 e2 e3 e4
    simp only [Node.zero] at e1 e2 e3 e4 ⊢
    rw [e1, e2, e3, e4]
  · have := I.cnt
    simp only [List.length_cons]; omega
  · intro hex
    have hsum := I.pos hex
    rw [ringSum_perm hperm.symm] at hsum
    unfold ringSum at hsum ⊢
    simp only [List.map_cons, List.sum_cons] at hsum ⊢
    have e1 : (nd s5 w).next = some r := by rw [nd5, nd4n, if_pos rfl]
    have e3 : ∀ x ∈ r :: l, (nd s5 x).next = (nd s x).next := by
      intro x hx
      have c1 : x ≠ w := by rintro rfl; exact (List.nodup_cons.mp hnd).1 (List.mem_cons_of_mem _ hx)
      rw [nd5, nd4n, if_neg c1]
    have e4 : l.map (fun x => κ x ((nd s5 x).next.getD 0)) = l.map (fun x => κ x ((nd s x).next.getD 0)) :=
      List.map_congr_left (fun x hx => by rw [e3 x (List.mem_cons_of_mem _ hx)])
    rw [e1, e3 r (by simp), e4]
    rw [hpath.1.1, hqn] at hsum
    simp only [Option.getD_some] at hsum ⊢
    have := hκ hex
    linarith
  · intro x hx hxR
    by_cases hxq : x = q
    · rw [nd5, nd4i, if_pos hxq]
    · rw [nd5, nd4i, if_neg hxq]
      exact I.dead x hx (fun h => hxR ((memR x).mpr ⟨h, hxq⟩))
  · intro z hz
    have : s5.hash = s.hash := hash4
    rw [this] at hz
    exact I.hash z hz

end Verif.Proofs
