import Verif.Proofs.MeshSum
import Verif.Props.Tri2Util
/-!
# C19 - C22, C25: the triangulator for arbitrary outcomes of the geometric predicates

`Geo P` holds the predicates the triangulator asks about its points. The theorems of this file hold for *every*
such structure (every pattern of rounding errors) that satisfies `Sound`, for every seed triangle and every
processing order `ids` (in particular for every prefix of an order, i.e. after every insertion).
-/
namespace Verif.Props
open Verif Verif.Tri2 Verif.Proofs

/-- What is assumed about the predicates: a point is never reported to lie strictly inside a circle through itself, the
area of a triangle with a repeated vertex is never reported negative, and no point is reported to lie inside
the circumcircle of the seed triangle. The first four hold for every rounding of the formulas of util.go
because the expressions vanish identically. -/
structure Sound {P : Type} (g : Geo P) (Vs : List P) (i0 i1 i2 : ℕ) : Prop where
  self : ∀ v x y : P, g.inC v x y v = false
  lt1 : ∀ v x : P, g.areaLt v v x = false
  lt2 : ∀ v x : P, g.areaLt v x v = false
  seed : ∀ p, p ≠ i0 → p ≠ i1 → p ≠ i2 → ∀ v v0 v1 v2 : P, Vs[p]? = some v → Vs[i0]? = some v0 → Vs[i1]? = some v1 → Vs[i2]? = some v2 →
    g.inC v v1 v0 v2 = false ∧ g.inC v v2 v1 v0 = false ∧ g.inC v v0 v2 v1 = false

/-- the call: distinct seed indices, an order without repetitions, enough fuel -/
structure Call {P : Type} (g : Geo P) (Vs : List P) (fuel i0 i1 i2 : ℕ) (ids : List ℤ) : Prop where
  sound : Sound g Vs i0 i1 i2
  h0 : i0 < Vs.length
  h1 : i1 < Vs.length
  h2 : i2 < Vs.length
  d01 : i0 ≠ i1
  d12 : i1 ≠ i2
  d20 : i2 ≠ i0
  nodup : ids.Nodup
  range : ∀ z ∈ ids, 0 ≤ z ∧ z < Vs.length
  fuel : 6 * Vs.length < fuel

/-- the half-edge table is an involution without fixed points, up to boundary entries `-1` -/
def Twins (hs : List ℤ) : Prop :=
  ∀ k < hs.length, hs[k]? = some (-1) ∨ ∃ j : ℕ, j ≠ k ∧ hs[k]? = some (j : ℤ) ∧ hs[j]? = some (k : ℤ)

/-- the next slot of the same triangle -/
def succ3 (k : ℕ) : ℕ := if k % 3 = 2 then k - 2 else k + 1

/-- tables over `n` vertices: equal lengths, multiples of three, valid indices, twins run in opposite directions -/
structure Table (n : ℕ) (ts hs : List ℤ) : Prop where
  len : ts.length = hs.length
  three : 3 ∣ ts.length
  range : ∀ z ∈ ts, 0 ≤ z ∧ z < n
  opposite : ∀ k j : ℕ, hs[k]? = some (j : ℤ) → ts[j]? = ts[succ3 k]? ∧ ts[succ3 j]? = ts[k]? ∧ ts[j]? ≠ none ∧ ts[k]? ≠ none

/-- `R` is the circular doubly linked list reached from the hull pointer -/
structure RingOf (s : St) (R : List ℕ) : Prop where
  nodup : R.Nodup
  start : s.hull = R[0]?
  links : ∀ k (hk : k < R.length), ∃ x : Node, s.nodes[R[k]]? = some x ∧ x.i = R[k] ∧ x.next = R[(k+1) % R.length]? ∧
    x.prev = R[(k + R.length - 1) % R.length]?

theorem nx_succ3 (k : ℕ) : nx k = succ3 k := by unfold nx succ3; split_ifs <;> omega

section generic
variable {P : Type} {g : Geo P} {Vs : List P} {fuel m i0 i1 i2 : ℕ} {ids : List ℤ}

theorem Call.orc (C : Call g Vs fuel i0 i1 i2 ids) : Orc g Vs (fun _ _ => (0 : ℚ)) False m i0 i1 i2 where
  safe := fun p _ h => ⟨C.sound.self, fun v v0 v1 v2 => C.sound.seed p h.1 h.2.1 h.2.2 v v0 v1 v2⟩
  lt1 := C.sound.lt1
  lt2 := C.sound.lt2
  anti := fun h => h.elim
  exLt := fun h => h.elim
  exGe := fun h => h.elim
  key := fun h => h.elim

/-- the final state -/
theorem Call.run (C : Call g Vs fuel i0 i1 i2 ids) (m : ℕ) :
    (∃ s T V R, triangulateCore g Vs fuel m i0 i1 i2 ids = .ok { s with
        triangles := s.triangles.take (3*T), halfedges := s.halfedges.take (3*T) } ∧
      RInv (fun _ _ => (0 : ℚ)) False (3*(2*Vs.length-5)) Vs.length i0 i1 i2 T V R s) ∨
    triangulateCore g Vs fuel m i0 i1 i2 ids = .panic := by
  rcases core_ok (C.orc (m := m)) rfl C.h0 C.h1 C.h2 C.d01 C.d12 C.d20 (fun h => h.elim) C.nodup C.range C.fuel with ⟨s, T, V, R, h1, h2, _⟩ | h
  · exact Or.inl ⟨s, T, V, R, h1, h2⟩
  · exact Or.inr h.1

end generic

section tables
variable {K : Type} [Field K] [LinearOrder K] [IsStrictOrderedRing K]
variable {κ : ℕ → ℕ → K} {Ex : Prop} {c n i0 i1 i2 T : ℕ} {V : Finset ℕ} {R : List ℕ} {s : St}

theorem getElem_take_tr (I : RInv κ Ex c n i0 i1 i2 T V R s) {k : ℕ} (hk : k < 3*T) :
    (s.triangles.take (3*T))[k]? = some (tr s k) := by
  have := I.shape.cap
  have h2 := I.shape.tl
  rw [List.getElem?_take, if_pos hk]
  exact getD_get (by omega)

theorem getElem_take_he (I : RInv κ Ex c n i0 i1 i2 T V R s) {k : ℕ} (hk : k < 3*T) :
    (s.halfedges.take (3*T))[k]? = some (he s k) := by
  have := I.shape.cap
  have h2 := I.shape.hl
  rw [List.getElem?_take, if_pos hk]
  exact getD_get (by omega)

theorem length_tr (I : RInv κ Ex c n i0 i1 i2 T V R s) : (s.triangles.take (3*T)).length = 3*T := by
  have := I.shape.cap
  have h2 := I.shape.tl
  rw [List.length_take]; omega

theorem length_he (I : RInv κ Ex c n i0 i1 i2 T V R s) : (s.halfedges.take (3*T)).length = 3*T := by
  have := I.shape.cap
  have h2 := I.shape.hl
  rw [List.length_take]; omega

theorem twins_of (I : RInv κ Ex c n i0 i1 i2 T V R s) : Twins (s.halfedges.take (3*T)) := by
  intro k hk
  rw [length_he I] at hk
  rw [getElem_take_he I hk]
  rcases I.mesh.inv k hk with h | ⟨j, j1, j2, j3, j4, j5⟩
  · left; rw [h]
  · right
    refine ⟨j, ?_, by rw [j2], by rw [getElem_take_he I j1, j3]⟩
    rintro rfl
    exact I.mesh.dst _ hk j4

theorem table_of (I : RInv κ Ex c n i0 i1 i2 T V R s) : Table n (s.triangles.take (3*T)) (s.halfedges.take (3*T)) := by
  refine ⟨by rw [length_tr I, length_he I], by rw [length_tr I]; exact dvd_mul_right _ _, ?_, ?_⟩
  · intro z hz
    obtain ⟨k, hk, rfl⟩ := List.mem_iff_getElem.mp hz
    have hk' := hk
    rw [length_tr I] at hk'
    have e := getElem_take_tr I hk'
    rw [List.getElem?_eq_getElem hk] at e
    injection e with e
    rw [e]; exact I.mesh.rng k hk'
  · intro k j h
    have hk : k < 3*T := by
      have := (List.getElem?_eq_some_iff.mp h).1
      rwa [length_he I] at this
    rw [getElem_take_he I hk] at h
    injection h with h
    obtain ⟨j1, j2, j3, j4, j5⟩ := I.mesh.twin hk h
    rw [← nx_succ3, ← nx_succ3, getElem_take_tr I hk, getElem_take_tr I j1, getElem_take_tr I (nx_lt hk), getElem_take_tr I (nx_lt j1), j3, j4]
    simp

theorem path_getElem {N : ℕ → Node} {x z : ℕ} {l : List ℕ} (h : Path N x l z) :
    ∀ k < l.length + 1, ∃ a b, (x :: l)[k]? = some a ∧ (l ++ [z])[k]? = some b ∧ (N a).next = some b ∧ (N b).prev = some a := by
  induction l generalizing x with
  | nil =>
    intro k hk
    have : k = 0 := by simp at hk; omega
    subst this
    exact ⟨x, z, rfl, rfl, h.1, h.2⟩
  | cons y l ih =>
    intro k hk
    cases k with
    | zero => exact ⟨x, y, rfl, rfl, h.1.1, h.1.2⟩
    | succ k =>
      obtain ⟨a, b, h1, h2, h3⟩ := ih h.2 k (by simpa using hk)
      exact ⟨a, b, by simpa using h1, by simpa using h2, h3⟩

theorem ring_of (I : RInv κ Ex c n i0 i1 i2 T V R s) (ts hs : List ℤ) : RingOf { s with triangles := ts, halfedges := hs } R := by
  obtain ⟨h, l, hR, hh, hp⟩ := I.ring
  refine ⟨I.nodup, by rw [hR]; exact hh, ?_⟩
  intro k hk
  have hx : R[k] ∈ R := List.getElem_mem hk
  have hlt := I.rlt hx
  have hnl := I.shape.nl
  refine ⟨nd s R[k], getD_get (by show R[k] < s.nodes.length; omega), I.ids _ hx, ?_, ?_⟩
  · have hlen : R.length = l.length + 1 := by rw [hR]; simp
    obtain ⟨a, b, h1, h2, h3, h4⟩ := path_getElem hp k (by omega)
    have ha : R[k] = a := by
      have : R[k]? = some a := by rw [hR]; exact h1
      rw [List.getElem?_eq_getElem hk] at this
      injection this
    rw [ha, h3]
    rw [← h2]
    by_cases hk' : k + 1 < R.length
    · rw [Nat.mod_eq_of_lt hk', hR, List.getElem?_append_left (by omega), List.getElem?_cons_succ]
    · have : k + 1 = R.length := by omega
      rw [this, Nat.mod_self, hR, List.getElem?_append_right (by omega)]
      have : k - l.length = 0 := by omega
      rw [this]; rfl
  · have hlen : R.length = l.length + 1 := by rw [hR]; simp
    by_cases hk0 : k = 0
    · subst hk0
      obtain ⟨a, b, h1, h2, h3, h4⟩ := path_getElem hp l.length (by omega)
      have hb : b = h := by
        rw [List.getElem?_append_right (by omega)] at h2
        simp at h2; exact h2.symm
      have ha : R[0] = h := by simp only [hR, List.getElem_cons_zero]
      rw [ha, ← hb, h4, ← h1, Nat.zero_add, hlen, Nat.add_sub_cancel, Nat.mod_eq_of_lt (by omega), hR]
    · obtain ⟨a, b, h1, h2, h3, h4⟩ := path_getElem hp (k-1) (by omega)
      have hb : R[k] = b := by
        have : R[k]? = some b := by
          obtain ⟨k', rfl⟩ : ∃ k', k = k' + 1 := ⟨k - 1, by omega⟩
          rw [Nat.add_sub_cancel, List.getElem?_append_left (by omega)] at h2
          rw [hR, List.getElem?_cons_succ]; exact h2
        rw [List.getElem?_eq_getElem hk] at this
        injection this
      have : (k + R.length - 1) % R.length = k - 1 := by
        rw [show k + R.length - 1 = (k - 1) + R.length by omega, Nat.add_mod_right, Nat.mod_eq_of_lt (by omega)]
      rw [hb, h4, this, hR, h1]

theorem vertices_of (I : RInv κ Ex c n i0 i1 i2 T V R s) : (s.triangles.take (3*T)).toFinset = V.map Nat.castEmbedding := by
  ext z
  rw [List.mem_toFinset, Finset.mem_map]
  constructor
  · intro hz
    obtain ⟨k, hk, rfl⟩ := List.mem_iff_getElem.mp hz
    have hk' := hk
    rw [length_tr I] at hk'
    have e := getElem_take_tr I hk'
    rw [List.getElem?_eq_getElem hk] at e
    injection e with e
    obtain ⟨v, hv, e'⟩ := I.tV k hk'
    exact ⟨v, hv, by rw [e, e']; rfl⟩
  · rintro ⟨v, hv, rfl⟩
    obtain ⟨k, hk, e⟩ := I.Vt v hv
    exact List.mem_of_getElem? (i := k) (by rw [getElem_take_tr I hk, e]; rfl)

end tables

section results
variable {P : Type} {g : Geo P} {Vs : List P} {fuel i0 i1 i2 : ℕ} {ids : List ℤ}

/-- C19: whatever the predicates answer, the triangulator either panics (buffer or hash index out of range; it never runs
forever) or returns an involutive half-edge table -/
theorem C19_involution (C : Call g Vs fuel i0 i1 i2 ids) (m : ℕ) :
    (∃ s, triangulateCore g Vs fuel m i0 i1 i2 ids = .ok s ∧ Twins s.halfedges) ∨ triangulateCore g Vs fuel m i0 i1 i2 ids = .panic := by
  rcases C.run m with ⟨s, T, V, R, e, I⟩ | h
  · exact Or.inl ⟨_, e, twins_of I⟩
  · exact Or.inr h

/-- C20: the tables are consistent -/
theorem C20_table (C : Call g Vs fuel i0 i1 i2 ids) (m : ℕ) {s : St} (h : triangulateCore g Vs fuel m i0 i1 i2 ids = .ok s) :
    Table Vs.length s.triangles s.halfedges := by
  rcases C.run m with ⟨s', T, V, R, e, I⟩ | h'
  · rw [e] at h; injection h with h; subst h
    exact table_of I
  · rw [h'] at h; cases h

/-- C25: the hull is a circular doubly linked list of distinct indices, and the returned hull consists of the input points at
these indices, each once -/
theorem C25_ring (C : Call g Vs fuel i0 i1 i2 ids) (m : ℕ) {s : St} (h : triangulateCore g Vs fuel m i0 i1 i2 ids = .ok s) :
    ∃ R, RingOf s R ∧ 2 ≤ R.length ∧ (∀ x ∈ R, (x : ℤ) ∈ s.triangles) ∧
      ∃ hull, hullWalk Vs s fuel s.hull [] = .ok hull ∧ ∃ R' : List ℕ, R'.Perm R ∧ hull.map some = R'.map (fun x => Vs[x]?) := by
  rcases C.run m with ⟨s', T, V, R, e, I⟩ | h'
  · rw [e] at h; injection h with h; subst h
    refine ⟨R, ring_of I _ _, I.two, ?_, ?_⟩
    · intro x hx
      have : (x : ℤ) ∈ (s'.triangles.take (3*T)).toFinset := by
        rw [vertices_of I, Finset.mem_map]; exact ⟨x, I.rV x hx, rfl⟩
      exact List.mem_toFinset.mp this
    · obtain ⟨h, l, ps, hR, h1, h2⟩ := hull_ok (Vs := Vs) I rfl (fuel := fuel) (by have := C.fuel; omega) (s'.triangles.take (3*T)) (s'.halfedges.take (3*T))
      exact ⟨ps, h1, h :: l.reverse, by rw [hR]; exact (List.reverse_perm l).cons h, h2⟩
  · rw [h'] at h; cases h

/-- C22: with `V` distinct vertices in the triangles and `H` hull vertices there are `2V-2-H` triangles -/
theorem C22_count (C : Call g Vs fuel i0 i1 i2 ids) (m : ℕ) {s : St} (h : triangulateCore g Vs fuel m i0 i1 i2 ids = .ok s)
    {hull : List P} (hh : hullWalk Vs s fuel s.hull [] = .ok hull) :
    s.triangles.length = 3 * (2 * s.triangles.toFinset.card - 2 - hull.length) ∧
    hull.length + 2 < 2 * s.triangles.toFinset.card ∧ s.triangles.toFinset.card ≤ Vs.length ∧ 2 ≤ hull.length := by
  rcases C.run m with ⟨s', T, V, R, e, I⟩ | h'
  · rw [e] at h; injection h with h; subst h
    obtain ⟨h, l, ps, hR, h1, h2⟩ := hull_ok (Vs := Vs) I rfl (fuel := fuel) (by have := C.fuel; omega) (s'.triangles.take (3*T)) (s'.halfedges.take (3*T))
    rw [show hullWalk Vs _ fuel _ [] = .ok ps from h1] at hh
    injection hh with hh; subst hh
    have hl : ps.length = R.length := by
      have := congrArg List.length h2
      rw [hR]; simpa using this
    show (s'.triangles.take (3*T)).length = 3 * (2 * (s'.triangles.take (3*T)).toFinset.card - 2 - ps.length) ∧
      ps.length + 2 < 2 * (s'.triangles.take (3*T)).toFinset.card ∧ (s'.triangles.take (3*T)).toFinset.card ≤ Vs.length ∧ _
    rw [vertices_of I, Finset.card_map, length_tr I, hl]
    have hc := I.cnt
    have h2 := I.two
    have h3 := I.seed.1
    have hcard : V.card ≤ Vs.length := by
      have := Finset.card_le_card (s := V) (t := Finset.range Vs.length) (fun x hx => Finset.mem_range.mpr (I.Vn x hx))
      simpa using this
    omega
  · rw [h'] at h; cases h

/-- C22: so the `2n-5` triangle buffer suffices as long as the hull has three vertices -/
theorem C22_buffer (C : Call g Vs fuel i0 i1 i2 ids) (m : ℕ) {s : St} (h : triangulateCore g Vs fuel m i0 i1 i2 ids = .ok s)
    {hull : List P} (hh : hullWalk Vs s fuel s.hull [] = .ok hull) (h3 : 3 ≤ hull.length) :
    s.triangles.length ≤ 3 * (2 * Vs.length - 5) := by
  obtain ⟨h1, h2, h4, _⟩ := C22_count C m h hh
  omega

end results

/-! ## C21 -/
section area
variable {K : Type} [Field K] [LinearOrder K] [IsStrictOrderedRing K]

/-- the point with a given index -/
def ptOf (Vs : List (R3.Vector K)) (x : ℕ) : R3.Vector K := Vs.getD x ⟨0, 0, 0⟩

/-- twice the signed area between an edge and the origin -/
def crossOf (Vs : List (R3.Vector K)) (x y : ℕ) : K := (ptOf Vs x).Y * (ptOf Vs y).X - (ptOf Vs x).X * (ptOf Vs y).Y

omit [LinearOrder K] [IsStrictOrderedRing K] in
theorem crossOf_anti (Vs : List (R3.Vector K)) (x y : ℕ) : crossOf Vs x y = - crossOf Vs y x := by unfold crossOf; ring

omit [LinearOrder K] [IsStrictOrderedRing K] in
theorem area_crossOf (Vs : List (R3.Vector K)) (x y z : ℕ) :
    area (ptOf Vs x) (ptOf Vs y) (ptOf Vs z) = crossOf Vs x y + crossOf Vs y z + crossOf Vs z x := by unfold crossOf area; ring

omit [LinearOrder K] [IsStrictOrderedRing K] in
theorem ptOf_eq {Vs : List (R3.Vector K)} {x : ℕ} {v : R3.Vector K} (h : Vs[x]? = some v) : ptOf Vs x = v := by
  unfold ptOf; rw [List.getD_eq_getElem?_getD, h]; rfl

omit [LinearOrder K] [IsStrictOrderedRing K] in
theorem goGet_pt {Vs : List (R3.Vector K)} {z : ℤ} (h : 0 ≤ z ∧ z < Vs.length) : goGet Vs z = .ok (ptOf Vs z.toNat) := by
  have hlt : z.toNat < Vs.length := by omega
  have : Vs[z.toNat]? = some Vs[z.toNat] := by simp [hlt]
  rw [goGet_eq (n := z.toNat) (by omega) this, ptOf_eq this]

omit [LinearOrder K] [IsStrictOrderedRing K] in
/-- the loop of triangulation.go:23-34 -/
theorem triAreaLoop_eq (Vs : List (R3.Vector K)) :
    ∀ (T : ℕ) (ts : List ℤ) (r : K), ts.length = 3*T → (∀ z ∈ ts, 0 ≤ z ∧ z < Vs.length) →
      triAreaLoop Vs ts r = .ok (r + ∑ m ∈ Finset.range T, area (ptOf Vs (ts.getD (3*m) 0).toNat) (ptOf Vs (ts.getD (3*m+1) 0).toNat)
        (ptOf Vs (ts.getD (3*m+2) 0).toNat)) := by
  intro T
  induction T with
  | zero =>
    intro ts r hl _
    have : ts = [] := List.length_eq_zero_iff.mp (by omega)
    subst this
    simp [triAreaLoop]
  | succ T ih =>
    intro ts r hl hr
    match ts, hl with
    | a :: b :: c :: ts, hl =>
      have hl' : ts.length = 3*T := by simp only [List.length_cons] at hl; omega
      rw [triAreaLoop, goGet_pt (hr a (by simp)), Res.bind_ok, goGet_pt (hr b (by simp)), Res.bind_ok, goGet_pt (hr c (by simp)), Res.bind_ok,
        ih ts _ hl' (fun z hz => hr z (by simp [hz])), Finset.sum_range_succ']
      congr 1
      have e : ∀ m, (a :: b :: c :: ts).getD (3*(m+1)) 0 = ts.getD (3*m) 0 ∧ (a :: b :: c :: ts).getD (3*(m+1)+1) 0 = ts.getD (3*m+1) 0 ∧
          (a :: b :: c :: ts).getD (3*(m+1)+2) 0 = ts.getD (3*m+2) 0 := fun m => ⟨rfl, rfl, rfl⟩
      simp only [(e _).1, (e _).2.1, (e _).2.2]
      rw [show (a :: b :: c :: ts).getD (3*0) 0 = a from rfl, show (a :: b :: c :: ts).getD (3*0+1) 0 = b from rfl,
        show (a :: b :: c :: ts).getD (3*0+2) 0 = c from rfl]
      ring

omit [LinearOrder K] [IsStrictOrderedRing K] in
/-- area of the mesh = area of the ring -/
theorem area_of {K' : Type} [Field K'] [LinearOrder K'] [IsStrictOrderedRing K'] {κ : ℕ → ℕ → K'} {Ex : Prop} {c i0 i1 i2 T : ℕ} {V : Finset ℕ} {R : List ℕ} {s : St} {Vs : List (R3.Vector K)}
    (I : RInv κ Ex c Vs.length i0 i1 i2 T V R s) :
    triArea Vs (s.triangles.take (3*T)) = .ok ((R.map fun x => crossOf Vs x ((nd s x).next.getD 0)).sum / 2) := by
  unfold triArea
  rw [triAreaLoop_eq Vs T _ 0 (length_tr I) (table_of I).range, Res.bind_ok, Res.pure_eq, zero_add]
  congr 2
  rw [← mesh_sum I (crossOf Vs) (crossOf_anti Vs) (fun x => by unfold crossOf; ring), sum_slots]
  refine Finset.sum_congr rfl fun m hm => ?_
  rw [Finset.mem_range] at hm
  have e : ∀ k < 3*T, (s.triangles.take (3*T)).getD k 0 = tr s k := fun k hk => by
    rw [List.getD_eq_getElem?_getD, getElem_take_tr I hk]; rfl
  rw [e _ (by omega), e _ (by omega), e _ (by omega), area_crossOf, nx0, nx1, nx2]

theorem ring_area {K' : Type} [Field K'] [LinearOrder K'] [IsStrictOrderedRing K'] {κ : ℕ → ℕ → K'} {Ex : Prop} {c i0 i1 i2 T : ℕ} {V : Finset ℕ} {R : List ℕ} {s : St} {Vs : List (R3.Vector K)}
    (I : RInv κ Ex c Vs.length i0 i1 i2 T V R s) {h : ℕ} {l : List ℕ} {ps : List (R3.Vector K)} (hR : R = h :: l)
    (h2 : ps.map some = (h :: l.reverse).map (fun x => Vs[x]?)) :
    polygonArea ps = (R.map fun x => crossOf Vs x ((nd s x).next.getD 0)).sum / 2 := by
  obtain ⟨h', l', hR', hh, hp⟩ := I.ring
  rw [hR] at hR'
  injection hR' with e1 e2
  subst e1 e2
  have hps : ps = (h :: l.reverse).map (ptOf Vs) := by
    have : ∀ (a : List (R3.Vector K)) (b : List ℕ), a.map some = b.map (fun x => Vs[x]?) → a = b.map (ptOf Vs) := by
      intro a
      induction a with
      | nil => intro b hb; cases b <;> simp at hb ⊢
      | cons x a ih =>
        intro b hb
        cases b with
        | nil => simp at hb
        | cons y b =>
          simp only [List.map_cons, List.cons.injEq] at hb ⊢
          exact ⟨(ptOf_eq hb.1.symm).symm, ih b hb.2⟩
    exact this _ _ h2
  have e : (h :: l.reverse).map (ptOf Vs) = (((h :: l).map (ptOf Vs)).rotate 1).reverse := by
    rw [← List.map_rotate, ← List.map_reverse]
    simp
  rw [hps, e, (C15_area_invariance _ 0 ⟨0, 0, 0⟩).2.1, (C15_area_invariance _ 1 ⟨0, 0, 0⟩).1, C15_area, shoelace, edges_map, List.map_map]
  have ed : edges (h :: l) = (h :: l).map (fun x => (x, (nd s x).next.getD 0)) := by
    unfold edges
    have := path_map_next hp
    rw [show (h :: l).rotate 1 = l ++ [h] by simp, ← this]
    generalize (h :: l) = L
    induction L with
    | nil => rfl
    | cons x L ih => simp only [List.map_cons, List.zip_cons_cons, ih]
  rw [ed, List.map_map, hR, ← neg_div]
  congr 1
  induction (h :: l) with
  | nil => simp
  | cons x L ih =>
    simp only [List.map_cons, List.sum_cons, neg_add, ih]
    congr 1
    simp only [Function.comp, Prod.map, crossOf]
    ring

/-- C21: for every outcome of the predicates the signed triangle areas (the method `area` of the result) sum to the signed
area of the returned hull; `ids` is arbitrary, so this holds after every insertion -/
theorem C21_area {g : Geo (R3.Vector K)} {Vs : List (R3.Vector K)} {fuel i0 i1 i2 : ℕ} {ids : List ℤ}
    (C : Call g Vs fuel i0 i1 i2 ids) (m : ℕ) {s : St} (h : triangulateCore g Vs fuel m i0 i1 i2 ids = .ok s)
    {hull : List (R3.Vector K)} (hh : hullWalk Vs s fuel s.hull [] = .ok hull) :
    triArea Vs s.triangles = .ok (polygonArea hull) := by
  rcases C.run m with ⟨s', T, V, R, e, I⟩ | h'
  · rw [e] at h; injection h with h; subst h
    obtain ⟨h, l, ps, hR, h1, h2⟩ := hull_ok (Vs := Vs) I rfl (fuel := fuel) (by have := C.fuel; omega) (s'.triangles.take (3*T)) (s'.halfedges.take (3*T))
    rw [show hullWalk Vs _ fuel _ [] = .ok ps from h1] at hh
    injection hh with hh; subst hh
    rw [ring_area I hR h2]
    exact area_of I
  · rw [h'] at h; cases h

end area
end Verif.Props
