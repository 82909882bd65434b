import Verif.Props.DelaunatorFloat
import Verif.Props.Validate
import Verif.Proofs.AnyOracle
/-!
# C20, C22, C25 and C71 for every outcome of the predicates

The predicates are arbitrary here (any functions; no soundness, no exactness), so these theorems hold for float64
with all rounding errors, NaN and infinities included. What does *not* hold in this generality is in
Props/DelaunatorFloat.lean and at the end of this file.
-/
namespace Verif.Props
open Verif Verif.Tri2 Verif.Proofs

section core
variable {P : Type} {g : Geo P} {Vs : List P} {fuel m i0 i1 i2 : ℕ} {ids : List ℤ} {s : St}

/-- a call of the triangulator with distinct seeds and without repeated ids; the predicates are arbitrary -/
structure AnyCall (Vs : List P) (i0 i1 i2 : ℕ) (ids : List ℤ) : Prop where
  h0 : i0 < Vs.length
  h1 : i1 < Vs.length
  h2 : i2 < Vs.length
  d01 : i0 ≠ i1
  d12 : i1 ≠ i2
  d20 : i2 ≠ i0
  ids : ids.Nodup

/-- the points for which a node was created -/
def inserted (s : St) : Finset ℕ := (Finset.range s.nodes.length).filter fun x => (s.nodes.getD x Node.zero).next ≠ none

theorem ring_any {c n T : ℕ} {V : Finset ℕ} {R : List ℕ} {s : St} (I : AInv c n T V R s) (ts hs : List ℤ) : RingOf { s with triangles := ts, halfedges := hs } R := by
  obtain ⟨h, l, hR, hh, hp⟩ := I.ring
  refine ⟨I.nodup, by rw [hR]; exact hh, ?_⟩
  intro k hk
  have hx : R[k] ∈ R := List.getElem_mem hk
  have hlt := I.rlt hx
  have hnl := I.rng.shape.nl
  refine ⟨nd s R[k], getD_get (by show R[k] < s.nodes.length; omega), I.ids _ hx, ?_, ?_⟩
  · have hlen : R.length = l.length + 1 := by rw [hR]; simp
    obtain ⟨a, b, h1, h2, h3, h4⟩ := path_getElem hp k (by omega)
    have ha : R[k] = a := by
      have : R[k]? = some a := by rw [hR]; exact h1
      rw [List.getElem?_eq_getElem hk] at this
      injection this
    rw [ha, h3]
    rw [← h2]
    by_cases hk' : k + 1 < R.length
    · rw [Nat.mod_eq_of_lt hk', hR, List.getElem?_append_left (by omega), List.getElem?_cons_succ]
    · have : k + 1 = R.length := by omega
      rw [this, Nat.mod_self, hR, List.getElem?_append_right (by omega)]
      have : k - l.length = 0 := by omega
      rw [this]; rfl
  · have hlen : R.length = l.length + 1 := by rw [hR]; simp
    by_cases hk0 : k = 0
    · subst hk0
      obtain ⟨a, b, h1, h2, h3, h4⟩ := path_getElem hp l.length (by omega)
      have hb : b = h := by
        rw [List.getElem?_append_right (by omega)] at h2
        simp at h2; exact h2.symm
      have ha : R[0] = h := by simp only [hR, List.getElem_cons_zero]
      rw [ha, ← hb, h4, ← h1, Nat.zero_add, hlen, Nat.add_sub_cancel, Nat.mod_eq_of_lt (by omega), hR]
    · obtain ⟨a, b, h1, h2, h3, h4⟩ := path_getElem hp (k-1) (by omega)
      have hb : R[k] = b := by
        have : R[k]? = some b := by
          obtain ⟨k', rfl⟩ : ∃ k', k = k' + 1 := ⟨k - 1, by omega⟩
          rw [Nat.add_sub_cancel, List.getElem?_append_left (by omega)] at h2
          rw [hR, List.getElem?_cons_succ]; exact h2
        rw [List.getElem?_eq_getElem hk] at this
        injection this
      have : (k + R.length - 1) % R.length = k - 1 := by
        rw [show k + R.length - 1 = (k - 1) + R.length by omega, Nat.add_mod_right, Nat.mod_eq_of_lt (by omega)]
      rw [hb, h4, this, hR, h1]

theorem ring_card {c n T : ℕ} {V : Finset ℕ} {R : List ℕ} {s : St} (I : AInv c n T V R s) : R.length ≤ n := by
  have := Finset.card_le_card (s := R.toFinset) (t := Finset.range n) (fun x hx => by
    rw [List.mem_toFinset] at hx; exact Finset.mem_range.mpr (I.rlt hx))
  rwa [List.toFinset_card_of_nodup I.nodup, Finset.card_range] at this

/-- the returned hull lists the ring backwards -/
theorem hull_any {c n T : ℕ} {V : Finset ℕ} {R : List ℕ} {s : St} (I : AInv c n T V R s) (hVs : Vs.length = n) (ts hs : List ℤ) {f : ℕ} (hf : n < f) :
    ∃ h l ps, R = h :: l ∧ hullWalk Vs { s with triangles := ts, halfedges := hs } f s.hull [] = .ok ps ∧
      ps.map some = (h :: l.reverse).map (fun x => Vs[x]?) := by
  obtain ⟨h, l, hR, hhull, hp⟩ := I.ring
  have hnl := I.rng.shape.nl
  have hcard := ring_card I
  have hnd := I.nodup
  rw [hR] at hnd hcard
  simp only [List.length_cons] at hcard
  obtain ⟨ps, e1, e2⟩ := hullWalk_ok (Vs := Vs) (s := { s with triangles := ts, halfedges := hs }) (h := h) hhull l.reverse h [] f
    (by rw [List.reverse_reverse]; exact hp) (by rw [List.mem_reverse]; exact (List.nodup_cons.mp hnd).1)
    (by
      intro x hx
      have hxR : x ∈ R := by
        rw [hR]
        rcases List.mem_cons.mp hx with rfl | hx
        · simp
        · simp [List.mem_reverse.mp hx]
      have := I.rlt hxR
      exact ⟨by show x < s.nodes.length; omega, I.ids x hxR, by omega⟩)
    (by simp; omega)
  rw [← hhull] at e1
  exact ⟨h, l, ps, hR, by rw [e1]; simp, e2⟩

/-- whatever the fuel, a hull that is returned is this one -/
theorem hull_any' {c n T : ℕ} {V : Finset ℕ} {R : List ℕ} {s : St} (I : AInv c n T V R s) (hVs : Vs.length = n) (ts hs : List ℤ) {f : ℕ} {hull : List P}
    (h : hullWalk Vs { s with triangles := ts, halfedges := hs } f s.hull [] = .ok hull) :
    ∃ R' : List ℕ, R'.Perm R ∧ hull.map some = R'.map (fun x => Vs[x]?) := by
  obtain ⟨x, l, ps, hR, h1, h2⟩ := hull_any (Vs := Vs) I hVs ts hs (f := max f (n+1)) (by omega)
  have := (hullWalk_mono Vs { s with triangles := ts, halfedges := hs } (le_max_left f (n+1)) s.hull []).ok h
  rw [h1] at this
  injection this with this; subst this
  exact ⟨x :: l.reverse, by rw [hR]; exact (List.reverse_perm l).cons x, h2⟩

theorem inserted_eq {c n T : ℕ} {V : Finset ℕ} {R : List ℕ} {s : St} (I : AInv c n T V R s) (ts hs : List ℤ) : inserted { s with triangles := ts, halfedges := hs } = V := by
  ext x
  unfold inserted
  rw [Finset.mem_filter, Finset.mem_range]
  show x < s.nodes.length ∧ (nd s x).next ≠ none ↔ _
  rw [I.rng.shape.nl]
  constructor
  · intro h
    by_contra hx
    exact h.2 (I.fresh x hx).1
  · exact fun h => ⟨I.Vn x h, I.used x h⟩

/-- C20 for all predicates: lengths and ranges of the tables -/
theorem C20_range_any (C : AnyCall Vs i0 i1 i2 ids) (h : triangulateCore g Vs fuel m i0 i1 i2 ids = .ok s) :
    s.triangles.length = s.halfedges.length ∧ 3 ∣ s.triangles.length ∧ (∀ z ∈ s.triangles, 0 ≤ z ∧ z < Vs.length) ∧ TableRange s.halfedges := by
  obtain ⟨s0, T, V, R, I, hc, hV, rfl⟩ := core_any C.h0 C.h1 C.h2 C.d01 C.d12 C.d20 C.ids h
  have h1 := I.rng.shape.tl
  have h2 := I.rng.shape.hl
  have h3 := I.rng.shape.cap
  have e1 : (s0.triangles.take (3*T)).length = 3*T := by rw [List.length_take]; omega
  have e2 : (s0.halfedges.take (3*T)).length = 3*T := by rw [List.length_take]; omega
  refine ⟨e1.trans e2.symm, by rw [e1]; exact ⟨T, rfl⟩, fun z hz => ?_, fun z hz => ?_⟩
  · obtain ⟨k, hk, rfl⟩ := List.mem_iff_getElem.mp hz
    have hk' : k < 3*T := by rw [← e1]; exact hk
    have := I.rng.tri k hk'
    unfold tr at this
    rw [List.getD_eq_getElem?_getD, List.getElem?_eq_getElem (by omega)] at this
    simpa using this
  · obtain ⟨k, hk, rfl⟩ := List.mem_iff_getElem.mp hz
    have hk' : k < 3*T := by rw [← e2]; exact hk
    have := I.rng.hed k hk'
    unfold he at this
    rw [List.getD_eq_getElem?_getD, List.getElem?_eq_getElem (by omega)] at this
    rw [show ({ s0 with triangles := s0.triangles.take (3*T), halfedges := s0.halfedges.take (3*T) } : St).halfedges.length = 3*T from e2]
    simp only [Option.getD_some] at this
    simp only [List.getElem_take]
    omega

/-- C25 for all predicates: the hull is a circular doubly linked list of distinct indices, and the returned hull consists of the points at these
indices, each once. (`ids` may be any list without repetition, in particular the ids processed so far: this holds after every insertion.) -/
theorem C25_ring_any (C : AnyCall Vs i0 i1 i2 ids) (h : triangulateCore g Vs fuel m i0 i1 i2 ids = .ok s) :
    ∃ R, RingOf s R ∧ R ≠ [] ∧ (∀ x ∈ R, x < Vs.length) ∧ (∀ f hull, hullWalk Vs s f s.hull [] = .ok hull →
        ∃ R' : List ℕ, R'.Perm R ∧ hull.map some = R'.map (fun x => Vs[x]?)) ∧ (∀ f, Vs.length < f → ∃ hull, hullWalk Vs s f s.hull [] = .ok hull) := by
  obtain ⟨s0, T, V, R, I, hc, hV, rfl⟩ := core_any C.h0 C.h1 C.h2 C.d01 C.d12 C.d20 C.ids h
  refine ⟨R, ring_any I _ _, ?_, fun x hx => I.rlt hx, fun f hull hh => hull_any' I rfl _ _ hh, fun f hf => ?_⟩
  · obtain ⟨x, l, hR, _⟩ := I.ring
    rw [hR]; simp
  · obtain ⟨_, _, ps, _, h1, _⟩ := hull_any (Vs := Vs) I rfl (s0.triangles.take (3*T)) (s0.halfedges.take (3*T)) hf
    exact ⟨ps, h1⟩

/-- C22 for all predicates: the number of triangles from the inserted points and the length of the hull; it never exceeds `2n-5` -/
theorem C22_count_any (C : AnyCall Vs i0 i1 i2 ids) (h : triangulateCore g Vs fuel m i0 i1 i2 ids = .ok s) {hull : List P} {f : ℕ}
    (hh : hullWalk Vs s f s.hull [] = .ok hull) :
    s.triangles.length = 3 * (2 * (inserted s).card - 2 - hull.length) ∧ hull.length + 2 < 2 * (inserted s).card ∧
    {i0, i1, i2} ⊆ inserted s ∧ (inserted s).card ≤ Vs.length ∧ s.triangles.length ≤ 3 * (2 * Vs.length - 5) := by
  obtain ⟨s0, T, V, R, I, hc, hV, rfl⟩ := core_any C.h0 C.h1 C.h2 C.d01 C.d12 C.d20 C.ids h
  obtain ⟨R', hp, hm⟩ := hull_any' I rfl _ _ hh
  have hl : hull.length = R.length := by
    have := congrArg List.length hm
    simp only [List.length_map] at this
    rw [this, hp.length_eq]
  rw [inserted_eq I]
  have h1 := I.rng.shape.tl
  have h3 := I.rng.shape.cap
  have h4 := I.rng.one
  have e1 : (s0.triangles.take (3*T)).length = 3*T := by rw [List.length_take]; omega
  refine ⟨?_, by omega, hV, ?_, ?_⟩
  · show (s0.triangles.take (3*T)).length = _
    rw [e1]; omega
  · have := Finset.card_le_card (s := V) (t := Finset.range Vs.length) (fun x hx => Finset.mem_range.mpr (I.Vn x hx))
    simpa using this
  · show (s0.triangles.take (3*T)).length ≤ _
    omega

/-- C22, the buffer: before every `addTriangle` there is room for it, as long as the ring has three nodes afterwards. `T` triangles are there, `R` is the
ring; in an insertion (`i` new) the ring grows by one, in a step of a walk it loses one. -/
theorem C22_room_any {T : ℕ} {V : Finset ℕ} {R : List ℕ} {n : ℕ} (I : AInv (3*(2*n-5)) n T V R s) (hc : T + R.length + 2 = 2 * V.card) :
    ((∃ i < n, i ∉ V) → 3 ≤ R.length + 1 → 3*T + 3 ≤ s.triangles.length) ∧ (3 ≤ R.length - 1 → 3*T + 3 ≤ s.triangles.length) := by
  have h1 := I.rng.shape.tl
  constructor
  · rintro ⟨i, hi, hiV⟩ h3
    have := Finset.card_le_card (s := insert i V) (t := Finset.range n) (fun x hx => by
      rcases Finset.mem_insert.mp hx with rfl | hx
      · exact Finset.mem_range.mpr hi
      · exact Finset.mem_range.mpr (I.Vn x hx))
    rw [Finset.card_insert_of_notMem hiV, Finset.card_range] at this
    omega
  · intro h3
    have := Finset.card_le_card (s := V) (t := Finset.range n) (fun x hx => Finset.mem_range.mpr (I.Vn x hx))
    rw [Finset.card_range] at this
    omega

end core

/-! ## The seeds -/
section seeds
variable {F : Type} [_root_.Add F] [_root_.Sub F] [Mul F] [Div F] [LT F] [DecidableLT F] [GoTop F] [LE F] [DecidableLE F]
    [BEq F] [GoAbs F] [GoMinMax F] [GoConst F] [GoTrunc F] [GoOfInt F]
    [OfNat F 0] [OfNat F 1] [OfNat F 2] [OfNat F 3] [OfNat F 4]

theorem fold_pick {α β : Type} (step : ℕ × Option β → α × ℕ → ℕ × Option β) (Q : α × ℕ → Prop) (h : ∀ acc x, step acc x = acc ∨ (Q x ∧ (step acc x).1 = x.2))
    (L : List (α × ℕ)) : L.foldl step (0, none) = (0, none) ∨ ∃ x ∈ L, Q x ∧ (L.foldl step (0, none)).1 = x.2 := by
  induction L using List.reverseRecOn with
  | nil => left; rfl
  | append_singleton L x ih =>
    rw [List.foldl_append, List.foldl_cons, List.foldl_nil]
    rcases h (L.foldl step (0, none)) x with e | ⟨e1, e2⟩
    · rw [e]
      rcases ih with ih | ⟨y, hy, hy'⟩
      · exact Or.inl ih
      · exact Or.inr ⟨y, by simp [hy], hy'⟩
    · exact Or.inr ⟨x, by simp, e1, e2⟩

/-- the circumradius of a degenerate triangle is not a number that compares as smaller than +Inf -/
def SelfRadius (F : Type) [_root_.Add F] [_root_.Sub F] [Mul F] [Div F] [GoTop F] [BEq F] [GoConst F] [OfNat F 0] : Prop :=
  ∀ (p c : R3.Vector F) r, circumradius p p c = some r → GoTop.ltTop r = false

theorem seed1_ne (Vs : List (R3.Vector F)) (i0 : ℕ) (p0 : R3.Vector F) : seed1 Vs i0 p0 = 0 ∨ seed1 Vs i0 p0 ≠ i0 := by
  unfold seed1
  rcases fold_pick (fun (acc : ℕ × Option F) pi =>
    if pi.2 = i0 then acc
    else
      let d := R3.SquaredDistance pi.1 p0
      if decide ((0 : F) < d) && ltInf d acc.2 then (pi.2, some d) else acc) (fun pi => pi.2 ≠ i0) (by
      intro acc x
      dsimp only
      split_ifs with h1 h2
      · exact Or.inl rfl
      · exact Or.inr ⟨h1, rfl⟩
      · exact Or.inl rfl) Vs.zipIdx with h | ⟨x, _, hq, h⟩
  · left; rw [h]
  · right; rw [h]; exact hq

/-- one step of the search for the third seed -/
def seed2Step (i0 i1 : ℕ) (p0 p1 : R3.Vector F) (acc : ℕ × Option F) (pi : R3.Vector F × ℕ) : ℕ × Option F :=
  if pi.2 = i0 ∨ pi.2 = i1 then acc
  else match circumradius p0 p1 pi.1 with
    | none => acc
    | some r => if ltInf r acc.2 then (pi.2, some r) else acc

theorem seed2_fold (Vs : List (R3.Vector F)) (i0 i1 : ℕ) (p0 p1 : R3.Vector F) : seed2 Vs i0 i1 p0 p1 = Vs.zipIdx.foldl (seed2Step i0 i1 p0 p1) (0, none) := rfl

theorem seed2_ne (Vs : List (R3.Vector F)) (i0 i1 : ℕ) (p0 p1 : R3.Vector F) {i2 : ℕ} {r : F} (h : seed2 Vs i0 i1 p0 p1 = (i2, some r)) : i2 ≠ i0 ∧ i2 ≠ i1 := by
  rw [seed2_fold] at h
  rcases fold_pick (seed2Step i0 i1 p0 p1) (fun pi => ¬ (pi.2 = i0 ∨ pi.2 = i1)) (by
      intro acc x
      unfold seed2Step
      split_ifs with h1
      · exact Or.inl rfl
      · split
        · exact Or.inl rfl
        · split_ifs
          · exact Or.inr ⟨h1, rfl⟩
          · exact Or.inl rfl) Vs.zipIdx with h' | ⟨x, _, hq, h'⟩
  · rw [h'] at h; cases h
  · rw [h] at h'
    change i2 = x.2 at h'
    rw [h']
    exact not_or.mp hq

theorem seed2_self (hF : SelfRadius F) (Vs : List (R3.Vector F)) (i0 i1 : ℕ) (p : R3.Vector F) : (seed2 Vs i0 i1 p p).2 = none := by
  rw [seed2_fold]
  have : ∀ L : List (R3.Vector F × ℕ), L.foldl (seed2Step i0 i1 p p) (0, none) = (0, none) := by
    intro L
    induction L with
    | nil => rfl
    | cons x L ih =>
      rw [List.foldl_cons]
      have : seed2Step i0 i1 p p (0, none) x = (0, none) := by
        unfold seed2Step
        split_ifs
        · rfl
        · split
          · rfl
          · rename_i r hr
            rw [if_neg]
            show ¬ (GoTop.ltTop r = true)
            rw [hF p x.1 r hr]; simp
      rw [this]; exact ih
  rw [this]

/-- a triangulation that is returned comes from a call with distinct seeds -/
theorem triangulate_call (hF : SelfRadius F) (srt : R3.Vector F → List ℤ → List ℤ) (hsrt : ∀ c l, (srt c l).Perm l) {hashSize : ℕ → ℕ} {fuel : ℕ}
    {Vs hull : List (R3.Vector F)} {ts hs : List ℤ} (h : Triangulate srt hashSize fuel Vs = .ok (.triangulation hull ts hs)) (hne : Vs ≠ []) :
    ∃ (g : Geo (R3.Vector F)) (m i0 i1 i2 : ℕ) (ids : List ℤ) (s : St), AnyCall Vs i0 i1 i2 ids ∧ triangulateCore g Vs fuel m i0 i1 i2 ids = .ok s ∧
      hullWalk Vs s fuel s.hull [] = .ok hull ∧ ts = s.triangles ∧ hs = s.halfedges := by
  unfold Triangulate at h
  rw [if_neg (by simpa using hne), Res.bind_eq_ok] at h
  obtain ⟨b, _, h⟩ := h
  rw [Res.bind_eq_ok] at h
  obtain ⟨p0, hp0, h⟩ := h
  rw [Res.bind_eq_ok] at h
  obtain ⟨p1, hp1, h⟩ := h
  dsimp only at h hp0 hp1
  set i0 := seed0 Vs ⟨(b.1 + b.2.1) / 2, (b.2.2.1 + b.2.2.2) / 2, 0⟩ with hi0
  set i1 := seed1 Vs i0 p0 with hi1
  have l0 := (goGet_nonneg hp0).2
  have l1 := (goGet_nonneg hp1).2
  split at h
  · simp at h
  · rename_i r hr
    have hr' : seed2 Vs i0 i1 p0 p1 = ((seed2 Vs i0 i1 p0 p1).1, some r) := Prod.ext rfl hr
    obtain ⟨n20, n21⟩ := seed2_ne Vs i0 i1 p0 p1 hr'
    have n01 : i0 ≠ i1 := by
      intro e
      rw [← e, hp0] at hp1
      injection hp1 with hp1; subst hp1
      have := seed2_self hF Vs i0 i1 p0
      rw [hr] at this; cases this
    rw [Res.bind_eq_ok] at h
    obtain ⟨p2, hp2, h⟩ := h
    have l2 := (goGet_nonneg hp2).2
    rw [Res.bind_eq_ok] at h
    obtain ⟨q1, hq1, h⟩ := h
    rw [Res.bind_eq_ok] at h
    obtain ⟨q2, hq2, h⟩ := h
    simp only [Res.bind_eq_ok] at h
    obtain ⟨s, hs1, hull', hh, h⟩ := h
    simp only [Res.pure_eq, Res.ok.injEq, TriOut.triangulation.injEq] at h
    obtain ⟨rfl, rfl, rfl⟩ := h
    refine ⟨_, _, i0, _, _, _, s, ?_, hs1, hh, rfl, rfl⟩
    have nd : (srt (circumcenter p0 q1 q2) ((List.range Vs.length).map Int.ofNat)).Nodup := by
      rw [(hsrt _ _).nodup_iff]
      exact List.Nodup.map Int.ofNat_injective List.nodup_range
    split_ifs
    · exact ⟨by omega, by omega, by omega, n20.symm, n21, n01.symm, nd⟩
    · exact ⟨by omega, by omega, by omega, n01, n21.symm, n20, nd⟩

end seeds

/-! ## Every float64 input -/

theorem nan_mul (x : F64) : F64.nan * x = F64.nan := by cases x <;> rfl
theorem mul_nan (x : F64) : x * F64.nan = F64.nan := by cases x <;> rfl
theorem nan_add (x : F64) : F64.nan + x = F64.nan := by cases x <;> rfl
theorem add_nan (x : F64) : x + F64.nan = F64.nan := by cases x <;> rfl
theorem nan_sub (x : F64) : F64.nan - x = F64.nan := by cases x <;> rfl
theorem sub_nan (x : F64) : x - F64.nan = F64.nan := by cases x <;> rfl
theorem div_nan (x : F64) : x / F64.nan = F64.nan := by cases x <;> rfl
theorem self_sub (x : F64) : x - x = 0 ∨ x - x = F64.nan := by
  cases x with
  | nan => right; rfl
  | inf s => right; cases s <;> rfl
  | zero s => left; cases s <;> rfl
  | fin q h => 
    left
    show F64.round false (q + -q) = F64.zero false
    rw [add_neg_cancel]; decide +kernel

theorem selfRadius_float : SelfRadius F64 := by
  intro p c r h
  unfold circumradius at h
  dsimp only at h
  rcases self_sub p.X with ex | ex <;> rcases self_sub p.Y with ey | ey
  · rw [ex, ey] at h
    have : ((0:F64) * 0 + 0 * 0 == (0:F64)) = true := by decide +kernel
    rw [this] at h
    simp at h
  all_goals
    split_ifs at h with hc
    injection h with h; subst h
    simp only [ex, ey, nan_mul, mul_nan, nan_add, add_nan, nan_sub, sub_nan, div_nan]
    rfl

theorem selfRadius_exact {K : Type} [Field K] [LinearOrder K] [IsStrictOrderedRing K] [GoConst K] : SelfRadius K := by
  intro p c r h
  unfold circumradius at h
  simp at h


section float
variable {srt : R3.Vector F64 → List ℤ → List ℤ} {hashSize : ℕ → ℕ} {fuel : ℕ} {Vs hull : List (R3.Vector F64)} {ts hs : List ℤ}

/-- C20 for every float64 input, NaN and infinities included: lengths and ranges of the tables -/
theorem C20_range_float (hsrt : ∀ c l, (srt c l).Perm l) (h : Triangulate srt hashSize fuel Vs = .ok (.triangulation hull ts hs)) :
    ts.length = hs.length ∧ 3 ∣ ts.length ∧ (∀ z ∈ ts, 0 ≤ z ∧ z < Vs.length) ∧ TableRange hs := by
  by_cases hne : Vs = []
  · subst hne
    simp only [Triangulate, List.length_nil, if_true, Res.pure_eq, Res.ok.injEq, TriOut.triangulation.injEq] at h
    obtain ⟨rfl, rfl, rfl⟩ := h
    exact ⟨rfl, by simp, by simp, by simp [TableRange]⟩
  obtain ⟨g, m, i0, i1, i2, ids, s, C, e, _, rfl, rfl⟩ := triangulate_call selfRadius_float srt hsrt h hne
  exact C20_range_any C e

/-- C22 for every float64 input: there is a set of at least three input points (those that were inserted) such that the number of triangles is
`2V-2-H`; the number of triangles is at most `2n-5` -/
theorem C22_count_float (hsrt : ∀ c l, (srt c l).Perm l) (h : Triangulate srt hashSize fuel Vs = .ok (.triangulation hull ts hs)) (hne : Vs ≠ []) :
    ts.length ≤ 3 * (2 * Vs.length - 5) ∧ ∃ W : Finset ℕ, (∀ x ∈ W, x < Vs.length) ∧ 3 ≤ W.card ∧ ts.length = 3 * (2 * W.card - 2 - hull.length) ∧ hull.length + 2 < 2 * W.card := by
  obtain ⟨g, m, i0, i1, i2, ids, s, C, e, hh, rfl, rfl⟩ := triangulate_call selfRadius_float srt hsrt h hne
  obtain ⟨a1, a2, a3, a4, a5⟩ := C22_count_any C e hh
  refine ⟨a5, inserted s, fun x hx => ?_, ?_, a1, a2⟩
  · obtain ⟨s0, T, V, R, I, hc, hV, rfl⟩ := core_any C.h0 C.h1 C.h2 C.d01 C.d12 C.d20 C.ids e
    rw [inserted_eq I] at hx
    exact I.Vn x hx
  · have hcard : ({i0, i1, i2} : Finset ℕ).card = 3 := by
      have := C.d01; have := C.d12; have := C.d20
      rw [Finset.card_insert_of_notMem (by simp; omega), Finset.card_insert_of_notMem (by simp; omega)]; simp
    rw [← hcard]
    exact Finset.card_le_card a3

/-- C25 for every float64 input: the returned hull is not empty and lists input points with distinct indices -/
theorem C25_hull_float (hsrt : ∀ c l, (srt c l).Perm l) (h : Triangulate srt hashSize fuel Vs = .ok (.triangulation hull ts hs)) (hne : Vs ≠ []) :
    hull ≠ [] ∧ ∃ R : List ℕ, R.Nodup ∧ (∀ x ∈ R, x < Vs.length) ∧ hull.map some = R.map (fun x => Vs[x]?) := by
  obtain ⟨g, m, i0, i1, i2, ids, s, C, e, hh, rfl, rfl⟩ := triangulate_call selfRadius_float srt hsrt h hne
  obtain ⟨R, a1, a2, a3, a4, _⟩ := C25_ring_any C e
  obtain ⟨R', b1, b2⟩ := a4 _ _ hh
  refine ⟨?_, R', b1.nodup_iff.mpr a1.nodup, fun x hx => a3 x (b1.mem_iff.mp hx), b2⟩
  rintro rfl
  simp only [List.map_nil] at b2
  have : R' = [] := List.map_eq_nil_iff.mp b2.symm
  rw [this] at b1
  exact a2 (List.nil_perm.mp b1)

theorem triAreaLoop_total {F : Type} [_root_.Add F] [_root_.Sub F] [Mul F] (Vs : List (R3.Vector F)) : ∀ (m : ℕ) (ts : List ℤ) (r : F), ts.length = 3*m →
    (∀ z ∈ ts, 0 ≤ z ∧ z < Vs.length) → ∃ x, triAreaLoop Vs ts r = .ok x := by
  intro m
  induction m with
  | zero =>
    intro ts r h _
    obtain rfl : ts = [] := List.length_eq_zero_iff.mp (by omega)
    exact ⟨r, rfl⟩
  | succ m ih =>
    intro ts r h hr
    match ts, h, hr with
    | a :: b :: c :: ts, h, hr =>
      have get : ∀ z ∈ a :: b :: c :: ts, ∃ v, goGet Vs z = .ok v := by
        intro z hz
        obtain ⟨h1, h2⟩ := hr z hz
        have : z.toNat < Vs.length := by omega
        exact ⟨Vs[z.toNat], goGet_eq (n := z.toNat) (by omega) (List.getElem?_eq_getElem this)⟩
      obtain ⟨va, ha⟩ := get a (by simp)
      obtain ⟨vb, hb⟩ := get b (by simp)
      obtain ⟨vc, hc⟩ := get c (by simp)
      rw [triAreaLoop, ha, Res.bind_ok, hb, Res.bind_ok, hc, Res.bind_ok]
      exact ih ts _ (by simp at h; omega) (fun z hz => hr z (by simp [hz]))
    | [], h, _ => simp at h
    | [_], h, _ => simp at h; omega
    | [_, _], h, _ => simp at h; omega

/-- `Validate` does not panic on tables in range, for every kind of scalar -/
theorem C26_total {F : Type} [_root_.Add F] [_root_.Sub F] [Mul F] [Div F] [LT F] [DecidableLT F] [GoAbs F] [GoSqrt F]
    [GoConst F] [OfNat F 0] [OfNat F 2] (srt : List (R3.Vector F) → List (R3.Vector F)) (Vs hull : List (R3.Vector F)) (ts hs : List ℤ)
    (hlen : 3 ∣ ts.length) (hts : ∀ z ∈ ts, 0 ≤ z ∧ z < Vs.length) (hhs : TableRange hs) :
    ∃ b, Validate srt Vs hull ts hs = .ok b ∧ (b = true → Involution hs) := by
  obtain ⟨b, h, hb⟩ := check_iff hhs
  obtain ⟨m, hm⟩ := hlen
  unfold Validate
  rw [h, Res.bind_ok]
  cases b with
  | false => exact ⟨false, rfl, by simp⟩
  | true =>
    obtain ⟨x, hx⟩ := triAreaLoop_total Vs m ts 0 hm hts
    simp only [Bool.not_true, Bool.false_eq_true, if_false]
    unfold triArea
    rw [hx, Res.bind_ok, Res.pure_eq, Res.bind_ok]
    have := hb.mp rfl
    split_ifs
    · exact ⟨false, rfl, by simp⟩
    · exact ⟨false, rfl, by simp⟩
    · exact ⟨true, rfl, fun _ => this⟩

/-- C71: `Validate` never panics on a triangulation returned by `Triangulate`, for every float64 input; if it accepts, the half-edges are an
involution -/
theorem C71_validate_float (hsrt : ∀ c l, (srt c l).Perm l) (hsort : List (R3.Vector F64) → List (R3.Vector F64))
    (h : Triangulate srt hashSize fuel Vs = .ok (.triangulation hull ts hs)) :
    ∃ b, Validate hsort Vs hull ts hs = .ok b ∧ (b = true → Involution hs) := by
  obtain ⟨_, a1, a2, a3⟩ := C20_range_float hsrt h
  exact C26_total hsort Vs hull ts hs a1 a2 a3

end float

/-- a float64 input on which the half-edges are not an involution meets the hypotheses -/
example : ∃ srt : R3.Vector F64 → List ℤ → List ℤ, (∀ c l, (srt c l).Perm l) ∧ ∃ hull ts hs,
    Triangulate srt (fun _ => 3) 100 notInvolutive = .ok (.triangulation hull ts hs) ∧ ts.length = 15 := by
  refine ⟨fun _ l => if l = fids 6 then [5, 4, 0, 3, 2, 1] else l, fun c l => ?_, ?_⟩
  · dsimp only
    split_ifs with h
    · rw [h]; decide
    · exact List.Perm.refl _
  · rw [triangulate_seeds (by decide) notInvolutive_data.seeds]
    have : ∃ x, restOf 3 100 notInvolutive 2 3 0 ⟨flt (-358178762480774807552) 0, flt 358178762480777953280 0, 0⟩ [5, 4, 0, 3, 2, 1] = x ∧
      (match x with | .ok (.triangulation _ ts _) => decide (ts.length = 15) | _ => false) = true := ⟨_, rfl, by decide +kernel⟩
    obtain ⟨x, hx, h⟩ := this
    rw [if_pos (by rfl), hx]
    match x, h with
    | .ok (.triangulation hull ts hs), h => exact ⟨hull, ts, hs, rfl, by simpa using h⟩

/-! ## Arbitrary flips in exact arithmetic

The area tests are exact; only the flip test `inCircle` answers arbitrarily. Then neither C19 nor C21 holds: the statement of C21 ("every outcome of
the flip decisions") is refuted. -/

/-- five points -/
def flipPts : List (R3.Vector ℚ) := [⟨-3, -2, 0⟩, ⟨2, 4, 0⟩, ⟨-4, -5, 0⟩, ⟨-4, 5, 0⟩, ⟨-1, 4, 0⟩]

/-- the index of a point -/
def flipIdx (p : R3.Vector ℚ) : ℕ := flipPts.findIdx fun q => decide (p.X = q.X ∧ p.Y = q.Y)

/-- exact area tests, near tests and hash keys; four flips are requested -/
def flipGeo : Geo (R3.Vector ℚ) :=
  { Geo.ofScalar 3 ⟨-14, 0, 0⟩ with
    inC := fun a b c d => [(4, 0, 3, 2), (1, 4, 3, 2), (1, 4, 2, 0), (1, 2, 0, 4)].contains (flipIdx a, flipIdx b, flipIdx c, flipIdx d) }

/-- **C21 and C19 fail for arbitrary flip decisions**: with exact areas, the seeds and the order that `Triangulate` uses for these points, the sum of the
triangle areas differs from the area of the hull, and the half-edges are not an involution -/
theorem C21_flips_refuted : ∃ s hull, triangulateCore flipGeo flipPts 100 3 0 2 3 [2, 3, 0, 4, 1] = .ok s ∧ hullWalk flipPts s 100 s.hull [] = .ok hull ∧
    triArea flipPts s.triangles ≠ .ok (polygonArea hull) ∧ ¬ Involution s.halfedges := by
  have : ∃ x, (triangulateCore flipGeo flipPts 100 3 0 2 3 [2, 3, 0, 4, 1] >>= fun s => hullWalk flipPts s 100 s.hull [] >>= fun hull =>
      triArea flipPts s.triangles >>= fun a => Res.ok (s, hull, a)) = x ∧
      (match x with
        | .ok (s, hull, a) => decide (a ≠ polygonArea hull ∧ s.halfedges = [-1,9,13,0,-1,7,-1,5,-1,1,12,14,10,2,11])
        | _ => false) = true := ⟨_, rfl, by decide +kernel⟩
  obtain ⟨x, hx, h⟩ := this
  match x, h with
  | .ok (s, hull, a), h =>
    simp only [Res.bind_eq_ok] at hx
    obtain ⟨s', h1, hull', h2, a', h3, e⟩ := hx
    simp only [Res.ok.injEq, Prod.mk.injEq] at e
    obtain ⟨rfl, rfl, rfl⟩ := e
    rw [decide_eq_true_eq] at h
    refine ⟨s', hull', h1, h2, ?_, ?_⟩
    · rw [h3]
      intro e; injection e with e
      exact h.1 e
    · rw [h.2]
      intro hi
      have := hi 3 0 rfl
      simp at this

/-- the call is the one `Triangulate` makes for these points: seeds, centre and the order of the ids -/
example : AnyCall flipPts 0 2 3 [2, 3, 0, 4, 1] ∧ bounds flipPts = .ok (-4, 2, -5, 5) ∧ seed0 flipPts ⟨(-4 + 2) / 2, (-5 + 5) / 2, 0⟩ = 0 ∧
    seed1 flipPts 0 ⟨-3, -2, 0⟩ = 2 ∧ (seed2 flipPts 0 2 ⟨-3, -2, 0⟩ ⟨-4, -5, 0⟩).1 = 3 ∧ ¬ area (⟨-3, -2, 0⟩ : R3.Vector ℚ) ⟨-4, -5, 0⟩ ⟨-4, 5, 0⟩ < 0 ∧
    circumcenter (⟨-3, -2, 0⟩ : R3.Vector ℚ) ⟨-4, -5, 0⟩ ⟨-4, 5, 0⟩ = ⟨-14, 0, 0⟩ ∧
    [2, 3, 0, 4, 1].Pairwise (fun i j => idLess (⟨-14, 0, 0⟩ : R3.Vector ℚ) (flipPts.getD j ⟨0, 0, 0⟩) (flipPts.getD i ⟨0, 0, 0⟩) = false) :=
  ⟨⟨by decide, by decide, by decide, by decide, by decide, by decide, by decide⟩, by decide +kernel, by decide +kernel, by decide +kernel, by decide +kernel,
    by decide +kernel, by decide +kernel, by decide +kernel⟩

end Verif.Props
