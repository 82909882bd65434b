import Verif.Proofs.WorkCount
import Verif.Proofs.AnyDiv
import Verif.Props.DelaunatorSeed
import Verif.Props.DelaunatorGrid
import Verif.Props.HashSize
/-!
# C102: how many steps the triangulator takes (triangulator.go)

`Model/Work.lean` repeats the triangulator with a counter. The counted functions return the same results as those of `Model/Delaunator.lean`. For a
run on `n` points with a hash table of `m` entries that returns `t` triangles: at most `(n-2)(n-3)` flips; two calls of `legalize` per flip and one
per triangle after the first; the loops over the hash table and along the hull take at most `m` and `n` rounds per point, the walks that add
triangles at most one round per point and one per triangle. Runs that panic are not counted.
-/
namespace Verif.Props
open Verif Verif.F64 Verif.Tri2 Verif.Proofs Verif.Spec

/-- the numbers of steps of a run on `n` points that returns `t` triangles, with a hash table of `m` entries -/
structure Steps (n m t : ℕ) (c : Weights) : Prop where
  /-- triangles -/
  size : t + 5 ≤ 2 * n
  /-- rounds of the main loop -/
  main : c.main = n
  /-- flips -/
  flip : c.flip ≤ (n - 2) * (n - 3)
  /-- calls of `legalize`: two per flip and one per triangle after the first -/
  call : c.call + 1 = t + 2 * c.flip
  /-- rounds along the hull to repair the node of a flipped hull edge -/
  fix : c.fix ≤ (n + 1) * ((n - 2) * (n - 3))
  /-- rounds over the hash table -/
  start : c.start ≤ m * n
  /-- rounds along the hull to find a visible edge -/
  visible : c.visible ≤ n * n
  /-- rounds of the two walks: one per triangle after the first, and at most one more per point -/
  walk : t ≤ c.walk + 1 ∧ c.walk + 1 ≤ n + t

/-- the counter runs to the numbers of `c` of each kind of step, whatever the weights, and the result is `a` -/
def Takes {α : Type} (x : Weights → Wk α) (a : α) (c : Weights) : Prop :=
  ∀ w : Weights, (x w).run = .ok (a, w.call * c.call + w.flip * c.flip + w.fix * c.fix + w.start * c.start + w.visible * c.visible + w.walk * c.walk +
    w.main * c.main)

/-- all steps together -/
theorem Steps.total {n m t : ℕ} {c : Weights} (h : Steps n m t c) :
    c.call + c.flip + c.fix + c.start + c.visible + c.walk + c.main ≤ (n + 4) * ((n - 2) * (n - 3)) + (m + n + 6) * n := by
  have h1 := h.call
  have h2 := h.flip
  have h3 := h.fix
  have h4 := h.start
  have h5 := h.visible
  have h6 := h.walk.2
  have h7 := h.main
  have h8 := h.size
  generalize (n - 2) * (n - 3) = f at *
  have e1 : (n + 4) * f = (n + 1) * f + 3 * f := by ring
  have e2 : (m + n + 6) * n = m * n + n * n + 6 * n := by ring
  omega

section generic
variable {P : Type} {g : Geo P} {Vs : List P} {fuel i0 i1 i2 : ℕ} {ids : List ℤ}

/-- C102: the counted triangulator computes what the triangulator computes: result, panic or unfinished -/
theorem C102_same {F : Type} [_root_.Add F] [_root_.Sub F] [Mul F] [Div F] [LT F] [DecidableLT F] [GoTop F] [LE F] [DecidableLE F]
    [BEq F] [GoAbs F] [GoMinMax F] [GoConst F] [GoTrunc F] [GoOfInt F] [OfNat F 0] [OfNat F 1] [OfNat F 2] [OfNat F 3] [OfNat F 4]
    (w : Weights) (srt : (center : R3.Vector F) → List ℤ → List ℤ) (hashSize : ℕ → ℕ) (fuel : ℕ) (Vs : List (R3.Vector F)) :
    ((TriangulateCt w srt hashSize fuel Vs).run >>= fun p => Res.ok p.1) = Triangulate srt hashSize fuel Vs :=
  TriangulateCt_erase w srt hashSize fuel Vs

/-- C102: the same for the part after the choice of the seed triangle, with arbitrary predicates -/
theorem C102_same_core (w : Weights) (g : Geo P) (Vs : List P) (fuel m : ℕ) (i0 i1 i2 : ℤ) (ids : List ℤ) :
    ((triangulateCoreCt w g Vs fuel m i0 i1 i2 ids).run >>= fun p => Res.ok p.1) = triangulateCore g Vs fuel m i0 i1 i2 ids :=
  coreCt_erase w g Vs fuel m i0 i1 i2 ids

/-- C102: every run of the counted triangulator that returns has numbers of steps that do not depend on the weights; the calls of `legalize` are two
per flip and one per triangle after the first. No assumption on the predicates. -/
theorem C102_count (w0 : Weights) (g : Geo P) (Vs : List P) (fuel m : ℕ) (i0 i1 i2 : ℤ) (ids : List ℤ) {s : St} {k : ℕ}
    (h : (triangulateCoreCt w0 g Vs fuel m i0 i1 i2 ids).run = .ok (s, k)) :
    ∃ (c : Weights) (t : ℕ), Takes (fun w => triangulateCoreCt w g Vs fuel m i0 i1 i2 ids) s c ∧ s.trianglesLen = 3 * t ∧
      c.call + 1 = t + 2 * c.flip ∧ c.main = ids.length ∧ t ≤ c.walk + 1 ∧ c.walk + 1 ≤ t + c.visible := by
  obtain ⟨c, ⟨t, e, H⟩, hw⟩ := coreCt_count g Vs fuel m i0 i1 i2 ids w0 s k h
  exact ⟨c, t, hw, e, H.call, H.main, H.walk⟩

theorem core_steps (C : Call g Vs fuel i0 i1 i2 ids) (hl : ids.length = Vs.length) (m : ℕ) :
    (∃ s c, triangulateCore g Vs fuel m i0 i1 i2 ids = .ok s ∧ Takes (fun w => triangulateCoreCt w g Vs fuel m i0 i1 i2 ids) s c ∧
      3 ∣ s.triangles.length ∧ Steps Vs.length m (s.triangles.length / 3) c) ∨
    triangulateCore g Vs fuel m i0 i1 i2 ids = .panic := by
  rcases core_ok (C.orc (m := m)) rfl C.h0 C.h1 C.h2 C.d01 C.d12 C.d20 (fun h => h.elim) C.nodup C.range C.fuel with
    ⟨s, T, V, R, h1, I, _, _, _, _, _, _, hT, f, hf, W⟩ | h
  swap
  · exact Or.inr h.1
  left
  obtain ⟨k, _, e0⟩ := W ⟨0, 0, 0, 0, 0, 0, 0⟩
  obtain ⟨c, t, hw, et, hc, hm, hw1, hw2⟩ := C102_count _ g Vs fuel m i0 i1 i2 ids e0
  have hlen := length_tr I
  have ht : t = T := by
    have := I.shape.len
    simp only at et
    rw [this] at et
    push_cast at et
    omega
  subst ht
  refine ⟨_, c, h1, hw, ?_, ?_⟩
  · simp only [hlen]; exact ⟨t, rfl⟩
  simp only [hlen]
  rw [Nat.mul_div_cancel_left _ (by norm_num)]
  have hcap := I.shape.cap
  have hn3 : 3 ≤ Vs.length := by
    have := C.h0; have := C.h1; have := C.h2; have := C.d01; have := C.d12; have := C.d20
    omega
  have hV : V.card ≤ Vs.length := by
    have : V ⊆ Finset.range Vs.length := fun x hx => Finset.mem_range.mpr (I.Vn x hx)
    simpa using Finset.card_le_card this
  have hF : f ≤ (Vs.length - 2) * (Vs.length - 3) := by
    have : (V.card - 2) * (V.card - 3) ≤ (Vs.length - 2) * (Vs.length - 3) := Nat.mul_le_mul (by omega) (by omega)
    omega
  have bound : ∀ w : Weights, w.call * c.call + w.flip * c.flip + w.fix * c.fix + w.start * c.start + w.visible * c.visible + w.walk * c.walk + w.main * c.main ≤
      (w.main + w.start * m + w.visible * Vs.length + w.walk) * Vs.length + w.walk * (t - 1) + (w.call * (2*f + (t - 1)) + (w.flip + w.fix * (Vs.length+1)) * f) := by
    intro w
    obtain ⟨k, hk, ek⟩ := W w
    have := (hw w).symm.trans ek
    simp only [Res.ok.injEq, Prod.mk.injEq] at this
    rw [this.2, ← hl]
    rw [← hl] at hk
    exact hk
  have b1 := bound ⟨0, 1, 0, 0, 0, 0, 0⟩
  have b2 := bound ⟨0, 0, 1, 0, 0, 0, 0⟩
  have b3 := bound ⟨0, 0, 0, 1, 0, 0, 0⟩
  have b4 := bound ⟨0, 0, 0, 0, 1, 0, 0⟩
  have b5 := bound ⟨0, 0, 0, 0, 0, 1, 0⟩
  simp only [zero_mul, one_mul, zero_add, add_zero] at b1 b2 b3 b4 b5
  exact ⟨by omega, by omega, by omega, hc, b2.trans (Nat.mul_le_mul le_rfl hF), b3, b4, hw1, by have := I.seed.1; omega⟩

/-- C102: arbitrary predicates. A run that returns takes the steps of `Steps`. -/
theorem C102_steps (C : Call g Vs fuel i0 i1 i2 ids) (hl : ids.length = Vs.length) (m : ℕ) {s : St} (h : triangulateCore g Vs fuel m i0 i1 i2 ids = .ok s) :
    ∃ c, Takes (fun w => triangulateCoreCt w g Vs fuel m i0 i1 i2 ids) s c ∧ 3 ∣ s.triangles.length ∧ Steps Vs.length m (s.triangles.length / 3) c := by
  rcases core_steps C hl m with ⟨s', c, e, H⟩ | e
  · rw [h] at e; injection e with e; subst e; exact ⟨c, H⟩
  · rw [h] at e; cases e

end generic

section scalar
variable {F : Type} [_root_.Add F] [_root_.Sub F] [Mul F] [Div F] [LT F] [DecidableLT F] [GoTop F] [LE F] [DecidableLE F]
    [BEq F] [GoAbs F] [GoMinMax F] [GoConst F] [GoTrunc F] [GoOfInt F] [OfNat F 0] [OfNat F 1] [OfNat F 2] [OfNat F 3] [OfNat F 4]

/-- triangulator.go:60-128: the seeds and the centre -/
def seedsC (Vs : List (R3.Vector F)) : Res (Option (ℕ × ℕ × ℕ × R3.Vector F)) := do
  let (x0, x1, y0, y1) ← bounds Vs
  let m : R3.Vector F := ⟨(x0 + x1) / 2, (y0 + y1) / 2, 0⟩
  let i0 := seed0 Vs m
  let p0 ← goGet Vs i0
  let i1 := seed1 Vs i0 p0
  let p1 ← goGet Vs i1
  let (i2, minRadius) := seed2 Vs i0 i1 p0 p1
  match minRadius with
  | none => pure none
  | some _ => do
    let p2 ← goGet Vs i2
    let (i1, i2) := if area p0 p1 p2 < (0 : F) then (i2, i1) else (i1, i2)
    let p1 ← goGet Vs i1
    let p2 ← goGet Vs i2
    pure (some (i0, i1, i2, circumcenter p0 p1 p2))

theorem triangulateCt_seeds {srt : R3.Vector F → List ℤ → List ℤ} {hashSize : ℕ → ℕ} {fuel : ℕ} {Vs : List (R3.Vector F)} (hne : Vs.length ≠ 0)
    {i0 i1 i2 : ℕ} {c : R3.Vector F} (h : seedsC Vs = .ok (some (i0, i1, i2, c))) (w : Weights) :
    TriangulateCt w srt hashSize fuel Vs = (do
      let s ← triangulateCoreCt w (Geo.ofScalar (hashSize Vs.length) c) Vs fuel (hashSize Vs.length) i0 i1 i2 (srt c ((List.range Vs.length).map Int.ofNat))
      let hull ← hullWalk Vs s fuel s.hull []
      pure (.triangulation hull s.triangles s.halfedges)) := by
  have lok : ∀ {α : Type} (a : α), Wk.lift (.ok a) = (pure a : Wk α) := fun _ => rfl
  unfold TriangulateCt
  unfold seedsC at h
  simp only [hne, if_false, liftM_wk]
  rw [Res.bind_eq_ok] at h
  obtain ⟨b, hb, h⟩ := h
  rw [hb, lok, Wk.pure_bind]
  rw [Res.bind_eq_ok] at h
  obtain ⟨p0, hp0, h⟩ := h
  rw [hp0, lok, Wk.pure_bind]
  rw [Res.bind_eq_ok] at h
  obtain ⟨p1, hp1, h⟩ := h
  rw [hp1, lok, Wk.pure_bind]
  dsimp only at h ⊢
  split at h
  · simp at h
  · rename_i r hr
    simp only [hr]
    rw [Res.bind_eq_ok] at h
    obtain ⟨p2, hp2, h⟩ := h
    rw [hp2, lok, Wk.pure_bind]
    rw [Res.bind_eq_ok] at h
    obtain ⟨q1, hq1, h⟩ := h
    rw [hq1, lok, Wk.pure_bind]
    rw [Res.bind_eq_ok] at h
    obtain ⟨q2, hq2, h⟩ := h
    rw [hq2, lok, Wk.pure_bind]
    simp only [Res.pure_eq, Res.ok.injEq, Option.some.injEq, Prod.mk.injEq] at h
    obtain ⟨rfl, h1, h2, rfl⟩ := h
    rw [h1, h2]

/-- a run of `Triangulate` with the seeds of `seedsC` -/
theorem run_steps {srt : R3.Vector F → List ℤ → List ℤ} {hashSize : ℕ → ℕ} {fuel : ℕ} {Vs : List (R3.Vector F)} (hsrt : ∀ c l, (srt c l).Perm l)
    {i0 i1 i2 : ℕ} {o : R3.Vector F} (h : seedsC Vs = .ok (some (i0, i1, i2, o)))
    (C : Call (Geo.ofScalar (hashSize Vs.length) o) Vs fuel i0 i1 i2 (srt o ((List.range Vs.length).map Int.ofNat)))
    {hull : List (R3.Vector F)} {ts hs : List ℤ} (hr : Triangulate srt hashSize fuel Vs = .ok (.triangulation hull ts hs)) :
    ∃ c, Takes (fun w => TriangulateCt w srt hashSize fuel Vs) (.triangulation hull ts hs) c ∧ 3 ∣ ts.length ∧
      Steps Vs.length (hashSize Vs.length) (ts.length / 3) c := by
  have hne : Vs.length ≠ 0 := by have := C.h0; omega
  have hl : (srt o ((List.range Vs.length).map Int.ofNat)).length = Vs.length := by rw [(hsrt _ _).length_eq]; simp
  have hT := C102_same ⟨0, 0, 0, 0, 0, 0, 0⟩ srt hashSize fuel Vs
  rw [hr, triangulateCt_seeds hne h] at hT
  rcases core_steps C hl (hashSize Vs.length) with ⟨s, c, _, tk, h3, S⟩ | e
  · have key : ∀ w : Weights, ∀ k, (triangulateCoreCt w (Geo.ofScalar (hashSize Vs.length) o) Vs fuel (hashSize Vs.length) i0 i1 i2
        (srt o ((List.range Vs.length).map Int.ofNat))).run = .ok (s, k) → ∀ hu, hullWalk Vs s fuel s.hull [] = .ok hu →
        (TriangulateCt w srt hashSize fuel Vs).run = .ok (.triangulation hu s.triangles s.halfedges, k) := by
      intro w k hk hu hh
      rw [triangulateCt_seeds hne h]
      simp only [liftM_wk]
      exact run_bind_ok (l := 0) hk (run_lift_bind hh rfl)
    have hk := tk ⟨0, 0, 0, 0, 0, 0, 0⟩
    simp only at hk
    simp only [liftM_wk] at hT
    rw [run_bind, hk, Res.bind_ok] at hT
    cases hh : hullWalk Vs s fuel s.hull [] with
    | panic => simp only [hh] at hT; cases hT
    | fuel => simp only [hh] at hT; cases hT
    | ok hu =>
      have := C102_same ⟨0, 0, 0, 0, 0, 0, 0⟩ srt hashSize fuel Vs
      rw [hr, key _ _ (tk _) hu hh, Res.bind_ok] at this
      simp only [Res.ok.injEq, TriOut.triangulation.injEq] at this
      obtain ⟨rfl, rfl, rfl⟩ := this
      exact ⟨c, fun w => key w _ (tk w) _ hh, h3, S⟩
  · have := C102_same_core ⟨0, 0, 0, 0, 0, 0, 0⟩ (Geo.ofScalar (hashSize Vs.length) o) Vs fuel (hashSize Vs.length) i0 i1 i2 (srt o ((List.range Vs.length).map Int.ofNat))
    rw [e] at this
    rw [run_bind] at hT
    cases hx : (triangulateCoreCt ⟨0, 0, 0, 0, 0, 0, 0⟩ (Geo.ofScalar (hashSize Vs.length) o) Vs fuel (hashSize Vs.length) i0 i1 i2
      (srt o ((List.range Vs.length).map Int.ofNat))).run with
    | panic => rw [hx] at hT; cases hT
    | fuel => rw [hx] at hT; cases hT
    | ok p => rw [hx] at this; cases this

end scalar

theorem seedsC_of {K : Type} [Field K] [LinearOrder K] [IsStrictOrderedRing K] {Vs : List (R3.Vector K)} {i0 i1 i2 : ℕ} {p0 p1 p2 : R3.Vector K}
    (h : seedsQ Vs = .ok (some (i0, i1, i2, p0, p1, p2))) : seedsC Vs = .ok (some (i0, i1, i2, circumcenter p0 p1 p2)) := by
  unfold seedsQ at h
  unfold seedsC
  rw [Res.bind_eq_ok] at h
  obtain ⟨⟨x0, x1, y0, y1⟩, hb, h⟩ := h
  rw [hb, Res.bind_ok]
  dsimp only at h ⊢
  rw [Res.bind_eq_ok] at h
  obtain ⟨q0, hp0, h⟩ := h
  rw [hp0, Res.bind_ok]
  rw [Res.bind_eq_ok] at h
  obtain ⟨q1, hp1, h⟩ := h
  rw [hp1, Res.bind_ok]
  split at h
  · simp at h
  · rename_i r hr
    simp only [hr]
    rw [Res.bind_eq_ok] at h
    obtain ⟨q2, hp2, h⟩ := h
    rw [hp2, Res.bind_ok]
    rw [Res.bind_eq_ok] at h
    obtain ⟨r1, hq1, h⟩ := h
    rw [hq1, Res.bind_ok]
    rw [Res.bind_eq_ok] at h
    obtain ⟨r2, hq2, h⟩ := h
    rw [hq2, Res.bind_ok]
    simp only [Res.pure_eq, Res.ok.injEq, Option.some.injEq, Prod.mk.injEq] at h ⊢
    obtain ⟨h0, h1, h2, rfl, rfl, rfl⟩ := h
    exact ⟨h0, h1, h2, rfl⟩

/-- C102: two or more planar points in exact arithmetic -/
theorem C102_exact {K : Type} [Field K] [LinearOrder K] [IsStrictOrderedRing K] [FloorRing K] (srt : R3.Vector K → List ℤ → List ℤ)
    (hsrt : ∀ c l, (srt c l).Perm l) (hashSize : ℕ → ℕ) (fuel : ℕ) (Vs : List (R3.Vector K)) (hp : Planar Vs) (hn : 2 ≤ Vs.length)
    (hash : 0 < hashSize Vs.length) (hf : 6 * Vs.length < fuel) :
    (Collinear Vs ∧ Triangulate srt hashSize fuel Vs = .ok .noTriangulation) ∨
    (¬ Collinear Vs ∧ ∃ hull ts hs c, Triangulate srt hashSize fuel Vs = .ok (.triangulation hull ts hs) ∧
      Takes (fun w => TriangulateCt w srt hashSize fuel Vs) (.triangulation hull ts hs) c ∧ Steps Vs.length (hashSize Vs.length) (ts.length / 3) c) := by
  rcases C23_planar srt hsrt hashSize fuel Vs hp hn hash hf with h | ⟨hc, hull, ts, hs, e, _⟩
  · exact Or.inl h
  rcases seedsQ_spec hp hn with ⟨h, _⟩ | ⟨_, i0, i1, i2, p0, p1, p2, S, hs'⟩
  · exact absurd h hc
  obtain ⟨c, t, _, st⟩ := run_steps hsrt (i0 := i0) (i1 := i1) (i2 := i2) (o := circumcenter p0 p1 p2) (seedsC_of hs') (exact_call S hash _ (hsrt _ _) hf) e
  exact Or.inr ⟨hc, hull, ts, hs, c, e, t, st⟩

theorem seedsC_float (Vs : List (R3.Vector F64)) : seedsC Vs = seedsOf Vs := by
  unfold seedsC seedsOf
  refine bind_congr' _ fun b => ?_
  obtain ⟨x0, x1, y0, y1⟩ := b
  dsimp only
  refine bind_congr' _ fun p0 => ?_
  refine bind_congr' _ fun p1 => ?_
  generalize seed2 Vs _ _ p0 p1 = q
  obtain ⟨i2, r⟩ := q
  cases r <;> rfl

/-- C102: float64, whatever the coordinates, when the seed circle is empty for the float64 test. A run that does not panic takes the steps of `Steps`. -/
theorem C102_float (srt : R3.Vector F64 → List ℤ → List ℤ) (hsrt : ∀ c l, (srt c l).Perm l) (hashSize : ℕ → ℕ) (fuel : ℕ) (Vs : List (R3.Vector F64))
    (hf : 6 * Vs.length < fuel) {i0 i1 i2 : ℕ} {o : R3.Vector F64} (h : seedsOf Vs = .ok (some (i0, i1, i2, o))) (he : EmptySeed Vs i0 i1 i2)
    {hull : List (R3.Vector F64)} {ts hs : List ℤ} (hr : Triangulate srt hashSize fuel Vs = .ok (.triangulation hull ts hs)) :
    ∃ c, Takes (fun w => TriangulateCt w srt hashSize fuel Vs) (.triangulation hull ts hs) c ∧ Steps Vs.length (hashSize Vs.length) (ts.length / 3) c := by
  obtain ⟨l0, l1, l2, d01, d12, d20⟩ := seeds_call h
  have hids := hsrt o (fids Vs.length)
  have C : Call (Geo.ofScalar (hashSize Vs.length) o) Vs fuel i0 i1 i2 (srt o (fids Vs.length)) :=
    ⟨sound_float he _ _, l0, l1, l2, d01, d12, d20, by
      rw [hids.nodup_iff]; exact List.Nodup.map Int.ofNat_injective List.nodup_range, by
      intro z hz
      rw [hids.mem_iff, fids, List.mem_map] at hz
      obtain ⟨a, ha, rfl⟩ := hz
      simp only [List.mem_range] at ha
      constructor <;> simp <;> omega, hf⟩
  obtain ⟨c, t, _, st⟩ := run_steps hsrt ((seedsC_float Vs).trans h) C hr
  exact ⟨c, t, st⟩

/-- C102: float64 on small integer coordinates: every triangulation takes the steps of `Steps` -/
theorem C102_grid (srt : R3.Vector F64 → List ℤ → List ℤ) (hsrt : ∀ c l, (srt c l).Perm l) (hashSize : ℕ → ℕ) (fuel : ℕ) (Vs : List (R3.Vector F64))
    (hg : SmallInts Vs) (hn : 2 ≤ Vs.length) (hf : 6 * Vs.length < fuel)
    {hull : List (R3.Vector F64)} {ts hs : List ℤ} (hr : Triangulate srt hashSize fuel Vs = .ok (.triangulation hull ts hs)) :
    ∃ c, Takes (fun w => TriangulateCt w srt hashSize fuel Vs) (.triangulation hull ts hs) c ∧ Steps Vs.length (hashSize Vs.length) (ts.length / 3) c := by
  rcases grid_seeds srt hashSize fuel hg.grid hn with ⟨_, e⟩ | ⟨_, i0, i1, i2, p0, p1, p2, g0, g1, g2, S, hs', _⟩
  · rw [hr] at e; cases e
  refine C102_float srt hsrt hashSize fuel Vs hf hs' ?_ hr
  intro p h0 h1 h2 v v0 v1 v2 hv e0 e1 e2
  have A := (grid_agree hg.grid 1 p0).inC
  have mem : ∀ {i : ℕ} {u : R3.Vector F64}, Vs[i]? = some u → u ∈ Vs := fun h => List.mem_of_getElem? h
  have get : ∀ {i : ℕ} {u : R3.Vector F64}, Vs[i]? = some u → (Vs.map exactV)[i]? = some (exactV u) := fun h => by rw [List.getElem?_map, h]; rfl
  obtain ⟨q1, q2, q3⟩ := safeSeed_of (g := gridGeo 1 p0) rfl S p h0 h1 h2 _ _ _ _ (get hv) (get e0) (get e1) (get e2)
  have m := mem hv
  have m0 := mem e0
  have m1 := mem e1
  have m2 := mem e2
  exact ⟨(A v m v1 m1 v0 m0 v2 m2).trans q1, (A v m v2 m2 v1 m1 v0 m0).trans q2, (A v m v0 m0 v2 m2 v1 m1).trans q3⟩

/-- C102: float64 on small integer coordinates, with the size of the hash table of triangulator.go:138 for up to 2^52 points: that size is the least `m`
with `n ≤ m²`, so all steps together number at most `(n+4)(n-2)(n-3) + (m+n+6)n` with `(m-1)² < n` -/
theorem C102_grid_total (srt : R3.Vector F64 → List ℤ → List ℤ) (hsrt : ∀ c l, (srt c l).Perm l) (fuel : ℕ) (Vs : List (R3.Vector F64))
    (hg : SmallInts Vs) (hn : 2 ≤ Vs.length) (hn' : Vs.length ≤ 2 ^ 52) (hf : 6 * Vs.length < fuel)
    {hull : List (R3.Vector F64)} {ts hs : List ℤ} (hr : Triangulate srt hashSize64 fuel Vs = .ok (.triangulation hull ts hs)) :
    ∃ k, (TriangulateCt ⟨1, 1, 1, 1, 1, 1, 1⟩ srt hashSize64 fuel Vs).run = .ok (.triangulation hull ts hs, k) ∧
      ∀ m, Vs.length ≤ m ^ 2 → k ≤ (Vs.length + 4) * ((Vs.length - 2) * (Vs.length - 3)) + (m + Vs.length + 6) * Vs.length := by
  obtain ⟨c, h, S⟩ := C102_grid srt hsrt hashSize64 fuel Vs hg hn hf hr
  refine ⟨_, h _, fun m hm => ?_⟩
  have h1 := (C98_size (by omega : 1 ≤ Vs.length) hn').2 m hm
  have h2 := S.total
  have h3 : (hashSize64 Vs.length + Vs.length + 6) * Vs.length ≤ (m + Vs.length + 6) * Vs.length := Nat.mul_le_mul (by omega) le_rfl
  simp only [one_mul]
  omega

/-! ## Concrete runs -/

/-- eight points -/
def workSample : List (R3.Vector ℚ) := [⟨0, 0, 0⟩, ⟨2, 1, 0⟩, ⟨1, 3, 0⟩, ⟨9, 9, 0⟩, ⟨5, 8, 0⟩, ⟨4, 2, 0⟩, ⟨-4, 6, 0⟩, ⟨-9, 1, 0⟩]

/-- a run of eight points with eight triangles: 13 calls of `legalize`, 3 flips, 5 rounds of the loop of the flips, 5 of the loop over the hash table, 8 and
10 along the hull, 8 of the main loop. The assumptions of `C102_exact` hold. -/
example : (match (TriangulateCt ⟨1, 100, 10^4, 10^6, 10^8, 10^10, 10^12⟩ (fun _ l => l) (fun _ => 3) 100 workSample).run with
      | .ok (.triangulation _ ts _, k) => decide (ts.length = 24 ∧ k = 8100805050313)
      | _ => false) = true ∧ Planar workSample ∧ 2 ≤ workSample.length ∧ ¬ Collinear workSample := by
  refine ⟨by decide +kernel, ⟨0, by decide +kernel⟩, by decide, ?_⟩
  intro h
  have := h ⟨0, 0, 0⟩ (by decide +kernel) ⟨2, 1, 0⟩ (by decide +kernel) ⟨1, 3, 0⟩ (by decide +kernel)
  revert this
  decide +kernel

/-- float64: the assumptions of `C102_float` hold for six points that are not exact in binary, and the run returns -/
example : seedsOf seedSample = .ok (some (0, 2, 1, ⟨flt 848805500961571 (-50), flt 2170899058789603 (-52), 0⟩)) ∧ EmptySeed seedSample 0 2 1 ∧
    (match (TriangulateCt ⟨1, 100, 10^4, 10^6, 10^8, 10^10, 10^12⟩ (fun _ l => l) (fun _ => 3) 100 seedSample).run with
      | .ok (.triangulation _ ts _, k) => decide (3 ≤ ts.length ∧ k / 10^12 = 6)
      | _ => false) = true :=
  ⟨by decide +kernel, emptySeed_of (by decide +kernel), by decide +kernel⟩

end Verif.Props
