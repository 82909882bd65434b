import Verif.Props.DelaunatorExact
import Verif.Proofs.Fuel
import Verif.Proofs.F64
/-!
# C19 - C25 for `Triangulate` in float64: what rounding errors do

The theorems of Props/Delaunator.lean need `Sound` predicates, those of Props/DelaunatorExact.lean need exact
arithmetic. Here are inputs in float64 (finite, planar, of ordinary size, all with distinct points) on which the
rounding errors of `area` and `inCircle` break the claims. `srt` is any correct sort; for these inputs `Less` orders all
the points strictly, so the sorted ids are determined.
-/
namespace Verif.Props
open Verif Verif.Tri2 Verif.Proofs

/-- more fuel does not change the outcome -/
theorem triangulate_mono {F : Type} [_root_.Add F] [_root_.Sub F] [Mul F] [Div F] [LT F] [DecidableLT F] [GoTop F] [LE F] [DecidableLE F]
    [BEq F] [GoAbs F] [GoMinMax F] [GoConst F] [GoTrunc F] [GoOfInt F]
    [OfNat F 0] [OfNat F 1] [OfNat F 2] [OfNat F 3] [OfNat F 4]
    (srt : R3.Vector F → List ℤ → List ℤ) (hashSize : ℕ → ℕ) {f f' : ℕ} (h : f ≤ f') (Vs : List (R3.Vector F)) :
    FLe (Triangulate srt hashSize f Vs) (Triangulate srt hashSize f' Vs) := by
  unfold Triangulate
  refine FLe.ite FLe.rfl' (FLe.bind FLe.rfl' fun b => FLe.bind FLe.rfl' fun p0 => FLe.bind FLe.rfl' fun p1 => ?_)
  dsimp only
  split
  · exact FLe.rfl'
  · refine FLe.bind FLe.rfl' fun p2 => FLe.bind FLe.rfl' fun p1 => FLe.bind FLe.rfl' fun p2 => ?_
    exact FLe.bind (core_mono _ Vs h _ _ _ _ _) fun s => FLe.bind (hullWalk_mono Vs s h _ _) fun _ => FLe.rfl'

/-- the outcome of `Triangulate` (for every kind of scalar) does not depend on the fuel of the model -/
theorem C23_fuel {F : Type} [_root_.Add F] [_root_.Sub F] [Mul F] [Div F] [LT F] [DecidableLT F] [GoTop F] [LE F] [DecidableLE F]
    [BEq F] [GoAbs F] [GoMinMax F] [GoConst F] [GoTrunc F] [GoOfInt F]
    [OfNat F 0] [OfNat F 1] [OfNat F 2] [OfNat F 3] [OfNat F 4]
    (srt : R3.Vector F → List ℤ → List ℤ) (hashSize : ℕ → ℕ) (f f' : ℕ) (Vs : List (R3.Vector F))
    (h : Triangulate srt hashSize f Vs ≠ .fuel) (h' : Triangulate srt hashSize f' Vs ≠ .fuel) :
    Triangulate srt hashSize f Vs = Triangulate srt hashSize f' Vs := by
  rcases (triangulate_mono srt hashSize (le_max_left f f') Vs).eq (triangulate_mono srt hashSize (le_max_right f f') Vs) h' with e | e
  · exact absurd e h
  · exact e

/-- the float64 `m * 2^e` -/
def flt (m e : ℤ) : F64 := F64.round false ((m : ℚ) * 2 ^ e)

/-- the point with id `i` -/
def fpt (Vs : List (R3.Vector F64)) (i : ℤ) : R3.Vector F64 := Vs.getD i.toNat ⟨0, 0, 0⟩

/-- the ids of the points -/
def fids (n : ℕ) : List ℤ := (List.range n).map Int.ofNat

/-- `l` is the list of ids sorted by `Less` around `c` -/
def SortedIds (Vs : List (R3.Vector F64)) (c : R3.Vector F64) (l : List ℤ) : Prop :=
  l.Perm (fids Vs.length) ∧ l.Pairwise fun a b => idLess c (fpt Vs b) (fpt Vs a) = false

/-- the first part of `Triangulate`: the seeds and the centre -/
def seedsOf (Vs : List (R3.Vector F64)) : Res (Option (ℕ × ℕ × ℕ × R3.Vector F64)) := do
  let (x0, x1, y0, y1) ← bounds Vs
  let m : R3.Vector F64 := ⟨(x0 + x1) / 2, (y0 + y1) / 2, 0⟩
  let i0 := seed0 Vs m
  let p0 ← goGet Vs i0
  let i1 := seed1 Vs i0 p0
  let p1 ← goGet Vs i1
  let (i2, minRadius) := seed2 Vs i0 i1 p0 p1
  match minRadius with
  | none => pure none
  | some _ => do
    let p2 ← goGet Vs i2
    let (i1, i2) := if area p0 p1 p2 < (0 : F64) then (i2, i1) else (i1, i2)
    let p1 ← goGet Vs i1
    let p2 ← goGet Vs i2
    pure (some (i0, i1, i2, circumcenter p0 p1 p2))

/-- the second part, for given seeds, centre and sorted ids -/
def restOf (hashLen fuel : ℕ) (Vs : List (R3.Vector F64)) (i0 i1 i2 : ℕ) (c : R3.Vector F64) (ids : List ℤ) : Res (TriOut F64) := do
  let s ← triangulateCore (Geo.ofScalar hashLen c) Vs fuel hashLen i0 i1 i2 ids
  let hull ← hullWalk Vs s fuel s.hull []
  pure (.triangulation hull s.triangles s.halfedges)

theorem triangulate_seeds {srt : R3.Vector F64 → List ℤ → List ℤ} {hashSize : ℕ → ℕ} {fuel : ℕ} {Vs : List (R3.Vector F64)} (hne : Vs.length ≠ 0)
    {i0 i1 i2 : ℕ} {c : R3.Vector F64} (h : seedsOf Vs = .ok (some (i0, i1, i2, c))) :
    Triangulate srt hashSize fuel Vs = restOf (hashSize Vs.length) fuel Vs i0 i1 i2 c (srt c (fids Vs.length)) := by
  unfold Triangulate
  unfold seedsOf at h
  simp only [hne, if_false]
  rw [Res.bind_eq_ok] at h
  obtain ⟨b, hb, h⟩ := h
  rw [hb, Res.bind_ok]
  rw [Res.bind_eq_ok] at h
  obtain ⟨p0, hp0, h⟩ := h
  rw [hp0, Res.bind_ok]
  rw [Res.bind_eq_ok] at h
  obtain ⟨p1, hp1, h⟩ := h
  rw [hp1, Res.bind_ok]
  dsimp only at h ⊢
  split at h
  · simp at h
  · rename_i r hr
    simp only [hr]
    rw [Res.bind_eq_ok] at h
    obtain ⟨p2, hp2, h⟩ := h
    rw [hp2, Res.bind_ok]
    rw [Res.bind_eq_ok] at h
    obtain ⟨q1, hq1, h⟩ := h
    rw [hq1, Res.bind_ok]
    rw [Res.bind_eq_ok] at h
    obtain ⟨q2, hq2, h⟩ := h
    rw [hq2, Res.bind_ok]
    simp only [Res.pure_eq, Res.ok.injEq, Option.some.injEq, Prod.mk.injEq] at h
    obtain ⟨rfl, rfl, rfl, rfl⟩ := h
    rfl

/-- the sorted ids are determined when `Less` orders the points strictly -/
theorem sorted_unique {Vs : List (R3.Vector F64)} {c : R3.Vector F64} {l l' : List ℤ} (h : SortedIds Vs c l) (h' : SortedIds Vs c l')
    (hstrict : ∀ a ∈ fids Vs.length, ∀ b ∈ fids Vs.length, idLess c (fpt Vs b) (fpt Vs a) = false → idLess c (fpt Vs a) (fpt Vs b) = false → a = b) :
    l = l' :=
  List.Perm.eq_of_pairwise (fun a b ha hb hab hba => hstrict a (h.1.mem_iff.mp ha) b (h'.1.mem_iff.mp hb) hab hba) h.2 h'.2 (h.1.trans h'.1.symm)

/-- `srt` sorts the ids correctly in the call `Triangulate ... Vs` -/
def SortsCall (srt : R3.Vector F64 → List ℤ → List ℤ) (Vs : List (R3.Vector F64)) : Prop :=
  ∀ i0 i1 i2 c, seedsOf Vs = .ok (some (i0, i1, i2, c)) → SortedIds Vs c (srt c (fids Vs.length))

/-- what has to be checked for an input: its seeds and centre, and that `ids` are the ids in strictly increasing order -/
structure CallData (Vs : List (R3.Vector F64)) (i0 i1 i2 : ℕ) (c : R3.Vector F64) (ids : List ℤ) : Prop where
  seeds : seedsOf Vs = .ok (some (i0, i1, i2, c))
  perm : ids.Perm (fids Vs.length)
  sorted : ids.Pairwise fun a b => idLess c (fpt Vs b) (fpt Vs a) = false
  strict : ∀ a ∈ fids Vs.length, ∀ b ∈ fids Vs.length, idLess c (fpt Vs b) (fpt Vs a) = false → idLess c (fpt Vs a) (fpt Vs b) = false → a = b

/-- correct sorts exist for such an input -/
theorem CallData.sorts {Vs : List (R3.Vector F64)} {i0 i1 i2 : ℕ} {c : R3.Vector F64} {ids : List ℤ} (D : CallData Vs i0 i1 i2 c ids) :
    SortsCall (fun _ _ => ids) Vs := by
  intro j0 j1 j2 c' h
  have := D.seeds.symm.trans h
  simp only [Res.ok.injEq, Option.some.injEq, Prod.mk.injEq] at this
  obtain ⟨_, _, _, rfl⟩ := this
  exact ⟨D.perm, D.sorted⟩

theorem CallData.run {Vs : List (R3.Vector F64)} {i0 i1 i2 : ℕ} {c : R3.Vector F64} {ids : List ℤ} (D : CallData Vs i0 i1 i2 c ids) (hne : Vs.length ≠ 0)
    {srt : R3.Vector F64 → List ℤ → List ℤ} (hs : SortsCall srt Vs) (hashSize : ℕ → ℕ) (fuel : ℕ) :
    Triangulate srt hashSize fuel Vs = restOf (hashSize Vs.length) fuel Vs i0 i1 i2 c ids := by
  rw [triangulate_seeds hne D.seeds]
  rw [sorted_unique (hs _ _ _ _ D.seeds) ⟨D.perm, D.sorted⟩ D.strict]

/-- finite coordinates in the plane `z = 0` -/
def FinitePlanar (Vs : List (R3.Vector F64)) : Prop := ∀ v ∈ Vs, v.X.Finite ∧ v.Y.Finite ∧ v.Z = 0

instance (Vs : List (R3.Vector F64)) : Decidable (FinitePlanar Vs) := by unfold FinitePlanar; infer_instance

/-- input: the half-edges do not point back -/
def notInvolutive : List (R3.Vector F64) :=
  [⟨flt 8283406457485021 (-32), flt 4150499321764717 (-31), 0⟩,
   ⟨flt 4920785753566647 (-30), flt 4925183800077751 (-30), 0⟩,
   ⟨flt 5046444225312475 (-31), flt 5055240318334685 (-31), 0⟩,
   ⟨flt 8605092145154343 (-32), flt 8622684331198757 (-32), 0⟩,
   ⟨flt 2995697966420553 (-32), flt 376661269058121 (-29), 0⟩,
   ⟨flt 8283406457485019 (-34), flt 8353775201662683 (-34), 0⟩]

/-- input: twin half-edges join different vertices -/
def badTwins : List (R3.Vector F64) :=
  [⟨flt 6212554843113765 (-13), flt (-3882846776946103) (-9), 0⟩,
   ⟨flt 31 34, flt (-155) 35, 0⟩,
   ⟨flt 5146971002709139 (-17), flt (-3216856876693211) (-13), 0⟩,
   ⟨flt 91 34, flt (-455) 35, 0⟩,
   ⟨flt 4302546072577171 (-11), flt (-5378182590721463) (-8), 0⟩,
   ⟨flt 6876031573931739 (-14), flt (-4297519733707337) (-10), 0⟩]

/-- input: an index out of range -/
def overflows : List (R3.Vector F64) :=
  [⟨flt 5438498657159461 (-19), flt (-6215427036753669) (-21), 0⟩,
   ⟨flt 6805662829754075 (-19), flt (-7777900376861799) (-21), 0⟩,
   ⟨flt 5951185221882443 (-20), flt (-1700338634823555) (-20), 0⟩,
   ⟨flt 2211589102726583 (-19), flt (-5055060806232189) (-22), 0⟩]

/-- input: a hull of two vertices -/
def digon : List (R3.Vector F64) :=
  [⟨flt 8755882311249335 (-43), flt 871 2, 0⟩,
   ⟨flt 8122563613650359 (-44), flt 101 4, 0⟩,
   ⟨flt 21 3, flt 147 2, 0⟩,
   ⟨flt 63 3, flt 441 2, 0⟩,
   ⟨flt 3980860384907849 (-45), flt 3483252836794369 (-43), 0⟩]

/-- input: `legalize` never returns -/
def endless : List (R3.Vector F64) :=
  [⟨flt 2329708066167661 (-12), flt (-7455065811736517) (-14), 0⟩,
   ⟨flt 4563915693808493 (-14), flt (-3651132555046795) (-14), 0⟩,
   ⟨flt 3684306391587693 (-13), flt (-2947445113270155) (-13), 0⟩,
   ⟨flt 4624231760246491 (-13), flt (-3699385408197193) (-13), 0⟩,
   ⟨flt 4825285315039817 (-15), flt (-1930114126015927) (-14), 0⟩]

/-- input: a hash key out of range -/
def badKey : List (R3.Vector F64) :=
  [⟨flt 0 0, flt 0 0, 0⟩,
   ⟨flt 7 31, flt (-4503599627370497) (-19), 0⟩,
   ⟨flt 7 31, flt (-1) 33, 0⟩,
   ⟨flt 7881299347898367 (-19), flt (-1) 33, 0⟩,
   ⟨flt 5066549580791807 (-17), flt (-2895171189023889) (-17), 0⟩,
   ⟨flt 4785074604081153 (-17), flt (-5468656690378459) (-18), 0⟩,
   ⟨flt 3 32, flt (-1930114126015927) (-18), 0⟩]

theorem notInvolutive_data : CallData notInvolutive 2 3 0 ⟨flt (-358178762480774807552) 0, flt 358178762480777953280 0, 0⟩ [5, 4, 0, 3, 2, 1] := by
  constructor
  · decide +kernel
  · decide +kernel
  · decide +kernel
  · decide +kernel

theorem badTwins_data : CallData badTwins 0 3 1 ⟨flt (-352474658686396387428560535552) 0, flt (-35247465868639648418558377984) 0, 0⟩ [2, 5, 1, 0, 3, 4] := by
  constructor
  · decide +kernel
  · decide +kernel
  · decide +kernel
  · decide +kernel

theorem overflows_data : CallData overflows 0 1 2 ⟨flt 27007058535709673135276032 0, flt 94524704874983840941080576 0, 0⟩ [3, 2, 0, 1] := by
  constructor
  · decide +kernel
  · decide +kernel
  · decide +kernel
  · decide +kernel

theorem digon_data : CallData digon 3 0 1 ⟨flt 8836223177110671360 0, flt (-2524635193460189696) 0, 0⟩ [0, 4, 2, 1, 3] := by
  constructor
  · decide +kernel
  · decide +kernel
  · decide +kernel
  · decide +kernel

theorem endless_data : CallData endless 1 4 3 ⟨flt 1224920789349398455376674816 0, flt 1531150986686747519465029632 0, 0⟩ [4, 1, 2, 3, 0] := by
  constructor
  · decide +kernel
  · decide +kernel
  · decide +kernel
  · decide +kernel

theorem badKey_data : CallData badKey 1 3 2 ⟨flt 15032385536 0, flt (-8589934592) 0, 0⟩ [2, 3, 1, 6, 0, 5, 4] := by
  constructor
  · decide +kernel
  · decide +kernel
  · decide +kernel
  · decide +kernel

/-- **C19 fails in float64**: a half-edge does not point back -/
theorem C19_float_refuted : ∃ Vs : List (R3.Vector F64), FinitePlanar Vs ∧ Vs.length = 6 ∧ ∀ srt, SortsCall srt Vs → ∀ hashSize, hashSize Vs.length = 3 →
    ∃ fuel hull ts hs, Triangulate srt hashSize fuel Vs = .ok (.triangulation hull ts hs) ∧ ¬ Twins hs := by
  refine ⟨notInvolutive, by decide +kernel, rfl, fun srt hs hashSize hh => ⟨100, ?_⟩⟩
  rw [notInvolutive_data.run (by decide) hs, hh]
  have : ∃ x, restOf 3 100 notInvolutive 2 3 0 ⟨flt (-358178762480774807552) 0, flt 358178762480777953280 0, 0⟩ [5, 4, 0, 3, 2, 1] = x ∧
      (match x with | .ok (.triangulation _ _ hs) => decide (hs[3]? = some 0 ∧ hs[0]? = some 14) | _ => false) = true := ⟨_, rfl, by decide +kernel⟩
  obtain ⟨x, hx, h⟩ := this
  rw [hx]
  match x, h with
  | .ok (.triangulation hull ts hs), h =>
    refine ⟨hull, ts, hs, rfl, fun ht => ?_⟩
    simp only [decide_eq_true_eq] at h
    have hlt : 3 < hs.length := by
      by_contra hc
      rw [List.getElem?_eq_none (by omega)] at h
      simp at h
    rcases ht 3 hlt with h' | ⟨j, _, h', h''⟩
    · rw [h.1] at h'; simp at h'
    · rw [h.1] at h'
      have : j = 0 := by simpa using h'.symm
      subst this
      rw [h.2] at h''
      simp at h''

/-- **C20 fails in float64**: the half-edges are an involution, but a half-edge and its twin join different vertices -/
theorem C20_float_refuted : ∃ Vs : List (R3.Vector F64), FinitePlanar Vs ∧ Vs.length = 6 ∧ ∀ srt, SortsCall srt Vs → ∀ hashSize, hashSize Vs.length = 3 →
    ∃ fuel hull ts hs, Triangulate srt hashSize fuel Vs = .ok (.triangulation hull ts hs) ∧ ¬ Table Vs.length ts hs := by
  refine ⟨badTwins, by decide +kernel, rfl, fun srt hs hashSize hh => ⟨100, ?_⟩⟩
  rw [badTwins_data.run (by decide) hs, hh]
  have : ∃ x, restOf 3 100 badTwins 0 3 1 ⟨flt (-352474658686396387428560535552) 0, flt (-35247465868639648418558377984) 0, 0⟩ [2, 5, 1, 0, 3, 4] = x ∧
      (match x with | .ok (.triangulation _ ts hs) => decide (hs[0]? = some 14 ∧ ts[14]? = some 3 ∧ ts[1]? = some 5) | _ => false) = true := ⟨_, rfl, by decide +kernel⟩
  obtain ⟨x, hx, h⟩ := this
  rw [hx]
  match x, h with
  | .ok (.triangulation hull ts hs), h =>
    refine ⟨hull, ts, hs, rfl, fun ht => ?_⟩
    simp only [decide_eq_true_eq] at h
    have := (ht.opposite 0 14 h.1).1
    rw [h.2.1, show succ3 0 = 1 from rfl, h.2.2] at this
    simp at this

/-- **C22 and C25 in float64**: the hull can shrink to two vertices -/
theorem C22_float_refuted : ∃ Vs : List (R3.Vector F64), FinitePlanar Vs ∧ Vs.length = 5 ∧ ∀ srt, SortsCall srt Vs → ∀ hashSize, hashSize Vs.length = 3 →
    ∃ fuel hull ts hs, Triangulate srt hashSize fuel Vs = .ok (.triangulation hull ts hs) ∧ hull.length = 2 := by
  refine ⟨digon, by decide +kernel, rfl, fun srt hs hashSize hh => ⟨100, ?_⟩⟩
  rw [digon_data.run (by decide) hs, hh]
  have : ∃ x, restOf 3 100 digon 3 0 1 ⟨flt 8836223177110671360 0, flt (-2524635193460189696) 0, 0⟩ [0, 4, 2, 1, 3] = x ∧
      (match x with | .ok (.triangulation hull _ _) => decide (hull.length = 2) | _ => false) = true := ⟨_, rfl, by decide +kernel⟩
  obtain ⟨x, hx, h⟩ := this
  rw [hx]
  match x, h with
  | .ok (.triangulation hull ts hs), h => exact ⟨hull, ts, hs, rfl, by simpa using h⟩

/-- **C23 fails in float64**: an index panic (the hull shrinks and the triangle buffer overflows) -/
theorem C23_float_refuted : ∃ Vs : List (R3.Vector F64), FinitePlanar Vs ∧ Vs.length = 4 ∧ ∀ srt, SortsCall srt Vs → ∀ hashSize, hashSize Vs.length = 2 →
    ∃ fuel, Triangulate srt hashSize fuel Vs = .panic := by
  refine ⟨overflows, by decide +kernel, rfl, fun srt hs hashSize hh => ⟨100, ?_⟩⟩
  rw [overflows_data.run (by decide) hs, hh]
  have : (match restOf 2 100 overflows 0 1 2 ⟨flt 27007058535709673135276032 0, flt 94524704874983840941080576 0, 0⟩ [3, 2, 0, 1] with | .panic => true | _ => false) = true := by decide +kernel
  revert this
  generalize restOf 2 100 overflows _ _ _ _ _ = x
  intro h
  cases x <;> first | rfl | cases h

/-- **C23 fails in float64**: the centre is an input point, its hash key is the conversion of a NaN -/
theorem C23_key_float_refuted : ∃ Vs : List (R3.Vector F64), FinitePlanar Vs ∧ Vs.length = 7 ∧ ∀ srt, SortsCall srt Vs → ∀ hashSize, hashSize Vs.length = 3 →
    ∃ fuel, Triangulate srt hashSize fuel Vs = .panic := by
  refine ⟨badKey, by decide +kernel, rfl, fun srt hs hashSize hh => ⟨100, ?_⟩⟩
  rw [badKey_data.run (by decide) hs, hh]
  have : (match restOf 3 100 badKey 1 3 2 ⟨flt 15032385536 0, flt (-8589934592) 0, 0⟩ [2, 3, 1, 6, 0, 5, 4] with | .panic => true | _ => false) = true := by decide +kernel
  revert this
  generalize restOf 3 100 badKey _ _ _ _ _ = x
  intro h
  cases x <;> first | rfl | cases h

/-! ## `legalize` never returns -/

def endC : R3.Vector F64 := ⟨flt 1224920789349398455376674816 0, flt 1531150986686747519465029632 0, 0⟩
def endG : Geo (R3.Vector F64) := Geo.ofScalar 3 endC

/-- the state before the main loop -/
def endS0 : St where
  triangles := [1, 4, 3, 0, 0, 0, 0, 0, 0, 0, 0, 0, 0, 0, 0]
  halfedges := [-1, -1, -1, 0, 0, 0, 0, 0, 0, 0, 0, 0, 0, 0, 0]
  trianglesLen := 3
  hull := some 3
  hash := [some 3, none, none]
  nodes := [⟨0, 0, none, none⟩, ⟨1, 0, some 3, some 4⟩, ⟨0, 0, none, none⟩, ⟨3, 2, some 4, some 1⟩, ⟨4, 1, some 1, some 3⟩]

/-- after the insertion of point 2 -/
def endS1 : St where
  triangles := [1, 4, 2, 3, 2, 4, 0, 0, 0, 0, 0, 0, 0, 0, 0]
  halfedges := [-1, 4, -1, -1, 1, -1, 0, 0, 0, 0, 0, 0, 0, 0, 0]
  trianglesLen := 6
  hull := some 3
  hash := [some 3, none, none]
  nodes := [⟨0, 0, none, none⟩, ⟨1, 0, some 2, some 4⟩, ⟨2, 2, some 3, some 1⟩, ⟨3, 3, some 4, some 2⟩, ⟨4, 5, some 1, some 3⟩]

/-- during the insertion of point 0: before the first `legalize` -/
def endX : St where
  triangles := [1, 4, 2, 3, 2, 4, 3, 0, 2, 0, 0, 0, 0, 0, 0]
  halfedges := [-1, 4, -1, 8, 1, -1, -1, -1, 3, 0, 0, 0, 0, 0, 0]
  trianglesLen := 9
  hull := some 3
  hash := [some 3, none, none]
  nodes := [⟨0, 0, some 3, some 2⟩, ⟨1, 0, some 2, some 4⟩, ⟨2, 2, some 0, some 1⟩, ⟨3, 6, some 4, some 0⟩, ⟨4, 5, some 1, some 3⟩]

/-- after it -/
def endY : St where
  triangles := [1, 0, 2, 0, 1, 4, 3, 0, 4, 0, 0, 0, 0, 0, 0]
  halfedges := [3, -1, -1, 0, -1, 7, -1, 5, -1, 0, 0, 0, 0, 0, 0]
  trianglesLen := 9
  hull := some 3
  hash := [some 3, none, none]
  nodes := [⟨0, 4, some 3, some 2⟩, ⟨1, 0, some 2, some 4⟩, ⟨2, 2, some 0, some 1⟩, ⟨3, 6, some 4, some 0⟩, ⟨4, 8, some 1, some 3⟩]

/-- before the forward walk -/
def endZ : St where
  triangles := [1, 0, 2, 0, 1, 4, 3, 0, 4, 0, 0, 0, 0, 0, 0]
  halfedges := [3, -1, -1, 0, -1, 7, -1, 5, -1, 0, 0, 0, 0, 0, 0]
  trianglesLen := 9
  hull := some 3
  hash := [some 3, none, none]
  nodes := [⟨0, 1, some 3, some 2⟩, ⟨1, 0, some 2, some 4⟩, ⟨2, 2, some 0, some 1⟩, ⟨3, 6, some 4, some 0⟩, ⟨4, 8, some 1, some 3⟩]

/-- before the `legalize` of the first round -/
def endX1 : St where
  triangles := [1, 0, 2, 0, 1, 4, 3, 0, 4, 2, 0, 1, 0, 0, 0]
  halfedges := [3, 9, 11, 0, -1, 7, -1, 5, -1, 1, -1, 2, 0, 0, 0]
  trianglesLen := 12
  hull := some 3
  hash := [some 3, none, none]
  nodes := [⟨0, 1, some 3, some 2⟩, ⟨1, 0, some 2, some 4⟩, ⟨2, 2, some 0, some 1⟩, ⟨3, 6, some 4, some 0⟩, ⟨4, 8, some 1, some 3⟩]

/-- after the first round -/
def endZ1 : St where
  triangles := [1, 0, 2, 0, 1, 4, 3, 0, 4, 2, 0, 1, 0, 0, 0]
  halfedges := [3, 9, 11, 0, -1, 7, -1, 5, -1, 1, -1, 2, 0, 0, 0]
  trianglesLen := 12
  hull := some 0
  hash := [some 3, none, none]
  nodes := [⟨0, 10, some 3, some 1⟩, ⟨1, 0, some 0, some 4⟩, ⟨-1, 2, some 0, some 1⟩, ⟨3, 6, some 4, some 0⟩, ⟨4, 8, some 1, some 3⟩]

/-- before the `legalize` of the second round -/
def endX2 : St where
  triangles := [1, 0, 2, 0, 1, 4, 3, 0, 4, 2, 0, 1, 1, 0, 4]
  halfedges := [14, 9, 11, 0, -1, 7, -1, 5, -1, 1, 12, 2, 10, -1, 0]
  trianglesLen := 15
  hull := some 0
  hash := [some 3, none, none]
  nodes := [⟨0, 10, some 3, some 1⟩, ⟨1, 0, some 0, some 4⟩, ⟨-1, 2, some 0, some 1⟩, ⟨3, 6, some 4, some 0⟩, ⟨4, 8, some 1, some 3⟩]

/-- the recursion comes back to the same state after 18 flips -/
theorem endless_legalize (f : ℕ) : legalize endG endless f endX2 14 = .fuel :=
  legalize_cycle endG endless 50 (x := (endX2, 14)) (j := 5) (k := 23) (by decide) (by decide +kernel) (by decide +kernel) f

theorem endless_insert {f : ℕ} (hf : 50 ≤ f) : insertPoint endG endless f endS1 0 (fpt endless 0) = .fuel := by
  rw [insertPoint_parts]
  rw [(insPre_mono endG endless hf endS1 0 (fpt endless 0)).ok (show _ = Res.ok (some (endX, some 0, 8, false)) by decide +kernel), Res.bind_ok]
  dsimp only
  rw [(legalize_mono endG endless hf endX 8).ok (show _ = Res.ok (endY, 1) by decide +kernel), Res.bind_ok]
  rw [show insMid (some 0) endY 1 = .ok (endZ, some 2) by decide +kernel, Res.bind_ok]
  obtain ⟨k, rfl⟩ : ∃ k, f = k + 1 + 1 := ⟨f - 2, by omega⟩
  rw [walkForward_step, show fwdPre endG endless 0 (fpt endless 0) endZ (some 2) = .ok (some (endX1, 11)) by decide +kernel, Res.bind_ok]
  dsimp only
  rw [(legalize_mono endG endless hf endX1 11).ok (show _ = Res.ok (endX1, 10) by decide +kernel), Res.bind_ok]
  rw [show fwdPost (some 2) endX1 10 = .ok (endZ1, some 1) by decide +kernel, Res.bind_ok]
  rw [walkForward_step, show fwdPre endG endless 0 (fpt endless 0) endZ1 (some 1) = .ok (some (endX2, 14)) by decide +kernel, Res.bind_ok]
  dsimp only
  rw [endless_legalize]
  rfl

theorem endless_loop {f : ℕ} (hf : 50 ≤ f) : mainLoop endG endless f 1 4 3 [4, 1, 2, 3, 0] none endS0 = .fuel := by
  have g4 : goGet endless 4 = .ok (fpt endless 4) := by decide +kernel
  have g1 : goGet endless 1 = .ok (fpt endless 1) := by decide +kernel
  have g2 : goGet endless 2 = .ok (fpt endless 2) := by decide +kernel
  have g3 : goGet endless 3 = .ok (fpt endless 3) := by decide +kernel
  have g0 : goGet endless 0 = .ok (fpt endless 0) := by decide +kernel
  have n1 : endG.near (fpt endless 1) (fpt endless 4) = false := by decide +kernel
  have n2 : endG.near (fpt endless 2) (fpt endless 1) = false := by decide +kernel
  have n3 : endG.near (fpt endless 3) (fpt endless 2) = false := by decide +kernel
  have n0 : endG.near (fpt endless 0) (fpt endless 3) = false := by decide +kernel
  have i2 : insertPoint endG endless f endS0 2 (fpt endless 2) = .ok endS1 :=
    (insertPoint_mono endG endless hf endS0 2 _).ok (by decide +kernel)
  simp [mainLoop, g4, g1, g2, g3, g0, n1, n2, n3, n0, i2, endless_insert hf]

theorem endless_rest (f : ℕ) : restOf 3 f endless 1 4 3 endC [4, 1, 2, 3, 0] = .fuel := by
  have key : ∀ f, 50 ≤ f → triangulateCore (Geo.ofScalar 3 endC) endless f 3 (1:ℕ) (4:ℕ) (3:ℕ) [4, 1, 2, 3, 0] = .fuel := by
    intro f hf
    unfold triangulateCore
    rw [show initState (Geo.ofScalar 3 endC) endless 3 (1:ℕ) (4:ℕ) (3:ℕ) = .ok endS0 by decide +kernel, Res.bind_ok]
    have := endless_loop hf
    unfold endG at this
    rw [show ((1:ℕ):ℤ) = 1 from rfl, show ((4:ℕ):ℤ) = 4 from rfl, show ((3:ℕ):ℤ) = 3 from rfl, this]
    rfl
  unfold restOf
  rcases core_mono (Geo.ofScalar 3 endC) endless (le_max_left f 50) 3 (1:ℕ) (4:ℕ) (3:ℕ) [4, 1, 2, 3, 0] with h | h
  · rw [h]; rfl
  · rw [h, key _ (le_max_right _ _)]; rfl

/-- **C23 fails in float64**: on this input `legalize` calls itself for ever (in Go: until the stack overflows), so `Triangulate` never returns -/
theorem C23_endless_float_refuted : ∃ Vs : List (R3.Vector F64), FinitePlanar Vs ∧ Vs.length = 5 ∧ ∀ srt, SortsCall srt Vs → ∀ hashSize, hashSize Vs.length = 3 →
    ∀ fuel, Triangulate srt hashSize fuel Vs = .fuel := by
  refine ⟨endless, by decide +kernel, rfl, fun srt hs hashSize hh fuel => ?_⟩
  rw [endless_data.run (by decide) hs, hh]
  exact endless_rest fuel

/-- the sorts the theorems speak about exist -/
example : SortsCall (fun _ _ => [4, 1, 2, 3, 0]) endless := endless_data.sorts

end Verif.Props
