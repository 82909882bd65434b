import Verif.Proofs.Wrap
import Verif.Model.Nurbs64
import Verif.Props.UnitOrigin
/-!
# C96: 64-bit integers

The other models compute with unbounded integers. With Go's 64-bit `int` the results are the same for every input that fits into an address space.
-/
namespace Verif.Props
open Verif Verif.Tri2 Verif.Proofs

/-- `wrap64 z` is the number between -2^63 and 2^63-1 that differs from `z` by a multiple of 2^64 -/
theorem C96_wrap64 (z : ℤ) : -2^63 ≤ wrap64 z ∧ wrap64 z < 2^63 ∧ (2^64 : ℤ) ∣ z - wrap64 z := by
  unfold wrap64
  refine ⟨by omega, by omega, ?_⟩
  omega

theorem wrap64_id {z : ℤ} (h : -2^63 ≤ z ∧ z < 2^63) : wrap64 z = z := by
  unfold wrap64; omega

/-- with unbounded integers the functions of `Model/Delaunator64.lean` are those of `Model/Delaunator.lean` -/
theorem core_unbounded {P : Type} (g : Geo P) (Vs : List P) (f m : ℕ) (i0 i1 i2 : ℤ) (ids : List ℤ) :
    triangulateCoreW id g Vs f m i0 i1 i2 ids = triangulateCore g Vs f m i0 i1 i2 ids :=
  core_wrap (M := max (6 * Vs.length) m) (fun _ _ _ => rfl) (le_max_left _ _) (le_max_right _ _) f i0 i1 i2 ids

/-- C96: whatever the predicates and the hash keys answer, the run of the triangulator on 64-bit integers is the run on unbounded integers
(same tables, same panics, same number of recursive calls) for up to 2^59 points and a hash table of up to 2^62 entries -/
theorem C96_core {P : Type} (g : Geo P) {Vs : List P} (hn : Vs.length ≤ 2^59) {m : ℕ} (hm : m ≤ 2^62) (f : ℕ) (i0 i1 i2 : ℤ) (ids : List ℤ) :
    triangulateCoreW wrap64 g Vs f m i0 i1 i2 ids = triangulateCore g Vs f m i0 i1 i2 ids :=
  core_wrap (M := 2^62) (fun z h1 h2 => wrap64_id ⟨by omega, by omega⟩) (by omega) (by exact_mod_cast hm) f i0 i1 i2 ids

/-- C96: the same for `Triangulate`, for every arithmetic of the coordinates -/
theorem C96_triangulate {F : Type} [Add F] [Sub F] [Mul F] [Div F] [LT F] [DecidableLT F] [GoTop F] [LE F] [DecidableLE F]
    [BEq F] [GoAbs F] [GoMinMax F] [GoConst F] [GoTrunc F] [GoOfInt F] [OfNat F 0] [OfNat F 1] [OfNat F 2] [OfNat F 3] [OfNat F 4]
    (srt : R3.Vector F → List ℤ → List ℤ) (hashSize : ℕ → ℕ) (fuel : ℕ) {Vs : List (R3.Vector F)} (hn : Vs.length ≤ 2^59) (hm : hashSize Vs.length ≤ 2^62) :
    TriangulateW wrap64 srt hashSize fuel Vs = Triangulate srt hashSize fuel Vs := by
  unfold TriangulateW Triangulate
  simp only [C96_core _ hn hm]
  rfl

/-- C96: `findSpan` on 64-bit integers is `findSpan` on unbounded integers when the degree and the number of knots are below 2^61 -/
theorem C96_findSpan {F : Type} [LT F] [DecidableLT F] [LE F] [DecidableLE F] [BEq F] [GoOfInt F] (fuel : ℕ) {n p : ℤ} (u : F) {U : List ℤ}
    (hn : -2^61 ≤ n ∧ n ≤ 2^61) (hp : -2^61 ≤ p ∧ p ≤ 2^61) (hU : U.length ≤ 2^61) : Nurbs.findSpanW wrap64 fuel n p u U = Nurbs.findSpan fuel n p u U := by
  have loop : ∀ (f : ℕ) (low high mid : ℤ), -2^61 ≤ low ∧ low ≤ 2^61 → -2^61 ≤ high ∧ high ≤ 2^61 + 1 →
      Nurbs.findSpanLoopW wrap64 u U f low high mid = Nurbs.findSpanLoop u U f low high mid := by
    intro f
    induction f with
    | zero => intro _ _ _ _ _; rfl
    | succ f ih =>
      intro low high mid hl hh
      unfold Nurbs.findSpanLoopW Nurbs.findSpanLoop
      cases hg : goGet U mid with
      | panic => rfl
      | fuel => rfl
      | ok um =>
        obtain ⟨m1, m2, _⟩ := goGet_lt hg
        have m3 : mid ≤ 2^61 := by omega
        have e : ∀ c : Prop, ∀ [Decidable c], wrap64 ((if c then low else mid) + (if c then mid else high)) = (if c then low else mid) + (if c then mid else high) := by
          intro c _
          exact wrap64_id (by split <;> omega)
        have ih' : ∀ c : Prop, ∀ [Decidable c], ∀ m, Nurbs.findSpanLoopW wrap64 u U f (if c then low else mid) (if c then mid else high) m =
            Nurbs.findSpanLoop u U f (if c then low else mid) (if c then mid else high) m := by
          intro c _ m
          exact ih _ _ _ (by split <;> omega) (by split <;> omega)
        simp only [Res.bind_ok, wrap64_id (z := mid + 1) ⟨by omega, by omega⟩, e, ih']
  unfold Nurbs.findSpanW Nurbs.findSpan
  simp only [wrap64_id (z := n + 1) ⟨by omega, by omega⟩, wrap64_id (z := p + (n + 1)) ⟨by omega, by omega⟩, loop fuel p (n+1) _ ⟨by omega, by omega⟩ ⟨by omega, by omega⟩]

/-! ## Concrete cases -/

/-- the six points on 64-bit integers -/
example : trisOf (TriangulateW wrap64 (sortIds insSort sixQ) (fun _ => 3) 100 sixQ) = [4, 5, 0, 5, 1, 0, 4, 2, 5, 0, 2, 4, 5, 3, 1, 2, 3, 5] := by
  rw [C96_triangulate _ _ _ (by decide) (by decide)]
  decide +kernel

/-- integers of five bits -/
def wrap5 (z : ℤ) : ℤ := (z + 16) % 32 - 16

/-- on integers that are too short for the number of points the run is another one: here `maxTriangles*3` becomes negative -/
example : TriangulateW wrap5 (sortIds insSort sixQ) (fun _ => 3) 100 sixQ = .panic := by
  have h : (match TriangulateW wrap5 (sortIds insSort sixQ) (fun _ => 3) 100 sixQ with | .panic => true | _ => false) = true := by decide +kernel
  revert h
  cases TriangulateW wrap5 (sortIds insSort sixQ) (fun _ => 3) 100 sixQ <;> simp

/-- `findSpan` of a quadratic curve with eight knots -/
example : Nurbs.findSpanW wrap64 10 4 2 (3 / 2 : ℚ) [0, 0, 0, 1, 2, 3, 3, 3] = .ok 3 := by
  rw [C96_findSpan _ _ (by norm_num) (by norm_num) (by decide)]
  decide +kernel

end Verif.Props
