import Verif.Props.DelaunatorFloat
import Verif.Props.R3Float
import Verif.Props.DelaunatorOracle
import Verif.Props.InSphereFloat
/-!
# C19 - C23 for float64 input whose seed circle is empty

At float64 the tests between coincident arguments never fire, whatever the coordinates (NaN and infinities included), so
the only assumption of the theorems about arbitrary predicates that is left is the one about the seed triangle.
-/
namespace Verif.Props
open Verif Verif.Tri2 Verif.Proofs Verif.F64

/-- zero or NaN -/
def ZN (x : F64) : Prop := x = nan ∨ ∃ s, x = zero s

theorem ZN.add {x y : F64} (hx : ZN x) (hy : ZN y) : ZN (x + y) := by
  rcases hx with rfl | ⟨s, rfl⟩
  · left; exact nan_add y
  · rcases hy with rfl | ⟨t, rfl⟩
    · left; exact add_nan _
    · right; exact ⟨_, rfl⟩

theorem ZN.sub {x y : F64} (hx : ZN x) (hy : ZN y) : ZN (x - y) := by
  rcases hx with rfl | ⟨s, rfl⟩
  · left; exact nan_sub y
  · rcases hy with rfl | ⟨t, rfl⟩
    · left; exact sub_nan _
    · right; exact ⟨_, rfl⟩

theorem ZN.mul {x : F64} (hx : ZN x) (y : F64) : ZN (x * y) := by
  rcases hx with rfl | ⟨s, rfl⟩
  · left; exact nan_mul y
  · by_cases hy : y.Finite
    · right
      obtain ⟨h1, h2⟩ := mul_fin (x := zero s) trivial hy (by rw [toQ_zero, zero_mul, rnd_zero, abs_zero]; positivity)
      rw [toQ_zero, zero_mul, rnd_zero] at h2
      generalize zero s * y = z at h1 h2
      cases z with
      | nan => exact h1.elim
      | inf s => exact h1.elim
      | zero s => exact ⟨s, rfl⟩
      | fin q h => exact absurd h2 h.1
    · left
      cases y with
      | nan => rfl
      | inf t => rfl
      | zero t => exact absurd trivial hy
      | fin q h => exact absurd trivial hy

theorem ZN.not_lt {x : F64} (hx : ZN x) : ¬ x < 0 := by
  rcases hx with rfl | ⟨s, rfl⟩
  · exact fun h => by cases h
  · rw [lt_fin (x := zero s) (y := 0) trivial trivial]
    show ¬ (0:ℚ) < 0
    exact lt_irrefl _

theorem zn_self (x : F64) : ZN (x - x) := by
  rcases self_sub x with h | h
  · right; exact ⟨false, h⟩
  · left; exact h

/-- C19: a point is never reported inside a circle through itself -/
theorem inC_self_float (v x y : R3.Vector F64) : inCircle v x y v = false := by
  unfold inCircle
  refine decide_eq_false (ZN.not_lt ?_)
  exact (((zn_self v.X).mul _).sub ((zn_self v.Y).mul _)).add ((((zn_self v.X).mul _).add ((zn_self v.Y).mul _)).mul _)

theorem areaLt_self1_float (v x : R3.Vector F64) : ¬ area v v x < 0 :=
  ZN.not_lt (((zn_self v.Y).mul _).sub ((zn_self v.X).mul _))

theorem mul_zero_zn (u : F64) (s : Bool) : (u * zero s = nan ∧ ¬ u.Finite) ∨ (u.Finite ∧ ∃ t, u * zero s = zero t) := by
  by_cases hu : u.Finite
  · right
    refine ⟨hu, ?_⟩
    rw [mul_comm']
    rcases ZN.mul (x := zero s) (Or.inr ⟨s, rfl⟩) u with h | h
    · exfalso
      have h1 := (mul_fin (x := zero s) trivial hu (by rw [toQ_zero, zero_mul, rnd_zero, abs_zero]; positivity)).1
      rw [h] at h1; exact h1
    · exact h
  · left
    refine ⟨?_, hu⟩
    cases u with
    | nan => rfl
    | inf t => rfl
    | zero t => exact absurd trivial hu
    | fin q h => exact absurd trivial hu

theorem EqZ.mul_left (u : F64) {c d : F64} (h : EqZ c d) : EqZ (u * c) (u * d) := by
  rcases h with rfl | ⟨s, t, rfl, rfl⟩
  · exact Or.inl rfl
  · rcases mul_zero_zn u s with ⟨h1, h2⟩ | ⟨h1, a, h2⟩ <;> rcases mul_zero_zn u t with ⟨h3, h4⟩ | ⟨h3, b, h4⟩
    · left; rw [h1, h3]
    · exact absurd h3 h2
    · exact absurd h1 h4
    · right; exact ⟨a, b, h2, h4⟩

theorem EqZ.zn {a b c : F64} (h : EqZ a c) (h' : EqZ b c) : ZN (a - b) := by
  rcases h with rfl | ⟨s, t, rfl, rfl⟩ <;> rcases h' with rfl | ⟨s', t', h1, h2⟩
  · exact zn_self _
  · subst h1 h2; right; exact ⟨_, rfl⟩
  · right; exact ⟨_, rfl⟩
  · subst h1; right; exact ⟨_, rfl⟩

theorem neg_mul_comm' (x y : F64) : x * (-y) = y * (-x) := by
  have bc : ∀ a b : Bool, (a != !b) = (b != !a) := by decide
  have sg : ∀ (q : ℚ), q ≠ 0 → decide (-q < 0) = !decide (q < 0) := by
    intro q hq
    rcases lt_or_gt_of_ne hq with h | h
    · simp [h, h.le]
    · simp [h, h.le]
  show F64.mul x (F64.neg y) = F64.mul y (F64.neg x)
  cases x with
  | nan => cases y <;> rfl
  | inf s =>
    cases y with
    | nan => rfl
    | inf t => exact congrArg inf (bc _ _)
    | zero t => rfl
    | fin q h => 
      show inf (s != decide (-q < 0)) = inf (decide (q < 0) != !s)
      rw [sg q h.1, bc]
  | zero s =>
    cases y with
    | nan => rfl
    | inf t => rfl
    | zero t => exact congrArg (fun b => F64.round b (0 * 0 : ℚ)) (bc s t)
    | fin q h =>
      show F64.round (s != decide (-q < 0)) (0 * -q) = F64.round (decide (q < 0) != !s) (q * 0)
      rw [sg q h.1, bc, zero_mul, mul_zero]
  | fin p hp =>
    cases y with
    | nan => rfl
    | inf t =>
      show inf (decide (p < 0) != !t) = inf (t != decide (-p < 0))
      rw [sg p hp.1, bc]
    | zero t =>
      show F64.round (decide (p < 0) != !t) (p * 0) = F64.round (t != decide (-p < 0)) (0 * -p)
      rw [sg p hp.1, bc, zero_mul, mul_zero]
    | fin q h =>
      show F64.round (decide (p < 0) != decide (-q < 0)) (p * -q) = F64.round (decide (q < 0) != decide (-p < 0)) (q * -p)
      rw [sg p hp.1, sg q h.1, bc, show p * -q = q * -p by ring]

theorem areaLt_self2_float (v x : R3.Vector F64) : ¬ area v x v < 0 := by
  refine ZN.not_lt ?_
  unfold area
  have h1 := EqZ.mul_left (x.Y - v.Y) (sub_anti v.X x.X)
  have h2 := EqZ.mul_left (x.X - v.X) (sub_anti v.Y x.Y)
  rw [neg_mul_comm'] at h2
  exact EqZ.zn h1 h2

/-- no point other than the seeds is reported inside the circle of the seed triangle (in the three forms the code can ask) -/
def EmptySeed (Vs : List (R3.Vector F64)) (i0 i1 i2 : ℕ) : Prop :=
  ∀ p, p ≠ i0 → p ≠ i1 → p ≠ i2 → ∀ v v0 v1 v2, Vs[p]? = some v → Vs[i0]? = some v0 → Vs[i1]? = some v1 → Vs[i2]? = some v2 →
    inCircle v v1 v0 v2 = false ∧ inCircle v v2 v1 v0 = false ∧ inCircle v v0 v2 v1 = false

theorem sound_float {Vs : List (R3.Vector F64)} {i0 i1 i2 : ℕ} (h : EmptySeed Vs i0 i1 i2) (m : ℕ) (c : R3.Vector F64) :
    Sound (Geo.ofScalar m c) Vs i0 i1 i2 where
  self := inC_self_float
  lt1 v x := decide_eq_false (areaLt_self1_float v x)
  lt2 v x := decide_eq_false (areaLt_self2_float v x)
  seed := h

/-- the seeds the code chooses, when it gets as far as that -/
theorem seeds_call {Vs : List (R3.Vector F64)} {i0 i1 i2 : ℕ} {c : R3.Vector F64} (h : seedsOf Vs = .ok (some (i0, i1, i2, c))) :
    i0 < Vs.length ∧ i1 < Vs.length ∧ i2 < Vs.length ∧ i0 ≠ i1 ∧ i1 ≠ i2 ∧ i2 ≠ i0 := by
  unfold seedsOf at h
  rw [Res.bind_eq_ok] at h
  obtain ⟨b, _, h⟩ := h
  rw [Res.bind_eq_ok] at h
  obtain ⟨p0, hp0, h⟩ := h
  rw [Res.bind_eq_ok] at h
  obtain ⟨p1, hp1, h⟩ := h
  dsimp only at h hp0 hp1
  set j0 := seed0 Vs ⟨(b.1 + b.2.1) / 2, (b.2.2.1 + b.2.2.2) / 2, 0⟩ with hi0
  set j1 := seed1 Vs j0 p0 with hi1
  have l0 := (goGet_nonneg hp0).2
  have l1 := (goGet_nonneg hp1).2
  split at h
  · simp at h
  · rename_i r hr
    have hr' : seed2 Vs j0 j1 p0 p1 = ((seed2 Vs j0 j1 p0 p1).1, some r) := Prod.ext rfl hr
    obtain ⟨n20, n21⟩ := seed2_ne Vs j0 j1 p0 p1 hr'
    have n01 : j0 ≠ j1 := by
      intro e
      rw [← e, hp0] at hp1
      injection hp1 with hp1; subst hp1
      have := seed2_self selfRadius_float Vs j0 j1 p0
      rw [hr] at this; cases this
    rw [Res.bind_eq_ok] at h
    obtain ⟨p2, hp2, h⟩ := h
    have l2 := (goGet_nonneg hp2).2
    rw [Res.bind_eq_ok] at h
    obtain ⟨q1, hq1, h⟩ := h
    rw [Res.bind_eq_ok] at h
    obtain ⟨q2, hq2, h⟩ := h
    simp only [Res.pure_eq, Res.ok.injEq, Option.some.injEq, Prod.mk.injEq] at h
    obtain ⟨e0, e1, e2, _⟩ := h
    subst e0
    split_ifs at e1 e2 <;> dsimp only at e1 e2 <;> subst e1 e2
    · exact ⟨by omega, by omega, by omega, n20.symm, n21, n01.symm⟩
    · exact ⟨by omega, by omega, by omega, n01, n21.symm, n20⟩

/-- C19, C20, C21, C23 for every float64 input whose seed circle is empty, NaN and infinities included: `Triangulate` never runs forever;
it panics or returns tables in which half-edges point back, twins join the same vertices in opposite directions, and the areas of the triangles,
taken exactly, add up to the area of the hull -/
theorem C19_emptySeed_float {srt : R3.Vector F64 → List ℤ → List ℤ} (hsrt : ∀ c l, (srt c l).Perm l) (hashSize : ℕ → ℕ) {fuel : ℕ} {Vs : List (R3.Vector F64)}
    (hf : 6 * Vs.length < fuel) {i0 i1 i2 : ℕ} {c : R3.Vector F64} (h : seedsOf Vs = .ok (some (i0, i1, i2, c))) (he : EmptySeed Vs i0 i1 i2) :
    Triangulate srt hashSize fuel Vs = .panic ∨
    ∃ hull ts hs, Triangulate srt hashSize fuel Vs = .ok (.triangulation hull ts hs) ∧ Twins hs ∧ Table Vs.length ts hs ∧
      triArea (Vs.map exactV) ts = .ok (polygonArea (hull.map exactV)) := by
  obtain ⟨l0, l1, l2, d01, d12, d20⟩ := seeds_call h
  rw [triangulate_seeds (by omega) h]
  have hids := hsrt c (fids Vs.length)
  have C : Call (Geo.ofScalar (hashSize Vs.length) c) Vs fuel i0 i1 i2 (srt c (fids Vs.length)) :=
    ⟨sound_float he _ _, l0, l1, l2, d01, d12, d20, by
      rw [hids.nodup_iff]; exact List.Nodup.map Int.ofNat_injective List.nodup_range, by
      intro z hz
      rw [hids.mem_iff, fids, List.mem_map] at hz
      obtain ⟨a, ha, rfl⟩ := hz
      rw [List.mem_range] at ha
      simp [ha], hf⟩
  unfold restOf
  rcases C.run (hashSize Vs.length) with ⟨s, T, V, R, e, I⟩ | e
  · right
    rw [e, Res.bind_ok]
    obtain ⟨x, l, ps, hR, h1, h2⟩ := hull_ok (Vs := Vs) I rfl (fuel := fuel) (by omega) (s.triangles.take (3*T)) (s.halfedges.take (3*T))
    rw [show hullWalk Vs _ fuel _ [] = .ok ps from h1, Res.bind_ok]
    refine ⟨ps, _, _, rfl, twins_of I, table_of I, ?_⟩
    have I' : RInv (fun _ _ => (0:ℚ)) False (3*(2*Vs.length-5)) (Vs.map exactV).length i0 i1 i2 T V R s := by rw [List.length_map]; exact I
    rw [area_of I', ring_area I' hR]
    have := congrArg (List.map (Option.map exactV)) h2
    simpa [Function.comp_def] using this
  · left
    rw [e]; rfl

/-- a finite check for `EmptySeed` -/
theorem emptySeed_of {Vs : List (R3.Vector F64)} {i0 i1 i2 : ℕ}
    (h : ∀ p < Vs.length, p ≠ i0 → p ≠ i1 → p ≠ i2 →
      inCircle (fpt Vs p) (fpt Vs i1) (fpt Vs i0) (fpt Vs i2) = false ∧ inCircle (fpt Vs p) (fpt Vs i2) (fpt Vs i1) (fpt Vs i0) = false ∧
      inCircle (fpt Vs p) (fpt Vs i0) (fpt Vs i2) (fpt Vs i1) = false) : EmptySeed Vs i0 i1 i2 := by
  intro p a b c v v0 v1 v2 hv h0 h1 h2
  have hp : p < Vs.length := by
    by_contra hc
    rw [List.getElem?_eq_none (by omega)] at hv
    cases hv
  have := h p hp a b c
  simpa [fpt, List.getD_eq_getElem?_getD, hv, h0, h1, h2] using this

/-- six points whose coordinates are not exact in binary -/
def seedSample : List (R3.Vector F64) :=
  [⟨flt 3602879701896397 (-55), flt 3602879701896397 (-54), 0⟩, ⟨flt 5854679515581645 (-52), flt 3602879701896397 (-57), 0⟩,
   ⟨flt 3602879701896397 (-53), flt 4953959590107546 (-52), 0⟩, ⟨flt 4953959590107546 (-51), flt 5179139571476070 (-51), 0⟩,
   ⟨flt (-7656119366529843) (-52), flt 8106479329266893 (-53), 0⟩, ⟨flt 3602879701896397 (-52), flt (-7656119366529843) (-51), 0⟩]

/-- the hypotheses of `C19_emptySeed_float` hold for these points -/
example : seedsOf seedSample = .ok (some (0, 2, 1, ⟨flt 848805500961571 (-50), flt 2170899058789603 (-52), 0⟩)) ∧ EmptySeed seedSample 0 2 1 :=
  ⟨by decide +kernel, emptySeed_of (by decide +kernel)⟩

end Verif.Props
