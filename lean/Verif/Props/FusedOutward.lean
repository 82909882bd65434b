import Verif.Props.FusedShape
import Verif.Props.Outward
/-!
# C123: the computed triangles of sphere and torus face outwards, however the multiply-adds are fused
-/
namespace Verif.Props
set_option linter.unusedSectionVars false
open Verif Verif.F64 Verif.Proofs Verif.R3 Verif.Shape

variable [GoTrig F64] {δ : ℝ}

/-- `p` is a vector the program may compute for the vector of expressions `v` -/
def EvV (v : R3.Vector (TExpr F64)) (p : R3.Vector F64) : Prop := TEv v.X p.X ∧ TEv v.Y p.Y ∧ TEv v.Z p.Z

theorem sin_low {n i : ℕ} (h : 1 ≤ i) (h' : i < n) : 2 / (n:ℝ) ≤ Real.sin (i * (Real.pi / n)) := by
  have hp := Real.pi_pos
  have n0 : (0:ℝ) < n := by exact_mod_cast (by omega : 0 < n)
  have i1 : (1:ℝ) ≤ i := by exact_mod_cast h
  have i2 : (i:ℝ) + 1 ≤ n := by exact_mod_cast h'
  have key : ∀ k : ℝ, 1 ≤ k → 2 * k ≤ n → 2 / (n:ℝ) ≤ Real.sin (k * (Real.pi / n)) := by
    intro k k1 k2
    have hx : k * (Real.pi / n) ≤ Real.pi / 2 := by
      rw [← mul_div_assoc, div_le_div_iff₀ n0 two_pos]
      nlinarith
    have := Real.mul_le_sin (x := k * (Real.pi / n)) (by positivity) hx
    have e : 2 / Real.pi * (k * (Real.pi / n)) = 2 * k / n := by field_simp
    rw [e] at this
    exact (div_le_div_of_nonneg_right (by linarith) n0.le).trans this
  rcases le_or_gt (2 * (i:ℝ)) n with hc | hc
  · exact key i i1 hc
  · have := key (n - i) (by linarith) (by linarith)
    have e : ((n:ℝ) - i) * (Real.pi / n) = Real.pi - i * (Real.pi / n) := by field_simp
    rwa [e, Real.sin_pi_sub] at this

theorem sector_low {sc : ℕ} (h : 3 ≤ sc) : 2 / (sc:ℝ) ≤ Real.sin (2 * Real.pi / sc) := by
  have := sin_low (n := sc) (i := 2) (by norm_num) (by omega)
  rwa [show ((2:ℕ):ℝ) * (Real.pi / sc) = 2 * Real.pi / sc by push_cast; ring] at this

theorem sphereAt_size' {r : ℝ} (sc st i j : ℕ) : Size3 |r| (sphereAt r sc st i j) := by
  unfold Size3 sphereAt
  generalize Real.pi/2 - i * (Real.pi / st) = α
  generalize (j:ℝ) * (2 * Real.pi / sc) = β
  have c1 := Real.abs_cos_le_one α
  have s1 := Real.abs_sin_le_one α
  have c2 := Real.abs_cos_le_one β
  have s2 := Real.abs_sin_le_one β
  dsimp only
  simp only [abs_mul, mul_assoc]
  exact ⟨mul_le_of_le_one_right (abs_nonneg r) (mul_le_one₀ c1 (abs_nonneg _) c2),
    mul_le_of_le_one_right (abs_nonneg r) (mul_le_one₀ c1 (abs_nonneg _) s2), mul_le_of_le_one_right (abs_nonneg r) s1⟩

/-- a volume whose exact value is not small keeps its sign -/
theorem volume_sign {r V V' s e : ℝ} (hr : r ≠ 0) (hV : V = r ^ 3 * s) (he : 0 ≤ e) (he' : e ≤ 1 / 2 ^ 10) (hs : 19 * e < s)
    (hd : |V' - V| ≤ |r| ^ 3 * (6 * (3 * e + 3 * e^2 + e^3))) : (0 < r → 0 < V') ∧ (r < 0 → V' < 0) := by
  have b : 6 * (3 * e + 3 * e^2 + e^3) ≤ 19 * e := by
    have h1 : e^2 ≤ 1 / 2 ^ 10 * e := by rw [pow_two]; exact mul_le_mul_of_nonneg_right he' he
    have h2 : e^3 ≤ 1 / 2 ^ 10 * e := by
      have : e^3 = e^2 * e := by ring
      rw [this]
      exact mul_le_mul_of_nonneg_right (h1.trans (by norm_num at *; linarith)) he
    norm_num at *; linarith
  have r0 : 0 < |r| ^ 3 := pow_pos (abs_pos.mpr hr) 3
  have hd' : |V' - V| < |r| ^ 3 * s := lt_of_le_of_lt hd (mul_lt_mul_of_pos_left (lt_of_le_of_lt b hs) r0)
  obtain ⟨l, u⟩ := abs_lt.mp hd'
  constructor
  · intro h
    rw [abs_of_pos h] at l u; linarith
  · intro h
    have : |r| ^ 3 = -(r ^ 3) := by rw [abs_of_neg h]; ring
    rw [this] at l u; linarith

/-- C123 for the sphere: every computed triangle faces outwards, inwards for a negative radius, and none is degenerate -/
theorem C123_sphere (h : TrigAcc δ) (hδ : δ ≤ 1 / 2 ^ 20) (c : R3.Vector (TExpr F64)) (r : F64) (hr : RadOk r) (sc st : ℕ)
    (hsc : 3 ≤ sc) (hst : 2 ≤ st) (hsz : st * (sc+1) < 2^32) (hfine : 19 * (70 * ur + 3 * δ) * (st^2 * sc) < 8) :
    ∃ m, Sphere.Construct ⟨c, TExpr.leaf r, sc, st⟩ = .ok m ∧ ∀ k a b d, TriAt m.Indices k a b d →
      ∃ u v w, m.Vertices[a]? = some u ∧ m.Vertices[b]? = some v ∧ m.Vertices[d]? = some w ∧
        ∀ u' v' w', EvV u u' → EvV v v' → EvV w w' →
          (0 < r.toQ → 0 < volume6 (realV u') (realV v') (realV w')) ∧ (r.toQ < 0 → volume6 (realV u') (realV v') (realV w') < 0) := by
  have hsc2 : sc ≤ 2 ^ 52 := by nlinarith
  have hst2 : st ≤ 2 ^ 52 := by nlinarith
  obtain ⟨m, e, hi, _, _, hm⟩ := C122_sphere h hδ c r hr sc st (by omega) hsc2 hst2
  have u0 := ur_pos
  have d0 := h.nonneg
  obtain ⟨r1, r2⟩ := hr.real
  have q0 : 0 < |(r.toQ : ℝ)| := lt_of_lt_of_le (by positivity) r1
  have rn : (r.toQ : ℝ) ≠ 0 := abs_pos.mp q0
  have e0 : 0 ≤ 70 * ur + 3 * δ := by positivity
  have e1 : 70 * ur + 3 * δ ≤ 1 / 2 ^ 10 := by
    have : ur ≤ 1 / 2 ^ 50 := ur_le
    norm_num at *; linarith
  have hv : ∀ i j, i < st → j ≤ sc → ∃ v, m.Vertices[i * (sc+1) + j]? = some v ∧
      ∀ v', EvV v v' → Near3 (|(r.toQ : ℝ)| * (70 * ur + 3 * δ)) (realV v') (sphereAt r.toQ sc st i j) := by
    intro i j h1 h2
    obtain ⟨v, n, a1, _, x, y, z, _⟩ := hm i j h1 h2
    refine ⟨v, a1, fun v' hv' => ⟨(x _ hv'.1).2, (y _ hv'.2.1).2, (z _ hv'.2.2).2.trans ?_⟩⟩
    exact mul_le_mul_of_nonneg_left (by linarith) q0.le
  have low : ∀ i, 1 ≤ i → i < st → 19 * (70 * ur + 3 * δ) <
      Real.sin (i * (Real.pi / st)) * Real.sin (2 * Real.pi / sc) * Real.sin (Real.pi / st) := by
    intro i h1 h2
    have s1 := sin_low h1 h2
    have s2 := sector_low hsc
    have s3 := sin_low (n := st) (i := 1) le_rfl (by omega)
    rw [Nat.cast_one, one_mul] at s3
    have t0 : (0:ℝ) < st := by exact_mod_cast (by omega : 0 < st)
    have c0 : (0:ℝ) < sc := by exact_mod_cast (by omega : 0 < sc)
    have p : 2 / (st:ℝ) * (2 / sc) * (2 / st) ≤ Real.sin (i * (Real.pi / st)) * Real.sin (2 * Real.pi / sc) * Real.sin (Real.pi / st) := by
      have a0 : 0 ≤ 2 / (st:ℝ) := by positivity
      have b0 : 0 ≤ 2 / (sc:ℝ) := by positivity
      exact mul_le_mul (mul_le_mul s1 s2 b0 (a0.trans s1)) s3 a0 (mul_nonneg (a0.trans s1) (b0.trans s2))
    refine lt_of_lt_of_le ?_ p
    have e : 2 / (st:ℝ) * (2 / sc) * (2 / st) = 8 / (st^2 * sc) := by field_simp; norm_num
    rw [e, lt_div_iff₀ (by positivity)]
    exact hfine
  refine ⟨m, e, fun k a b d hk => ?_⟩
  rw [hi] at hk
  have cast : ∀ V : ℝ, ((0 < (r.toQ : ℝ) → 0 < V) ∧ ((r.toQ : ℝ) < 0 → V < 0)) → (0 < r.toQ → 0 < V) ∧ (r.toQ < 0 → V < 0) :=
    fun V hV => ⟨fun hp => hV.1 (by exact_mod_cast hp), fun hp => hV.2 (by exact_mod_cast hp)⟩
  obtain ⟨i, j, h1, h2, ⟨h3, rfl, rfl, rfl⟩ | ⟨rfl, rfl, rfl⟩⟩ := tri_cases hst hsz hk
  · obtain ⟨u, hu, nu⟩ := hv i j (by omega) (by omega)
    obtain ⟨v, hv', nv⟩ := hv (i+1) j h1 (by omega)
    obtain ⟨w, hw, nw⟩ := hv i (j+1) (by omega) (by omega)
    refine ⟨u, v, w, hu, hv', hw, fun u' v' w' eu ev ew => cast _ ?_⟩
    exact volume_sign rn (sphere_volume r.toQ sc st i j).1 e0 e1 (low i h3 (by omega))
      (volume_near q0 e0 (sphereAt_size' ..) (sphereAt_size' ..) (sphereAt_size' ..) (nu _ eu) (nv _ ev) (nw _ ew))
  · obtain ⟨u, hu, nu⟩ := hv i (j+1) (by omega) (by omega)
    obtain ⟨v, hv', nv⟩ := hv (i+1) j h1 (by omega)
    obtain ⟨w, hw, nw⟩ := hv (i+1) (j+1) h1 (by omega)
    refine ⟨u, v, w, hu, hv', hw, fun u' v' w' eu ev ew => cast _ ?_⟩
    exact volume_sign rn (sphere_volume r.toQ sc st i j).2 e0 e1 (low (i+1) (by omega) h1)
      (volume_near q0 e0 (sphereAt_size' ..) (sphereAt_size' ..) (sphereAt_size' ..) (nu _ eu) (nv _ ev) (nw _ ew))

theorem plainV_ev (v : R3.Vector (TExpr F64)) : EvV v (plainV v) := ⟨C122_eval _, C122_eval _, C122_eval _⟩

/-- C123 for the sphere of the plain float64 program -/
theorem C123_sphere_plain (h : TrigAcc δ) (hδ : δ ≤ 1 / 2 ^ 20) (c : R3.Vector F64) (r : F64) (hr : RadOk r) (sc st : ℕ)
    (hsc : 3 ≤ sc) (hst : 2 ≤ st) (hsz : st * (sc+1) < 2^32) (hfine : 19 * (70 * ur + 3 * δ) * (st^2 * sc) < 8) :
    ∃ m, Sphere.Construct ⟨c, r, sc, st⟩ = .ok m ∧ ∀ k a b d, TriAt m.Indices k a b d →
      ∃ u v w, m.Vertices[a]? = some u ∧ m.Vertices[b]? = some v ∧ m.Vertices[d]? = some w ∧
        (0 < r.toQ → 0 < volume6 (realV u) (realV v) (realV w)) ∧ (r.toQ < 0 → volume6 (realV u) (realV v) (realV w) < 0) := by
  obtain ⟨m, e, hm⟩ := C123_sphere h hδ (leafV c) r hr sc st hsc hst hsz hfine
  obtain ⟨m1, m', e1, e', hi, hv, _⟩ := C122_plain_sphere (leafV c) r sc st (by omega)
  obtain rfl : m = m1 := by rw [e, Res.ok.injEq] at e1; exact e1
  refine ⟨m', e', fun k a b d hk => ?_⟩
  rw [hi] at hk
  obtain ⟨u, v, w, hu, hv', hw, hs⟩ := hm k a b d hk
  refine ⟨plainV u, plainV v, plainV w, ?_, ?_, ?_, hs _ _ _ (plainV_ev u) (plainV_ev v) (plainV_ev w)⟩ <;> rw [hv, List.getElem?_map]
  · rw [hu]; rfl
  · rw [hv']; rfl
  · rw [hw]; rfl

/-! ## Torus -/

theorem prod2_near {D d x y X Y : ℝ} (hX : |X| ≤ D) (hY : |Y| ≤ D) (hx : |x - X| ≤ d) (hy : |y - Y| ≤ d) :
    |x * y - X * Y| ≤ 2 * (D * d) + d ^ 2 := by
  have D0 : 0 ≤ D := (abs_nonneg _).trans hX
  have d0 : 0 ≤ d := (abs_nonneg _).trans hx
  have e : x * y - X * Y = X * (y - Y) + (x - X) * Y + (x - X) * (y - Y) := by ring
  rw [e]
  have a1 : |X * (y - Y)| ≤ D * d := by rw [abs_mul]; exact mul_le_mul hX hy (abs_nonneg _) D0
  have a2 : |(x - X) * Y| ≤ d * D := by rw [abs_mul]; exact mul_le_mul hx hY (abs_nonneg _) d0
  have a3 : |(x - X) * (y - Y)| ≤ d * d := by rw [abs_mul]; exact mul_le_mul hx hy (abs_nonneg _) d0
  have b1 := abs_add_le (X * (y - Y) + (x - X) * Y) ((x - X) * (y - Y))
  have b2 := abs_add_le (X * (y - Y)) ((x - X) * Y)
  nlinarith

theorem facing_near {S N e : ℝ} {n u v w u' v' w' : R3.Vector ℝ} (hn : Size3 N n) (h1 : Size3 S u) (h2 : Size3 S v) (h3 : Size3 S w)
    (n1 : Near3 (S * e) u' u) (n2 : Near3 (S * e) v' v) (n3 : Near3 (S * e) w' w) :
    |facing n u' v' w' - facing n u v w| ≤ N * S ^ 2 * (6 * (8 * e + 4 * e ^ 2)) := by
  have N0 : 0 ≤ N := (abs_nonneg _).trans hn.1
  have dif : ∀ {a b : ℝ}, |a| ≤ S → |b| ≤ S → |a - b| ≤ 2 * S := fun {a b} ha hb => (abs_sub a b).trans (by linarith)
  have err : ∀ {a b a' b' : ℝ}, |a' - a| ≤ S * e → |b' - b| ≤ S * e → |(a' - b') - (a - b)| ≤ 2 * (S * e) := fun {a b a' b'} ha hb => by
    rw [show (a' - b') - (a - b) = (a' - a) - (b' - b) by ring]
    exact (abs_sub _ _).trans (by linarith)
  have term : ∀ {k a b c d a' b' c' d' : ℝ}, |k| ≤ N → |a| ≤ 2 * S → |b| ≤ 2 * S → |c| ≤ 2 * S → |d| ≤ 2 * S →
      |a' - a| ≤ 2 * (S * e) → |b' - b| ≤ 2 * (S * e) → |c' - c| ≤ 2 * (S * e) → |d' - d| ≤ 2 * (S * e) →
      |k * (a' * b' - c' * d') - k * (a * b - c * d)| ≤ N * S ^ 2 * (2 * (8 * e + 4 * e ^ 2)) := by
    intro k a b c d a' b' c' d' hk ha hb hc hd ha' hb' hc' hd'
    have p := prod2_near ha hb ha' hb'
    have q := prod2_near hc hd hc' hd'
    rw [show k * (a' * b' - c' * d') - k * (a * b - c * d) = k * ((a' * b' - a * b) - (c' * d' - c * d)) by ring, abs_mul]
    have r := (abs_sub (a' * b' - a * b) (c' * d' - c * d)).trans (add_le_add p q)
    refine (mul_le_mul hk r (abs_nonneg _) N0).trans (le_of_eq ?_)
    ring
  obtain ⟨k1, k2, k3⟩ := hn
  obtain ⟨u1, u2, u3⟩ := h1
  obtain ⟨v1, v2, v3⟩ := h2
  obtain ⟨w1, w2, w3⟩ := h3
  obtain ⟨a1, a2, a3⟩ := n1
  obtain ⟨b1, b2, b3⟩ := n2
  obtain ⟨c1, c2, c3⟩ := n3
  have t1 := term k1 (dif v2 u2) (dif w3 u3) (dif v3 u3) (dif w2 u2) (err b2 a2) (err c3 a3) (err b3 a3) (err c2 a2)
  have t2 := term k2 (dif v3 u3) (dif w1 u1) (dif v1 u1) (dif w3 u3) (err b3 a3) (err c1 a1) (err b1 a1) (err c3 a3)
  have t3 := term k3 (dif v1 u1) (dif w2 u2) (dif v2 u2) (dif w1 u1) (err b1 a1) (err c2 a2) (err b2 a2) (err c1 a1)
  have t1' := abs_le.mp t1
  have t2' := abs_le.mp t2
  have t3' := abs_le.mp t3
  unfold facing
  rw [abs_le]
  constructor <;> linarith [t1'.1, t1'.2, t2'.1, t2'.2, t3'.1, t3'.2]

theorem torus_facing_low {R t : ℝ} (h0 : 0 < t) (h : t < R) {sc st : ℕ} (hsc : 3 ≤ sc) (hst : 3 ≤ st) (i j : ℕ) :
    (∀ p, p = torusAt R t sc st i j ∨ p = torusAt R t sc st (i+1) j ∨ p = torusAt R t sc st i (j+1) →
      (R - t) ^ 2 * (t * t * (2 / sc * (2 / st))) ≤
        facing (torusNormal R p) (torusAt R t sc st i j) (torusAt R t sc st (i+1) j) (torusAt R t sc st i (j+1))) ∧
    (∀ p, p = torusAt R t sc st i (j+1) ∨ p = torusAt R t sc st (i+1) j ∨ p = torusAt R t sc st (i+1) (j+1) →
      (R - t) ^ 2 * (t * t * (2 / sc * (2 / st))) ≤
        facing (torusNormal R p) (torusAt R t sc st i (j+1)) (torusAt R t sc st (i+1) j) (torusAt R t sc st (i+1) (j+1))) := by
  have s1 := sector_low hsc
  have s2 := sector_low hst
  have a0 : 0 ≤ 2 / (sc:ℝ) := by positivity
  have b0 : 0 ≤ 2 / (st:ℝ) := by positivity
  have e1 : Real.sin (2 * Real.pi / sc) = Real.sin ((j+1 : ℕ) * (2 * Real.pi / sc) - j * (2 * Real.pi / sc)) := by congr 1; push_cast; ring
  have e2 : Real.sin (2 * Real.pi / st) = Real.sin ((Real.pi/2 - i * (2 * Real.pi / st)) - (Real.pi/2 - (i+1 : ℕ) * (2 * Real.pi / st))) := by
    congr 1; push_cast; ring
  rw [e1, Real.sin_sub] at s1
  rw [e2, Real.sin_sub] at s2
  have ring : ∀ α : ℝ, R - t ≤ R + t * Real.cos α := fun α => by
    have := mul_le_mul_of_nonneg_left (Real.neg_one_le_cos α) h0.le
    linarith
  have w1 := ring (Real.pi/2 - i * (2 * Real.pi / st))
  have w2 := ring (Real.pi/2 - (i+1 : ℕ) * (2 * Real.pi / st))
  have n1 := torusNormal_at h0 h sc st i j
  have n2 := torusNormal_at h0 h sc st (i+1) j
  have n3 := torusNormal_at h0 h sc st i (j+1)
  have n4 := torusNormal_at h0 h sc st (i+1) (j+1)
  have rt : 0 ≤ R - t := by linarith
  have key : ∀ {a b x y : ℝ}, R - t ≤ a → R - t ≤ b → 2 / (sc:ℝ) ≤ x → 2 / (st:ℝ) ≤ y →
      (R - t) ^ 2 * (t * t * (2 / sc * (2 / st))) ≤ a * b * (t * t * (x * y)) := by
    intro a b x y ha hb hx hy
    rw [pow_two]
    refine mul_le_mul (mul_le_mul ha hb rt (rt.trans ha)) ?_ (by positivity) (mul_nonneg (rt.trans ha) (rt.trans hb))
    exact mul_le_mul_of_nonneg_left (mul_le_mul hx hy b0 (a0.trans hx)) (by positivity)
  constructor
  · rintro p (rfl | rfl | rfl)
    · rw [n1]
      refine (key w1 w1 s1 s2).trans (le_of_eq ?_)
      unfold facing torusAt; ring
    · rw [n2]
      refine (key w1 w2 s1 s2).trans (le_of_eq ?_)
      unfold facing torusAt; ring
    · rw [n3]
      refine (key w1 w1 s1 s2).trans (le_of_eq ?_)
      unfold facing torusAt; ring
  · rintro p (rfl | rfl | rfl)
    · rw [n3]
      refine (key w2 w1 s1 s2).trans (le_of_eq ?_)
      unfold facing torusAt; ring
    · rw [n2]
      refine (key w2 w2 s1 s2).trans (le_of_eq ?_)
      unfold facing torusAt; ring
    · rw [n4]
      refine (key w2 w2 s1 s2).trans (le_of_eq ?_)
      unfold facing torusAt; ring

theorem torus_ring_size {R t : ℝ} (h0 : 0 < t) (h : t < R) (α : ℝ) : |R + t * Real.cos α| ≤ R + t := by
  have := torus_ring h0 h α
  have := mul_le_mul_of_nonneg_left (Real.cos_le_one α) h0.le
  rw [abs_of_pos (by assumption)]
  linarith

theorem torusAt_size {R t : ℝ} (h0 : 0 < t) (h : t < R) (sc st i j : ℕ) : Size3 (R + t) (torusAt R t sc st i j) := by
  unfold Size3 torusAt
  have hw := torus_ring_size h0 h (Real.pi/2 - i * (2 * Real.pi / st))
  generalize Real.pi/2 - i * (2 * Real.pi / st) = α at *
  generalize (j:ℝ) * (2 * Real.pi / sc) = β
  dsimp only
  rw [abs_mul, abs_mul, abs_mul, abs_of_pos h0]
  have hz := mul_le_of_le_one_right h0.le (Real.abs_sin_le_one α)
  exact ⟨(mul_le_of_le_one_right (abs_nonneg _) (Real.abs_cos_le_one β)).trans hw,
    (mul_le_of_le_one_right (abs_nonneg _) (Real.abs_sin_le_one β)).trans hw, by linarith⟩

theorem torusNormal_size {R t : ℝ} (h0 : 0 < t) (h : t < R) (sc st i j : ℕ) :
    Size3 ((R + t) * t) (torusNormal R (torusAt R t sc st i j)) := by
  rw [torusNormal_at h0 h]
  unfold Size3
  have hw := torus_ring_size h0 h (Real.pi/2 - i * (2 * Real.pi / st))
  generalize Real.pi/2 - i * (2 * Real.pi / st) = α at *
  generalize (j:ℝ) * (2 * Real.pi / sc) = β
  dsimp only
  have c1 := Real.abs_cos_le_one α
  have s1 := Real.abs_sin_le_one α
  have c2 := Real.abs_cos_le_one β
  have s2 := Real.abs_sin_le_one β
  have W0 : 0 ≤ R + t := by linarith
  simp only [abs_mul, abs_of_pos h0, mul_assoc]
  refine ⟨mul_le_mul hw (mul_le_of_le_one_right h0.le (mul_le_one₀ c1 (abs_nonneg _) c2)) (by positivity) W0,
    mul_le_mul hw (mul_le_of_le_one_right h0.le (mul_le_one₀ c1 (abs_nonneg _) s2)) (by positivity) W0,
    mul_le_mul hw (mul_le_of_le_one_right h0.le s1) (by positivity) W0⟩

/-- exact position of the vertex number `a` -/
noncomputable def tCorner (R t : ℝ) (sc st a : ℕ) : R3.Vector ℝ := torusAt R t sc st (a / (sc+1)) (a % (sc+1))

theorem tCorner_eq (R t : ℝ) (sc st : ℕ) {i j : ℕ} (h : j ≤ sc) : tCorner R t sc st (i * (sc+1) + j) = torusAt R t sc st i j := by
  unfold tCorner
  rw [mul_comm i, Nat.mul_add_div (by omega), Nat.mul_add_mod, Nat.div_eq_of_lt (by omega), Nat.mod_eq_of_lt (by omega), add_zero]

/-- C123 for the torus: the normal of every computed triangle has a positive dot product with the outward normal of the torus at each of its exact corners -/
theorem C123_torus (h : TrigAcc δ) (hδ : δ ≤ 1 / 2 ^ 20) (c : R3.Vector (TExpr F64)) (R t : F64) (hR : RadOk R) (ht : RadOk t)
    (ht0 : 0 < t.toQ) (htR : t.toQ < R.toQ) (sc st : ℕ) (hsc : 3 ≤ sc) (hst : 3 ≤ st) (hsz : st * (sc+1) < 2^32)
    (hfine : 49 * (70 * ur + 3 * δ) * ((R.toQ + t.toQ : ℝ) ^ 3 * (sc * st)) < 4 * ((R.toQ - t.toQ : ℝ) ^ 2 * t.toQ)) :
    ∃ m, Torus.Construct ⟨c, TExpr.leaf R, TExpr.leaf t, sc, st⟩ = .ok m ∧ ∀ k a b d, TriAt m.Indices k a b d →
      ∃ u v w, m.Vertices[a]? = some u ∧ m.Vertices[b]? = some v ∧ m.Vertices[d]? = some w ∧
        ∀ u' v' w', EvV u u' → EvV v v' → EvV w w' → ∀ x ∈ [a, b, d],
          0 < facing (torusNormal R.toQ (tCorner R.toQ t.toQ sc st x)) (realV u') (realV v') (realV w') := by
  have hsc2 : sc ≤ 2 ^ 52 := by nlinarith
  have hst2 : st ≤ 2 ^ 52 := by nlinarith
  obtain ⟨m, e, hi, _, _, hm⟩ := C122_torus h hδ c R t hR ht sc st (by omega) hsc2 hst2
  have u0 := ur_pos
  have d0 := h.nonneg
  have t0 : (0:ℝ) < t.toQ := by exact_mod_cast ht0
  have tR : (t.toQ : ℝ) < R.toQ := by exact_mod_cast htR
  have R0 : (0:ℝ) < R.toQ := t0.trans tR
  rw [abs_of_pos t0, abs_of_pos R0] at hm
  generalize hRe : (R.toQ : ℝ) = ρ at *
  generalize hte : (t.toQ : ℝ) = τ at *
  have e0 : 0 ≤ 70 * ur + 3 * δ := by positivity
  have e1 : 70 * ur + 3 * δ ≤ 1 / 2 ^ 10 := by
    have : ur ≤ 1 / 2 ^ 50 := ur_le
    norm_num at *; linarith
  have ez : 33 * ur + δ ≤ 70 * ur + 3 * δ := by linarith
  generalize hε : 70 * ur + 3 * δ = ε at *
  have hv : ∀ i j, i < st → j ≤ sc → ∃ v, m.Vertices[i * (sc+1) + j]? = some v ∧
      ∀ v', EvV v v' → Near3 ((ρ + τ) * ε) (realV v') (torusAt ρ τ sc st i j) := by
    intro i j h1 h2
    obtain ⟨v, n, a1, _, x, y, z, _⟩ := hm i j h1 h2
    refine ⟨v, a1, fun v' hv' => ⟨(x _ hv'.1).2, (y _ hv'.2.1).2, (z _ hv'.2.2).2.trans ?_⟩⟩
    exact mul_le_mul (by linarith) ez (by positivity) (by linarith)
  have s0 : (0:ℝ) < sc := by exact_mod_cast (by omega : 0 < sc)
  have s0' : (0:ℝ) < st := by exact_mod_cast (by omega : 0 < st)
  have key : ∀ {F F' : ℝ}, (ρ - τ) ^ 2 * (τ * τ * (2 / sc * (2 / st))) ≤ F →
      |F' - F| ≤ (ρ + τ) * τ * (ρ + τ) ^ 2 * (6 * (8 * ε + 4 * ε ^ 2)) → 0 < F' := by
    intro F F' hF hd
    have b : 6 * (8 * ε + 4 * ε ^ 2) ≤ 49 * ε := by
      have : ε ^ 2 ≤ 1 / 2 ^ 10 * ε := by rw [pow_two]; exact mul_le_mul_of_nonneg_right e1 e0
      norm_num at *; linarith
    have hb := mul_le_mul_of_nonneg_left b (show 0 ≤ (ρ + τ) * τ * (ρ + τ) ^ 2 by positivity)
    have hl : (ρ + τ) * τ * (ρ + τ) ^ 2 * (49 * ε) < (ρ - τ) ^ 2 * (τ * τ * (2 / sc * (2 / st))) := by
      have e : (ρ - τ) ^ 2 * (τ * τ * (2 / sc * (2 / st))) = 4 * ((ρ - τ) ^ 2 * τ) * τ / (sc * st) := by field_simp; ring
      rw [e, lt_div_iff₀ (by positivity)]
      have := mul_lt_mul_of_pos_right hfine t0
      calc (ρ + τ) * τ * (ρ + τ) ^ 2 * (49 * ε) * (sc * st) = 49 * ε * ((ρ + τ) ^ 3 * (sc * st)) * τ := by ring
        _ < _ := this
    have := (abs_le.mp hd).1
    linarith
  refine ⟨m, e, fun k a b d hk => ?_⟩
  rw [hi] at hk
  have sz := fun i j => torusAt_size t0 tR sc st i j
  have nz := fun i j => torusNormal_size t0 tR sc st i j
  obtain ⟨i, j, h1, h2, ⟨h3, rfl, rfl, rfl⟩ | ⟨rfl, rfl, rfl⟩⟩ := tri_cases (by omega) hsz hk
  · obtain ⟨u, hu, nu⟩ := hv i j (by omega) (by omega)
    obtain ⟨v, hv', nv⟩ := hv (i+1) j h1 (by omega)
    obtain ⟨w, hw, nw⟩ := hv i (j+1) (by omega) (by omega)
    have low := (torus_facing_low t0 tR hsc hst i j).1
    refine ⟨u, v, w, hu, hv', hw, fun u' v' w' eu ev ew x hx => ?_⟩
    simp only [List.mem_cons, List.not_mem_nil, or_false] at hx
    obtain rfl | rfl | rfl := hx <;> rw [tCorner_eq _ _ _ _ (by omega)]
    · exact key (low _ (by simp)) (facing_near (nz _ _) (sz _ _) (sz _ _) (sz _ _) (nu _ eu) (nv _ ev) (nw _ ew))
    · exact key (low _ (by simp)) (facing_near (nz _ _) (sz _ _) (sz _ _) (sz _ _) (nu _ eu) (nv _ ev) (nw _ ew))
    · exact key (low _ (by simp)) (facing_near (nz _ _) (sz _ _) (sz _ _) (sz _ _) (nu _ eu) (nv _ ev) (nw _ ew))
  · obtain ⟨u, hu, nu⟩ := hv i (j+1) (by omega) (by omega)
    obtain ⟨v, hv', nv⟩ := hv (i+1) j h1 (by omega)
    obtain ⟨w, hw, nw⟩ := hv (i+1) (j+1) h1 (by omega)
    have low := (torus_facing_low t0 tR hsc hst i j).2
    refine ⟨u, v, w, hu, hv', hw, fun u' v' w' eu ev ew x hx => ?_⟩
    simp only [List.mem_cons, List.not_mem_nil, or_false] at hx
    obtain rfl | rfl | rfl := hx <;> rw [tCorner_eq _ _ _ _ (by omega)]
    · exact key (low _ (by simp)) (facing_near (nz _ _) (sz _ _) (sz _ _) (sz _ _) (nu _ eu) (nv _ ev) (nw _ ew))
    · exact key (low _ (by simp)) (facing_near (nz _ _) (sz _ _) (sz _ _) (sz _ _) (nu _ eu) (nv _ ev) (nw _ ew))
    · exact key (low _ (by simp)) (facing_near (nz _ _) (sz _ _) (sz _ _) (sz _ _) (nu _ eu) (nv _ ev) (nw _ ew))

/-- C123 for the torus of the plain float64 program -/
theorem C123_torus_plain (h : TrigAcc δ) (hδ : δ ≤ 1 / 2 ^ 20) (c : R3.Vector F64) (R t : F64) (hR : RadOk R) (ht : RadOk t)
    (ht0 : 0 < t.toQ) (htR : t.toQ < R.toQ) (sc st : ℕ) (hsc : 3 ≤ sc) (hst : 3 ≤ st) (hsz : st * (sc+1) < 2^32)
    (hfine : 49 * (70 * ur + 3 * δ) * ((R.toQ + t.toQ : ℝ) ^ 3 * (sc * st)) < 4 * ((R.toQ - t.toQ : ℝ) ^ 2 * t.toQ)) :
    ∃ m, Torus.Construct ⟨c, R, t, sc, st⟩ = .ok m ∧ ∀ k a b d, TriAt m.Indices k a b d →
      ∃ u v w, m.Vertices[a]? = some u ∧ m.Vertices[b]? = some v ∧ m.Vertices[d]? = some w ∧
        ∀ x ∈ [a, b, d], 0 < facing (torusNormal R.toQ (tCorner R.toQ t.toQ sc st x)) (realV u) (realV v) (realV w) := by
  obtain ⟨m, e, hm⟩ := C123_torus h hδ (leafV c) R t hR ht ht0 htR sc st hsc hst hsz hfine
  obtain ⟨m1, m', e1, e', hi, hv, _⟩ := C122_plain_torus (leafV c) R t sc st (by omega)
  obtain rfl : m = m1 := by rw [e, Res.ok.injEq] at e1; exact e1
  refine ⟨m', e', fun k a b d hk => ?_⟩
  rw [hi] at hk
  obtain ⟨u, v, w, hu, hv', hw, hs⟩ := hm k a b d hk
  refine ⟨plainV u, plainV v, plainV w, ?_, ?_, ?_, hs _ _ _ (plainV_ev u) (plainV_ev v) (plainV_ev w)⟩ <;> rw [hv, List.getElem?_map]
  · rw [hu]; rfl
  · rw [hv']; rfl
  · rw [hw]; rfl

/-! ## Sizes for which this holds -/

/-- C123: the sphere is fine enough with up to 4096 sectors and stacks and a cosine and sine with absolute error up to 2^-40 -/
theorem C123_sphere_4096 (h : TrigAcc δ) (hδ : δ ≤ 1 / 2 ^ 40) (c : R3.Vector (TExpr F64)) (r : F64) (hr : RadOk r) (hpos : 0 < r.toQ) (sc st : ℕ)
    (hsc : 3 ≤ sc) (hst : 2 ≤ st) (hsc2 : sc ≤ 4096) (hst2 : st ≤ 4096) :
    ∃ m, Sphere.Construct ⟨c, TExpr.leaf r, sc, st⟩ = .ok m ∧ ∀ k a b d, TriAt m.Indices k a b d →
      ∃ u v w, m.Vertices[a]? = some u ∧ m.Vertices[b]? = some v ∧ m.Vertices[d]? = some w ∧
        ∀ u' v' w', EvV u u' → EvV v v' → EvV w w' → 0 < volume6 (realV u') (realV v') (realV w') := by
  have hsz : st * (sc+1) < 2^32 := by
    have : st * (sc+1) ≤ 4096 * 4097 := Nat.mul_le_mul hst2 (by omega)
    omega
  obtain ⟨m, e, hm⟩ := C123_sphere h (hδ.trans (by norm_num)) c r hr sc st hsc hst hsz (by
    have s1 : (sc:ℝ) ≤ 4096 := by exact_mod_cast hsc2
    have s2 : (st:ℝ) ≤ 4096 := by exact_mod_cast hst2
    have u1 : ur = 1 / 2 ^ 53 := rfl
    have d0 := h.nonneg
    have a : (st:ℝ)^2 * sc ≤ 4096^2 * 4096 := by gcongr
    have b : 19 * (70 * ur + 3 * δ) ≤ 19 * (70 * (1 / 2 ^ 53) + 3 * (1 / 2 ^ 40)) := by rw [u1]; linarith
    calc 19 * (70 * ur + 3 * δ) * ((st:ℝ)^2 * sc) ≤ 19 * (70 * (1 / 2 ^ 53) + 3 * (1 / 2 ^ 40)) * (4096^2 * 4096) :=
          mul_le_mul b a (by positivity) (by norm_num)
      _ < 8 := by norm_num)
  refine ⟨m, e, fun k a b d hk => ?_⟩
  obtain ⟨u, v, w, hu, hv, hw, hs⟩ := hm k a b d hk
  exact ⟨u, v, w, hu, hv, hw, fun u' v' w' eu ev ew => (hs u' v' w' eu ev ew).1 hpos⟩

theorem roundedTrig_small : (ur : ℝ) ≤ 1 / 2 ^ 40 := ur_le.trans (by norm_num)

/-- a sphere with 4096 sectors and stacks, every product fused -/
example (c : R3.Vector (TExpr F64)) : let _ := roundedTrig
    ∃ m, Sphere.Construct ⟨c, TExpr.leaf (1 : F64), (4096 : ℕ), (4096 : ℕ)⟩ = .ok m ∧ ∀ k a b d, TriAt m.Indices k a b d →
      ∃ u v w, m.Vertices[a]? = some u ∧ m.Vertices[b]? = some v ∧ m.Vertices[d]? = some w ∧
        0 < volume6 (realV ⟨u.X.fuse, u.Y.fuse, u.Z.fuse⟩) (realV ⟨v.X.fuse, v.Y.fuse, v.Z.fuse⟩) (realV ⟨w.X.fuse, w.Y.fuse, w.Z.fuse⟩) := by
  intro _
  obtain ⟨m, e, hm⟩ := C123_sphere_4096 roundedTrig_acc roundedTrig_small c 1 radOk_one (by decide +kernel) 4096 4096 (by norm_num) (by norm_num) le_rfl le_rfl
  refine ⟨m, e, fun k a b d hk => ?_⟩
  obtain ⟨u, v, w, hu, hv, hw, hs⟩ := hm k a b d hk
  exact ⟨u, v, w, hu, hv, hw, hs _ _ _ ⟨C122_fuse _, C122_fuse _, C122_fuse _⟩ ⟨C122_fuse _, C122_fuse _, C122_fuse _⟩ ⟨C122_fuse _, C122_fuse _, C122_fuse _⟩⟩

/-- the torus of `ConstructTorus` with radii 2 and 1 -/
example (c : R3.Vector F64) : let _ := roundedTrig
    ∃ m, ConstructTorus c (GoConst.const 2 : F64) 1 = .ok m ∧ ∀ k a b d, TriAt m.Indices k a b d →
      ∃ u v w, m.Vertices[a]? = some u ∧ m.Vertices[b]? = some v ∧ m.Vertices[d]? = some w ∧
        ∀ x ∈ [a, b, d], 0 < facing (torusNormal 2 (tCorner 2 1 100 100 x)) (realV u) (realV v) (realV w) := by
  intro _
  have q2 : (GoConst.const 2 : F64).toQ = 2 := by decide +kernel
  have q1 : (1 : F64).toQ = 1 := rfl
  obtain ⟨m, e, hm⟩ := C123_torus_plain roundedTrig_acc (roundedTrig_small.trans (by norm_num)) c (GoConst.const 2) 1
    (by refine ⟨by decide +kernel, ?_, ?_⟩ <;> rw [q2] <;> norm_num) radOk_one (by rw [q1]; norm_num) (by rw [q1, q2]; norm_num) 100 100 (by norm_num) (by norm_num) (by norm_num)
    (by
      rw [q1, q2, show ur = 1 / 2 ^ 53 from rfl]
      norm_num)
  rw [q1, q2] at hm
  refine ⟨m, e, fun k a b d hk => ?_⟩
  obtain ⟨u, v, w, hu, hv, hw, hs⟩ := hm k a b d hk
  refine ⟨u, v, w, hu, hv, hw, fun x hx => ?_⟩
  have := hs x hx
  norm_num at this
  exact this

end Verif.Props
