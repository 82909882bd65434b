import Verif.Proofs.NurbsFloat
import Verif.Proofs.FusedGrid
import Verif.Model.FusedNurbs
/-!
# The error bounds of the B-spline basis functions, however the products are fused
-/
namespace Verif.Proofs
open Verif Verif.F64 Verif.Nurbs Verif.Props Verif.Spec

/-- the exact product of two computed values -/
theorem Near.mulExact {r y : F64} {R Y a b t : ℚ} (hr : Near r R b 0) (hy : Near y Y a t) (hR : 0 ≤ R) (hY : 0 ≤ Y)
    (ha : 0 ≤ a) (ha' : a ≤ 1 / 2 ^ 20) (ht : 0 ≤ t) (hb : 0 ≤ b) (hb' : b ≤ 1 / 2 ^ 20) :
    0 ≤ r.toQ * y.toQ ∧ (1 - (a + 9 / 8 * b)) * (R * Y) - 9 / 8 * (R * t) ≤ r.toQ * y.toQ ∧
      r.toQ * y.toQ ≤ (1 + (a + 9 / 8 * b)) * (R * Y) + 9 / 8 * (R * t) := by
  have hRY : 0 ≤ R * Y := mul_nonneg hR hY
  have hRt : 0 ≤ R * t := mul_nonneg hR ht
  have r1 : (1 - b) * R ≤ r.toQ := by linarith [hr.lo]
  have r2 : r.toQ ≤ (1 + b) * R := by linarith [hr.hi]
  have hq : 0 ≤ r.toQ * y.toQ := mul_nonneg hr.nn hy.nn
  have hhi : r.toQ * y.toQ ≤ (1 + (a + 9 / 8 * b)) * (R * Y) + 9 / 8 * (R * t) := by
    have h0 : 0 ≤ (1 + b) * R := mul_nonneg (by linarith) hR
    refine (mul_le_mul r2 hy.hi hy.nn h0).trans ?_
    have e : (1 + b) * R * ((1 + a) * Y + t) = ((1 + b) * (1 + a)) * (R * Y) + (1 + b) * (R * t) := by ring
    rw [e]
    have h1 : (1 + b) * (1 + a) ≤ 1 + (a + 9 / 8 * b) := by
      have h : (1 + b) * (1 + a) = 1 + (a + 9 / 8 * b) - b * (1 / 8 - a) := by ring
      have := mul_nonneg hb (show 0 ≤ 1 / 8 - a by linarith)
      linarith
    have h2 := mul_le_mul_of_nonneg_right h1 hRY
    have h3 : (1 + b) * (R * t) ≤ 9 / 8 * (R * t) := mul_le_mul_of_nonneg_right (by linarith) hRt
    linarith
  have hlo : (1 - (a + 9 / 8 * b)) * (R * Y) - 9 / 8 * (R * t) ≤ r.toQ * y.toQ := by
    by_cases hc : (1 - a) * Y - t ≤ 0
    · have h1 : R * ((1 - a) * Y - t) ≤ 0 := mul_nonpos_of_nonneg_of_nonpos hR hc
      have h2 : (9 / 8 * b) * (R * Y) ≥ 0 := by positivity
      have e : R * ((1 - a) * Y - t) = (1 - a) * (R * Y) - R * t := by ring
      linarith
    · have h1 : ((1 - b) * R) * ((1 - a) * Y - t) ≤ r.toQ * y.toQ := mul_le_mul r1 hy.lo (not_le.mp hc).le hr.nn
      have e : (1 - b) * R * ((1 - a) * Y - t) = ((1 - b) * (1 - a)) * (R * Y) - (1 - b) * (R * t) := by ring
      have h2 : 1 - (a + 9 / 8 * b) ≤ (1 - b) * (1 - a) := by
        have h : (1 - b) * (1 - a) = 1 - (a + 9 / 8 * b) + b * (1 / 8 + a) := by ring
        have := mul_nonneg hb (show 0 ≤ 1 / 8 + a by linarith)
        linarith
      have h3 := mul_le_mul_of_nonneg_right h2 hRY
      have h4 : (1 - b) * (R * t) ≤ 9 / 8 * (R * t) := mul_le_mul_of_nonneg_right (by linarith) hRt
      linarith
  exact ⟨hq, hlo, hhi⟩

/-- every value of the expression is near -/
def NearE (e : Expr F64) (X a t : ℚ) : Prop := ∀ v, Ev e v → Near v X a t

/-- the expression is no product -/
def NoMul (e : Expr F64) : Prop := ∀ c d, e ≠ c * d

/-- every value is near, also that of the exact product if the expression is a product -/
structure NearS (e : Expr F64) (X a t : ℚ) : Prop where
  ev : NearE e X a t
  pr : ∀ c d, e = c * d → ∀ x y, Ev c x → Ev d y →
    x.Finite ∧ y.Finite ∧ 0 ≤ x.toQ * y.toQ ∧ (1 - a) * X - t ≤ x.toQ * y.toQ ∧ x.toQ * y.toQ ≤ (1 + a) * X + t

theorem NearE.weaken {e : Expr F64} {X a t b s : ℚ} (h : NearE e X a t) (hX : 0 ≤ X) (hab : a ≤ b) (hts : t ≤ s) : NearE e X b s :=
  fun v hv => (h v hv).weaken hX hab hts

theorem near_leaf {x : F64} {X a t : ℚ} (h : Near x X a t) : NearE (.leaf x) X a t := fun v hv => by rw [hv.leaf_inv]; exact h

/-- a fused product and sum -/
theorem near_fma {x y z : F64} {X Y a t s : ℚ} (hx : x.Finite) (hy : y.Finite) (h0 : 0 ≤ x.toQ * y.toQ) (hlo : (1 - a) * X - t ≤ x.toQ * y.toQ)
    (hhi : x.toQ * y.toQ ≤ (1 + a) * X + t) (hz : Near z Y a s) (hX : 0 ≤ X) (hY : 0 ≤ Y) (ha' : a ≤ 1 / 2 ^ 20)
    (hb : X + Y ≤ 2 ^ 100) (ht : 0 ≤ t) (hs : 0 ≤ s) (hts : t + s ≤ 1) : Near (fma x y z) (X + Y) (a + 9 / 8 * uro) (9 / 8 * (t + s) + tau) := by
  have hs0 : 0 ≤ X + Y := add_nonneg hX hY
  have hlo' : (1 - a) * (X + Y) - (t + s) ≤ x.toQ * y.toQ + z.toQ := by linarith [hz.lo]
  have hhi' : x.toQ * y.toQ + z.toQ ≤ (1 + a) * (X + Y) + (t + s) := by linarith [hz.hi]
  have e0 : 0 ≤ x.toQ * y.toQ + z.toQ := add_nonneg h0 hz.nn
  have hb' : |x.toQ * y.toQ + z.toQ| ≤ 2 ^ 200 := by
    rw [abs_of_nonneg e0]
    have h1 : (1 + a) * (X + Y) ≤ 2 * 2 ^ 100 := mul_le_mul (by linarith) hb hs0 (by norm_num)
    have h2 : (2:ℚ) * 2 ^ 100 + 1 ≤ 2 ^ 200 := by norm_num
    linarith
  obtain ⟨f, v⟩ := fma_fin hx hy hz.fin (rnd_small hb')
  exact near_round f v e0 hs0 (by linarith) (by linarith) hlo' hhi'

/-- a sum, fused or not -/
theorem NearS.add {e f : Expr F64} {X Y a t s : ℚ} (he : NearS e X a t) (hf : NearS f Y a s) (hX : 0 ≤ X) (hY : 0 ≤ Y) (ha' : a ≤ 1 / 2 ^ 20)
    (hb : X + Y ≤ 2 ^ 100) (ht : 0 ≤ t) (hs : 0 ≤ s) (hts : t + s ≤ 1) : NearE (e + f) (X + Y) (a + 9 / 8 * uro) (9 / 8 * (t + s) + tau) := by
  intro v hv
  rcases hv.add_inv with ⟨x, y, hx, hy, rfl⟩ | ⟨c, d, x, y, z, hc, hx, hy, hz, rfl⟩ | ⟨c, d, x, y, z, hc, hx, hy, hz, rfl⟩
  · exact ((he.ev x hx).add (hf.ev y hy) hX hY ha' hb ht hs hts).weaken (add_nonneg hX hY) le_rfl (by linarith [tau_pos])
  · obtain ⟨fx, fy, p0, p1, p2⟩ := he.pr c d hc x y hx hy
    exact near_fma fx fy p0 p1 p2 (hf.ev z hz) hX hY ha' hb ht hs hts
  · obtain ⟨fx, fy, p0, p1, p2⟩ := hf.pr c d hc x y hx hy
    have := near_fma fx fy p0 p1 p2 (he.ev z hz) hY hX ha' (by linarith) hs ht (by linarith)
    rwa [add_comm Y X, add_comm s t] at this

/-- a sum of two expressions that are no products -/
theorem NearE.addRel {e f : Expr F64} {X Y a : ℚ} (he : NearE e X a 0) (hf : NearE f Y a 0) (ne : NoMul e) (nf : NoMul f) (hX : 0 ≤ X) (hY : 0 ≤ Y)
    (ha' : a ≤ 1 / 2 ^ 20) (hb : X + Y ≤ 2 ^ 100) : NearE (e + f) (X + Y) (a + 9 / 8 * uro) 0 := by
  intro v hv
  rcases hv.add_inv with ⟨x, y, hx, hy, rfl⟩ | ⟨c, d, x, y, z, hc, _⟩ | ⟨c, d, x, y, z, hc, _⟩
  · exact (he x hx).addRel (hf y hy) hX hY ha' hb
  · exact absurd hc (ne c d)
  · exact absurd hc (nf c d)

/-- one iteration of the inner loop: both products -/
theorem nearS_step {n rr lj : Expr F64} {X R L a t : ℚ} (hn : NearE n X a t) (hr : NearE rr R uro 0) (hl : NearE lj L uro 0) (nr : NoMul rr) (nl : NoMul lj)
    (hX : 0 ≤ X) (hX' : X ≤ 1) (hR : 0 ≤ R) (hL : 0 ≤ L) (hD : 1 ≤ R + L) (hD' : R + L ≤ 2 ^ 54) (ha : 0 ≤ a) (ha' : a ≤ 1 / 2 ^ 30) (ht : 2 ^ 60 * tau ≤ t)
    (ht' : t ≤ 1 / 2 ^ 100) :
    NearS (rr * (n / (rr + lj))) (R * (X / (R + L))) (a + 8 * uro) (7 / 4 * t) ∧
      NearS (lj * (n / (rr + lj))) (L * (X / (R + L))) (a + 8 * uro) (7 / 4 * t) := by
  have hu := uro_pos'
  have hu2 := uro_le50
  have ht0 := tau_pos
  have htp : 0 ≤ t := le_trans (mul_nonneg (by norm_num) ht0.le) ht
  have hD0 : 0 < R + L := by linarith
  have hden := hr.addRel hl nr nl hR hL (hu2.trans (by norm_num)) (hD'.trans (by norm_num))
  have hY : 0 ≤ X / (R + L) := div_nonneg hX hD0.le
  have hY' : X / (R + L) ≤ 2 := (div_le_self hX hD).trans (by linarith)
  have htd : 0 ≤ t / (R + L) := div_nonneg htp hD0.le
  have htd' : t / (R + L) ≤ t := div_le_self htp hD
  have ta := tau_le
  have q : NearE (n / (rr + lj)) (X / (R + L)) (a + 9 / 8 * (uro + 9 / 8 * uro) + 9 / 8 * uro) (81 / 64 * (t / (R + L)) + tau) := by
    intro v hv
    obtain ⟨x, y, hx, hy, rfl⟩ := hv.div_inv
    exact (hn x hx).div (hden y hy) hX (by linarith) hD ha (by linarith) htp (by linarith) (by positivity) (by linarith)
  have fin : ∀ {z : Expr F64} {Z : ℚ}, NearE z Z uro 0 → 0 ≤ Z → Z ≤ R + L →
      NearS (z * (n / (rr + lj))) (Z * (X / (R + L))) (a + 8 * uro) (7 / 4 * t) := by
    intro z Z hz hZ hZ'
    have hZY : 0 ≤ Z * (X / (R + L)) := mul_nonneg hZ hY
    have h1 : Z * (t / (R + L)) ≤ t := by
      rw [← mul_div_assoc, div_le_iff₀ hD0, mul_comm t]
      exact mul_le_mul_of_nonneg_right hZ' htp
    have h2 : Z * tau ≤ 2 ^ 54 * tau := mul_le_mul_of_nonneg_right (by linarith) ht0.le
    have e : Z * (81 / 64 * (t / (R + L)) + tau) = 81 / 64 * (Z * (t / (R + L))) + Z * tau := by ring
    have hT : 0 ≤ Z * (81 / 64 * (t / (R + L)) + tau) := mul_nonneg hZ (add_nonneg (mul_nonneg (by norm_num) htd) ht0.le)
    refine ⟨fun v hv => ?_, fun c d hcd x y hx hy => ?_⟩
    · obtain ⟨x, y, hx, hy, rfl⟩ := hv.mul_inv
      have m := (hz x hx).mul (q y hy) hZ (by linarith [show (2:ℚ) ^ 54 ≤ 2 ^ 60 by norm_num]) hY hY' (by positivity) (by linarith)
        (add_nonneg (mul_nonneg (by norm_num) htd) ht0.le) (by linarith) hu.le (by linarith)
      refine m.weaken hZY (by linarith) ?_
      rw [e]
      linarith
    · obtain ⟨rfl, rfl⟩ := Expr.mul.inj hcd
      obtain ⟨p0, p1, p2⟩ := (hz x hx).mulExact (q y hy) hZ hY (by positivity) (by linarith) (add_nonneg (mul_nonneg (by norm_num) htd) ht0.le) hu.le (by linarith)
      have hA : a + 9 / 8 * (uro + 9 / 8 * uro) + 9 / 8 * uro + 9 / 8 * uro ≤ a + 8 * uro := by linarith
      have hA' := mul_le_mul_of_nonneg_right hA hZY
      rw [e] at p1 p2
      refine ⟨(hz x hx).fin, (q y hy).fin, p0, ?_, ?_⟩ <;> linarith
  exact ⟨fin hr hR (by linarith), fin hl hL (by linarith)⟩

section
variable {U : List Int} (hU : Nondec U) (hfit : KnotsFit U) {i p : ℕ} (hpi : p ≤ i) (hlen : i + p + 1 < U.length) (hp : p ≤ 200) {q : ℚ}
  (hk : knot ℚ U i < knot ℚ U (i+1)) (h1 : knot ℚ U i ≤ q) (h2 : q ≤ knot ℚ U (i+1))

include hU hpi hlen hp hk h1 h2 in
theorem basisInner_nearE {j : ℕ} (hj : 1 ≤ j) (hjp : j ≤ p) (hspread : knot ℚ U (i+p) - knot ℚ U (i+1-p) ≤ 2 ^ 54) (left right : List (Expr F64))
    (hl : ∀ m, 1 ≤ m → m ≤ j → ∃ x, left[m]? = some x ∧ NearE x (q - knot ℚ U (i+1-m)) uro 0 ∧ NoMul x)
    (hr : ∀ m, 1 ≤ m → m ≤ j → ∃ x, right[m]? = some x ∧ NearE x (knot ℚ U (i+m) - q) uro 0 ∧ NoMul x) :
    ∀ (m r : ℕ) (N : List (Expr F64)) (saved : Expr F64), r + m = j →
      (∀ s, s < r → ∃ x, N[s]? = some x ∧ NearE x (piece (knot ℚ U) i j (i+s-j) q) (10 * j * uro) (lvl j)) →
      (∀ s, r ≤ s → s < j → ∃ x, N[s]? = some x ∧ NearE x (piece (knot ℚ U) i (j-1) (i+s+1-j) q) (10 * (j - 1) * uro) (lvl (j-1))) →
      j < N.length → NearS saved (savedVal U i j q r) (10 * (j - 1) * uro + 8 * uro) (7 / 4 * lvl (j-1)) →
      ∃ N' z, basisInner left right (j : Int) m (r : Int) N saved = .ok (N', z) ∧
        NearS z (savedVal U i j q j) (10 * (j - 1) * uro + 8 * uro) (7 / 4 * lvl (j-1)) ∧ N'.length = N.length ∧
        (∀ s, s < j → ∃ x, N'[s]? = some x ∧ NearE x (piece (knot ℚ U) i j (i+s-j) q) (10 * j * uro) (lvl j)) := by
  have hu := uro_pos'
  have hu2 := uro_le50
  have hmono : ∀ a b, a ≤ b → b < U.length → knot ℚ U a ≤ knot ℚ U b := fun a b hab hb => knot_mono U hU a b hab hb
  have hone : knot ℚ U i + 1 ≤ knot ℚ U (i+1) := by
    unfold knot at hk ⊢
    have : U.getD i 0 < U.getD (i+1) 0 := by exact_mod_cast hk
    exact_mod_cast this
  have hjq : (1:ℚ) ≤ j := by exact_mod_cast hj
  have hjq' : (j:ℚ) ≤ 200 := by exact_mod_cast hjp.trans hp
  have ha0 : 0 ≤ 10 * ((j:ℚ) - 1) * uro := mul_nonneg (by linarith) hu.le
  have ha1 : 10 * ((j:ℚ) - 1) * uro ≤ 1 / 2 ^ 31 := by
    have : 10 * ((j:ℚ) - 1) * uro ≤ 2000 * (1 / 2 ^ 50) := mul_le_mul (by linarith) hu2 hu.le (by norm_num)
    exact this.trans (by norm_num)
  have hlv := lvl_le (j := j - 1) (by omega)
  have hlp := lvl_pos (j - 1)
  have hls : lvl j = 4 * lvl (j - 1) := by rw [← lvl_succ, Nat.sub_add_cancel hj]
  intro m
  induction m with
  | zero =>
    intro r N saved hrm hlo hhi hlen hs
    have : r = j := by omega
    subst this
    exact ⟨N, saved, by simp [basisInner], hs, rfl, hlo⟩
  | succ m ih =>
    intro r N saved hrm hlo hhi hNlen hs
    obtain ⟨n, en, nn⟩ := hhi r (le_refl _) (by omega)
    obtain ⟨rr, er, nr, mr⟩ := hr (r+1) (by omega) (by omega)
    obtain ⟨lj, el, nl, ml⟩ := hl (j-r) (by omega) (by omega)
    have hR : 0 ≤ knot ℚ U (i+(r+1)) - q := by linarith [hmono (i+1) (i+(r+1)) (by omega) (by omega)]
    have hL : 0 ≤ q - knot ℚ U (i+1-(j-r)) := by linarith [hmono (i+1-(j-r)) i (by omega) (by omega)]
    have hD : 1 ≤ (knot ℚ U (i+(r+1)) - q) + (q - knot ℚ U (i+1-(j-r))) := by
      linarith [hmono (i+1) (i+(r+1)) (by omega) (by omega), hmono (i+1-(j-r)) i (by omega) (by omega)]
    have hD' : (knot ℚ U (i+(r+1)) - q) + (q - knot ℚ U (i+1-(j-r))) ≤ 2 ^ 54 := by
      linarith [hmono (i+(r+1)) (i+p) (by omega) (by omega), hmono (i+1-p) (i+1-(j-r)) (by omega) (by omega)]
    obtain ⟨b1, b2⟩ := piece_bounds hU hlen hk h1 h2 (j := j-1) (m := i+r+1-j) (by omega) (by omega)
    obtain ⟨n1, n2⟩ := nearS_step nn nr nl mr ml b1 b2 hR hL hD hD' ha0 (by linarith) (lvl_ge _) hlv
    have hden : (knot ℚ U (i+(r+1)) - q) + (q - knot ℚ U (i+1-(j-r))) = knot ℚ U (i+r+1) - knot ℚ U (i+1-(j-r)) := by
      rw [show i + (r+1) = i+r+1 by omega]; ring
    have hpc : savedVal U i j q r + (knot ℚ U (i+(r+1)) - q) *
        (piece (knot ℚ U) i (j-1) (i+r+1-j) q / ((knot ℚ U (i+(r+1)) - q) + (q - knot ℚ U (i+1-(j-r))))) =
        piece (knot ℚ U) i j (i+r-j) q := by
      rw [hden]
      obtain ⟨j', rfl⟩ : ∃ j', j = j' + 1 := ⟨j-1, by omega⟩
      simp only [piece, savedVal, Nat.add_sub_cancel]
      rw [show i + (r+1) = i+r+1 by omega, show i + r + 1 - (j'+1) = i + r - (j'+1) + 1 by omega,
        show i + 1 - (j' + 1 - r) = i + r - (j'+1) + 1 by omega,
        show i + r - (j'+1) + j' + 1 = i + r by omega, show i + r - (j'+1) + j' + 2 = i + r + 1 by omega]
      ring
    have hsv : (q - knot ℚ U (i+1-(j-r))) *
        (piece (knot ℚ U) i (j-1) (i+r+1-j) q / ((knot ℚ U (i+(r+1)) - q) + (q - knot ℚ U (i+1-(j-r))))) =
        savedVal U i j q (r+1) := by
      rw [hden]
      simp only [savedVal]
      rw [show i + (r+1) = i+r+1 by omega, show i + 1 - (j-r) = i + r + 1 - j by omega]
      ring
    have hs0 : 0 ≤ savedVal U i j q r := by
      unfold savedVal
      obtain ⟨c1, _⟩ := piece_bounds hU hlen hk h1 h2 (j := j-1) (m := i+r-j) (by omega) (by omega)
      refine mul_nonneg (div_nonneg ?_ ?_) c1
      · linarith [hmono (i+r-j) i (by omega) (by omega)]
      · linarith [hmono (i+r-j) (i+r) (by omega) (by omega)]
    have hp0 : 0 ≤ (knot ℚ U (i+(r+1)) - q) *
        (piece (knot ℚ U) i (j-1) (i+r+1-j) q / ((knot ℚ U (i+(r+1)) - q) + (q - knot ℚ U (i+1-(j-r))))) :=
      mul_nonneg hR (div_nonneg b1 (by linarith))
    have hnew : NearE (saved + rr * (n / (rr + lj))) (piece (knot ℚ U) i j (i+r-j) q) (10 * j * uro) (lvl j) := by
      obtain ⟨c1, c2⟩ := piece_bounds hU hlen hk h1 h2 (j := j) (m := i+r-j) (by omega) (by omega)
      have hz := hs.add n1 hs0 hp0 (by linarith) (by rw [hpc]; linarith [show (1:ℚ) ≤ 2 ^ 100 by norm_num]) (by linarith) (by linarith) (by linarith)
      rw [hpc] at hz
      refine hz.weaken c1 (by linarith) (by rw [hls]; linarith [lvl_ge (j - 1), tau_pos])
    rw [hsv] at n2
    unfold basisInner
    rw [goGet_eq (n := r) rfl en, goGet_eq (n := r+1) (by push_cast; rfl) er, goGet_eq (n := j-r) (by omega) el]
    simp only [Res.bind_ok]
    rw [goSet_eq (n := r) rfl (by omega)]
    simp only [Res.bind_ok]
    obtain ⟨N', z, e, hz, hl', hN'⟩ := ih (r+1) (N.set r (saved + rr * (n / (rr + lj)))) (lj * (n / (rr + lj))) (by omega)
      (by
        intro s hs'
        rw [List.getElem?_set]
        split
        · rename_i h; subst h; rw [if_pos (by omega)]; exact ⟨_, rfl, hnew⟩
        · exact hlo s (by omega))
      (by
        intro s h1 h2
        rw [List.getElem?_set, if_neg (by omega)]
        exact hhi s (by omega) h2)
      (by simpa using hNlen) n2
    refine ⟨N', z, ?_, hz, by simpa using hl', hN'⟩
    rw [← e]; push_cast; rfl

include hU hfit hpi hlen hp hk h1 h2 in
theorem basisOuter_nearE {u : F64} (hu : u.Finite) (hq : u.toQ = q) :
    ∀ (m j : ℕ) (left right N : List (Expr F64)), j + m = p + 1 → 1 ≤ j →
      left.length = p+1 → right.length = p+1 → N.length = p+1 →
      (∀ m, 1 ≤ m → m < j → ∃ x, left[m]? = some x ∧ NearE x (q - knot ℚ U (i+1-m)) uro 0 ∧ NoMul x) →
      (∀ m, 1 ≤ m → m < j → ∃ x, right[m]? = some x ∧ NearE x (knot ℚ U (i+m) - q) uro 0 ∧ NoMul x) →
      (∀ s, s < j → ∃ x, N[s]? = some x ∧ NearE x (piece (knot ℚ U) i (j-1) (i+s+1-j) q) (10 * (j - 1) * uro) (lvl (j-1))) →
      ∃ N', basisOuter i (Expr.leaf u) U m (j : Int) left right N = .ok N' ∧ N'.length = p+1 ∧
        ∀ s, s ≤ p → ∃ x, N'[s]? = some x ∧ NearE x (piece (knot ℚ U) i p (i+s-p) q) (10 * p * uro) (lvl p) := by
  have hu0 := uro_pos'
  have hmono : ∀ a b, a ≤ b → b < U.length → knot ℚ U a ≤ knot ℚ U b := fun a b hab hb => knot_mono U hU a b hab hb
  have hkb : ∀ a, |knot ℚ U a| ≤ 2 ^ 53 := fun a => by unfold knot; exact_mod_cast hfit.getD a
  have hspread : knot ℚ U (i+p) - knot ℚ U (i+1-p) ≤ 2 ^ 54 := by
    have a1 := (abs_le.mp (hkb (i+p))).2
    have a2 := (abs_le.mp (hkb (i+1-p))).1
    have : (2:ℚ) ^ 54 = 2 ^ 53 + 2 ^ 53 := by norm_num
    linarith
  intro m
  induction m with
  | zero =>
    intro j left right N hjm hj1 hll hrl hNl hl hr hN
    have : j = p + 1 := by omega
    subst this
    refine ⟨N, rfl, hNl, fun s hs => ?_⟩
    obtain ⟨x, e, hx⟩ := hN s (by omega)
    refine ⟨x, e, ?_⟩
    simp only [Nat.add_sub_cancel] at hx
    rw [show i + s + 1 - (p+1) = i + s - p by omega] at hx
    push_cast at hx
    rwa [show (p:ℚ) + 1 - 1 = p by ring] at hx
  | succ m ih =>
    intro j left right N hjm hj1 hll hrl hNl hl hr hN
    unfold basisOuter
    rw [goGet_knot U _ (i+1-j) (by omega) (by omega), goGet_knot U _ (i+j) (by push_cast; rfl) (by omega)]
    simp only [Res.bind_ok]
    obtain ⟨fa, va⟩ := ofInt_exact (hfit.getD (i+1-j))
    obtain ⟨fb, vb⟩ := ofInt_exact (hfit.getD (i+j))
    have va' : (GoOfInt.ofInt (U.getD (i+1-j) 0) : F64).toQ = knot ℚ U (i+1-j) := va
    have vb' : (GoOfInt.ofInt (U.getD (i+j) 0) : F64).toQ = knot ℚ U (i+j) := vb
    have hbig : (2:ℚ) ^ 54 ≤ 2 ^ 100 := by norm_num
    have nL : Near (u - GoOfInt.ofInt (U.getD (i+1-j) 0)) (q - knot ℚ U (i+1-j)) uro 0 := by
      have := near_sub hu fa (by rw [va', hq]; linarith [hmono (i+1-j) i (by omega) (by omega)])
        (by rw [va', hq]; linarith [hmono (i+1) (i+p) (by omega) (by omega), hmono (i+1-p) (i+1-j) (by omega) (by omega)])
      rwa [va', hq] at this
    have nR : Near (GoOfInt.ofInt (U.getD (i+j) 0) - u) (knot ℚ U (i+j) - q) uro 0 := by
      have := near_sub fb hu (by rw [vb', hq]; linarith [hmono (i+1) (i+j) (by omega) (by omega)])
        (by rw [vb', hq]; linarith [hmono (i+j) (i+p) (by omega) (by omega), hmono (i+1-p) i (by omega) (by omega)])
      rwa [vb', hq] at this
    have eL : NearE (Expr.leaf u - GoOfInt.ofInt (U.getD (i+1-j) 0)) (q - knot ℚ U (i+1-j)) uro 0 := fun v hv => by
      rw [Ev.diff_inv (y := GoOfInt.ofInt (U.getD (i+1-j) 0)) hv]; exact nL
    have eR : NearE (GoOfInt.ofInt (U.getD (i+j) 0) - Expr.leaf u) (knot ℚ U (i+j) - q) uro 0 := fun v hv => by
      rw [Ev.diff_inv (x := GoOfInt.ofInt (U.getD (i+j) 0)) hv]; exact nR
    have mL : ∀ a b : Expr F64, NoMul (a - b) := fun a b c d h => by cases h
    rw [goSet_eq (n := j) rfl (by omega), goSet_eq (n := j) rfl (by omega)]
    simp only [Res.bind_ok, Int.toNat_natCast]
    have hl' : ∀ m, 1 ≤ m → m < j + 1 → ∃ x,
        (left.set j (Expr.leaf u - GoOfInt.ofInt (U.getD (i+1-j) 0)))[m]? = some x ∧ NearE x (q - knot ℚ U (i+1-m)) uro 0 ∧ NoMul x := by
      intro m h1 h2
      rw [List.getElem?_set]
      split
      · rename_i h; subst h; rw [if_pos (by omega)]; exact ⟨_, rfl, eL, mL _ _⟩
      · exact hl m h1 (by omega)
    have hr' : ∀ m, 1 ≤ m → m < j + 1 → ∃ x,
        (right.set j (GoOfInt.ofInt (U.getD (i+j) 0) - Expr.leaf u))[m]? = some x ∧ NearE x (knot ℚ U (i+m) - q) uro 0 ∧ NoMul x := by
      intro m h1 h2
      rw [List.getElem?_set]
      split
      · rename_i h; subst h; rw [if_pos (by omega)]; exact ⟨_, rfl, eR, mL _ _⟩
      · exact hr m h1 (by omega)
    have hjq : (1:ℚ) ≤ j := by exact_mod_cast hj1
    have hlp := lvl_pos (j - 1)
    have hs0 : savedVal U i j q 0 = 0 := by
      simp only [savedVal]
      rw [piece_support (knot ℚ U) i (j-1) (i+0-j) q (by omega)]; simp
    obtain ⟨N', z, e, hz, hNl', hN'⟩ := basisInner_nearE hU hpi hlen hp hk h1 h2 hj1 (by omega) hspread _ _
      (fun m h1 h2 => hl' m h1 (by omega)) (fun m h1 h2 => hr' m h1 (by omega)) j 0 N 0 (by omega)
      (fun s h => by omega) (fun s _ h => hN s h) (by omega)
      ⟨near_leaf ⟨trivial, le_refl _, by rw [hs0]; show _ ≤ (0:ℚ); linarith, by rw [hs0]; show (0:ℚ) ≤ _; linarith⟩, fun c d h => by cases h⟩
    rw [show ((0 : ℕ) : Int) = 0 from rfl] at e
    rw [e]
    simp only [Res.bind_ok]
    rw [goSet_eq (n := j) rfl (by omega)]
    simp only [Res.bind_ok]
    have hlast : savedVal U i j q j = piece (knot ℚ U) i j i q := by
      obtain ⟨j', rfl⟩ : ∃ j', j = j' + 1 := ⟨j-1, by omega⟩
      simp only [piece, savedVal, Nat.add_sub_cancel]
      rw [piece_support (knot ℚ U) i j' (i+1) q (by omega)]
      rw [show i + j' + 1 = i + (j'+1) by omega]; ring
    have hgoal := ih (j+1) _ _ (N'.set j z) (by omega) (by omega)
      (by simpa using hll) (by simpa using hrl) (by simpa using hNl'.trans hNl) hl' hr'
      (by
        intro s hs
        rw [List.getElem?_set, Nat.add_sub_cancel]
        have ej : 10 * (((j + 1 : ℕ) : ℚ) - 1) * uro = 10 * j * uro := by push_cast; ring
        rw [ej]
        split
        · rename_i h; subst h; rw [if_pos (by omega)]
          refine ⟨z, rfl, ?_⟩
          rw [show i + j + 1 - (j+1) = i by omega, ← hlast]
          refine hz.ev.weaken ?_ (by linarith) ?_
          · rw [hlast]; exact (piece_bounds hU hlen hk h1 h2 (by omega) (by omega)).1
          · rw [show lvl j = 4 * lvl (j - 1) by rw [← lvl_succ, Nat.sub_add_cancel hj1]]; linarith
        · obtain ⟨x, ex, hx⟩ := hN' s (by omega)
          refine ⟨x, ex, ?_⟩
          rw [show i + s + 1 - (j + 1) = i + s - j by omega]; exact hx)
    rw [show ((j : Int) + 1) = ((j+1 : ℕ) : Int) by push_cast; rfl]
    exact hgoal

include hU hfit hpi hlen hp hk h1 h2 in
theorem basisFuns_nearE {u : F64} (hu : u.Finite) (hq : u.toQ = q) :
    ∃ N, basisExpr i u p U = .ok N ∧ N.length = p + 1 ∧
      ∀ s, s ≤ p → ∃ x, N[s]? = some x ∧ NearE x (piece (knot ℚ U) i p (i-p+s) q) (10 * p * uro) (lvl p) := by
  unfold basisExpr basisFuns
  rw [if_neg (by omega), show ((p : Int) + 1).toNat = p + 1 by omega]
  dsimp only
  rw [goSet_eq (z := 0) (n := 0) rfl (by simp)]
  simp only [Res.bind_ok, Int.toNat_natCast]
  obtain ⟨N', e, hl, hN⟩ := basisOuter_nearE hU hfit hpi hlen hp hk h1 h2 hu hq p 1 (List.replicate (p+1) 0)
    (List.replicate (p+1) 0) ((List.replicate (p+1) 0).set 0 1) (by omega) (by omega) (by simp) (by simp) (by simp)
    (fun m h1 h2 => by omega) (fun m h1 h2 => by omega)
    (fun s hs => by
      have : s = 0 := by omega
      subst this
      rw [List.getElem?_set, if_pos rfl, if_pos (by simp)]
      have hlp := lvl_pos 0
      refine ⟨1, rfl, near_leaf ⟨trivial, by show (0:ℚ) ≤ 1; norm_num, ?_, ?_⟩⟩
      · show _ ≤ (1:ℚ)
        simp [piece]; linarith
      · show (1:ℚ) ≤ _
        simp [piece]; linarith)
  rw [show ((1 : ℕ) : Int) = 1 from rfl] at e
  refine ⟨N', e, hl, fun s hs => ?_⟩
  rw [show i - p + s = i + s - p by omega]
  exact hN s hs

end

end Verif.Proofs
