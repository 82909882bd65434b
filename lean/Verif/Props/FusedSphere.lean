import Verif.Model.Fused
import Verif.Proofs.Fused
/-!
# C100: the filtered in-sphere test with fused multiply-adds
-/
set_option exponentiation.threshold 2000

namespace Verif.Props
open Verif Verif.F64 Verif.R3 Verif.Predicates Verif.Proofs

attribute [local irreducible] rnd F64.round

/-- every evaluation of `e` approximates `X`, and so on for the subexpressions; the differences of the coordinates are the smallest parts -/
inductive TrA : Expr F64 → ℚ → ℚ → ℕ → ℕ → ℕ → Prop where
  | diff {x y X P k d m} : Tr (x - y) X P k d m → TrA (.leaf x - .leaf y) X P k d m
  | add {a b X Y P Q k l d m n} : TrA a X P k d m → TrA b Y Q l d n → d ≤ 5 → max k l + 1 ≤ 40 → max m n + 1 ≤ 1020 →
      TrA (a + b) (X + Y) (P + Q) (max k l + 1) d (max m n + 1)
  | sub {a b X Y P Q k l d m n} : TrA a X P k d m → TrA b Y Q l d n → d ≤ 5 → max k l + 1 ≤ 40 → max m n + 1 ≤ 1020 →
      TrA (a - b) (X - Y) (P + Q) (max k l + 1) d (max m n + 1)
  | mul {a b X Y P Q k l d e m n} : TrA a X P k d m → TrA b Y Q l e n → d + e ≤ 5 → k + l + 1 ≤ 40 → m + n ≤ 1020 →
      TrA (a * b) (X * Y) (P * Q) (k + l + 1) (d + e) (m + n)
  | abs {a X P k d m} : TrA a X P k d m → TrA (GoAbs.abs a) |X| P k d m

theorem TrA.mul_inv {a b : Expr F64} {Z R : ℚ} {r f s : ℕ} (h : TrA (a * b) Z R r f s) : ∃ X Y P Q k l d e m n, TrA a X P k d m ∧ TrA b Y Q l e n ∧
    Z = X * Y ∧ R = P * Q ∧ r = k + l + 1 ∧ f = d + e ∧ s = m + n ∧ m + n ≤ 1020 := by
  cases h with
  | mul h1 h2 _ _ h5 => exact ⟨_, _, _, _, _, _, _, _, _, _, h1, h2, rfl, rfl, rfl, rfl, rfl, h5⟩

/-- a fused product and sum -/
theorem Tr.fma {x y z : F64} {X Y Z P Q R : ℚ} {k l p d e m n s : ℕ} (hx : Tr x X P k d m) (hy : Tr y Y Q l e n) (hz : Tr z Z R p (d + e) s)
    (hd : d + e ≤ 5) (hk : max (k + l + 1) p + 1 ≤ 40) (hm : max (m + n) s + 1 ≤ 1020) :
    Tr (fma x y z) (X * Y + Z) (P * Q + R) (max (k + l + 1) p + 1) (d + e) (max (m + n) s + 1) := by
  have hP := hx.nonneg
  have hQ := hy.nonneg
  have hR := hz.nonneg
  have mono : ∀ {i : ℕ}, i ≤ max (k + l + 1) p → (1 + uro) ^ i ≤ (1 + uro) ^ max (k + l + 1) p := fun h =>
    pow_le_pow_right₀ (by linarith [uro_pos]) h
  refine Tr.round (w := x.toQ * y.toQ + z.toQ) hd hk hm ?_ ?_ ?_ ((hx.grid.mul hy.grid).add hz.grid) (fma_fin hx.fin hy.fin hz.fin)
  · have h1 := hx.err
    have h2 := hy.err
    have e : x.toQ * y.toQ - X * Y = (x.toQ - X) * (y.toQ - Y) + (x.toQ - X) * Y + X * (y.toQ - Y) := by ring
    have a1 := one_le_powu k
    have a2 := one_le_powu l
    have p1 : 0 ≤ (1 + uro) ^ k - 1 := by linarith
    have b1 : |(x.toQ - X) * (y.toQ - Y)| ≤ (((1 + uro) ^ k - 1) * P) * (((1 + uro) ^ l - 1) * Q) := by
      rw [abs_mul]; exact mul_le_mul h1 h2 (abs_nonneg _) (mul_nonneg p1 hP)
    have b2 : |(x.toQ - X) * Y| ≤ (((1 + uro) ^ k - 1) * P) * Q := by
      rw [abs_mul]; exact mul_le_mul h1 hy.mag (abs_nonneg _) (mul_nonneg p1 hP)
    have b3 : |X * (y.toQ - Y)| ≤ P * (((1 + uro) ^ l - 1) * Q) := by
      rw [abs_mul]; exact mul_le_mul hx.mag h2 (abs_nonneg _) hP
    have hp : |x.toQ * y.toQ - X * Y| ≤ ((1 + uro) ^ (k + l) - 1) * (P * Q) := by
      rw [e]
      refine (abs_add_three _ _ _).trans ((add_le_add (add_le_add b1 b2) b3).trans (le_of_eq ?_))
      rw [pow_add]; ring
    have m1 := mul_le_mul_of_nonneg_right (sub_le_sub_right (mono (show k + l ≤ _ by omega)) 1) (mul_nonneg hP hQ)
    have m2 := mul_le_mul_of_nonneg_right (sub_le_sub_right (mono (show p ≤ _ by omega)) 1) hR
    have e2 : x.toQ * y.toQ + z.toQ - (X * Y + Z) = (x.toQ * y.toQ - X * Y) + (z.toQ - Z) := by ring
    have h3 := hz.err
    rw [e2]
    refine (abs_add_le _ _).trans ?_
    rw [mul_add]; linarith
  · refine (abs_add_le _ _).trans (add_le_add ?_ hz.mag)
    rw [abs_mul]; exact mul_le_mul hx.mag hy.mag (abs_nonneg _) hP
  · have h1 : P * Q ≤ 2 ^ max (m + n) s := by
      refine (mul_le_mul hx.bnd hy.bnd hQ (by positivity)).trans ?_
      rw [← pow_add]; exact pow_le_pow_right₀ (by norm_num) (le_max_left _ _)
    have h2 : R ≤ 2 ^ max (m + n) s := hz.bnd.trans (pow_le_pow_right₀ (by norm_num) (le_max_right _ _))
    rw [pow_succ]; linarith

theorem TrA.ev {e : Expr F64} {v : F64} (hv : Ev e v) : ∀ {X P : ℚ} {k d m : ℕ}, TrA e X P k d m → Tr v X P k d m := by
  induction hv with
  | leaf x => intro X P k d m h; cases h
  | add _ _ ih1 ih2 => intro X P k d m h; cases h with | add h1 h2 h3 h4 h5 => exact (ih1 h1).add (ih2 h2) h3 h4 h5
  | @sub a b x y ha hb ih1 ih2 =>
    intro X P k d m h
    cases h with
    | diff h => rw [ha.leaf_inv, hb.leaf_inv]; exact h
    | sub h1 h2 h3 h4 h5 => exact (ih1 h1).sub (ih2 h2) h3 h4 h5
  | mul _ _ ih1 ih2 => intro X P k d m h; cases h with | mul h1 h2 h3 h4 h5 => exact (ih1 h1).mul (ih2 h2) h3 h4 h5
  | div _ _ ih1 ih2 => intro X P k d m h; cases h
  | abs _ ih => intro X P k d m h; cases h with | abs h => exact (ih h).abs
  | mulAdd _ _ _ ih1 ih2 ih3 =>
    intro X P k d m h
    cases h with
    | add h1 h2 h3 h4 h5 =>
      obtain ⟨X, Y, P, Q, k, l, d, e, m, n, p, q, rfl, rfl, rfl, rfl, rfl, _⟩ := h1.mul_inv
      exact (ih1 p).fma (ih2 q) (ih3 h2) h3 h4 h5
  | addMul _ _ _ ih1 ih2 ih3 =>
    intro X P k d m h
    cases h with
    | add h1 h2 h3 h4 h5 =>
      obtain ⟨X, Y, P, Q, k, l, d, e, m, n, p, q, rfl, rfl, rfl, rfl, rfl, _⟩ := h2.mul_inv
      have := (ih1 p).fma (ih2 q) (ih3 h1) h3 (by rwa [max_comm]) (by rwa [max_comm])
      rwa [add_comm (X * Y), add_comm (P * Q), max_comm (k + l + 1), max_comm (m + n)] at this
  | mulSub _ _ _ ih1 ih2 ih3 =>
    intro X P k d m h
    cases h with
    | sub h1 h2 h3 h4 h5 =>
      obtain ⟨X, Y, P, Q, k, l, d, e, m, n, p, q, rfl, rfl, rfl, rfl, rfl, _⟩ := h1.mul_inv
      rw [sub_eq_add_neg]
      exact (ih1 p).fma (ih2 q) (ih3 h2).neg h3 h4 h5
  | subMul _ _ _ ih1 ih2 ih3 =>
    intro X P k d m h
    cases h with
    | sub h1 h2 h3 h4 h5 =>
      obtain ⟨X, Y, P, Q, k, l, d, e, m, n, p, q, rfl, rfl, rfl, rfl, rfl, _⟩ := h2.mul_inv
      have := (ih1 p).neg.fma (ih2 q) (ih3 h1) h3 (by rwa [max_comm]) (by rwa [max_comm])
      rwa [neg_mul, neg_add_eq_sub, add_comm (P * Q), max_comm (k + l + 1), max_comm (m + n)] at this

/-- C100: C11 with fused multiply-adds: in the range where nothing overflows or underflows, a positive or negative answer of `inSphere` has the sign of
the exact determinant, whatever products of the determinant and of the error bound are fused -/
theorem C100_inSphere (a b c d e : R3.Vector F64) (ha : CoordV a) (hb : CoordV b) (hc : CoordV c) (hd : CoordV d) (he : CoordV e) {det err : F64}
    (h1 : Ev (inSphereTerms (Expr.leaf a.X) (.leaf a.Y) (.leaf a.Z) (.leaf b.X) (.leaf b.Y) (.leaf b.Z) (.leaf c.X) (.leaf c.Y) (.leaf c.Z)
      (.leaf d.X) (.leaf d.Y) (.leaf d.Z) (.leaf e.X) (.leaf e.Y) (.leaf e.Z)).1 det)
    (h2 : Ev (inSphereTerms (Expr.leaf a.X) (.leaf a.Y) (.leaf a.Z) (.leaf b.X) (.leaf b.Y) (.leaf b.Z) (.leaf c.X) (.leaf c.Y) (.leaf c.Z)
      (.leaf d.X) (.leaf d.Y) (.leaf d.Z) (.leaf e.X) (.leaf e.Y) (.leaf e.Z)).2 err) :
    let r := inSphereOf det err
    let D := InSphereFast (exactV a) (exactV b) (exactV c) (exactV d) (exactV e)
    r.Finite ∧ (0 < r.toQ → 0 < D) ∧ (r.toQ < 0 → D < 0) := by
  have aex := TrA.diff (ha.x.diff he.x)
  have bex := TrA.diff (hb.x.diff he.x)
  have cex := TrA.diff (hc.x.diff he.x)
  have dex := TrA.diff (hd.x.diff he.x)
  have aey := TrA.diff (ha.y.diff he.y)
  have bey := TrA.diff (hb.y.diff he.y)
  have cey := TrA.diff (hc.y.diff he.y)
  have dey := TrA.diff (hd.y.diff he.y)
  have aez := TrA.diff (ha.z.diff he.z)
  have bez := TrA.diff (hb.z.diff he.z)
  have cez := TrA.diff (hc.z.diff he.z)
  have dez := TrA.diff (hd.z.diff he.z)
  unfold inSphereTerms at h1 h2
  unfold InSphereFast exactV inSphereOf
  dsimp only at h1 h2 ⊢
  generalize Expr.leaf a.X - Expr.leaf e.X = fax at aex h1 h2
  generalize Expr.leaf b.X - Expr.leaf e.X = fbx at bex h1 h2
  generalize Expr.leaf c.X - Expr.leaf e.X = fcx at cex h1 h2
  generalize Expr.leaf d.X - Expr.leaf e.X = fdx at dex h1 h2
  generalize Expr.leaf a.Y - Expr.leaf e.Y = fay at aey h1 h2
  generalize Expr.leaf b.Y - Expr.leaf e.Y = fby at bey h1 h2
  generalize Expr.leaf c.Y - Expr.leaf e.Y = fcy at cey h1 h2
  generalize Expr.leaf d.Y - Expr.leaf e.Y = fdy at dey h1 h2
  generalize Expr.leaf a.Z - Expr.leaf e.Z = faz at aez h1 h2
  generalize Expr.leaf b.Z - Expr.leaf e.Z = fbz at bez h1 h2
  generalize Expr.leaf c.Z - Expr.leaf e.Z = fcz at cez h1 h2
  generalize Expr.leaf d.Z - Expr.leaf e.Z = fdz at dez h1 h2
  generalize a.X.toQ - e.X.toQ = xax at aex ⊢
  generalize b.X.toQ - e.X.toQ = xbx at bex ⊢
  generalize c.X.toQ - e.X.toQ = xcx at cex ⊢
  generalize d.X.toQ - e.X.toQ = xdx at dex ⊢
  generalize a.Y.toQ - e.Y.toQ = xay at aey ⊢
  generalize b.Y.toQ - e.Y.toQ = xby at bey ⊢
  generalize c.Y.toQ - e.Y.toQ = xcy at cey ⊢
  generalize d.Y.toQ - e.Y.toQ = xdy at dey ⊢
  generalize a.Z.toQ - e.Z.toQ = xaz at aez ⊢
  generalize b.Z.toQ - e.Z.toQ = xbz at bez ⊢
  generalize c.Z.toQ - e.Z.toQ = xcz at cez ⊢
  generalize d.Z.toQ - e.Z.toQ = xdz at dez ⊢
  clear ha hb hc hd he
  revert h1 h2
  intro hdet herr
  -- the twelve products
  have aexbey := (aex.mul bey (by norm_num) (by norm_num) (by norm_num) : TrA _ _ _ 3 2 402)
  have bexaey := (bex.mul aey (by norm_num) (by norm_num) (by norm_num) : TrA _ _ _ 3 2 402)
  have bexcey := (bex.mul cey (by norm_num) (by norm_num) (by norm_num) : TrA _ _ _ 3 2 402)
  have cexbey := (cex.mul bey (by norm_num) (by norm_num) (by norm_num) : TrA _ _ _ 3 2 402)
  have cexdey := (cex.mul dey (by norm_num) (by norm_num) (by norm_num) : TrA _ _ _ 3 2 402)
  have dexcey := (dex.mul cey (by norm_num) (by norm_num) (by norm_num) : TrA _ _ _ 3 2 402)
  have dexaey := (dex.mul aey (by norm_num) (by norm_num) (by norm_num) : TrA _ _ _ 3 2 402)
  have aexdey := (aex.mul dey (by norm_num) (by norm_num) (by norm_num) : TrA _ _ _ 3 2 402)
  have aexcey := (aex.mul cey (by norm_num) (by norm_num) (by norm_num) : TrA _ _ _ 3 2 402)
  have cexaey := (cex.mul aey (by norm_num) (by norm_num) (by norm_num) : TrA _ _ _ 3 2 402)
  have bexdey := (bex.mul dey (by norm_num) (by norm_num) (by norm_num) : TrA _ _ _ 3 2 402)
  have dexbey := (dex.mul bey (by norm_num) (by norm_num) (by norm_num) : TrA _ _ _ 3 2 402)
  -- the six minors
  have ab := (aexbey.sub bexaey (by norm_num) (by norm_num) (by norm_num) : TrA _ _ _ 4 2 403)
  have bc := (bexcey.sub cexbey (by norm_num) (by norm_num) (by norm_num) : TrA _ _ _ 4 2 403)
  have cd := (cexdey.sub dexcey (by norm_num) (by norm_num) (by norm_num) : TrA _ _ _ 4 2 403)
  have da := (dexaey.sub aexdey (by norm_num) (by norm_num) (by norm_num) : TrA _ _ _ 4 2 403)
  have ac := (aexcey.sub cexaey (by norm_num) (by norm_num) (by norm_num) : TrA _ _ _ 4 2 403)
  have bd := (bexdey.sub dexbey (by norm_num) (by norm_num) (by norm_num) : TrA _ _ _ 4 2 403)
  have m3 : ∀ {v w : Expr F64} {X Y P Q : ℚ} {k : ℕ} (_ : k = 4), TrA v X P 1 1 201 → TrA w Y Q k 2 403 → TrA (v * w) (X * Y) (P * Q) 6 3 604 := by
    intro v w X Y P Q k hk hv hw
    subst hk
    exact hv.mul hw (by norm_num) (by norm_num) (by norm_num)
  have abc := (((m3 rfl aez bc).sub (m3 rfl bez ac) (by norm_num) (by norm_num) (by norm_num)).add (m3 rfl cez ab) (by norm_num) (by norm_num) (by norm_num) : TrA _ _ _ 8 3 606)
  have bcd := (((m3 rfl bez cd).sub (m3 rfl cez bd) (by norm_num) (by norm_num) (by norm_num)).add (m3 rfl dez bc) (by norm_num) (by norm_num) (by norm_num) : TrA _ _ _ 8 3 606)
  have cda := (((m3 rfl cez da).add (m3 rfl dez ac) (by norm_num) (by norm_num) (by norm_num)).add (m3 rfl aez cd) (by norm_num) (by norm_num) (by norm_num) : TrA _ _ _ 8 3 606)
  have dab := (((m3 rfl dez ab).add (m3 rfl aez bd) (by norm_num) (by norm_num) (by norm_num)).add (m3 rfl bez da) (by norm_num) (by norm_num) (by norm_num) : TrA _ _ _ 8 3 606)
  have lift : ∀ {x y z : Expr F64} {X Y Z : ℚ}, TrA x X |X| 1 1 201 → TrA y Y |Y| 1 1 201 → TrA z Z |Z| 1 1 201 →
      TrA (x*x + y*y + z*z) (X*X + Y*Y + Z*Z) (X*X + Y*Y + Z*Z) 5 2 404 := by
    intro x y z X Y Z hx hy hz
    have h1 := (hx.mul hx (by norm_num) (by norm_num) (by norm_num) : TrA _ _ _ 3 2 402)
    have h2 := (hy.mul hy (by norm_num) (by norm_num) (by norm_num) : TrA _ _ _ 3 2 402)
    have h3 := (hz.mul hz (by norm_num) (by norm_num) (by norm_num) : TrA _ _ _ 3 2 402)
    rw [abs_mul_abs_self] at h1 h2 h3
    exact ((h1.add h2 (by norm_num) (by norm_num) (by norm_num)).add h3 (by norm_num) (by norm_num) (by norm_num) : TrA _ _ _ 5 2 404)
  have alift := lift aex aey aez
  have blift := lift bex bey bez
  have clift := lift cex cey cez
  have dlift := lift dex dey dez
  have h1 := ((clift.mul dab (by norm_num) (by norm_num) (by norm_num)).sub (dlift.mul abc (by norm_num) (by norm_num) (by norm_num)) (by norm_num) (by norm_num) (by norm_num) : TrA _ _ _ 15 5 1011)
  have h2 := ((alift.mul bcd (by norm_num) (by norm_num) (by norm_num)).sub (blift.mul cda (by norm_num) (by norm_num) (by norm_num)) (by norm_num) (by norm_num) (by norm_num) : TrA _ _ _ 15 5 1011)
  clear abc bcd cda dab ab bc cd da ac bd m3 lift
  -- the permanent
  have sumZ : ∀ {x y z : Expr F64} {X Y Z P Q : ℚ}, TrA x X P 3 2 402 → TrA y Y Q 3 2 402 → TrA z Z |Z| 1 1 201 →
      TrA ((GoAbs.abs x + GoAbs.abs y) * GoAbs.abs z) ((|X| + |Y|) * |Z|) ((P + Q) * |Z|) 6 3 604 := by
    intro x y z X Y Z P Q hx hy hz
    exact (((hx.abs.add hy.abs (by norm_num) (by norm_num) (by norm_num) : TrA _ _ _ 4 2 403)).mul hz.abs (by norm_num) (by norm_num) (by norm_num) : TrA _ _ _ 6 3 604)
  have row : ∀ {p q r l : Expr F64} {P Q R P' Q' R' L : ℚ}, TrA p P P' 6 3 604 → TrA q Q Q' 6 3 604 → TrA r R R' 6 3 604 → TrA l L L 5 2 404 →
      TrA ((p + q + r) * l) ((P + Q + R) * L) ((P' + Q' + R') * L) 14 5 1010 := by
    intro p q r l P Q R P' Q' R' L hp hq hr hl
    exact ((((hp.add hq (by norm_num) (by norm_num) (by norm_num)).add hr (by norm_num) (by norm_num) (by norm_num) : TrA _ _ _ 8 3 606)).mul hl (by norm_num) (by norm_num) (by norm_num) : TrA _ _ _ 14 5 1010)
  have r1 := row (sumZ cexdey dexcey bez) (sumZ dexbey bexdey cez) (sumZ bexcey cexbey dez) alift
  have r2 := row (sumZ dexaey aexdey cez) (sumZ aexcey cexaey dez) (sumZ cexdey dexcey aez) blift
  have r3 := row (sumZ aexbey bexaey dez) (sumZ bexdey dexbey aez) (sumZ dexaey aexdey bez) clift
  have r4 := row (sumZ bexcey cexbey aez) (sumZ cexaey aexcey bez) (sumZ aexbey bexaey cez) dlift
  have perm := (((r1.add r2 (by norm_num) (by norm_num) (by norm_num)).add r3 (by norm_num) (by norm_num) (by norm_num)).add r4 (by norm_num) (by norm_num) (by norm_num) : TrA _ _ _ 17 5 1013)
  clear r1 r2 r3 r4 row sumZ
  simp only [← abs_mul] at perm
  obtain ⟨c1, c2⟩ := isperrboundA_float
  rcases hdet.add_inv with ⟨v1, v2, g1, g2, rfl⟩ | ⟨_, _, _, _, _, hne, _⟩ | ⟨_, _, _, _, _, hne, _⟩
  · obtain ⟨w1, w2, g3, g4, rfl⟩ := herr.mul_inv
    rw [g3.leaf_inv]
    exact filter_sign (TrA.ev g1 h1) (TrA.ev g2 h2) (TrA.ev g4 perm) (by simp only [abs_mul]; ring) c1 c2
  · cases hne
  · cases hne


end Verif.Props
