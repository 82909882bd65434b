import Verif.Proofs.Margin
import Verif.Props.Tri3
/-!
# The determinants of packages predicates and triangulate3 at binary64
-/
namespace Verif.Proofs
open Verif Verif.F64 Verif.Props Verif.Predicates Verif.Tri3 Verif.R3

/-- all three coordinates are numbers of size at most `M` -/
def Bounded3 (M : ℚ) (v : R3.Vector F64) : Prop :=
  (v.X.Finite ∧ |v.X.toQ| ≤ M) ∧ (v.Y.Finite ∧ |v.Y.toQ| ≤ M) ∧ (v.Z.Finite ∧ |v.Z.toQ| ≤ M)

section
variable {M : ℚ} (h1 : 1 / 2 ^ 34 ≤ M) (h2 : M ≤ 2 ^ 34)
include h1 h2

theorem scale5 {d : ℕ} (hd : d ≤ 5) : Scale (M ^ d) := by
  have h0 : 0 < M := lt_of_lt_of_le (by positivity) h1
  constructor
  · calc (1:ℚ) / 2 ^ 170 ≤ (1 / 2 ^ 34) ^ d := by interval_cases d <;> norm_num
      _ ≤ M ^ d := pow_le_pow_left₀ (by positivity) h1 d
  · calc M ^ d ≤ (2 ^ 34) ^ d := pow_le_pow_left₀ h0.le h2 d
      _ ≤ 2 ^ 170 := by interval_cases d <;> norm_num

theorem app_diff5 {x y : F64} (hx : x.Finite ∧ |x.toQ| ≤ M) (hy : y.Finite ∧ |y.toQ| ≤ M) : App (x - y) (x.toQ - y.toQ) (M ^ 1) (5 / 2) 2 := by
  have := (app_coord hx.1 hx.2).sub (app_coord hy.1 hy.2) (scale5 h1 h2 (by norm_num)) (by norm_num) (by norm_num) (by norm_num) (by norm_num)
  exact this.weaken (scale5 h1 h2 (by norm_num)) (by norm_num) (by norm_num)

theorem app_mul5 {v w : F64} {X Y k l b c : ℚ} {i j : ℕ} (hij : i + j ≤ 5) (h : App v X (M ^ i) k b) (h' : App w Y (M ^ j) l c)
    (hk : 0 ≤ k ∧ k ≤ 2 ^ 12) (hl : 0 ≤ l ∧ l ≤ 2 ^ 12) (hb : 0 ≤ b ∧ b ≤ 2 ^ 12) (hc : 0 ≤ c ∧ c ≤ 2 ^ 12) :
    App (v * w) (X * Y) (M ^ (i + j)) (k * c + l * b + b * c + 1) (b * c) := by
  rw [pow_add]
  exact h.mul h' (scale5 h1 h2 (by omega)) (scale5 h1 h2 (by omega)) (by rw [← pow_add]; exact scale5 h1 h2 hij) hk hl hb hc

theorem app_cross5 {x y z w : F64} {X Y Z W : ℚ} (hx : App x X (M ^ 1) (5 / 2) 2) (hy : App y Y (M ^ 1) (5 / 2) 2) (hz : App z Z (M ^ 1) (5 / 2) 2)
    (hw : App w W (M ^ 1) (5 / 2) 2) : App (x * y - z * w) (X * Y - Z * W) (M ^ 2) 39 8 := by
  have p := app_mul5 h1 h2 (by norm_num) hx hy (by norm_num) (by norm_num) (by norm_num) (by norm_num)
  have q := app_mul5 h1 h2 (by norm_num) hz hw (by norm_num) (by norm_num) (by norm_num) (by norm_num)
  have := p.sub q (scale5 h1 h2 (by norm_num)) (by norm_num) (by norm_num) (by norm_num) (by norm_num)
  exact this.weaken (scale5 h1 h2 (by norm_num)) (by norm_num) (by norm_num)

/-- a coordinate difference times a 2 by 2 minor -/
theorem app_term5 {x p : F64} {X P : ℚ} (hx : App x X (M ^ 1) (5 / 2) 2) (hp : App p P (M ^ 2) 39 8) : App (x * p) (X * P) (M ^ 3) 115 16 :=
  (app_mul5 h1 h2 (by norm_num) hx hp (by norm_num) (by norm_num) (by norm_num) (by norm_num)).weaken (scale5 h1 h2 (by norm_num)) (by norm_num) (by norm_num)

theorem app_term5' {x p : F64} {X P : ℚ} (hx : App x X (M ^ 1) (5 / 2) 2) (hp : App p P (M ^ 2) 39 8) : App (p * x) (P * X) (M ^ 3) 115 16 :=
  (app_mul5 h1 h2 (by norm_num) hp hx (by norm_num) (by norm_num) (by norm_num) (by norm_num)).weaken (scale5 h1 h2 (by norm_num)) (by norm_num) (by norm_num)

theorem app_sum5 {x y z : F64} {X Y Z : ℚ} (hx : App x X (M ^ 3) 115 16) (hy : App y Y (M ^ 3) 115 16) (hz : App z Z (M ^ 3) 115 16) :
    App (x + y + z) (X + Y + Z) (M ^ 3) 426 48 := by
  have s := hx.add hy (scale5 h1 h2 (by norm_num)) (by norm_num) (by norm_num) (by norm_num) (by norm_num)
  have := s.add hz (scale5 h1 h2 (by norm_num)) (by norm_num) (by norm_num) (by norm_num) (by norm_num)
  exact this.weaken (scale5 h1 h2 (by norm_num)) (by norm_num) (by norm_num)

theorem app_sum5' {x y z : F64} {X Y Z : ℚ} (hx : App x X (M ^ 3) 115 16) (hy : App y Y (M ^ 3) 115 16) (hz : App z Z (M ^ 3) 115 16) :
    App (x - y + z) (X - Y + Z) (M ^ 3) 426 48 := by
  have s := hx.sub hy (scale5 h1 h2 (by norm_num)) (by norm_num) (by norm_num) (by norm_num) (by norm_num)
  have := s.add hz (scale5 h1 h2 (by norm_num)) (by norm_num) (by norm_num) (by norm_num) (by norm_num)
  exact this.weaken (scale5 h1 h2 (by norm_num)) (by norm_num) (by norm_num)

theorem app_lift5 {x y z : F64} {X Y Z : ℚ} (hx : App x X (M ^ 1) (5 / 2) 2) (hy : App y Y (M ^ 1) (5 / 2) 2) (hz : App z Z (M ^ 1) (5 / 2) 2) :
    App (x * x + y * y + z * z) (X * X + Y * Y + Z * Z) (M ^ 2) 66 12 := by
  have p := app_mul5 h1 h2 (by norm_num) hx hx (by norm_num) (by norm_num) (by norm_num) (by norm_num)
  have q := app_mul5 h1 h2 (by norm_num) hy hy (by norm_num) (by norm_num) (by norm_num) (by norm_num)
  have r := app_mul5 h1 h2 (by norm_num) hz hz (by norm_num) (by norm_num) (by norm_num) (by norm_num)
  have s := p.add q (scale5 h1 h2 (by norm_num)) (by norm_num) (by norm_num) (by norm_num) (by norm_num)
  have := s.add r (scale5 h1 h2 (by norm_num)) (by norm_num) (by norm_num) (by norm_num) (by norm_num)
  exact this.weaken (scale5 h1 h2 (by norm_num)) (by norm_num) (by norm_num)

theorem orient_app {a b c d : R3.Vector F64} (ha : Bounded3 M a) (hb : Bounded3 M b) (hc : Bounded3 M c) (hd : Bounded3 M d) :
    App (orient3dfast a b c d) (orient3dfast (exactV a) (exactV b) (exactV c) (exactV d)) (M ^ 3) 426 48 := by
  unfold orient3dfast
  have ax := app_diff5 h1 h2 ha.1 hd.1
  have bx := app_diff5 h1 h2 hb.1 hd.1
  have cx := app_diff5 h1 h2 hc.1 hd.1
  have ay := app_diff5 h1 h2 ha.2.1 hd.2.1
  have by' := app_diff5 h1 h2 hb.2.1 hd.2.1
  have cy := app_diff5 h1 h2 hc.2.1 hd.2.1
  have az := app_diff5 h1 h2 ha.2.2 hd.2.2
  have bz := app_diff5 h1 h2 hb.2.2 hd.2.2
  have cz := app_diff5 h1 h2 hc.2.2 hd.2.2
  exact app_sum5 h1 h2 (app_term5 h1 h2 ax (app_cross5 h1 h2 by' cz bz cy)) (app_term5 h1 h2 bx (app_cross5 h1 h2 cy az cz ay))
    (app_term5 h1 h2 cx (app_cross5 h1 h2 ay bz az by'))

theorem side_app {a b c q : R3.Vector F64} (ha : Bounded3 M a) (hb : Bounded3 M b) (hc : Bounded3 M c) (hq : Bounded3 M q) :
    App (Dot (Cross (R3.Sub b a) (R3.Sub c a)) (R3.Sub q a)) (vol6 (exactV a) (exactV b) (exactV c) (exactV q)) (M ^ 3) 426 48 := by
  have e : vol6 (exactV a) (exactV b) (exactV c) (exactV q) =
      Dot (Cross (R3.Sub (exactV b) (exactV a)) (R3.Sub (exactV c) (exactV a))) (R3.Sub (exactV q) (exactV a)) := by
    rw [vol6_eq]; simp only [Dot, Cross, R3.Sub]; ring
  rw [e]
  have bx := app_diff5 h1 h2 hb.1 ha.1
  have cx := app_diff5 h1 h2 hc.1 ha.1
  have qx := app_diff5 h1 h2 hq.1 ha.1
  have by' := app_diff5 h1 h2 hb.2.1 ha.2.1
  have cy := app_diff5 h1 h2 hc.2.1 ha.2.1
  have qy := app_diff5 h1 h2 hq.2.1 ha.2.1
  have bz := app_diff5 h1 h2 hb.2.2 ha.2.2
  have cz := app_diff5 h1 h2 hc.2.2 ha.2.2
  have qz := app_diff5 h1 h2 hq.2.2 ha.2.2
  exact app_sum5 h1 h2 (app_term5' h1 h2 qx (app_cross5 h1 h2 by' cz cy bz)) (app_term5' h1 h2 qy (app_cross5 h1 h2 bz cx cz bx))
    (app_term5' h1 h2 qz (app_cross5 h1 h2 bx cy cx by'))

theorem insphere_app {a b c d e : R3.Vector F64} (ha : Bounded3 M a) (hb : Bounded3 M b) (hc : Bounded3 M c) (hd : Bounded3 M d) (he : Bounded3 M e) :
    App (InSphereFast a b c d e) (InSphereFast (exactV a) (exactV b) (exactV c) (exactV d) (exactV e)) (M ^ 5) 40038 2304 := by
  unfold InSphereFast
  have aex := app_diff5 h1 h2 ha.1 he.1
  have bex := app_diff5 h1 h2 hb.1 he.1
  have cex := app_diff5 h1 h2 hc.1 he.1
  have dex := app_diff5 h1 h2 hd.1 he.1
  have aey := app_diff5 h1 h2 ha.2.1 he.2.1
  have bey := app_diff5 h1 h2 hb.2.1 he.2.1
  have cey := app_diff5 h1 h2 hc.2.1 he.2.1
  have dey := app_diff5 h1 h2 hd.2.1 he.2.1
  have aez := app_diff5 h1 h2 ha.2.2 he.2.2
  have bez := app_diff5 h1 h2 hb.2.2 he.2.2
  have cez := app_diff5 h1 h2 hc.2.2 he.2.2
  have dez := app_diff5 h1 h2 hd.2.2 he.2.2
  have ab := app_cross5 h1 h2 aex bey bex aey
  have bc := app_cross5 h1 h2 bex cey cex bey
  have cd := app_cross5 h1 h2 cex dey dex cey
  have da := app_cross5 h1 h2 dex aey aex dey
  have ac := app_cross5 h1 h2 aex cey cex aey
  have bd := app_cross5 h1 h2 bex dey dex bey
  have abc := app_sum5' h1 h2 (app_term5 h1 h2 aez bc) (app_term5 h1 h2 bez ac) (app_term5 h1 h2 cez ab)
  have bcd := app_sum5' h1 h2 (app_term5 h1 h2 bez cd) (app_term5 h1 h2 cez bd) (app_term5 h1 h2 dez bc)
  have cda := app_sum5 h1 h2 (app_term5 h1 h2 cez da) (app_term5 h1 h2 dez ac) (app_term5 h1 h2 aez cd)
  have dab := app_sum5 h1 h2 (app_term5 h1 h2 dez ab) (app_term5 h1 h2 aez bd) (app_term5 h1 h2 bez da)
  have al := app_lift5 h1 h2 aex aey aez
  have bl := app_lift5 h1 h2 bex bey bez
  have cl := app_lift5 h1 h2 cex cey cez
  have dl := app_lift5 h1 h2 dex dey dez
  have m : ∀ {x p : F64} {X P : ℚ}, App x X (M ^ 2) 66 12 → App p P (M ^ 3) 426 48 → App (x * p) (X * P) (M ^ 5) 8857 576 := by
    intro x p X P hx hp
    exact (app_mul5 h1 h2 (by norm_num) hx hp (by norm_num) (by norm_num) (by norm_num) (by norm_num)).weaken (scale5 h1 h2 (by norm_num)) (by norm_num) (by norm_num)
  have s1 := (m cl dab).sub (m dl abc) (scale5 h1 h2 (by norm_num)) (by norm_num) (by norm_num) (by norm_num) (by norm_num)
  have s2 := (m al bcd).sub (m bl cda) (scale5 h1 h2 (by norm_num)) (by norm_num) (by norm_num) (by norm_num) (by norm_num)
  have := s1.add s2 (scale5 h1 h2 (by norm_num)) (by norm_num) (by norm_num) (by norm_num) (by norm_num)
  exact this.weaken (scale5 h1 h2 (by norm_num)) (by norm_num) (by norm_num)

end

/-- the sign of a quantity that is not within the error of zero -/
theorem App.sign_le {v : F64} {X S k b : ℚ} (h : App v X S k b) (hX : k * (uro * S) < |X|) : (v ≤ 0 ↔ X ≤ 0) ∧ (0 ≤ v ↔ 0 ≤ X) := by
  have h0 : (0 : F64).toQ = 0 := rfl
  have z0 : (0 : F64).Finite := trivial
  obtain ⟨s1, s2⟩ := h.sign hX
  rw [lt_fin h.fin z0, h0] at s1
  rw [lt_fin z0 h.fin, h0] at s2
  rw [le_fin h.fin z0, le_fin z0 h.fin, h0]
  exact ⟨by rw [← not_lt, ← not_lt, s2], by rw [← not_lt, ← not_lt, s1]⟩

/-- the program's side test, when the two volumes have the right signs -/
theorem sameSide_of_signs {a b c d p : R3.Vector F64} {A B : ℚ}
    (hA : (Dot (Cross (R3.Sub b a) (R3.Sub c a)) (R3.Sub d a) ≤ 0 ↔ A ≤ 0) ∧ (0 ≤ Dot (Cross (R3.Sub b a) (R3.Sub c a)) (R3.Sub d a) ↔ 0 ≤ A))
    (hB : (Dot (Cross (R3.Sub b a) (R3.Sub c a)) (R3.Sub p a) ≤ 0 ↔ B ≤ 0) ∧ (0 ≤ Dot (Cross (R3.Sub b a) (R3.Sub c a)) (R3.Sub p a) ↔ 0 ≤ B)) :
    SameSide a b c d p = true ↔ (A ≤ 0 ∧ B ≤ 0) ∨ (0 ≤ A ∧ 0 ≤ B) := by
  unfold SameSide
  rw [← hA.1, ← hA.2, ← hB.1, ← hB.2]
  dsimp only
  split_ifs <;> simp_all

/-! ## Coordinates on a dyadic grid -/

/-- `v` is `a * 2^e` with the entries of `a` at most `B` -/
def DPt3 (B : ℕ) (e : ℤ) (v : R3.Vector F64) (a : R3.Vector ℤ) : Prop := Dy v.X a.X B e ∧ Dy v.Y a.Y B e ∧ Dy v.Z a.Z B e

theorem dy_cross {B C : ℕ} {e : ℤ} {x y z w : F64} {n m k l : ℤ} (hx : Dy x n B e) (hy : Dy y m B e) (hz : Dy z k B e) (hw : Dy w l B e)
    (hC : B * B + B * B = C) (h : C < 2 ^ 53) (h1 : -1000 ≤ e + e) (h2 : e + e ≤ 800) : Dy (x * y - z * w) (n * m - k * l) C (e + e) := by
  subst hC
  exact (hx.mul hy (by omega) h1 h2).sub (hz.mul hw (by omega) h1 h2) h h1 h2

section
variable {e : ℤ} (h1 : -200 ≤ e) (h2 : e ≤ 160)
include h1 h2

theorem dpt3_orient {u v w p : R3.Vector F64} {a b c d : R3.Vector ℤ} (hu : DPt3 32768 e u a) (hv : DPt3 32768 e v b) (hw : DPt3 32768 e w c)
    (hp : DPt3 32768 e p d) : ∃ C, Dy (orient3dfast u v w p) (orient3dfast a b c d) C (e + (e + e)) := by
  have ax := hu.1.sub hp.1 (by norm_num) (by omega) (by omega)
  have bx := hv.1.sub hp.1 (by norm_num) (by omega) (by omega)
  have cx := hw.1.sub hp.1 (by norm_num) (by omega) (by omega)
  have ay := hu.2.1.sub hp.2.1 (by norm_num) (by omega) (by omega)
  have by' := hv.2.1.sub hp.2.1 (by norm_num) (by omega) (by omega)
  have cy := hw.2.1.sub hp.2.1 (by norm_num) (by omega) (by omega)
  have az := hu.2.2.sub hp.2.2 (by norm_num) (by omega) (by omega)
  have bz := hv.2.2.sub hp.2.2 (by norm_num) (by omega) (by omega)
  have cz := hw.2.2.sub hp.2.2 (by norm_num) (by omega) (by omega)
  have t1 := ax.mul (dy_cross by' cz bz cy rfl (by norm_num) (by omega) (by omega)) (by norm_num) (by omega) (by omega)
  have t2 := bx.mul (dy_cross cy az cz ay rfl (by norm_num) (by omega) (by omega)) (by norm_num) (by omega) (by omega)
  have t3 := cx.mul (dy_cross ay bz az by' rfl (by norm_num) (by omega) (by omega)) (by norm_num) (by omega) (by omega)
  exact ⟨_, (t1.add t2 (by norm_num) (by omega) (by omega)).add t3 (by norm_num) (by omega) (by omega)⟩

theorem dpt3_side {u v w p : R3.Vector F64} {a b c d : R3.Vector ℤ} (hu : DPt3 32768 e u a) (hv : DPt3 32768 e v b) (hw : DPt3 32768 e w c)
    (hp : DPt3 32768 e p d) : ∃ C, Dy (Dot (Cross (R3.Sub v u) (R3.Sub w u)) (R3.Sub p u)) (Dot (Cross (R3.Sub b a) (R3.Sub c a)) (R3.Sub d a)) C (e + e + e) := by
  have bx := hv.1.sub hu.1 (by norm_num) (by omega) (by omega)
  have cx := hw.1.sub hu.1 (by norm_num) (by omega) (by omega)
  have qx := hp.1.sub hu.1 (by norm_num) (by omega) (by omega)
  have by' := hv.2.1.sub hu.2.1 (by norm_num) (by omega) (by omega)
  have cy := hw.2.1.sub hu.2.1 (by norm_num) (by omega) (by omega)
  have qy := hp.2.1.sub hu.2.1 (by norm_num) (by omega) (by omega)
  have bz := hv.2.2.sub hu.2.2 (by norm_num) (by omega) (by omega)
  have cz := hw.2.2.sub hu.2.2 (by norm_num) (by omega) (by omega)
  have qz := hp.2.2.sub hu.2.2 (by norm_num) (by omega) (by omega)
  have t1 := (dy_cross by' cz cy bz rfl (by norm_num) (by omega) (by omega)).mul qx (by norm_num) (by omega) (by omega)
  have t2 := (dy_cross bz cx cz bx rfl (by norm_num) (by omega) (by omega)).mul qy (by norm_num) (by omega) (by omega)
  have t3 := (dy_cross bx cy cx by' rfl (by norm_num) (by omega) (by omega)).mul qz (by norm_num) (by omega) (by omega)
  exact ⟨_, (t1.add t2 (by norm_num) (by omega) (by omega)).add t3 (by norm_num) (by omega) (by omega)⟩

theorem dpt3_insphere {u v w p q : R3.Vector F64} {a b c d f : R3.Vector ℤ} (hu : DPt3 256 e u a) (hv : DPt3 256 e v b) (hw : DPt3 256 e w c)
    (hp : DPt3 256 e p d) (hq : DPt3 256 e q f) : ∃ C, Dy (InSphereFast u v w p q) (InSphereFast a b c d f) C (e + e + (e + (e + e))) := by
  have aex := hu.1.sub hq.1 (by norm_num) (by omega) (by omega)
  have bex := hv.1.sub hq.1 (by norm_num) (by omega) (by omega)
  have cex := hw.1.sub hq.1 (by norm_num) (by omega) (by omega)
  have dex := hp.1.sub hq.1 (by norm_num) (by omega) (by omega)
  have aey := hu.2.1.sub hq.2.1 (by norm_num) (by omega) (by omega)
  have bey := hv.2.1.sub hq.2.1 (by norm_num) (by omega) (by omega)
  have cey := hw.2.1.sub hq.2.1 (by norm_num) (by omega) (by omega)
  have dey := hp.2.1.sub hq.2.1 (by norm_num) (by omega) (by omega)
  have aez := hu.2.2.sub hq.2.2 (by norm_num) (by omega) (by omega)
  have bez := hv.2.2.sub hq.2.2 (by norm_num) (by omega) (by omega)
  have cez := hw.2.2.sub hq.2.2 (by norm_num) (by omega) (by omega)
  have dez := hp.2.2.sub hq.2.2 (by norm_num) (by omega) (by omega)
  have ab := dy_cross aex bey bex aey rfl (by norm_num) (by omega) (by omega)
  have bc := dy_cross bex cey cex bey rfl (by norm_num) (by omega) (by omega)
  have cd := dy_cross cex dey dex cey rfl (by norm_num) (by omega) (by omega)
  have da := dy_cross dex aey aex dey rfl (by norm_num) (by omega) (by omega)
  have ac := dy_cross aex cey cex aey rfl (by norm_num) (by omega) (by omega)
  have bd := dy_cross bex dey dex bey rfl (by norm_num) (by omega) (by omega)
  have m : ∀ {x y : F64} {n k : ℤ}, Dy x n (256 + 256) e → Dy y k ((256 + 256) * (256 + 256) + (256 + 256) * (256 + 256)) (e + e) →
      Dy (x * y) (n * k) (2 ^ 28) (e + (e + e)) := fun hx hy => hx.mul hy (by norm_num) (by omega) (by omega)
  have s : ∀ {x y z : F64} {n k l : ℤ}, Dy x n (2 ^ 28) (e + (e + e)) → Dy y k (2 ^ 28) (e + (e + e)) → Dy z l (2 ^ 28) (e + (e + e)) →
      Dy (x + y + z) (n + k + l) (2 ^ 28 + 2 ^ 28 + 2 ^ 28) (e + (e + e)) := fun hx hy hz =>
    (hx.add hy (by norm_num) (by omega) (by omega)).add hz (by norm_num) (by omega) (by omega)
  have s' : ∀ {x y z : F64} {n k l : ℤ}, Dy x n (2 ^ 28) (e + (e + e)) → Dy y k (2 ^ 28) (e + (e + e)) → Dy z l (2 ^ 28) (e + (e + e)) →
      Dy (x - y + z) (n - k + l) (2 ^ 28 + 2 ^ 28 + 2 ^ 28) (e + (e + e)) := fun hx hy hz =>
    (hx.sub hy (by norm_num) (by omega) (by omega)).add hz (by norm_num) (by omega) (by omega)
  have l : ∀ {x y z : F64} {n k l : ℤ}, Dy x n (256 + 256) e → Dy y k (256 + 256) e → Dy z l (256 + 256) e →
      Dy (x * x + y * y + z * z) (n * n + k * k + l * l) (3 * 2 ^ 18) (e + e) := fun hx hy hz =>
    ((hx.mul hx (by norm_num) (by omega) (by omega)).add (hy.mul hy (by norm_num) (by omega) (by omega)) (by norm_num) (by omega) (by omega)).add
      (hz.mul hz (by norm_num) (by omega) (by omega)) (by norm_num) (by omega) (by omega)
  have abc := s' (m aez bc) (m bez ac) (m cez ab)
  have bcd := s' (m bez cd) (m cez bd) (m dez bc)
  have cda := s (m cez da) (m dez ac) (m aez cd)
  have dab := s (m dez ab) (m aez bd) (m bez da)
  have al := l aex aey aez
  have bl := l bex bey bez
  have cl := l cex cey cez
  have dl := l dex dey dez
  have t : ∀ {x y : F64} {n k : ℤ}, Dy x n (3 * 2 ^ 18) (e + e) → Dy y k (2 ^ 28 + 2 ^ 28 + 2 ^ 28) (e + (e + e)) →
      Dy (x * y) (n * k) (9 * 2 ^ 46) (e + e + (e + (e + e))) := fun hx hy => hx.mul hy (by norm_num) (by omega) (by omega)
  exact ⟨_, ((t cl dab).sub (t dl abc) (by norm_num) (by omega) (by omega)).add ((t al bcd).sub (t bl cda) (by norm_num) (by omega) (by omega))
    (by norm_num) (by omega) (by omega)⟩

end

end Verif.Proofs
