import Verif.Go.Fma
import Verif.Proofs.GridSort
/-!
# Evaluations with fused multiply-adds
-/
namespace Verif.Proofs
open Verif Verif.F64 Verif.Tri2 Verif.Props

theorem fma_fin {x y z : F64} (hx : x.Finite) (hy : y.Finite) (hz : z.Finite) (h : |rnd (x.toQ * y.toQ + z.toQ)| < 2 ^ 1024) :
    (fma x y z).Finite ∧ (fma x y z).toQ = rnd (x.toQ * y.toQ + z.toQ) := by
  unfold fma
  rw [if_pos ⟨hx, hy, hz⟩]
  dsimp only
  split_ifs with h0
  · exact ⟨trivial, by rw [h0, rnd_zero]; rfl⟩
  · exact round_fin h

/-! ## Inversion -/

theorem _root_.Verif.Ev.leaf_inv {x v : F64} (h : Ev (.leaf x) v) : v = x := by cases h; rfl

theorem _root_.Verif.Ev.mul_inv {a b : Expr F64} {v : F64} (h : Ev (a * b) v) : ∃ x y, Ev a x ∧ Ev b y ∧ v = x * y := by
  cases h with
  | mul ha hb => exact ⟨_, _, ha, hb, rfl⟩

theorem _root_.Verif.Ev.div_inv {a b : Expr F64} {v : F64} (h : Ev (a / b) v) : ∃ x y, Ev a x ∧ Ev b y ∧ v = x / y := by
  cases h with
  | div ha hb => exact ⟨_, _, ha, hb, rfl⟩

theorem _root_.Verif.Ev.add_inv {a b : Expr F64} {v : F64} (h : Ev (a + b) v) :
    (∃ x y, Ev a x ∧ Ev b y ∧ v = x + y) ∨
    (∃ a1 a2 x y z, a = a1 * a2 ∧ Ev a1 x ∧ Ev a2 y ∧ Ev b z ∧ v = fma x y z) ∨
    (∃ b1 b2 x y z, b = b1 * b2 ∧ Ev b1 x ∧ Ev b2 y ∧ Ev a z ∧ v = fma x y z) := by
  cases h with
  | add ha hb => exact Or.inl ⟨_, _, ha, hb, rfl⟩
  | mulAdd h1 h2 h3 => exact Or.inr (Or.inl ⟨_, _, _, _, _, rfl, h1, h2, h3, rfl⟩)
  | addMul h1 h2 h3 => exact Or.inr (Or.inr ⟨_, _, _, _, _, rfl, h1, h2, h3, rfl⟩)

theorem _root_.Verif.Ev.sub_inv {a b : Expr F64} {v : F64} (h : Ev (a - b) v) :
    (∃ x y, Ev a x ∧ Ev b y ∧ v = x - y) ∨
    (∃ a1 a2 x y z, a = a1 * a2 ∧ Ev a1 x ∧ Ev a2 y ∧ Ev b z ∧ v = fma x y (-z)) ∨
    (∃ b1 b2 x y z, b = b1 * b2 ∧ Ev b1 x ∧ Ev b2 y ∧ Ev a z ∧ v = fma (-x) y z) := by
  cases h with
  | sub ha hb => exact Or.inl ⟨_, _, ha, hb, rfl⟩
  | mulSub h1 h2 h3 => exact Or.inr (Or.inl ⟨_, _, _, _, _, rfl, h1, h2, h3, rfl⟩)
  | subMul h1 h2 h3 => exact Or.inr (Or.inr ⟨_, _, _, _, _, rfl, h1, h2, h3, rfl⟩)

/-! ## Exact evaluations -/

/-- every evaluation of `e` gives the integer `n`, which has size at most `b`, and so on for the subexpressions -/
inductive All : Expr F64 → ℤ → ℕ → Prop where
  | leaf {x n b} : Ex x n b → All (.leaf x) n b
  | add {x y n m b c} : All x n b → All y m c → b + c < 2 ^ 53 → All (x + y) (n + m) (b + c)
  | sub {x y n m b c} : All x n b → All y m c → b + c < 2 ^ 53 → All (x - y) (n - m) (b + c)
  | mul {x y n m b c} : All x n b → All y m c → b * c < 2 ^ 53 → All (x * y) (n * m) (b * c)

theorem All.mul_inv {x y : Expr F64} {k : ℤ} {e : ℕ} (h : All (x * y) k e) : ∃ n m b c, All x n b ∧ All y m c ∧ k = n * m ∧ e = b * c := by
  cases h with
  | mul h1 h2 _ => exact ⟨_, _, _, _, h1, h2, rfl, rfl⟩

theorem Ex.neg {x : F64} {n : ℤ} {b : ℕ} (h : Ex x n b) : Ex (-x) (-n) b := by
  obtain ⟨f, v⟩ := neg_fin h.fin
  exact ⟨f, by rw [v, h.val]; push_cast; rfl, by rw [abs_neg]; exact h.le⟩

theorem Ex.fma {x y z : F64} {n m k : ℤ} {b c d : ℕ} (hx : Ex x n b) (hy : Ex y m c) (hz : Ex z k d) (h : b * c + d < 2 ^ 53) :
    Ex (fma x y z) (n * m + k) (b * c + d) := by
  have hle : |n * m + k| ≤ ((b * c + d : ℕ) : ℤ) := by
    push_cast
    refine (abs_add_le _ _).trans (add_le_add ?_ hz.le)
    rw [abs_mul]; exact mul_le_mul hx.le hy.le (abs_nonneg _) (by positivity)
  have hlt : |n * m + k| < 2 ^ 53 := hle.trans_lt (by exact_mod_cast h)
  have e : rnd (x.toQ * y.toQ + z.toQ) = ((n * m + k : ℤ) : ℚ) := by rw [hx.val, hy.val, hz.val, ← Int.cast_mul, ← Int.cast_add, rnd_int hlt]
  obtain ⟨f, v⟩ := fma_fin hx.fin hy.fin hz.fin (by rw [e]; exact lt_big hlt)
  exact ⟨f, by rw [v, e], hle⟩

theorem All.ex {e : Expr F64} {v : F64} (hv : Ev e v) : ∀ {n : ℤ} {b : ℕ}, All e n b → Ex v n b := by
  induction hv with
  | leaf x => intro n b h; cases h with | leaf h => exact h
  | add _ _ ih1 ih2 => intro n b h; cases h with | add h1 h2 h3 => exact (ih1 h1).add (ih2 h2) h3
  | sub _ _ ih1 ih2 => intro n b h; cases h with | sub h1 h2 h3 => exact (ih1 h1).sub (ih2 h2) h3
  | mul _ _ ih1 ih2 => intro n b h; cases h with | mul h1 h2 h3 => exact (ih1 h1).mul (ih2 h2) h3
  | div _ _ ih1 ih2 => intro n b h; cases h
  | abs _ ih => intro n b h; cases h
  | mulAdd _ _ _ ih1 ih2 ih3 =>
    intro n b h
    cases h with
    | add h1 h2 h3 =>
      obtain ⟨n, m, b, c, p, q, rfl, rfl⟩ := h1.mul_inv
      exact (ih1 p).fma (ih2 q) (ih3 h2) h3
  | addMul _ _ _ ih1 ih2 ih3 =>
    intro n b h
    cases h with
    | add h1 h2 h3 =>
      obtain ⟨n, m, b, c, p, q, rfl, rfl⟩ := h2.mul_inv
      have := (ih1 p).fma (ih2 q) (ih3 h1) (by omega)
      rwa [add_comm (n * m), add_comm (b * c)] at this
  | mulSub _ _ _ ih1 ih2 ih3 =>
    intro n b h
    cases h with
    | sub h1 h2 h3 =>
      obtain ⟨n, m, b, c, p, q, rfl, rfl⟩ := h1.mul_inv
      rw [sub_eq_add_neg]
      exact (ih1 p).fma (ih2 q) (ih3 h2).neg h3
  | subMul _ _ _ ih1 ih2 ih3 =>
    intro n b h
    cases h with
    | sub h1 h2 h3 =>
      obtain ⟨n, m, b, c, p, q, rfl, rfl⟩ := h2.mul_inv
      have := (ih1 p).neg.fma (ih2 q) (ih3 h1) (by omega)
      rwa [neg_mul, add_comm (b * c), neg_add_eq_sub] at this

end Verif.Proofs
