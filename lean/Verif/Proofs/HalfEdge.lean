import Mathlib.Logic.Equiv.Basic
import Mathlib.Tactic.Linarith
import Mathlib.Tactic.SplitIfs
import Mathlib.Data.Finset.Card
import Mathlib.Data.Finset.Range
import Verif.Model.Delaunator
import Verif.Proofs.Slice
/-!
# Half-edge tables: the effect of one edge flip

Helper lemmas for C19 - C22, C25. Slots are natural numbers, `nx`/`pv` the next/previous slot in the same triangle.
-/
namespace Verif.Proofs
open Verif Verif.Tri2

def nx (k : ℕ) : ℕ := k - k % 3 + (k+1) % 3
def pv (k : ℕ) : ℕ := k - k % 3 + (k+2) % 3

theorem nx_pv (k : ℕ) : nx (pv k) = k := by unfold nx pv; omega
theorem pv_nx (k : ℕ) : pv (nx k) = k := by unfold nx pv; omega
theorem nx_nx (k : ℕ) : nx (nx k) = pv k := by unfold nx pv; omega
theorem pv_pv (k : ℕ) : pv (pv k) = nx k := by unfold nx pv; omega
theorem nx_div (k : ℕ) : nx k / 3 = k / 3 := by unfold nx; omega
theorem pv_div (k : ℕ) : pv k / 3 = k / 3 := by unfold pv; omega
theorem nx_lt {k T : ℕ} (h : k < 3*T) : nx k < 3*T := by unfold nx; omega
theorem pv_lt {k T : ℕ} (h : k < 3*T) : pv k < 3*T := by unfold pv; omega
theorem nx_ne (k : ℕ) : nx k ≠ k := by unfold nx; omega
theorem pv_ne (k : ℕ) : pv k ≠ k := by unfold pv; omega
theorem nx_ne_pv (k : ℕ) : nx k ≠ pv k := by unfold nx pv; omega
theorem same_div {k m : ℕ} (h : k / 3 = m / 3) : k = m ∨ k = nx m ∨ k = pv m := by unfold nx pv; omega
theorem nx_inj {k m : ℕ} (h : nx k = nx m) : k = m := by rw [← pv_nx k, h, pv_nx]

/-- a table of `T` triangles over vertices below `n`: distinct vertices, paired half-edges -/
structure MeshF (n T : ℕ) (tr he : ℕ → ℤ) : Prop where
  rng : ∀ k < 3*T, 0 ≤ tr k ∧ tr k < n
  dst : ∀ k < 3*T, tr k ≠ tr (nx k)
  inv : ∀ k < 3*T, he k = -1 ∨ ∃ j : ℕ, j < 3*T ∧ he k = j ∧ he j = k ∧ tr j = tr (nx k) ∧ tr (nx j) = tr k

theorem MeshF.dst2 {n T : ℕ} {tr he : ℕ → ℤ} (h : MeshF n T tr he) {k : ℕ} (hk : k < 3*T) : tr k ≠ tr (pv k) := by
  have := h.dst (pv k) (pv_lt hk)
  rw [nx_pv] at this
  exact this.symm

theorem MeshF.twin {n T : ℕ} {tr he : ℕ → ℤ} (h : MeshF n T tr he) {k j : ℕ} (hk : k < 3*T) (hj : he k = (j:ℤ)) :
    j < 3*T ∧ he j = k ∧ tr j = tr (nx k) ∧ tr (nx j) = tr k ∧ j / 3 ≠ k / 3 := by
  rcases h.inv k hk with h1 | ⟨j', h1, h2, h3, h4, h5⟩
  · omega
  · have : j = j' := by omega
    subst this
    refine ⟨h1, h3, h4, h5, ?_⟩
    intro hd
    rcases same_div hd with rfl | rfl | rfl
    · exact h.dst _ hk h4
    · rw [nx_nx] at h5
      exact h.dst2 hk h5.symm
    · have := h.dst (nx k) (nx_lt hk)
      rw [nx_nx] at this
      exact this h4.symm

/-- `link(a, b)` on the table -/
def linkF (h : ℕ → ℤ) (a : ℕ) (b : ℤ) : ℕ → ℤ := fun k => if (k:ℤ) = b then (a:ℤ) else if k = a then b else h k

/-- the slot permutation of a flip: a → pv a → b → pv b → a -/
def flipPerm (a b : ℕ) : Equiv.Perm ℕ := Equiv.swap a (pv b) * Equiv.swap a b * Equiv.swap a (pv a)

theorem flipPerm_spec {a b : ℕ} (h : a / 3 ≠ b / 3) :
    flipPerm a b a = pv a ∧ flipPerm a b (pv a) = b ∧ flipPerm a b b = pv b ∧ flipPerm a b (pv b) = a ∧
    ∀ k, k ≠ a → k ≠ b → k ≠ pv a → k ≠ pv b → flipPerm a b k = k := by
  have h1 := pv_ne a
  have h2 := pv_ne b
  have h3 := pv_div a
  have h4 := pv_div b
  have e1 : pv a ≠ b := fun e => h (by rw [← h3, e])
  have e2 : pv a ≠ pv b := fun e => h (by rw [← h3, e, h4])
  have e3 : a ≠ pv b := fun e => h (by rw [e, h4])
  have e4 : a ≠ b := fun e => h (by rw [e])
  unfold flipPerm
  simp only [Equiv.Perm.mul_apply, Equiv.swap_apply_def]
  refine ⟨?_, ?_, ?_, ?_, ?_⟩
  · split_ifs <;> first | rfl | omega
  · split_ifs <;> first | rfl | omega
  · split_ifs <;> first | rfl | omega
  · split_ifs <;> first | rfl | omega
  · intro k k1 k2 k3 k4
    split_ifs <;> first | rfl | omega

/-- the half-edge table after the three `link` calls of a flip -/
def flipHe (he : ℕ → ℤ) (a b : ℕ) : ℕ → ℤ :=
  linkF (linkF (linkF he a (he (pv b))) b ((linkF he a (he (pv b))) (pv a))) (pv a) (pv b : ℕ)

/-- the vertex table after a flip -/
def flipTr (tr : ℕ → ℤ) (a b : ℕ) : ℕ → ℤ := fun k => if k = b then tr (pv a) else if k = a then tr (pv b) else tr k

/-- the three `link` calls conjugate an involutive table by the cycle a → ar → b → bl → a -/
theorem relink_spec {N : ℕ} {he : ℕ → ℤ} (hr : ∀ k < N, he k = -1 ∨ 0 ≤ he k) (tw : ∀ k < N, ∀ j : ℕ, he k = j → j < N ∧ he j = k)
    {a ar b bl : ℕ} (ha : a < N) (hb : b < N) (har : ar < N) (hbl : bl < N) (e1 : ar ≠ b) (e2 : ar ≠ bl) (e3 : a ≠ bl) (e4 : a ≠ b)
    (e5 : ar ≠ a) (e6 : bl ≠ b) (hab : he a = b) (hs1 : he ar ≠ ar) (hs2 : he bl ≠ bl) (σ : ℕ → ℕ) (p1 : σ a = ar) (p2 : σ ar = b) (p3 : σ b = bl) (p4 : σ bl = a)
    (p5 : ∀ k, k ≠ a → k ≠ b → k ≠ ar → k ≠ bl → σ k = k) (k : ℕ) (hk : k < N) :
    (he k = -1 → (linkF (linkF (linkF he a (he bl)) b ((linkF he a (he bl)) ar)) ar bl) (σ k) = -1) ∧
    (∀ j : ℕ, he k = j → (linkF (linkF (linkF he a (he bl)) b ((linkF he a (he bl)) ar)) ar bl) (σ k) = (σ j : ℕ)) := by
  have hba : he b = a := (tw a ha b hab).2
  -- the middle partner
  have hy : (linkF he a (he bl)) ar = if he bl = ar then (a : ℤ) else he ar := by
    unfold linkF; split_ifs <;> omega
  have hx0 : he bl ≠ a := by
    intro h
    have := (tw bl hbl a h).2
    omega
  have hx1 : he bl ≠ b := by
    intro h
    have := (tw bl hbl b h).2
    omega
  have hy0 : he ar ≠ a := by
    intro h
    have := (tw ar har a h).2
    omega
  have hy1 : he ar ≠ b := by
    intro h
    have := (tw ar har b h).2
    omega
  rw [hy]
  have hx2 : he bl = ar → he ar = bl := fun h => (tw bl hbl ar h).2
  have hy2 : he ar = bl → he bl = ar := fun h => (tw ar har bl h).2
  have val : ∀ m : ℕ, (linkF (linkF (linkF he a (he bl)) b (if he bl = ar then (a : ℤ) else he ar)) ar bl) m =
      if m = bl then (ar : ℤ) else if m = ar then (bl : ℤ) else if m = b then (if he bl = ar then (a : ℤ) else he ar)
      else if m = a then (if he bl = ar then (b : ℤ) else he bl) else if (m : ℤ) = he bl then (a : ℤ) else if (m : ℤ) = he ar then (b : ℤ)
      else he m := by
    intro m
    unfold linkF
    by_cases c1 : m = bl
    · subst c1; simp
    by_cases c2 : m = ar
    · subst c2; simp [e2]
    have c1' : ¬ ((m : ℤ) = bl) := by omega
    simp only [c1, c2, c1', if_false]
    by_cases c3 : m = b
    · subst c3
      by_cases c5 : he bl = ar
      · simp [c5]
      · have : ¬ ((m:ℤ) = he ar) := fun h => hy1 h.symm
        simp [c5, this]
    by_cases c4 : m = a
    · subst c4
      by_cases c5 : he bl = ar
      · simp [c5, c3]
      · have h1 : ¬ ((m:ℤ) = he ar) := fun h => hy0 h.symm
        have h2 : ¬ ((m:ℤ) = he bl) := fun h => hx0 h.symm
        simp [c5, h1, h2, c3]
    by_cases c5 : he bl = ar
    · have c6 := hx2 c5
      have h1 : ¬ ((m:ℤ) = ar) := by omega
      simp [c5, c3, c4, c6, h1, c1']
    · simp only [c5, c3, c4, if_false]
      by_cases c6 : (m:ℤ) = he bl
      · have : ¬ ((m:ℤ) = he ar) := by
          intro h
          have q1 := (tw bl hbl m c6.symm).2
          have q2 := (tw ar har m h.symm).2
          omega
        simp [c6, this]
        intro h; omega
      · simp [c6]
  simp only [val]
  by_cases k1 : k = a
  · subst k1
    rw [p1]
    refine ⟨fun h => by omega, fun j hj => ?_⟩
    have : j = b := by omega
    subst this
    rw [p3]; simp [e2]
  by_cases k2 : k = b
  · subst k2
    rw [p3]
    refine ⟨fun h => by omega, fun j hj => ?_⟩
    have : j = a := by omega
    subst this
    rw [p1]; simp
  by_cases k3 : k = ar
  · subst k3
    rw [p2]
    have c1 : b ≠ bl := fun h => e6 h.symm
    have c2 : b ≠ k := fun h => e1 h.symm
    simp only [c1, c2, if_false, if_true]
    refine ⟨fun h => ?_, fun j hj => ?_⟩
    · rw [if_neg (fun h' => by have := hx2 h'; omega)]; exact h
    · by_cases c3 : j = bl
      · subst c3; rw [if_pos (hy2 hj), p4]
      · rw [if_neg (fun h' => by have := hx2 h'; omega), hj, p5 j (by rintro rfl; exact hy0 hj) (by rintro rfl; exact hy1 hj)
          (by rintro rfl; exact hs1 hj) c3]
  by_cases k4 : k = bl
  · subst k4
    rw [p4]
    have c1 : a ≠ ar := fun h => e5 h.symm
    simp only [e3, c1, e4, if_false, if_true]
    refine ⟨fun h => ?_, fun j hj => ?_⟩
    · rw [if_neg (fun h' => by omega)]; exact h
    · by_cases c3 : j = ar
      · subst c3; rw [if_pos hj, p2]
      · rw [if_neg (fun h' => by omega), hj, p5 j (by rintro rfl; exact hx0 hj) (by rintro rfl; exact hx1 hj)
          c3 (by rintro rfl; exact hs2 hj)]
  rw [p5 k k1 k2 k3 k4]
  simp only [k1, k2, k3, k4, if_false]
  refine ⟨fun h => ?_, fun j hj => ?_⟩
  · rw [if_neg (fun h' => by have := (tw bl hbl k h'.symm).2; omega), if_neg (fun h' => by have := (tw ar har k h'.symm).2; omega)]
    exact h
  · have hjk := (tw k hk j hj).2
    have ja : j ≠ a := by rintro rfl; omega
    have jb : j ≠ b := by rintro rfl; omega
    by_cases j1 : j = bl
    · subst j1; rw [if_pos hjk.symm, p4]
    by_cases j2 : j = ar
    · subst j2
      rw [if_neg (fun h' => by have := (tw bl hbl k h'.symm).2; omega), if_pos hjk.symm, p2]
    · rw [if_neg (fun h' => by have := (tw bl hbl k h'.symm).2; omega), if_neg (fun h' => by have := (tw ar har k h'.symm).2; omega),
        p5 j ja jb j2 j1, hj]

theorem flip_spec {n T : ℕ} {tr he : ℕ → ℤ} (M : MeshF n T tr he) {a b : ℕ} (ha : a < 3*T) (hab : he a = (b:ℤ))
    (hne : tr (pv b) ≠ tr (pv a)) :
    MeshF n T (flipTr tr a b) (flipHe he a b) ∧
    (∀ k < 3*T, flipPerm a b k < 3*T) ∧
    (∀ k < 3*T, he k = -1 → flipHe he a b (flipPerm a b k) = -1) ∧
    (∀ k < 3*T, ∀ j : ℕ, he k = j → flipHe he a b (flipPerm a b k) = (flipPerm a b j : ℕ)) ∧
    (∀ k < 3*T, k ≠ a → k ≠ b → flipTr tr a b (flipPerm a b k) = tr k ∧ flipTr tr a b (nx (flipPerm a b k)) = tr (nx k)) := by
  obtain ⟨hb, hba, t1, t2, hd⟩ := M.twin ha hab
  have hd' : a / 3 ≠ b / 3 := fun e => hd e.symm
  obtain ⟨p1, p2, p3, p4, p5⟩ := flipPerm_spec hd'
  have h1 := pv_ne a
  have h2 := pv_ne b
  have h3 := pv_div a
  have h4 := pv_div b
  have e1 : pv a ≠ b := fun e => hd' (by rw [← h3, e])
  have e2 : pv a ≠ pv b := fun e => hd' (by rw [← h3, e, h4])
  have e3 : a ≠ pv b := fun e => hd' (by rw [e, h4])
  have e4 : a ≠ b := fun e => hd' (by rw [e])
  have la := pv_lt ha
  have lb := pv_lt hb
  set σ := flipPerm a b with hσ
  have range : ∀ k < 3*T, σ k < 3*T := by
    intro k hk
    by_cases k1 : k = a
    · subst k1; rw [p1]; exact la
    by_cases k2 : k = b
    · subst k2; rw [p3]; exact lb
    by_cases k3 : k = pv a
    · subst k3; rw [p2]; exact hb
    by_cases k4 : k = pv b
    · subst k4; rw [p4]; exact ha
    rw [p5 k k1 k2 k3 k4]; exact hk
  -- values of the vertex table
  have T1 : flipTr tr a b a = tr (pv b) := by simp [flipTr, e4]
  have T2 : flipTr tr a b b = tr (pv a) := by simp [flipTr]
  have T3 : ∀ k, k ≠ a → k ≠ b → flipTr tr a b k = tr k := by intro k k1 k2; simp [flipTr, k1, k2]
  have n1 : nx a ≠ a := nx_ne a
  have n2 : nx a ≠ b := fun e => hd' (by rw [← nx_div a, e])
  have n3 : nx b ≠ b := nx_ne b
  have n4 : nx b ≠ a := fun e => hd' (by rw [← nx_div b, e])
  have lab : ∀ k < 3*T, k ≠ a → k ≠ b → flipTr tr a b (σ k) = tr k ∧ flipTr tr a b (nx (σ k)) = tr (nx k) := by
    intro k hk k1 k2
    by_cases k3 : k = pv a
    · subst k3
      rw [p2, T2, T3 (nx b) n4 n3, nx_pv]
      exact ⟨rfl, t2⟩
    by_cases k4 : k = pv b
    · subst k4
      rw [p4, T1, T3 (nx a) n1 n2, nx_pv]
      exact ⟨rfl, t1.symm⟩
    rw [p5 k k1 k2 k3 k4, T3 k k1 k2, T3 (nx k) (fun e => k3 (by rw [← e, pv_nx])) (fun e => k4 (by rw [← e, pv_nx]))]
    exact ⟨rfl, rfl⟩
  have tw : ∀ k < 3*T, ∀ j : ℕ, he k = j → j < 3*T ∧ he j = k := fun k hk j hj => ⟨(M.twin hk hj).1, (M.twin hk hj).2.1⟩
  have hr : ∀ k < 3*T, he k = -1 ∨ 0 ≤ he k := by
    intro k hk
    rcases M.inv k hk with h | ⟨j, _, h, _⟩
    · exact Or.inl h
    · right; omega
  have hself : ∀ k < 3*T, he k ≠ k := fun k hk h => (M.twin hk h).2.2.2.2 rfl
  have rel := fun k hk => relink_spec hr tw ha hb la lb e1 e2 e3 e4 h1 h2 hab (hself _ la) (hself _ lb) σ p1 p2 p3 p4 p5 k hk
  have key1 : ∀ k < 3*T, he k = -1 → flipHe he a b (σ k) = -1 := fun k hk => (rel k hk).1
  have key2 : ∀ k < 3*T, ∀ j : ℕ, he k = j → flipHe he a b (σ k) = (σ j : ℕ) := fun k hk => (rel k hk).2
  have TA1 : flipTr tr a b (σ a) = tr (pv a) := by rw [p1, T3 _ h1 e1]
  have TA2 : flipTr tr a b (nx (σ a)) = tr (pv b) := by rw [p1, nx_pv, T1]
  have TB1 : flipTr tr a b (σ b) = tr (pv b) := by rw [p3, T3 _ (fun e => e3 e.symm) h2]
  have TB2 : flipTr tr a b (nx (σ b)) = tr (pv a) := by rw [p3, nx_pv, T2]
  have surj : ∀ k < 3*T, ∃ m < 3*T, k = σ m := by
    intro k hk
    by_cases k1 : k = a
    · exact ⟨pv b, lb, by rw [p4, k1]⟩
    by_cases k2 : k = b
    · exact ⟨pv a, la, by rw [p2, k2]⟩
    by_cases k3 : k = pv a
    · exact ⟨a, ha, by rw [p1, k3]⟩
    by_cases k4 : k = pv b
    · exact ⟨b, hb, by rw [p3, k4]⟩
    exact ⟨k, hk, (p5 k k1 k2 k3 k4).symm⟩
  refine ⟨⟨?_, ?_, ?_⟩, range, key1, key2, lab⟩
  · intro k hk
    unfold flipTr
    split_ifs
    · exact M.rng _ la
    · exact M.rng _ lb
    · exact M.rng _ hk
  · intro k hk
    obtain ⟨m, hm, rfl⟩ := surj k hk
    by_cases m1 : m = a
    · subst m1; rw [TA1, TA2]; exact hne.symm
    by_cases m2 : m = b
    · subst m2; rw [TB1, TB2]; exact hne
    obtain ⟨l1, l2⟩ := lab m hm m1 m2
    rw [l1, l2]; exact M.dst m hm
  · intro k hk
    obtain ⟨m, hm, rfl⟩ := surj k hk
    rcases M.inv m hm with h | ⟨j, j1, j2, j3, j4, j5⟩
    · exact Or.inl (key1 m hm h)
    · right
      refine ⟨σ j, range j j1, key2 m hm j j2, key2 j j1 m j3, ?_⟩
      by_cases m1 : m = a
      · subst m1
        have : j = b := by omega
        subst this
        rw [TA1, TA2, TB1, TB2]; exact ⟨rfl, rfl⟩
      by_cases m2 : m = b
      · subst m2
        have : j = a := by omega
        subst this
        rw [TA1, TA2, TB1, TB2]; exact ⟨rfl, rfl⟩
      have ja : j ≠ a := by rintro rfl; omega
      have jb : j ≠ b := by rintro rfl; omega
      obtain ⟨l1, l2⟩ := lab m hm m1 m2
      obtain ⟨l3, l4⟩ := lab j j1 ja jb
      rw [l1, l2, l3, l4]; exact ⟨j4, j5⟩

end Verif.Proofs
