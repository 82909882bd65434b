import Verif.Model.Hull
import Verif.Props.Tri2Util
/-!
# C16 - C18: triangulate2/hull.go (exact arithmetic)
-/
set_option linter.unusedSectionVars false

namespace Verif.Props
open Verif Verif.R3 Verif.Tri2

variable {K : Type} [Field K] [LinearOrder K] [IsStrictOrderedRing K]

/-! ## The duplicate filter -/

/-- closer than the tolerance -/
def Near (p q : R3.Vector K) : Prop := (p.X-q.X)^2 + (p.Y-q.Y)^2 + (p.Z-q.Z)^2 < 1 / 2^52

instance (p q : R3.Vector K) : Decidable (Near p q) := by unfold Near; infer_instance

theorem near_iff (p q : R3.Vector K) : SquaredDistance p q < (eps : K) ↔ Near p q := by
  have e : SquaredDistance p q = (p.X-q.X)^2 + (p.Y-q.Y)^2 + (p.Z-q.Z)^2 := by
    simp only [SquaredDistance, R3.Vector.Norm2, R3.Sub, R3.Dot]; ring
  have e2 : (eps : K) = 1 / 2^52 := by simp [eps]
  rw [e, e2]; rfl

/-- what follows the point `q` after filtering -/
def keepAfter (q : R3.Vector K) : List (R3.Vector K) → List (R3.Vector K)
  | [] => []
  | p :: l => if Near p q then keepAfter p l else p :: keepAfter p l

/-- the first point and every point that is not near its predecessor -/
def dedup : List (R3.Vector K) → List (R3.Vector K)
  | [] => []
  | p :: l => p :: keepAfter p l

theorem filterLoop_eq (rest : List (R3.Vector K)) : ∀ (kept junk : List (R3.Vector K)) (q : R3.Vector K),
    (kept ++ junk).getLast? = some q →
    filterLoop rest.length (kept.length + junk.length) kept.length (kept ++ junk ++ rest) = kept ++ keepAfter q rest := by
  induction rest with
  | nil => intro kept junk q _; simp [filterLoop, keepAfter]
  | cons p rest ih =>
    intro kept junk q hq
    rw [List.length_cons, filterLoop]
    have h1 : (kept ++ junk ++ p :: rest)[kept.length + junk.length]? = some p := by
      rw [List.getElem?_append_right (by simp)]; simp
    rw [h1]
    dsimp only
    obtain ⟨m, hm⟩ : ∃ m, kept.length + junk.length = m + 1 := by
      cases h : kept.length + junk.length with
      | zero =>
        have h2 : (kept ++ junk).length = 0 := by rw [List.length_append]; exact h
        rw [List.length_eq_zero_iff] at h2
        rw [h2] at hq; simp at hq
      | succ m => exact ⟨m, rfl⟩
    have h2 : (kept ++ junk ++ p :: rest)[m]? = some q := by
      rw [List.getElem?_append_left (by rw [List.length_append]; omega)]
      rw [List.getLast?_eq_getElem?, List.length_append, hm] at hq
      simpa using hq
    simp only [hm, h2, near_iff, decide_eq_true_eq]
    have e : ∀ x : List (R3.Vector K), x ++ p :: rest = x ++ [p] ++ rest := by intro x; simp
    by_cases hn : Near p q
    · rw [if_pos hn]
      have := ih kept (junk ++ [p]) p (by rw [← List.append_assoc, List.getLast?_append]; simp)
      rw [List.length_append, List.length_singleton, ← List.append_assoc, ← Nat.add_assoc, hm] at this
      rw [e, this, keepAfter, if_pos hn]
    · rw [if_neg hn]
      -- the write at position `kept.length`
      cases junk with
      | nil =>
        rw [List.append_nil] at *
        have hs : (kept ++ p :: rest).set kept.length p = kept ++ [p] ++ [] ++ rest := by
          rw [List.set_append_right _ _ (le_refl _)]; simp
        have := ih (kept ++ [p]) [] p (by simp)
        rw [List.length_append, List.length_singleton, List.length_nil, Nat.add_zero] at this
        rw [List.length_nil, Nat.add_zero] at hm
        rw [hs, ← hm, this, keepAfter, if_neg hn, List.append_assoc]; rfl
      | cons j junk =>
        have hs : (kept ++ j :: junk ++ p :: rest).set kept.length p = (kept ++ [p]) ++ (junk ++ [p]) ++ rest := by
          rw [List.append_assoc, List.set_append_right _ _ (le_refl _)]; simp
        have := ih (kept ++ [p]) (junk ++ [p]) p (by rw [← List.append_assoc, List.getLast?_append]; simp)
        simp only [List.length_append, List.length_cons, List.length_nil, Nat.zero_add] at this hm
        have e2 : kept.length + 1 + (junk.length + 1) = m + 1 + 1 := by omega
        rw [e2] at this
        rw [hs, this, keepAfter, if_neg hn, List.append_assoc]; rfl

/-- the in-place loop computes `dedup` -/
theorem C18_value (Vs : List (R3.Vector K)) : filterDup Vs = dedup Vs := by
  cases Vs with
  | nil => rfl
  | cons p rest =>
    unfold filterDup
    rw [List.length_cons, filterLoop]
    simp only [List.getElem?_cons_zero, List.set_cons_zero]
    have := filterLoop_eq rest [p] [] p (by simp)
    simpa [dedup] using this

theorem keepAfter_sublist (l : List (R3.Vector K)) : ∀ q, (keepAfter q l).Sublist l := by
  induction l with
  | nil => intro q; exact List.Sublist.refl _
  | cons p l ih =>
    intro q
    rw [keepAfter]
    split_ifs
    · exact (ih p).cons _
    · exact (ih p).cons_cons _

theorem dedup_sublist (l : List (R3.Vector K)) : (dedup l).Sublist l := by
  cases l with
  | nil => exact List.Sublist.refl _
  | cons p l => exact (keepAfter_sublist l p).cons_cons _

/-- the filter keeps a subsequence, and never loses everything -/
theorem C18_sublist (l : List (R3.Vector K)) : (filterDup l).Sublist l ∧ (l ≠ [] → (filterDup l).head? = l.head?) := by
  rw [C18_value]
  refine ⟨dedup_sublist l, fun h => ?_⟩
  cases l with
  | nil => exact absurd rfl h
  | cons p l => rfl

theorem keepAfter_rep (S : R3.Vector K → Prop) (tr : ∀ a b c, S a → S b → S c → Near a b → Near b c → Near a c)
    (l : List (R3.Vector K)) : ∀ q r : R3.Vector K, S q → S r → (q = r ∨ Near q r) → (∀ p ∈ l, S p) →
      ∀ p ∈ l, (∃ k ∈ keepAfter q l, p = k ∨ Near p k) ∨ Near p r := by
  induction l with
  | nil => intro q r _ _ _ _ p hp; simp at hp
  | cons a l ih =>
    intro q r hq hr hqr hS p hp
    have ha := hS a List.mem_cons_self
    have hl : ∀ p ∈ l, S p := fun p hp => hS p (List.mem_cons_of_mem _ hp)
    rw [keepAfter]
    split_ifs with hn
    · have har : Near a r := by
        rcases hqr with rfl | h
        · exact hn
        · exact tr _ _ _ ha hq hr hn h
      rcases List.mem_cons.mp hp with rfl | hp
      · exact Or.inr har
      · exact ih a r ha hr (Or.inr har) hl p hp
    · rcases List.mem_cons.mp hp with rfl | hp
      · exact Or.inl ⟨p, List.mem_cons_self, Or.inl rfl⟩
      · rcases ih a a ha ha (Or.inl rfl) hl p hp with ⟨k, hk, h⟩ | h
        · exact Or.inl ⟨k, List.mem_cons_of_mem _ hk, h⟩
        · exact Or.inl ⟨a, List.mem_cons_self, Or.inr h⟩

/-- C18 when nearness is transitive on the input (clusters). The hypothesis cannot be dropped (`C18_refuted`). -/
theorem C18_partial (l : List (R3.Vector K)) (tr : ∀ a ∈ l, ∀ b ∈ l, ∀ c ∈ l, Near a b → Near b c → Near a c) :
    ∀ p ∈ l, ∃ k ∈ filterDup l, p = k ∨ Near p k := by
  rw [C18_value]
  cases l with
  | nil => intro p hp; simp at hp
  | cons a l =>
    intro p hp
    rcases List.mem_cons.mp hp with rfl | hp
    · exact ⟨p, List.mem_cons_self, Or.inl rfl⟩
    · rcases keepAfter_rep (fun x => x ∈ a :: l) (fun x y z hx hy hz => tr x hx y hy z hz) l a a List.mem_cons_self
        List.mem_cons_self (Or.inl rfl) (fun p hp => List.mem_cons_of_mem _ hp) p hp with ⟨k, hk, h⟩ | h
      · exact ⟨k, List.mem_cons_of_mem _ hk, h⟩
      · exact ⟨a, List.mem_cons_self, Or.inr h⟩

example : ∀ a ∈ [(⟨0,0,0⟩ : R3.Vector ℚ), ⟨1/2^30,0,0⟩, ⟨1,0,0⟩], ∀ b ∈ [(⟨0,0,0⟩ : R3.Vector ℚ), ⟨1/2^30,0,0⟩, ⟨1,0,0⟩],
    ∀ c ∈ [(⟨0,0,0⟩ : R3.Vector ℚ), ⟨1/2^30,0,0⟩, ⟨1,0,0⟩], Near a b → Near b c → Near a c := by decide +kernel

/-- C18 is false: a chain of near points collapses to its first point; the last one, at distance 2^-26, has no
representative -/
theorem C18_refuted : ∃ l : List (R3.Vector ℚ), l.Pairwise (fun a b => hullLess b a = false) ∧
    ∃ p ∈ l, ∀ k ∈ filterDup l, ¬ Near p k := by
  refine ⟨[⟨0,0,0⟩, ⟨1/2^27,0,0⟩, ⟨2/2^27,0,0⟩], by decide +kernel, ⟨2/2^27,0,0⟩, by decide +kernel, by decide +kernel⟩

/-! ## Order -/

/-- lexicographic order on (x, y) -/
def LexLt (a b : R3.Vector K) : Prop := a.X < b.X ∨ (a.X = b.X ∧ a.Y < b.Y)

theorem LexLt.trans {a b c : R3.Vector K} (h : LexLt a b) (h' : LexLt b c) : LexLt a c := by
  unfold LexLt at *
  rcases h with h | ⟨h, h2⟩ <;> rcases h' with h' | ⟨h', h2'⟩
  · left; linarith
  · left; linarith
  · left; linarith
  · right; exact ⟨by linarith, by linarith⟩

theorem LexLt.irrefl (a : R3.Vector K) : ¬ LexLt a a := by
  unfold LexLt; simp

theorem lexLt_total (a b : R3.Vector K) : LexLt a b ∨ LexLt b a ∨ (a.X = b.X ∧ a.Y = b.Y) := by
  unfold LexLt
  rcases lt_trichotomy a.X b.X with h | h | h
  · left; left; exact h
  · rcases lt_trichotomy a.Y b.Y with h' | h' | h'
    · left; right; exact ⟨h, h'⟩
    · right; right; exact ⟨h, h'⟩
    · right; left; right; exact ⟨h.symm, h'⟩
  · right; left; left; exact h

theorem hullLess_iff (a b : R3.Vector K) : hullLess a b = true ↔ LexLt a b := by
  unfold hullLess LexLt
  by_cases h : a.X = b.X
  · simp [h]
  · simp [h]

/-- `sort.Slice` returns a sorted permutation -/
def SortsHull (srt : List (R3.Vector K) → List (R3.Vector K)) : Prop :=
  ∀ l, (srt l).Perm l ∧ (srt l).Pairwise (fun a b => hullLess b a = false)

/-- distinct points differ in (x, y) and are not closer than the tolerance -/
def Separated (Vs : List (R3.Vector K)) : Prop :=
  ∀ p ∈ Vs, ∀ q ∈ Vs, p = q ∨ (¬ (p.X = q.X ∧ p.Y = q.Y) ∧ ¬ Near p q)

theorem keepAfter_strict (l : List (R3.Vector K)) : ∀ q : R3.Vector K, Separated (q :: l) →
    (q :: l).Pairwise (fun a b => hullLess b a = false) → (q :: keepAfter q l).Pairwise LexLt ∧ ∀ p ∈ l, p = q ∨ p ∈ keepAfter q l := by
  induction l with
  | nil => intro q _ _; exact ⟨List.pairwise_singleton _ _, by simp⟩
  | cons a l ih =>
    intro q hs hp
    have hs' : Separated (a :: l) := fun x hx y hy => hs x (List.mem_cons_of_mem _ hx) y (List.mem_cons_of_mem _ hy)
    rw [List.pairwise_cons] at hp
    obtain ⟨ih1, ih2⟩ := ih a hs' hp.2
    have hqa := hp.1 a List.mem_cons_self
    rw [keepAfter]
    rcases hs a (by simp) q (by simp) with rfl | ⟨hne, hnn⟩
    · have hn : Near a a := by unfold Near; norm_num
      rw [if_pos hn]
      refine ⟨ih1, ?_⟩
      intro p hp
      rcases List.mem_cons.mp hp with rfl | hp
      · exact Or.inl rfl
      · exact ih2 p hp
    · rw [if_neg hnn]
      have hlt : LexLt q a := by
        rcases lexLt_total q a with h | h | h
        · exact h
        · rw [← hullLess_iff, hqa] at h; cases h
        · exact absurd ⟨h.1.symm, h.2.symm⟩ hne
      refine ⟨?_, ?_⟩
      · rw [List.pairwise_cons]
        refine ⟨?_, ih1⟩
        intro b hb
        rcases List.mem_cons.mp hb with rfl | hb
        · exact hlt
        · exact hlt.trans ((List.pairwise_cons.mp ih1).1 b hb)
      · intro p hp
        right
        rcases List.mem_cons.mp hp with rfl | hp
        · exact List.mem_cons_self
        · rcases ih2 p hp with rfl | h
          · exact List.mem_cons_self
          · exact List.mem_cons_of_mem _ h

/-- for separated inputs the filtered list is strictly increasing and has the same members -/
theorem dedup_strict (l : List (R3.Vector K)) (hs : Separated l) (hp : l.Pairwise (fun a b => hullLess b a = false)) :
    (dedup l).Pairwise LexLt ∧ ∀ p, p ∈ dedup l ↔ p ∈ l := by
  cases l with
  | nil => exact ⟨List.Pairwise.nil, fun p => Iff.rfl⟩
  | cons a l =>
    obtain ⟨h1, h2⟩ := keepAfter_strict l a hs hp
    refine ⟨h1, fun p => ⟨fun h => (dedup_sublist (a :: l)).subset h, fun h => ?_⟩⟩
    rcases List.mem_cons.mp h with rfl | h
    · exact List.mem_cons_self
    · rcases h2 p h with rfl | h
      · exact List.mem_cons_self
      · exact List.mem_cons_of_mem _ h

/-! ## The monotone chains -/

/-- pop while the turn is negative -/
def popG (C : R3.Vector K → R3.Vector K → R3.Vector K → K) (p : R3.Vector K) : List (R3.Vector K) → List (R3.Vector K)
  | b :: a :: rest => if C a b p < 0 then popG C p (a :: rest) else b :: a :: rest
  | l => l

theorem popL_eq (p : R3.Vector K) : ∀ l : List (R3.Vector K), popL p l = popG cross2D p l
  | [] => rfl
  | [a] => rfl
  | b :: a :: rest => by rw [popL, popG, popL_eq p (a :: rest)]

theorem popU_eq (p : R3.Vector K) : ∀ l : List (R3.Vector K), popU p l = popG (fun a b c => - cross2D a b c) p l
  | [] => rfl
  | [a] => rfl
  | b :: a :: rest => by
    rw [popU, popG, popU_eq p (a :: rest)]
    simp only [Left.neg_neg_iff]

/-- the facts about orientation that the sweep uses, for lexicographically ordered points -/
structure Turn (C : R3.Vector K → R3.Vector K → R3.Vector K → K) : Prop where
  pop : ∀ b c p q, LexLt b c → LexLt b p → LexLt b q → 0 ≤ C b c q → C b c p < 0 → 0 ≤ C b p q
  down : ∀ a' a b p, LexLt a' a → LexLt a b → LexLt b p → 0 ≤ C a' a b → 0 ≤ C a b p → 0 ≤ C a' a p
  back : ∀ a b p q, LexLt a b → LexLt b p → LexLt q b → 0 ≤ C a b p → 0 ≤ C a b q → 0 ≤ C b p q
  self1 : ∀ a b, 0 ≤ C a b a
  self2 : ∀ a b, 0 ≤ C a b b

theorem halfplane {ux uy vx vy wx wy : K} (hu : 0 < ux ∨ (ux = 0 ∧ 0 < uy)) (hv : 0 < vx ∨ (vx = 0 ∧ 0 < vy))
    (hw : 0 < wx ∨ (wx = 0 ∧ 0 < wy)) (h1 : 0 ≤ ux * vy - uy * vx) (h2 : 0 ≤ vx * wy - vy * wx) : 0 ≤ ux * wy - uy * wx := by
  have hu0 : 0 ≤ ux := by rcases hu with h | h; exacts [h.le, h.1.ge]
  have hw0 : 0 ≤ wx := by rcases hw with h | h; exacts [h.le, h.1.ge]
  rcases hv with hv | ⟨hv, hv2⟩
  · have : 0 ≤ vx * (ux * wy - uy * wx) := by
      have e : vx * (ux * wy - uy * wx) = wx * (ux * vy - uy * vx) + ux * (vx * wy - vy * wx) := by ring
      rw [e]; positivity
    exact nonneg_of_mul_nonneg_right this hv
  · subst hv
    have hwx : wx ≤ 0 := by
      by_contra hc
      push Not at hc
      have := mul_pos hv2 hc
      linarith
    have hw' : wx = 0 := le_antisymm hwx hw0
    subst hw'
    rcases hw with h | ⟨_, h⟩
    · exact absurd h (lt_irrefl _)
    · have := mul_nonneg hu0 h.le
      linarith

theorem lexLt_diff {a b : R3.Vector K} (h : LexLt a b) : 0 < b.X - a.X ∨ (b.X - a.X = 0 ∧ 0 < b.Y - a.Y) := by
  rcases h with h | ⟨h, h'⟩
  · left; linarith
  · right; exact ⟨by linarith, by linarith⟩

theorem turn_lower : Turn (cross2D : R3.Vector K → R3.Vector K → R3.Vector K → K) where
  pop b c p q hc hp hq h1 h2 := by
    have := halfplane (lexLt_diff hp) (lexLt_diff hc) (lexLt_diff hq) (by unfold cross2D at h2; linarith) (by unfold cross2D at h1; linarith)
    unfold cross2D; linarith
  down a' a b p h1 h2 h3 c1 c2 := by
    have k1 : 0 ≤ (a.X-a'.X)*(b.Y-a.Y) - (a.Y-a'.Y)*(b.X-a.X) := by unfold cross2D at c1; linarith
    have := halfplane (lexLt_diff h1) (lexLt_diff h2) (lexLt_diff (h2.trans h3)) k1 (by unfold cross2D at c2; linarith)
    unfold cross2D; linarith
  back a b p q h1 h2 h3 c1 c2 := by
    have k1 : 0 ≤ (b.X-a.X)*(p.Y-b.Y) - (b.Y-a.Y)*(p.X-b.X) := by unfold cross2D at c1; linarith
    have := halfplane (lexLt_diff h3) (lexLt_diff h1) (lexLt_diff h2) (by unfold cross2D at c2; linarith) k1
    unfold cross2D; linarith
  self1 a b := by unfold cross2D; ring_nf; exact le_refl _
  self2 a b := by unfold cross2D; ring_nf; exact le_refl _

theorem turn_upper : Turn (fun a b c : R3.Vector K => - cross2D a b c) where
  pop b c p q hc hp hq h1 h2 := by
    have := halfplane (lexLt_diff hq) (lexLt_diff hc) (lexLt_diff hp) (by unfold cross2D at h1; linarith) (by unfold cross2D at h2; linarith)
    unfold cross2D; linarith
  down a' a b p h1 h2 h3 c1 c2 := by
    have k1 : 0 ≤ (b.X-a.X)*(a.Y-a'.Y) - (b.Y-a.Y)*(a.X-a'.X) := by unfold cross2D at c1; linarith
    have := halfplane (lexLt_diff (h2.trans h3)) (lexLt_diff h2) (lexLt_diff h1) (by unfold cross2D at c2; linarith) k1
    unfold cross2D; linarith
  back a b p q h1 h2 h3 c1 c2 := by
    have k1 : 0 ≤ (p.X-b.X)*(b.Y-a.Y) - (p.Y-b.Y)*(b.X-a.X) := by unfold cross2D at c1; linarith
    have := halfplane (lexLt_diff h2) (lexLt_diff h1) (lexLt_diff h3) k1 (by unfold cross2D at c2; linarith)
    unfold cross2D; linarith
  self1 a b := by unfold cross2D; ring_nf; exact le_refl _
  self2 a b := by unfold cross2D; ring_nf; exact le_refl _

/-- consecutive pairs -/
def consec {α : Type} (l : List α) : List (α × α) := l.zip l.tail

/-- invariant of one stack (top first) after the points `ps` (in order) -/
structure ChainInv (C : R3.Vector K → R3.Vector K → R3.Vector K → K) (ps st : List (R3.Vector K)) : Prop where
  head : st.head? = ps.getLast?
  last : st.getLast? = ps.head?
  desc : st.Pairwise (fun a b => LexLt b a)
  mem : ∀ p ∈ st, p ∈ ps
  left : ∀ e ∈ consec st, ∀ q ∈ ps, 0 ≤ C e.2 e.1 q

theorem popG_suffix (C : R3.Vector K → R3.Vector K → R3.Vector K → K) (p : R3.Vector K) : ∀ l : List (R3.Vector K), popG C p l <:+ l
  | [] => List.suffix_rfl
  | [a] => List.suffix_rfl
  | b :: a :: rest => by
    rw [popG]
    split_ifs
    · exact (popG_suffix C p (a :: rest)).trans (List.suffix_cons _ _)
    · exact List.suffix_rfl

theorem consec_suffix {α : Type} {l l' : List α} (h : l <:+ l') : ∀ e ∈ consec l, e ∈ consec l' := by
  obtain ⟨t, rfl⟩ := h
  induction t with
  | nil => intro e h; exact h
  | cons a t ih =>
    intro e he
    have := ih e he
    rw [List.cons_append]
    cases h : t ++ l with
    | nil => rw [h] at this; simp [consec] at this
    | cons b r => rw [h] at this; exact List.mem_cons_of_mem _ this

/-- the popping loop: the new edge has every earlier point on its left, and the new point is left of all kept edges -/
theorem popG_spec {C : R3.Vector K → R3.Vector K → R3.Vector K → K} (T : Turn C) (p : R3.Vector K) (ps : List (R3.Vector K))
    (hps : ∀ q ∈ ps, LexLt q p) (hmin : ∀ m, ps.head? = some m → ∀ q ∈ ps, q = m ∨ LexLt m q)
    (hinj : ∀ q ∈ ps, ∀ r ∈ ps, q = r ∨ LexLt q r ∨ LexLt r q) :
    ∀ st : List (R3.Vector K), st ≠ [] → st.getLast? = ps.head? → st.Pairwise (fun a b => LexLt b a) → (∀ q ∈ st, q ∈ ps) →
      (∀ e ∈ consec st, ∀ q ∈ ps, 0 ≤ C e.2 e.1 q) →
      (∀ t, st.head? = some t → ∀ q ∈ ps, LexLt t q → 0 ≤ C t p q) →
      ∃ b rest, popG C p st = b :: rest ∧ (∀ q ∈ ps, 0 ≤ C b p q) ∧ (∀ e ∈ consec (b :: rest), 0 ≤ C e.2 e.1 p) := by
  intro st
  induction st with
  | nil => intro h; exact absurd rfl h
  | cons b st ih =>
    intro _ hlast hdesc hmem hleft htop
    cases st with
    | nil =>
      refine ⟨b, [], rfl, ?_, by simp [consec]⟩
      intro q hq
      have hm : ps.head? = some b := by rw [← hlast]; rfl
      rcases hmin b hm q hq with rfl | h
      · exact T.self1 _ _
      · exact htop b rfl q hq h
    | cons a rest =>
      rw [popG]
      rw [List.pairwise_cons] at hdesc
      have hab : LexLt a b := hdesc.1 a List.mem_cons_self
      have hbp := hps b (hmem b List.mem_cons_self)
      have hap := hps a (hmem a (by simp))
      split_ifs with hc
      · apply ih (by simp) (by rw [← hlast]; simp) hdesc.2 (fun q hq => hmem q (List.mem_cons_of_mem _ hq))
          (fun e he => hleft e (consec_suffix (List.suffix_cons _ _) e he))
        intro t ht q hq hlt
        simp only [List.head?_cons, Option.some.injEq] at ht
        subst ht
        exact T.pop a b p q hab hap hlt (hleft (b, a) (by simp [consec]) q hq) hc
      · refine ⟨b, a :: rest, rfl, ?_, ?_⟩
        · intro q hq
          push Not at hc
          rcases hinj q hq b (hmem b List.mem_cons_self) with rfl | h | h
          · exact T.self1 _ _
          · exact T.back a b p q hab hbp h hc (hleft (b, a) (by simp [consec]) q hq)
          · exact htop b rfl q hq h
        · push Not at hc
          -- the new point is left of every deeper edge
          have deep : ∀ (l : List (R3.Vector K)) (b a : R3.Vector K), (b :: a :: l).Pairwise (fun a b => LexLt b a) → (∀ q ∈ b :: a :: l, q ∈ ps) →
              (∀ e ∈ consec (b :: a :: l), ∀ q ∈ ps, 0 ≤ C e.2 e.1 q) → LexLt b p → 0 ≤ C a b p →
              ∀ e ∈ consec (b :: a :: l), 0 ≤ C e.2 e.1 p := by
            intro l
            induction l with
            | nil =>
              intro b a _ _ _ _ h e he
              simp only [consec, List.tail_cons, List.zip_cons_cons, List.zip_nil_right, List.mem_cons, List.not_mem_nil, or_false] at he
              subst he; exact h
            | cons a' l ihl =>
              intro b a hd hm hl hbp h e he
              rw [List.pairwise_cons] at hd
              have hab := hd.1 a List.mem_cons_self
              have hd2 := hd.2
              rw [List.pairwise_cons] at hd2
              have haa := hd2.1 a' List.mem_cons_self
              have key : 0 ≤ C a' a p := T.down a' a b p haa hab hbp
                (hl (a, a') (by simp [consec]) b (hm b List.mem_cons_self)) h
              have e1 : consec (b :: a :: a' :: l) = (b, a) :: consec (a :: a' :: l) := rfl
              rw [e1] at he
              rcases List.mem_cons.mp he with rfl | he
              · exact h
              · exact ihl a a' hd.2 (fun q hq => hm q (List.mem_cons_of_mem _ hq))
                  (fun e he => hl e (by rw [e1]; exact List.mem_cons_of_mem _ he)) (hps a (hm a (by simp))) key e he
          exact deep rest b a (List.pairwise_cons.mpr hdesc) hmem hleft hbp hc

theorem chainInv_step {C : R3.Vector K → R3.Vector K → R3.Vector K → K} (T : Turn C) (p : R3.Vector K) (ps st : List (R3.Vector K))
    (hs : (ps ++ [p]).Pairwise LexLt) (inv : ChainInv C ps st) : ChainInv C (ps ++ [p]) (p :: popG C p st) := by
  cases ps with
  | nil =>
    have : st = [] := by
      cases st with
      | nil => rfl
      | cons a l => exact absurd (inv.mem a List.mem_cons_self) (by simp)
    subst this
    refine ⟨rfl, rfl, List.pairwise_singleton _ _, fun q hq => hq, ?_⟩
    intro e he
    exact absurd he (by simp [consec, popG])
  | cons m ps =>
    rw [List.pairwise_append] at hs
    obtain ⟨hs1, _, hs2⟩ := hs
    have hps : ∀ q ∈ m :: ps, LexLt q p := fun q hq => hs2 q hq p (by simp)
    have hmin : ∀ x, (m :: ps).head? = some x → ∀ q ∈ m :: ps, q = x ∨ LexLt x q := by
      intro x hx q hq
      simp only [List.head?_cons, Option.some.injEq] at hx
      subst hx
      rcases List.mem_cons.mp hq with rfl | hq
      · exact Or.inl rfl
      · exact Or.inr ((List.pairwise_cons.mp hs1).1 q hq)
    have hinj : ∀ q ∈ m :: ps, ∀ r ∈ m :: ps, q = r ∨ LexLt q r ∨ LexLt r q := by
      intro q hq r hr
      by_cases h : q = r
      · exact Or.inl h
      · right
        rw [List.pairwise_iff_getElem] at hs1
        obtain ⟨i, hi, rfl⟩ := List.getElem_of_mem hq
        obtain ⟨j, hj, rfl⟩ := List.getElem_of_mem hr
        rcases lt_trichotomy i j with h' | h' | h'
        · exact Or.inl (hs1 i j hi hj h')
        · subst h'; exact absurd rfl h
        · exact Or.inr (hs1 j i hj hi h')
    have hne : st ≠ [] := by
      intro h
      have := inv.head
      rw [h, List.head?_nil] at this
      have h2 := List.getLast?_eq_none_iff.mp this.symm
      simp at h2
    have htop : ∀ t, st.head? = some t → ∀ q ∈ m :: ps, LexLt t q → 0 ≤ C t p q := by
      intro t ht q hq hlt
      exfalso
      rw [inv.head] at ht
      obtain ⟨l, hl⟩ : ∃ l, m :: ps = l ++ [t] := List.getLast?_eq_some_iff.mp ht
      rw [hl] at hq hs1
      rcases List.mem_append.mp hq with h | h
      · exact LexLt.irrefl _ (hlt.trans ((List.pairwise_append.mp hs1).2.2 q h t (by simp)))
      · simp only [List.mem_cons, List.not_mem_nil, or_false] at h
        subst h
        exact LexLt.irrefl _ hlt
    obtain ⟨b, rest, e, h1, h2⟩ := popG_spec T p (m :: ps) hps hmin hinj st hne inv.last inv.desc inv.mem inv.left htop
    have hsuf := popG_suffix C p st
    rw [e] at hsuf ⊢
    refine ⟨?_, ?_, ?_, ?_, ?_⟩
    · rw [List.getLast?_append]; rfl
    · have : (p :: b :: rest).getLast? = (b :: rest).getLast? := by simp
      rw [this]
      obtain ⟨t, rfl⟩ := hsuf
      have h := inv.last
      rw [List.getLast?_append] at h
      have hb : ∃ x, (b :: rest).getLast? = some x := by
        cases hh : (b :: rest).getLast? with
        | none => simp at hh
        | some x => exact ⟨x, rfl⟩
      obtain ⟨x, hx⟩ := hb
      rw [hx] at h ⊢
      simpa using h
    · rw [List.pairwise_cons]
      exact ⟨fun q hq => hps q (inv.mem q (hsuf.subset hq)), inv.desc.sublist hsuf.sublist⟩
    · intro q hq
      rcases List.mem_cons.mp hq with rfl | hq
      · simp
      · exact List.mem_append_left _ (inv.mem q (hsuf.subset hq))
    · intro x hx q hq
      have e1 : consec (p :: b :: rest) = (p, b) :: consec (b :: rest) := rfl
      rw [e1] at hx
      rcases List.mem_append.mp hq with hq | hq
      · rcases List.mem_cons.mp hx with rfl | hx
        · exact h1 q hq
        · exact inv.left x (consec_suffix hsuf x hx) q hq
      · simp only [List.mem_cons, List.not_mem_nil, or_false] at hq
        subst hq
        rcases List.mem_cons.mp hx with rfl | hx
        · exact T.self2 _ _
        · exact h2 x hx

theorem hullLoop_inv (Vs : List (R3.Vector K)) (hs : Vs.Pairwise LexLt) :
    ChainInv (fun a b c => - cross2D a b c) Vs (hullLoop Vs).1 ∧ ChainInv cross2D Vs (hullLoop Vs).2 := by
  induction Vs using List.reverseRecOn with
  | nil =>
    exact ⟨⟨rfl, rfl, List.Pairwise.nil, fun _ h => h, by simp [consec, hullLoop]⟩,
      ⟨rfl, rfl, List.Pairwise.nil, fun _ h => h, by simp [consec, hullLoop]⟩⟩
  | append_singleton l p ih =>
    obtain ⟨i1, i2⟩ := ih (List.pairwise_append.mp hs).1
    have e : hullLoop (l ++ [p]) = (p :: popU p (hullLoop l).1, p :: popL p (hullLoop l).2) := by
      unfold hullLoop; rw [List.foldl_append]; rfl
    rw [e, popU_eq, popL_eq]
    exact ⟨chainInv_step turn_upper p l _ hs i1, chainInv_step turn_lower p l _ hs i2⟩

/-! ## The polygon -/

theorem edges_closed {α : Type} (m M : α) (l u : List α) :
    edges ((m :: l) ++ (M :: u)) = consec (m :: l ++ [M]) ++ consec (M :: u ++ [m]) := by
  unfold edges consec
  have hr : ((m :: l) ++ (M :: u)).rotate 1 = (l ++ [M]) ++ (u ++ [m]) := by
    rw [List.cons_append, List.rotate_cons_succ, List.rotate_zero]; simp
  rw [hr, List.zip_append (by simp)]
  have z : ∀ (x y : List α) (c : α), x.length = y.length → (x ++ [c]).zip y = x.zip y := by
    intro x
    induction x with
    | nil => intro y c h; cases y with
      | nil => rfl
      | cons => simp at h
    | cons a x ih => intro y c h; cases y with
      | nil => simp at h
      | cons b y => simp only [List.cons_append, List.zip_cons_cons]; rw [ih y c (by simpa using h)]
  have e1 : (m :: l ++ [M]).zip ((m :: l ++ [M]).tail) = (m :: l).zip (l ++ [M]) := z (m :: l) (l ++ [M]) M (by simp)
  have e2 : (M :: u ++ [m]).zip ((M :: u ++ [m]).tail) = (M :: u).zip (u ++ [m]) := z (M :: u) (u ++ [m]) m (by simp)
  rw [e1, e2]

theorem consec_reverse {α : Type} (l : List α) : ∀ a b, (a, b) ∈ consec l.reverse ↔ (b, a) ∈ consec l := by
  intro a b
  unfold consec
  simp only [List.mem_iff_getElem?, List.getElem?_zip_eq_some, List.getElem?_tail]
  constructor
  · rintro ⟨n, h1, h2⟩
    have hn : n + 1 < l.length := by
      by_contra hc
      rw [List.getElem?_eq_none (by simp; omega)] at h2; simp at h2
    rw [List.getElem?_reverse (by omega)] at h1 h2
    refine ⟨l.length - 1 - (n+1), h2, ?_⟩
    rw [← h1]; congr 1; omega
  · rintro ⟨n, h1, h2⟩
    have hn : n + 1 < l.length := by
      by_contra hc
      rw [List.getElem?_eq_none (by omega)] at h2; simp at h2
    refine ⟨l.length - 1 - (n+1), ?_, ?_⟩
    · rw [List.getElem?_reverse (by omega), ← h2]; congr 1; omega
    · rw [List.getElem?_reverse (by omega), ← h1]; congr 1; omega

/-- `q` is on or to the left of the directed line through `a` and `b` -/
def OnLeft (a b q : R3.Vector K) : Prop := 0 ≤ (b.X - a.X) * (q.Y - a.Y) - (b.Y - a.Y) * (q.X - a.X)

/-- The polygon of `ConvexHull`: it runs from the lexicographically smallest point to the largest along a strictly
increasing chain, back along a strictly decreasing one, through input points only, and every input point is on or to the
left of every directed edge of the closed polygon. -/
theorem C16_encloses (srt : List (R3.Vector K) → List (R3.Vector K)) (hsrt : SortsHull srt) (Vs : List (R3.Vector K))
    (hsep : Separated Vs) :
    (∀ e ∈ edges (ConvexHull srt Vs), ∀ q ∈ Vs, OnLeft e.1 e.2 q) ∧
    (∀ p ∈ ConvexHull srt Vs, p ∈ Vs) ∧
    ((∃ p ∈ Vs, ∃ q ∈ Vs, p ≠ q) → ∃ m M l u, ConvexHull srt Vs = (m :: l) ++ (M :: u) ∧
      (∀ q ∈ Vs, q = m ∨ LexLt m q) ∧ (∀ q ∈ Vs, q = M ∨ LexLt q M) ∧
      (m :: l ++ [M]).Pairwise LexLt ∧ (M :: u ++ [m]).Pairwise (fun a b => LexLt b a)) ∧
    ((∀ p ∈ Vs, ∀ q ∈ Vs, p = q) → ConvexHull srt Vs = []) := by
  obtain ⟨hperm, hsorted⟩ := hsrt Vs
  have hsep' : Separated (srt Vs) := fun p hp q hq => hsep p (hperm.subset hp) q (hperm.subset hq)
  obtain ⟨hstrict, hmem⟩ := dedup_strict (srt Vs) hsep' hsorted
  have hmem' : ∀ p, p ∈ dedup (srt Vs) ↔ p ∈ Vs := fun p => (hmem p).trans hperm.mem_iff
  obtain ⟨iU, iL⟩ := hullLoop_inv (dedup (srt Vs)) hstrict
  have hval : ConvexHull srt Vs = (hullLoop (dedup (srt Vs))).2.reverse.dropLast ++ (hullLoop (dedup (srt Vs))).1.dropLast := by
    unfold ConvexHull; dsimp only; rw [C18_value]
  rw [hval]
  generalize hD : dedup (srt Vs) = D at *
  generalize (hullLoop D).1 = U at *
  generalize (hullLoop D).2 = L at *
  cases D with
  | nil =>
    have hU : U = [] := List.eq_nil_iff_forall_not_mem.mpr (fun a h => by simpa using iU.mem a h)
    have hL : L = [] := List.eq_nil_iff_forall_not_mem.mpr (fun a h => by simpa using iL.mem a h)
    subst hU hL
    refine ⟨by simp [edges], by simp, ?_, fun _ => rfl⟩
    rintro ⟨p, hp, _⟩
    exact absurd ((hmem' p).mpr hp) (by simp)
  | cons m D =>
    cases D with
    | nil =>
      have one : ∀ (C : R3.Vector K → R3.Vector K → R3.Vector K → K) (S : List (R3.Vector K)), ChainInv C [m] S → S = [m] := by
        intro C S inv
        match S, inv with
        | [], inv => have := inv.head; simp at this
        | [a], inv => have := inv.mem a List.mem_cons_self; simp at this; rw [this]
        | a :: b :: S, inv =>
          have ha := inv.mem a (by simp)
          have hb := inv.mem b (by simp)
          simp only [List.mem_cons, List.not_mem_nil, or_false] at ha hb
          subst ha; subst hb
          exact absurd ((List.pairwise_cons.mp inv.desc).1 b (by simp)) (LexLt.irrefl _)
      have hU := one _ U iU
      have hL := one _ L iL
      subst hU hL
      refine ⟨by simp [edges], by simp, ?_, fun _ => rfl⟩
      rintro ⟨p, hp, q, hq, hne⟩
      have h1 := (hmem' p).mpr hp
      have h2 := (hmem' q).mpr hq
      simp only [List.mem_cons, List.not_mem_nil, or_false] at h1 h2
      exact absurd (h1.trans h2.symm) hne
    | cons d D =>
      -- at least two points
      obtain ⟨M, hM⟩ : ∃ M, (m :: d :: D).getLast? = some M := by
        cases h : (m :: d :: D).getLast? with
        | none => simp at h
        | some x => exact ⟨x, rfl⟩
      obtain ⟨D', hD'⟩ := List.getLast?_eq_some_iff.mp hM
      have hmM : LexLt m M := by
        have : M ∈ d :: D := by
          have := List.mem_of_getLast? (l := d :: D) (a := M) (by rw [← hM]; simp)
          exact this
        exact (List.pairwise_cons.mp hstrict).1 M this
      have shape : ∀ (C : R3.Vector K → R3.Vector K → R3.Vector K → K) (S : List (R3.Vector K)), ChainInv C (m :: d :: D) S →
          ∃ S', S = M :: S' ++ [m] := by
        intro C S inv
        have h1 := inv.head
        have h2 := inv.last
        rw [hM] at h1
        cases S with
        | nil => simp at h1
        | cons a S =>
          simp only [List.head?_cons, Option.some.injEq] at h1 h2
          subst h1
          cases S with
          | nil =>
            simp only [List.getLast?_singleton, Option.some.injEq] at h2
            subst h2
            exact absurd hmM (LexLt.irrefl _)
          | cons b S =>
            obtain ⟨S', hS'⟩ := List.getLast?_eq_some_iff.mp h2
            cases S' with
            | nil => simp at hS'
            | cons c S' =>
              rw [List.cons_append] at hS'
              injection hS' with h3 h4
              exact ⟨S', by rw [h4]; rfl⟩
      obtain ⟨U', rfl⟩ := shape _ U iU
      obtain ⟨L', rfl⟩ := shape _ L iL
      have eU : (M :: U' ++ [m]).dropLast = M :: U' := List.dropLast_concat
      have eL : (M :: L' ++ [m]).reverse = m :: L'.reverse ++ [M] := by simp
      rw [eL, List.dropLast_concat, eU]
      refine ⟨?_, ?_, ?_, ?_⟩
      · rintro ⟨a, b⟩ he q hq
        have hq' := (hmem' q).mpr hq
        rw [edges_closed] at he
        unfold OnLeft
        rcases List.mem_append.mp he with he | he
        · rw [← eL, consec_reverse] at he
          have := iL.left _ he q hq'
          unfold cross2D at this
          exact this
        · have := iU.left _ he q hq'
          unfold cross2D at this
          dsimp only at this ⊢
          linarith
      · intro p hp
        rw [← hmem']
        rcases List.mem_append.mp hp with hp | hp
        · apply iL.mem
          rcases List.mem_cons.mp hp with rfl | hp
          · simp
          · rw [List.mem_reverse] at hp; simp [hp]
        · apply iU.mem
          exact List.mem_append_left _ hp
      · intro _
        refine ⟨m, M, L'.reverse, U', rfl, ?_, ?_, ?_, iU.desc⟩
        · intro q hq
          rcases List.mem_cons.mp ((hmem' q).mpr hq) with rfl | h
          · exact Or.inl rfl
          · exact Or.inr ((List.pairwise_cons.mp hstrict).1 q h)
        · intro q hq
          have := (hmem' q).mpr hq
          rw [hD'] at this hstrict
          rcases List.mem_append.mp this with h | h
          · exact Or.inr ((List.pairwise_append.mp hstrict).2.2 q h M (by simp))
          · simp only [List.mem_cons, List.not_mem_nil, or_false] at h
            exact Or.inl h
        · rw [← eL, List.pairwise_reverse]
          exact iL.desc
      · intro hall
        exfalso
        have h1 := (hmem' m).mp List.mem_cons_self
        have h2 := (hmem' d).mp (by simp)
        have := hall m h1 d h2
        subst this
        exact LexLt.irrefl _ ((List.pairwise_cons.mp hstrict).1 m (by simp))

/-- a sort exists -/
theorem sortsHull_exists : SortsHull (fun l : List (R3.Vector K) => l.mergeSort (fun a b => !hullLess b a)) := by
  intro l
  refine ⟨List.mergeSort_perm _ _, ?_⟩
  have := List.pairwise_mergeSort (le := fun a b : R3.Vector K => !hullLess b a) (by
    intro a b c h1 h2
    simp only [Bool.not_eq_true'] at *
    by_contra hc
    rw [Bool.not_eq_false, hullLess_iff] at hc
    rw [← Bool.not_eq_true, hullLess_iff] at h1 h2
    rcases lexLt_total b a with h | h | ⟨h, h'⟩
    · exact h1 h
    · exact h2 (hc.trans h)
    · apply h2
      unfold LexLt at hc ⊢
      rw [h, h']; exact hc) (by
    intro a b
    simp only [Bool.or_eq_true, Bool.not_eq_true']
    by_contra hc
    push Not at hc
    simp only [ne_eq, Bool.not_eq_false, hullLess_iff] at hc
    exact LexLt.irrefl _ (hc.1.trans hc.2)) l
  simpa using this

example : Separated [(⟨0,0,0⟩ : R3.Vector ℚ), ⟨2,0,0⟩, ⟨1,1,0⟩, ⟨1,3,0⟩, ⟨0,0,0⟩] := by
  unfold Separated; decide +kernel

/-- Without the separation in (x, y) the claim is false: points above each other stop the popping loop -/
theorem C16_refuted : ∃ Vs : List (R3.Vector ℚ), ∃ e ∈ edges (ConvexHull (fun l => l) Vs), ∃ q ∈ Vs,
    Vs.Pairwise (fun a b => hullLess b a = false) ∧ Vs.Pairwise (fun a b => ¬ Near a b) ∧ ¬ OnLeft e.1 e.2 q := by
  refine ⟨[⟨0,0,0⟩, ⟨1,1,0⟩, ⟨1,1,1⟩, ⟨2,0,0⟩], (⟨0,0,0⟩, ⟨1,1,0⟩), by decide +kernel, ⟨2,0,0⟩, by decide +kernel, by decide +kernel,
    by decide +kernel, ?_⟩
  unfold OnLeft; norm_num

/-- and near-duplicates can remove an extreme point, so that an input point is strictly outside -/
theorem C16_near_refuted : ∃ Vs : List (R3.Vector ℚ), ∃ e ∈ edges (ConvexHull (fun l => l) Vs), ∃ q ∈ Vs,
    Vs.Pairwise (fun a b => hullLess b a = false) ∧ Vs.Pairwise (fun a b => ¬ (a.X = b.X ∧ a.Y = b.Y)) ∧ ¬ OnLeft e.1 e.2 q := by
  refine ⟨[⟨0,0,0⟩, ⟨0,1,0⟩, ⟨1,0,0⟩, ⟨1+1/2^27,0,0⟩], (⟨1,0,0⟩, ⟨0,1,0⟩), by decide +kernel, ⟨1+1/2^27,0,0⟩, by decide +kernel, by decide +kernel,
    by decide +kernel, ?_⟩
  unfold OnLeft; norm_num

/-! ## C17 -/

/-- every vertex is an input point, without any hypothesis on the input -/
theorem C17_members (srt : List (R3.Vector K) → List (R3.Vector K)) (hsrt : SortsHull srt) (Vs : List (R3.Vector K)) :
    ∀ p ∈ ConvexHull srt Vs, p ∈ Vs := by
  have hpop : ∀ (C : R3.Vector K → R3.Vector K → R3.Vector K → K) (p : R3.Vector K) (st l : List (R3.Vector K)), (∀ q ∈ st, q ∈ l) →
      ∀ q ∈ p :: popG C p st, q ∈ l ++ [p] := by
    intro C p st l h q hq
    rcases List.mem_cons.mp hq with rfl | hq
    · simp
    · exact List.mem_append_left _ (h q ((popG_suffix C p st).subset hq))
  have gen : ∀ l : List (R3.Vector K), (∀ q ∈ (hullLoop l).1, q ∈ l) ∧ (∀ q ∈ (hullLoop l).2, q ∈ l) := by
    intro l
    induction l using List.reverseRecOn with
    | nil => exact ⟨fun _ h => h, fun _ h => h⟩
    | append_singleton l p ih =>
      have e : hullLoop (l ++ [p]) = (p :: popU p (hullLoop l).1, p :: popL p (hullLoop l).2) := by
        unfold hullLoop; rw [List.foldl_append]; rfl
      rw [e, popU_eq, popL_eq]
      exact ⟨hpop _ p _ l ih.1, hpop _ p _ l ih.2⟩
  intro p hp
  have hval : ConvexHull srt Vs = (hullLoop (dedup (srt Vs))).2.reverse.dropLast ++ (hullLoop (dedup (srt Vs))).1.dropLast := by
    unfold ConvexHull; dsimp only; rw [C18_value]
  rw [hval] at hp
  apply (hsrt Vs).1.subset
  apply (dedup_sublist _).subset
  rcases List.mem_append.mp hp with h | h
  · exact (gen _).2 p (List.mem_reverse.mp (List.mem_of_mem_dropLast h))
  · exact (gen _).1 p (List.mem_of_mem_dropLast h)

theorem filterArr_eq (n : ℕ) : ∀ (i k : ℕ) (arr : List (R3.Vector K)),
    filterLoop n i k arr = (filterArr n i k arr).1.take (filterArr n i k arr).2 := by
  induction n with
  | zero => intro i k arr; rfl
  | succ n ih =>
    intro i k arr
    rw [filterLoop, filterArr]
    split
    · rfl
    · dsimp only
      split_ifs
      · exact ih _ _ _
      · exact ih _ _ _

/-- `ConvexHull` changes no array that existed before the call, and returns the value of the pure function -/
theorem C17_untouched (srt : List (R3.Vector K) → List (R3.Vector K)) (mem : List (List (R3.Vector K))) (a off len : ℕ)
    (arr : List (R3.Vector K)) (ha : mem[a]? = some arr) :
    ∃ mem' r, ConvexHullMem srt mem a off len = some (mem', r) ∧ (∀ i < mem.length, mem'[i]? = mem[i]?) ∧
      r = ConvexHull srt ((arr.drop off).take len) := by
  have h : ∀ (m : List (List (R3.Vector K))) (x y : List (R3.Vector K)), (m ++ [x]).set m.length y = m ++ [y] := by
    intro m x y; rw [List.set_append_right _ _ (le_refl _)]; simp
  have g : ∀ (m : List (List (R3.Vector K))) (x : List (R3.Vector K)), (m ++ [x])[m.length]? = some x := by
    intro m x; simp
  refine ⟨mem ++ [(filterArr (srt ((arr.drop off).take len)).length 0 0 (srt ((arr.drop off).take len))).1], _, ?_, ?_, rfl⟩
  · unfold ConvexHullMem
    simp only [ha, Option.bind_eq_bind, Option.bind_some, h, g, Option.pure_def]
    unfold ConvexHull filterDup
    dsimp only
    rw [filterArr_eq]
  · intro i hi
    rw [List.getElem?_append_left hi]

/-- points with the same (x, y) are equal -/
def PlanarDistinct (Vs : List (R3.Vector K)) : Prop := ∀ p ∈ Vs, ∀ q ∈ Vs, p.X = q.X → p.Y = q.Y → p = q

/-- any two sorting algorithms and any two orders of the input give the same hull -/
theorem C17_order (srt srt' : List (R3.Vector K) → List (R3.Vector K)) (h : SortsHull srt) (h' : SortsHull srt')
    (Vs Vs' : List (R3.Vector K)) (hp : Vs.Perm Vs') (hd : PlanarDistinct Vs) : ConvexHull srt Vs = ConvexHull srt' Vs' := by
  have e : srt Vs = srt' Vs' := by
    obtain ⟨p1, s1⟩ := h Vs
    obtain ⟨p2, s2⟩ := h' Vs'
    refine List.Perm.eq_of_pairwise (le := fun a b => hullLess b a = false) ?_ s1 s2 ((p1.trans hp).trans p2.symm)
    intro a b ha hb h1 h2
    rw [← Bool.not_eq_true, hullLess_iff] at h1 h2
    rcases lexLt_total a b with h | h | ⟨hx, hy⟩
    · exact absurd h h2
    · exact absurd h h1
    · exact hd a (p1.subset ha) b (hp.symm.subset (p2.subset hb)) hx hy
  unfold ConvexHull
  dsimp only
  rw [e]

/-- without it the order matters: two points above each other -/
theorem C17_order_refuted : ∃ Vs Vs' : List (R3.Vector ℚ), Vs.Perm Vs' ∧ Vs.Pairwise (fun a b => hullLess b a = false) ∧
    Vs'.Pairwise (fun a b => hullLess b a = false) ∧ ConvexHull (fun l => l) Vs ≠ ConvexHull (fun l => l) Vs' :=
  ⟨[⟨0,0,0⟩, ⟨1,0,0⟩, ⟨1,0,1⟩], [⟨0,0,0⟩, ⟨1,0,1⟩, ⟨1,0,0⟩], by decide +kernel, by decide +kernel, by decide +kernel, by decide +kernel⟩

end Verif.Props
