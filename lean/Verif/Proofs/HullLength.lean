import Verif.Props.HullStrict
/-!
# The length of the boundary polygon of points in a square
-/
namespace Verif.Proofs
open Verif Verif.Tri2 Verif.Props

variable {K : Type} [Field K] [LinearOrder K] [IsStrictOrderedRing K]

theorem consec_cons {α : Type} (a b : α) (l : List α) : consec (a :: b :: l) = (a, b) :: consec (b :: l) := rfl

theorem chain_up (B : K) : ∀ (l : List (R3.Vector K)) (a : R3.Vector K), (a :: l).Pairwise LexLt → (∀ p ∈ a :: l, p.X ≤ B) →
    ((consec (a :: l)).map fun e => |e.1.X - e.2.X|).sum ≤ B - a.X := by
  intro l
  induction l with
  | nil => intro a _ h; have := h a (by simp); simp [consec]; exact this
  | cons b l ih =>
    intro a hp h
    rw [consec_cons, List.map_cons, List.sum_cons]
    have h1 := ih b (List.pairwise_cons.mp hp).2 (fun p hp => h p (List.mem_cons_of_mem _ hp))
    have h2 : a.X ≤ b.X := by
      rcases (List.pairwise_cons.mp hp).1 b (by simp) with h | ⟨h, _⟩
      · exact h.le
      · exact h.le
    dsimp only
    rw [abs_sub_comm, abs_of_nonneg (sub_nonneg.mpr h2)]
    linarith

theorem chain_down (B : K) : ∀ (l : List (R3.Vector K)) (a : R3.Vector K), (a :: l).Pairwise (fun a b => LexLt b a) → (∀ p ∈ a :: l, -B ≤ p.X) →
    ((consec (a :: l)).map fun e => |e.1.X - e.2.X|).sum ≤ a.X + B := by
  intro l
  induction l with
  | nil => intro a _ h; have := h a (by simp); simp [consec]; linarith
  | cons b l ih =>
    intro a hp h
    rw [consec_cons, List.map_cons, List.sum_cons]
    have h1 := ih b (List.pairwise_cons.mp hp).2 (fun p hp => h p (List.mem_cons_of_mem _ hp))
    have h2 : b.X ≤ a.X := by
      rcases (List.pairwise_cons.mp hp).1 b (by simp) with h | ⟨h, _⟩
      · exact h.le
      · exact h.le
    dsimp only
    rw [abs_of_nonneg (sub_nonneg.mpr h2)]
    linarith

/-- the total movement in the direction of `X` along the polygon of `ConvexHull` -/
theorem convexHull_width {srt : List (R3.Vector K) → List (R3.Vector K)} (hsrt : SortsHull srt) {Vs : List (R3.Vector K)} (hsep : Separated Vs) {B : K}
    (hB : 0 ≤ B) (h : ∀ p ∈ Vs, |p.X| ≤ B) : ((edges (ConvexHull srt Vs)).map fun e => |e.1.X - e.2.X|).sum ≤ 4 * B := by
  obtain ⟨_, hmem, h1, h2⟩ := C16_encloses srt hsrt Vs hsep
  by_cases he : ∃ p ∈ Vs, ∃ q ∈ Vs, p ≠ q
  · obtain ⟨m, M, l, u, e, _, _, up, down⟩ := h1 he
    have hm : ∀ p ∈ m :: l ++ M :: u, p ∈ Vs := fun p hp => hmem p (by rw [e]; exact hp)
    have hup := chain_up B (l ++ [M]) m up (by
      intro p hp
      refine (abs_le.mp (h p (hm p ?_))).2
      simp only [List.cons_append, List.mem_cons, List.mem_append, List.not_mem_nil, or_false] at hp ⊢
      tauto)
    have hdown := chain_down B (u ++ [m]) M down (by
      intro p hp
      refine (abs_le.mp (h p (hm p ?_))).1
      simp only [List.cons_append, List.mem_cons, List.mem_append, List.not_mem_nil, or_false] at hp ⊢
      tauto)
    rw [e, edges_closed, List.map_append, List.sum_append]
    have hm1 := (abs_le.mp (h m (hm m (by simp)))).1
    have hm2 := (abs_le.mp (h M (hm M (by simp)))).2
    rw [List.cons_append, List.cons_append]
    linarith
  · push Not at he
    rw [h2 he]
    simp [edges]
    linarith

/-- a quarter turn -/
def turn (a : R3.Vector K) : R3.Vector K := ⟨a.Y, -a.X, a.Z⟩

omit [LinearOrder K] [IsStrictOrderedRing K] in
theorem turn_inj : Function.Injective (turn (K := K)) := by
  intro a b h
  have h1 := congrArg R3.Vector.X h
  have h2 := congrArg R3.Vector.Y h
  have h3 := congrArg R3.Vector.Z h
  simp only [turn, neg_inj] at h1 h2 h3
  cases a; cases b
  simp only at h1 h2 h3
  rw [h1, h2, h3]

theorem edges_map {α β : Type} (f : α → β) (l : List α) : edges (l.map f) = (edges l).map (Prod.map f f) := by
  unfold edges
  rw [← List.map_rotate, List.zip_map]

theorem turn_separated {Vs : List (R3.Vector K)} (h : Separated Vs) : Separated (Vs.map turn) := by
  intro p hp q hq
  obtain ⟨a, ha, rfl⟩ := List.mem_map.mp hp
  obtain ⟨b, hb, rfl⟩ := List.mem_map.mp hq
  rcases h a ha b hb with rfl | ⟨h1, h2⟩
  · exact Or.inl rfl
  · refine Or.inr ⟨?_, ?_⟩
    · rintro ⟨h3, h4⟩
      exact h1 ⟨neg_inj.mp h4, h3⟩
    · unfold Near turn at *
      intro h3
      apply h2
      dsimp only at h3
      linarith [show (a.Y - b.Y)^2 + (-a.X - -b.X)^2 = (a.X - b.X)^2 + (a.Y - b.Y)^2 by ring]

omit [LinearOrder K] [IsStrictOrderedRing K] in
theorem turn_notCollinear {Vs : List (R3.Vector K)} (h : NotCollinear Vs) : NotCollinear (Vs.map turn) := by
  obtain ⟨p, hp, q, hq, r, hr, hne⟩ := h
  refine ⟨_, List.mem_map_of_mem hp, _, List.mem_map_of_mem hq, _, List.mem_map_of_mem hr, ?_⟩
  intro h
  apply hne
  unfold turn at h
  dsimp only at h
  linear_combination h

theorem turn_boundary {Vs P : List (R3.Vector K)} (h : BoundaryPolygon Vs P) : BoundaryPolygon (Vs.map turn) (P.map turn) := by
  refine ⟨(List.nodup_map_iff turn_inj).mpr h.nodup, by simpa using h.ne, ?_⟩
  intro e he
  rw [edges_map] at he
  obtain ⟨⟨a, b⟩, he', rfl⟩ := List.mem_map.mp he
  have H := h.edge _ he'
  refine ⟨List.mem_map_of_mem H.fst, List.mem_map_of_mem H.snd, fun e => H.ne (turn_inj e), ?_, ?_⟩
  · intro q hq
    obtain ⟨c, hc, rfl⟩ := List.mem_map.mp hq
    have := H.left c hc
    unfold OnLeft at *
    simp only [Prod.map, turn]
    linarith
  · intro q hq
    obtain ⟨c, hc, rfl⟩ := List.mem_map.mp hq
    rintro ⟨t, h0, h1, hx, hy⟩
    simp only [Prod.map, turn] at hx hy
    exact H.tight c hc ⟨t, h0, h1, by linarith, by linarith⟩

theorem rotated_sum {P Q : List (R3.Vector K)} (h : P.IsRotated Q) (f : R3.Vector K × R3.Vector K → K) : ((edges P).map f).sum = ((edges Q).map f).sum := by
  obtain ⟨n, rfl⟩ := h
  rw [edges_rotate, sum_map_rotate]

/-- the length of the boundary polygon in the sum norm -/
theorem boundary_length {Vs P : List (R3.Vector K)} (h : BoundaryPolygon Vs P) (hn : NotCollinear Vs) (hsep : Separated Vs) {B : K} (hB : 0 ≤ B)
    (hx : ∀ p ∈ Vs, |p.X| ≤ B) (hy : ∀ p ∈ Vs, |p.Y| ≤ B) : ((edges P).map fun e => |e.1.X - e.2.X| + |e.1.Y - e.2.Y|).sum ≤ 8 * B := by
  have h1 := convexHull_width sortsHull_exists hsep hB hx
  rw [← rotated_sum (C73_unique hn (separated_distinct hsep) h (C73_convexHull _ sortsHull_exists _ hsep hn)) (fun e => |e.1.X - e.2.X|)] at h1
  have h2 := convexHull_width (Vs := Vs.map turn) sortsHull_exists (turn_separated hsep) hB (by
    intro p hp
    obtain ⟨a, ha, rfl⟩ := List.mem_map.mp hp
    exact hy a ha)
  rw [← rotated_sum (C73_unique (turn_notCollinear hn) (separated_distinct (turn_separated hsep)) (turn_boundary h)
    (C73_convexHull _ sortsHull_exists _ (turn_separated hsep) (turn_notCollinear hn))) (fun e => |e.1.X - e.2.X|), edges_map, List.map_map] at h2
  rw [List.sum_map_add]
  have e : ((fun e : R3.Vector K × R3.Vector K => |e.1.X - e.2.X|) ∘ Prod.map turn turn) = fun e => |e.1.Y - e.2.Y| := rfl
  rw [e] at h2
  linarith

end Verif.Proofs
