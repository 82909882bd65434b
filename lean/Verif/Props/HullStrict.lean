import Verif.Props.Hull
/-!
# C73: `ConvexHull` passes through every input point on the boundary, once, and is determined by that
-/
namespace Verif.Props
open Verif Verif.Tri2

variable {K : Type} [Field K] [LinearOrder K] [IsStrictOrderedRing K]

/-- `q` lies on the segment from `a` to `b`, strictly between the ends -/
def Between (a b q : R3.Vector K) : Prop :=
  ∃ t, 0 < t ∧ t < 1 ∧ q.X = a.X + t * (b.X - a.X) ∧ q.Y = a.Y + t * (b.Y - a.Y)

theorem between_lex {a b q : R3.Vector K} (h : LexLt a b) (hb : Between a b q) : LexLt a q ∧ LexLt q b := by
  obtain ⟨t, t0, t1, hx, hy⟩ := hb
  rcases h with h | ⟨h, h'⟩
  · refine ⟨Or.inl ?_, Or.inl ?_⟩
    · rw [hx]; nlinarith
    · rw [hx]; nlinarith
  · refine ⟨Or.inr ⟨?_, ?_⟩, Or.inr ⟨?_, ?_⟩⟩
    · rw [hx, h]; ring
    · rw [hy]; nlinarith
    · rw [hx, h]; ring
    · rw [hy]; nlinarith

omit [IsStrictOrderedRing K] in
theorem between_symm [IsStrictOrderedRing K] {a b q : R3.Vector K} (hb : Between a b q) : Between b a q := by
  obtain ⟨t, t0, t1, hx, hy⟩ := hb
  exact ⟨1 - t, by linarith, by linarith, by rw [hx]; ring, by rw [hy]; ring⟩

omit [IsStrictOrderedRing K] in
/-- the popping loop pops nothing, or the last popped point made a wrong turn -/
theorem popG_last (C : R3.Vector K → R3.Vector K → R3.Vector K → K) (p : R3.Vector K) : ∀ (st : List (R3.Vector K)) (b : R3.Vector K)
    (rest : List (R3.Vector K)), popG C p st = b :: rest → st = b :: rest ∨ ∃ c, (c, b) ∈ consec st ∧ C b c p < 0 := by
  intro st
  induction st with
  | nil => intro b rest h; cases h
  | cons c st ih =>
    intro b rest h
    cases st with
    | nil => exact Or.inl h
    | cons a st =>
      rw [popG] at h
      split_ifs at h with hc
      · right
        have e : consec (c :: a :: st) = (c, a) :: consec (a :: st) := rfl
        rcases ih b rest h with h' | ⟨x, h1, h2⟩
        · injection h' with h1 h2
          subst h1
          exact ⟨c, by rw [e]; exact List.mem_cons_self, hc⟩
        · exact ⟨x, by rw [e]; exact List.mem_cons_of_mem _ h1, h2⟩
      · exact Or.inl h

/-- no point strictly inside an edge of the chain -/
def TightChain (ps st : List (R3.Vector K)) : Prop := ∀ e ∈ consec st, ∀ q ∈ ps, ¬ Between e.2 e.1 q

theorem tight_step {C : R3.Vector K → R3.Vector K → R3.Vector K → K} (hC : ∀ a b p q t, q.X = a.X + t * (p.X - a.X) → q.Y = a.Y + t * (p.Y - a.Y) →
    C a b q = t * C a b p) (T : Turn C) (p : R3.Vector K) (ps st : List (R3.Vector K))
    (hs : (ps ++ [p]).Pairwise LexLt) (inv : ChainInv C ps st) (ht : TightChain ps st) : TightChain (ps ++ [p]) (p :: popG C p st) := by
  have new := chainInv_step T p ps st hs inv
  have hps : ∀ q ∈ ps, LexLt q p := fun q hq => (List.pairwise_append.mp hs).2.2 q hq p (by simp)
  cases e : popG C p st with
  | nil => intro x hx; simp [consec] at hx
  | cons b rest =>
    have hsuf := popG_suffix C p st
    rw [e] at hsuf new
    have hbst : b ∈ st := hsuf.subset List.mem_cons_self
    have hb := inv.mem b hbst
    have e1 : consec (p :: b :: rest) = (p, b) :: consec (b :: rest) := rfl
    intro x hx q hq hbt
    rw [e1] at hx
    rcases List.mem_cons.mp hx with rfl | hx
    · -- the new edge
      obtain ⟨l1, l2⟩ := between_lex (hps b hb) hbt
      rcases List.mem_append.mp hq with hq | hq
      · rcases popG_last C p st b rest e with h | ⟨c, h1, h2⟩
        · have hh := inv.head
          rw [h, List.head?_cons] at hh
          obtain ⟨l, hl⟩ := List.getLast?_eq_some_iff.mp hh.symm
          rw [hl] at hq hs
          have hs1 := (List.pairwise_append.mp hs).1
          rcases List.mem_append.mp hq with h | h
          · exact LexLt.irrefl _ (l1.trans ((List.pairwise_append.mp hs1).2.2 q h b (by simp)))
          · simp only [List.mem_cons, List.not_mem_nil, or_false] at h
            subst h; exact LexLt.irrefl _ l1
        · obtain ⟨t, t0, t1, hx, hy⟩ := hbt
          have h3 := inv.left _ h1 q hq
          dsimp only at h3 hx hy
          rw [hC b c p q t hx hy] at h3
          exact absurd h3 (not_le.mpr (mul_neg_of_pos_of_neg t0 h2))
      · simp only [List.mem_cons, List.not_mem_nil, or_false] at hq
        subst hq; exact LexLt.irrefl _ l2
    · have hx' := consec_suffix hsuf x hx
      rcases List.mem_append.mp hq with hq | hq
      · exact ht x hx' q hq hbt
      · simp only [List.mem_cons, List.not_mem_nil, or_false] at hq
        subst hq
        have m1 : x.1 ∈ st := (List.of_mem_zip hx').1
        have m2 : LexLt x.2 x.1 := by
          obtain ⟨i, hi, rfl⟩ := List.mem_iff_getElem.mp hx'
          have hl : i + 1 < st.length := by simp [consec] at hi; omega
          have := List.pairwise_iff_getElem.mp inv.desc i (i+1) (by omega) hl (by omega)
          simpa [consec] using this
        exact LexLt.irrefl _ ((between_lex m2 hbt).2.trans (hps _ (inv.mem _ m1)))

theorem hullLoop_tight (Vs : List (R3.Vector K)) (hs : Vs.Pairwise LexLt) :
    TightChain Vs (hullLoop Vs).1 ∧ TightChain Vs (hullLoop Vs).2 := by
  induction Vs using List.reverseRecOn with
  | nil => exact ⟨by simp [TightChain, consec, hullLoop], by simp [TightChain, consec, hullLoop]⟩
  | append_singleton l p ih =>
    obtain ⟨i1, i2⟩ := hullLoop_inv l (List.pairwise_append.mp hs).1
    obtain ⟨t1, t2⟩ := ih (List.pairwise_append.mp hs).1
    have e : hullLoop (l ++ [p]) = (p :: popU p (hullLoop l).1, p :: popL p (hullLoop l).2) := by
      unfold hullLoop; rw [List.foldl_append]; rfl
    rw [e, popU_eq, popL_eq]
    refine ⟨tight_step ?_ turn_upper p l _ hs i1 t1, tight_step ?_ turn_lower p l _ hs i2 t2⟩
    · intro a b p q t hx hy
      simp only [cross2D, hx, hy]; ring
    · intro a b p q t hx hy
      simp only [cross2D, hx, hy]; ring

/-- the points do not all lie on one line -/
def NotCollinear (Vs : List (R3.Vector K)) : Prop :=
  ∃ p ∈ Vs, ∃ q ∈ Vs, ∃ r ∈ Vs, (q.X - p.X) * (r.Y - p.Y) - (q.Y - p.Y) * (r.X - p.X) ≠ 0

/-- `a b` is a piece of the boundary of the convex hull of `Vs`: all points on its left, none strictly inside -/
structure BoundaryEdge (Vs : List (R3.Vector K)) (a b : R3.Vector K) : Prop where
  fst : a ∈ Vs
  snd : b ∈ Vs
  ne : a ≠ b
  left : ∀ q ∈ Vs, OnLeft a b q
  tight : ∀ q ∈ Vs, ¬ Between a b q

/-- a closed polygon through the boundary of `Vs` -/
structure BoundaryPolygon (Vs P : List (R3.Vector K)) : Prop where
  nodup : P.Nodup
  ne : P ≠ []
  edge : ∀ e ∈ edges P, BoundaryEdge Vs e.1 e.2

omit [LinearOrder K] [IsStrictOrderedRing K] in
theorem cross_zero {ux uy vx vy wx wy : K} (hu : ux ≠ 0 ∨ uy ≠ 0) (h1 : ux * vy - uy * vx = 0) (h2 : ux * wy - uy * wx = 0) :
    vx * wy - vy * wx = 0 := by
  rcases hu with h | h
  · apply (mul_eq_zero.mp (?_ : ux * (vx * wy - vy * wx) = 0)).resolve_left h
    linear_combination vx * h2 - wx * h1
  · apply (mul_eq_zero.mp (?_ : uy * (vx * wy - vy * wx) = 0)).resolve_left h
    linear_combination vy * h2 - wy * h1

omit [LinearOrder K] [IsStrictOrderedRing K] in
theorem not_all_on_line {Vs : List (R3.Vector K)} (hn : NotCollinear Vs) {a : R3.Vector K} {ux uy : K} (hu : ux ≠ 0 ∨ uy ≠ 0)
    (h : ∀ q ∈ Vs, ux * (q.Y - a.Y) - uy * (q.X - a.X) = 0) : False := by
  obtain ⟨p, hp, q, hq, r, hr, hne⟩ := hn
  apply hne
  exact cross_zero hu (by linear_combination h q hq - h p hp) (by linear_combination h r hr - h p hp)

/-- at most one boundary edge starts at a point -/
theorem boundary_next {Vs : List (R3.Vector K)} (hn : NotCollinear Vs) (hd : PlanarDistinct Vs) {a b b' : R3.Vector K}
    (h : BoundaryEdge Vs a b) (h' : BoundaryEdge Vs a b') : b = b' := by
  have hu : b.X - a.X ≠ 0 ∨ b.Y - a.Y ≠ 0 := by
    by_contra hc
    push Not at hc
    exact h.ne (hd a h.fst b h.snd (by linarith [hc.1]) (by linarith [hc.2]))
  have hu' : b'.X - a.X ≠ 0 ∨ b'.Y - a.Y ≠ 0 := by
    by_contra hc
    push Not at hc
    exact h'.ne (hd a h'.fst b' h'.snd (by linarith [hc.1]) (by linarith [hc.2]))
  have c1 := h.left b' h'.snd
  have c2 := h'.left b h.snd
  unfold OnLeft at c1 c2
  have c0 : (b.X - a.X) * (b'.Y - a.Y) - (b.Y - a.Y) * (b'.X - a.X) = 0 := by
    apply le_antisymm _ c1; linarith
  obtain ⟨s, sx, sy⟩ : ∃ s, b'.X - a.X = s * (b.X - a.X) ∧ b'.Y - a.Y = s * (b.Y - a.Y) := by
    rcases hu with h0 | h0
    · refine ⟨(b'.X - a.X) / (b.X - a.X), by field_simp, ?_⟩
      rw [div_mul_eq_mul_div, eq_div_iff h0]; linear_combination c0
    · refine ⟨(b'.Y - a.Y) / (b.Y - a.Y), ?_, by field_simp⟩
      rw [div_mul_eq_mul_div, eq_div_iff h0]; linear_combination - c0
  have hs0 : s ≠ 0 := by
    rintro rfl
    rw [zero_mul] at sx sy
    rcases hu' with h | h <;> contradiction
  rcases lt_trichotomy s 0 with hs | hs | hs
  · exfalso
    refine not_all_on_line hn (a := a) hu ?_
    intro q hq
    have k1 := h.left q hq
    have k2 := h'.left q hq
    unfold OnLeft at k1 k2
    rw [sx, sy] at k2
    apply le_antisymm _ k1
    by_contra hc
    push Not at hc
    nlinarith
  · exact absurd hs hs0
  · rcases lt_trichotomy s 1 with h1 | h1 | h1
    · exact absurd ⟨s, hs, h1, by linear_combination sx, by linear_combination sy⟩ (h.tight b' h'.snd)
    · subst h1
      exact hd b h.snd b' h'.snd (by linarith) (by linarith)
    · refine absurd ⟨1/s, by positivity, by rw [div_lt_one hs]; exact h1, ?_, ?_⟩ (h'.tight b h.snd)
      · rw [sx]; field_simp; ring
      · rw [sy]; field_simp; ring

/-- the lexicographically smallest point is on every boundary polygon -/
theorem min_mem {Vs P : List (R3.Vector K)} (hn : NotCollinear Vs) (hd : PlanarDistinct Vs) (hP : BoundaryPolygon Vs P)
    {m : R3.Vector K} (hm : m ∈ Vs) (hmin : ∀ q ∈ Vs, q = m ∨ LexLt m q) : m ∈ P := by
  have hin : ∀ p ∈ P, p ∈ Vs := by
    intro p hp
    rw [← edges_fst P] at hp
    obtain ⟨e, he, rfl⟩ := List.mem_map.mp hp
    exact (hP.edge e he).fst
  obtain ⟨v, hv, hvmin⟩ : ∃ v ∈ P, ∀ q ∈ P, q = v ∨ LexLt v q := by
    have gen : ∀ l : List (R3.Vector K), l ≠ [] → (∀ p ∈ l, p ∈ Vs) → ∃ v ∈ l, ∀ q ∈ l, q = v ∨ LexLt v q := by
      intro l
      induction l with
      | nil => intro h; exact absurd rfl h
      | cons a l ih =>
        intro _ hl
        cases l with
        | nil => exact ⟨a, by simp, by simp⟩
        | cons b l =>
          obtain ⟨v, hv, hvm⟩ := ih (by simp) (fun p hp => hl p (List.mem_cons_of_mem _ hp))
          rcases lexLt_total a v with h | h | ⟨h, h'⟩
          · refine ⟨a, by simp, ?_⟩
            intro q hq
            rcases List.mem_cons.mp hq with rfl | hq
            · exact Or.inl rfl
            · rcases hvm q hq with rfl | h2
              · exact Or.inr h
              · exact Or.inr (h.trans h2)
          · refine ⟨v, List.mem_cons_of_mem _ hv, ?_⟩
            intro q hq
            rcases List.mem_cons.mp hq with rfl | hq
            · exact Or.inr h
            · exact hvm q hq
          · have : a = v := hd a (hl a (by simp)) v (hl v (List.mem_cons_of_mem _ hv)) h h'
            refine ⟨v, List.mem_cons_of_mem _ hv, ?_⟩
            intro q hq
            rcases List.mem_cons.mp hq with rfl | hq
            · exact Or.inl this
            · exact hvm q hq
    exact gen P hP.ne hin
  rcases hmin v (hin v hv) with rfl | hlt
  · exact hv
  exfalso
  -- the neighbours of the smallest vertex
  obtain ⟨w, hw⟩ : ∃ w, (v, w) ∈ edges P := by
    have := hv
    rw [← edges_fst P] at this
    obtain ⟨⟨x, w⟩, he, e⟩ := List.mem_map.mp this
    dsimp only at e; subst e
    exact ⟨w, he⟩
  obtain ⟨u, hu⟩ : ∃ u, (u, v) ∈ edges P := by
    have : v ∈ P.rotate 1 := List.mem_rotate.mpr hv
    rw [← edges_snd P] at this
    obtain ⟨⟨u, x⟩, he, e⟩ := List.mem_map.mp this
    dsimp only at e; subst e
    exact ⟨u, he⟩
  have Eo := hP.edge _ hw
  have Ei := hP.edge _ hu
  dsimp only at Eo Ei
  have hwP : w ∈ P := by
    have := (List.of_mem_zip hw).2
    exact List.mem_rotate.mp this
  have huP : u ∈ P := (List.of_mem_zip hu).1
  have lw : LexLt v w := (hvmin w hwP).resolve_left (fun h => Eo.ne h.symm)
  have lu : LexLt v u := (hvmin u huP).resolve_left (fun h => Ei.ne h)
  have dw := lexLt_diff lw
  have du := lexLt_diff lu
  have dm := lexLt_diff hlt
  have k1 := Eo.left m hm
  have k2 := Ei.left m hm
  have k3 := Ei.left w Eo.snd
  unfold OnLeft at k1 k2 k3
  have k4 := halfplane du dm dw (by linarith) (by linarith)
  have k5 : (u.X - v.X) * (w.Y - v.Y) - (u.Y - v.Y) * (w.X - v.X) = 0 := by
    apply le_antisymm _ k4; linarith
  have hne : w.X - v.X ≠ 0 ∨ w.Y - v.Y ≠ 0 := by
    rcases dw with h | h
    · exact Or.inl h.ne'
    · exact Or.inr h.2.ne'
  refine not_all_on_line hn (a := v) hne ?_
  intro q hq
  have q1 := Eo.left q hq
  have q2 := Ei.left q hq
  unfold OnLeft at q1 q2
  apply le_antisymm _ q1
  -- `w - v` and `u - v` have the same direction
  by_contra hc
  push Not at hc
  have q3 : (u.X - v.X) * (q.Y - v.Y) - (u.Y - v.Y) * (q.X - v.X) ≤ 0 := by linarith
  rcases dw with h | ⟨h, h'⟩
  · rcases du with g | ⟨g, g'⟩
    · have : (w.X - v.X) * ((u.X - v.X) * (q.Y - v.Y) - (u.Y - v.Y) * (q.X - v.X)) =
          (u.X - v.X) * ((w.X - v.X) * (q.Y - v.Y) - (w.Y - v.Y) * (q.X - v.X)) := by linear_combination (q.X - v.X) * k5
      nlinarith [mul_pos g hc]
    · rw [g, zero_mul, zero_sub, neg_eq_zero] at k5
      rcases mul_eq_zero.mp k5 with h1 | h1 <;> linarith
  · rcases du with g | ⟨g, g'⟩
    · rw [h, mul_zero, sub_zero] at k5
      rcases mul_eq_zero.mp k5 with h1 | h1 <;> linarith
    · rw [h, zero_mul, zero_sub] at hc
      rw [g, zero_mul, zero_sub] at q3
      nlinarith [mul_pos h' g']

theorem follow_unique {α : Type} {E : α → α → Prop} (hf : ∀ a b b', E a b → E a b' → b = b') (m : α) : ∀ (P Q : List α) (x : α),
    (x :: P ++ [m]).IsChain E → (x :: Q ++ [m]).IsChain E → m ∉ P → m ∉ Q → P = Q := by
  intro P
  induction P with
  | nil =>
    intro Q x h1 h2 _ hQ
    cases Q with
    | nil => rfl
    | cons b Q =>
      simp only [List.cons_append, List.nil_append, List.isChain_cons_cons] at h1 h2
      exact absurd (hf _ _ _ h1.1 h2.1) (fun h => hQ (by simp [h]))
  | cons a P ih =>
    intro Q x h1 h2 hP hQ
    cases Q with
    | nil =>
      simp only [List.cons_append, List.nil_append, List.isChain_cons_cons] at h1 h2
      exact absurd (hf _ _ _ h1.1 h2.1) (fun h => hP (by simp [h]))
    | cons b Q =>
      simp only [List.cons_append, List.isChain_cons_cons] at h1 h2
      obtain rfl := hf _ _ _ h1.1 h2.1
      rw [ih Q a (by simpa using h1.2) (by simpa using h2.2) (fun h => hP (by simp [h])) (fun h => hQ (by simp [h]))]

theorem edges_chain {α : Type} {E : α → α → Prop} (m : α) (l : List α) (h : ∀ e ∈ edges (m :: l), E e.1 e.2) : (m :: l ++ [m]).IsChain E := by
  rw [List.isChain_iff_getElem]
  intro i hi
  have hi' : i < (m :: l).length := by simp at hi ⊢; omega
  have e : edges (m :: l) = (m :: l).zip (l ++ [m]) := by
    unfold edges; rw [List.rotate_cons_succ, List.rotate_zero]
  have hlen : i < (edges (m :: l)).length := by rw [e]; simp at hi' ⊢; omega
  have hm := h _ (List.getElem_mem hlen)
  simp only [e, List.getElem_zip] at hm
  have e1 : (m :: l ++ [m])[i] = (m :: l)[i] := by rw [List.getElem_append_left]
  rw [e1]
  simpa using hm

/-- two cycles of a deterministic relation with a common element are equal up to rotation -/
theorem cycle_unique {α : Type} {E : α → α → Prop} (hf : ∀ a b b', E a b → E a b' → b = b') {P Q : List α} (hP : P.Nodup) (hQ : Q.Nodup)
    (eP : ∀ e ∈ edges P, E e.1 e.2) (eQ : ∀ e ∈ edges Q, E e.1 e.2) {m : α} (mP : m ∈ P) (mQ : m ∈ Q) : P.IsRotated Q := by
  have rot : ∀ P : List α, P.Nodup → (∀ e ∈ edges P, E e.1 e.2) → m ∈ P → ∃ l, P.IsRotated (m :: l) ∧ m ∉ l ∧ (m :: l ++ [m]).IsChain E := by
    intro P hP eP mP
    obtain ⟨s, t, rfl⟩ := List.append_of_mem mP
    have hr : (s ++ m :: t).rotate s.length = m :: (t ++ s) := by rw [List.rotate_append_length_eq]; rfl
    have hrot : (s ++ m :: t).IsRotated (m :: (t ++ s)) := ⟨s.length, hr⟩
    refine ⟨t ++ s, hrot, ?_, ?_⟩
    · have := hrot.nodup_iff.mp hP
      exact (List.nodup_cons.mp this).1
    · apply edges_chain
      intro e he
      rw [← hr, edges_rotate, List.mem_rotate] at he
      exact eP e he
  obtain ⟨p, rp, np, cp⟩ := rot P hP eP mP
  obtain ⟨q, rq, nq, cq⟩ := rot Q hQ eQ mQ
  have := follow_unique hf m p q m cp cq np nq
  subst this
  exact rp.trans rq.symm

/-- C73: there is only one boundary polygon, up to the starting point -/
theorem C73_unique {Vs P Q : List (R3.Vector K)} (hn : NotCollinear Vs) (hd : PlanarDistinct Vs) (hP : BoundaryPolygon Vs P)
    (hQ : BoundaryPolygon Vs Q) : P.IsRotated Q := by
  have hne : Vs ≠ [] := by
    obtain ⟨p, hp, _⟩ := hn
    exact List.ne_nil_of_mem hp
  obtain ⟨m, hm, hmin⟩ : ∃ m ∈ Vs, ∀ q ∈ Vs, q = m ∨ LexLt m q := by
    obtain ⟨S, hperm, hsorted⟩ : ∃ S : List (R3.Vector K), S.Perm Vs ∧ S.Pairwise (fun a b => hullLess b a = false) := ⟨_, sortsHull_exists Vs⟩
    cases S with
    | nil => exact absurd (List.nil_perm.mp hperm) hne
    | cons m S =>
      have hm : m ∈ Vs := hperm.subset List.mem_cons_self
      refine ⟨m, hm, fun q hq => ?_⟩
      rcases List.mem_cons.mp (hperm.symm.subset hq) with rfl | h
      · exact Or.inl rfl
      · have h1 := (List.pairwise_cons.mp hsorted).1 q h
        rcases lexLt_total q m with h2 | h2 | h2
        · rw [← hullLess_iff, h1] at h2; cases h2
        · exact Or.inr h2
        · exact Or.inl (hd q hq m hm h2.1 h2.2)
  exact cycle_unique (E := BoundaryEdge Vs) (fun a b b' => boundary_next hn hd) hP.nodup hQ.nodup hP.edge hQ.edge (min_mem hn hd hP hm hmin) (min_mem hn hd hQ hm hmin)

omit [IsStrictOrderedRing K] in
theorem separated_distinct {Vs : List (R3.Vector K)} (hs : Separated Vs) : PlanarDistinct Vs := by
  intro p hp q hq hx hy
  rcases hs p hp q hq with h | ⟨h, _⟩
  · exact h
  · exact absurd ⟨hx, hy⟩ h

omit [Field K] [LinearOrder K] [IsStrictOrderedRing K] in
theorem pairwise_consec {R : R3.Vector K → R3.Vector K → Prop} {l : List (R3.Vector K)} (h : l.Pairwise R) : ∀ e ∈ consec l, R e.1 e.2 := by
  intro e he
  obtain ⟨i, hi, rfl⟩ := List.mem_iff_getElem.mp he
  have hl : i + 1 < l.length := by simp [consec] at hi; omega
  have := List.pairwise_iff_getElem.mp h i (i+1) (by omega) hl (by omega)
  simpa [consec] using this

/-- C73: the polygon of `ConvexHull` is the boundary polygon: no vertex twice, every edge joins two input points with all input points on its left and none
strictly inside. So every input point on the boundary is a vertex. -/
theorem C73_convexHull (srt : List (R3.Vector K) → List (R3.Vector K)) (hsrt : SortsHull srt) (Vs : List (R3.Vector K))
    (hsep : Separated Vs) (hn : NotCollinear Vs) : BoundaryPolygon Vs (ConvexHull srt Vs) := by
  have hd := separated_distinct hsep
  obtain ⟨hleft, hmemV, -, -⟩ := C16_encloses srt hsrt Vs hsep
  obtain ⟨hperm, hsorted⟩ := hsrt Vs
  have hsep' : Separated (srt Vs) := fun p hp q hq => hsep p (hperm.subset hp) q (hperm.subset hq)
  obtain ⟨hstrict, hmem⟩ := dedup_strict (srt Vs) hsep' hsorted
  have hmem' : ∀ p, p ∈ dedup (srt Vs) ↔ p ∈ Vs := fun p => (hmem p).trans hperm.mem_iff
  obtain ⟨iU, iL⟩ := hullLoop_inv (dedup (srt Vs)) hstrict
  obtain ⟨tU, tL⟩ := hullLoop_tight (dedup (srt Vs)) hstrict
  have hval : ConvexHull srt Vs = (hullLoop (dedup (srt Vs))).2.reverse.dropLast ++ (hullLoop (dedup (srt Vs))).1.dropLast := by
    unfold ConvexHull; dsimp only; rw [C18_value]
  rw [hval] at hleft hmemV ⊢
  generalize hD : dedup (srt Vs) = D at *
  generalize (hullLoop D).1 = U at *
  generalize (hullLoop D).2 = L at *
  obtain ⟨p0, hp0, q0, hq0, r0, hr0, hne⟩ := id hn
  match D, hD with
  | [], _ => exact absurd ((hmem' p0).mpr hp0) (by simp)
  | [m], _ =>
    have h1 := (hmem' p0).mpr hp0
    have h2 := (hmem' q0).mpr hq0
    simp only [List.mem_cons, List.not_mem_nil, or_false] at h1 h2
    rw [h1, h2] at hne
    exact absurd (by ring) hne
  | m :: d :: D, _ =>
    obtain ⟨M, hM⟩ : ∃ M, (m :: d :: D).getLast? = some M := by
      cases h : (m :: d :: D).getLast? with
      | none => simp at h
      | some x => exact ⟨x, rfl⟩
    have hmM : LexLt m M := by
      have : M ∈ d :: D := List.mem_of_getLast? (l := d :: D) (a := M) (by rw [← hM]; simp)
      exact (List.pairwise_cons.mp hstrict).1 M this
    have shape : ∀ (C : R3.Vector K → R3.Vector K → R3.Vector K → K) (S : List (R3.Vector K)), ChainInv C (m :: d :: D) S →
        ∃ S', S = M :: S' ++ [m] := by
      intro C S inv
      have h1 := inv.head
      have h2 := inv.last
      rw [hM] at h1
      cases S with
      | nil => simp at h1
      | cons a S =>
        simp only [List.head?_cons, Option.some.injEq] at h1 h2
        subst h1
        cases S with
        | nil =>
          simp only [List.getLast?_singleton, Option.some.injEq] at h2
          subst h2
          exact absurd hmM (LexLt.irrefl _)
        | cons b S =>
          obtain ⟨S', hS'⟩ := List.getLast?_eq_some_iff.mp h2
          cases S' with
          | nil => simp at hS'
          | cons c S' =>
            rw [List.cons_append] at hS'
            injection hS' with h3 h4
            exact ⟨S', by rw [h4]; rfl⟩
    obtain ⟨U', rfl⟩ := shape _ U iU
    obtain ⟨L', rfl⟩ := shape _ L iL
    have eU : (M :: U' ++ [m]).dropLast = M :: U' := List.dropLast_concat
    have eL : (M :: L' ++ [m]).reverse = m :: L'.reverse ++ [M] := by simp
    rw [eL, List.dropLast_concat, eU] at hleft hmemV ⊢
    have lo : (m :: L'.reverse ++ [M]).Pairwise LexLt := by rw [← eL, List.pairwise_reverse]; exact iL.desc
    have up := iU.desc
    -- all edges are boundary edges
    have edge : ∀ e ∈ edges ((m :: L'.reverse) ++ (M :: U')), BoundaryEdge Vs e.1 e.2 := by
      intro e he
      have hl := hleft e he
      rw [edges_closed] at he
      rcases List.mem_append.mp he with he | he
      · have hlt := pairwise_consec lo e he
        rw [← eL] at he
        obtain ⟨a, b⟩ := e
        rw [consec_reverse] at he
        have ht := tL _ he
        have m1 := List.of_mem_zip he
        exact ⟨(hmem' _).mp (iL.mem _ (List.mem_of_mem_tail m1.2)), (hmem' _).mp (iL.mem _ m1.1), fun h => LexLt.irrefl _ (h ▸ hlt), hl,
          fun q hq => ht q ((hmem' q).mpr hq)⟩
      · have hlt := pairwise_consec up e he
        have ht := tU _ he
        have m1 := List.of_mem_zip he
        exact ⟨(hmem' _).mp (iU.mem _ m1.1), (hmem' _).mp (iU.mem _ (List.mem_of_mem_tail m1.2)), fun h => LexLt.irrefl _ (h ▸ hlt), hl,
          fun q hq hb => ht q ((hmem' q).mpr hq) (between_symm hb)⟩
    refine ⟨?_, by simp, edge⟩
    rw [List.nodup_append]
    have nd1 : (m :: L'.reverse).Nodup := by
      have := (List.pairwise_append.mp lo).1
      exact List.Pairwise.imp (S := (· ≠ ·)) (fun {a b} h (e : a = b) => LexLt.irrefl a (by rw [← e] at h; exact h)) this
    have nd2 : (M :: U').Nodup := by
      have := (List.pairwise_append.mp up).1
      exact List.Pairwise.imp (S := (· ≠ ·)) (fun {a b} h (e : a = b) => LexLt.irrefl a (by rw [← e] at h; exact h)) this
    refine ⟨nd1, nd2, ?_⟩
    rintro p hp1 _ hp2 rfl
    -- the successors of a common point on both chains
    obtain ⟨x, hx⟩ : ∃ x, (p, x) ∈ consec (m :: L'.reverse ++ [M]) := by
      obtain ⟨i, hi, rfl⟩ := List.mem_iff_getElem.mp hp1
      have h1 : i < (consec (m :: L'.reverse ++ [M])).length := by simp [consec] at hi ⊢; omega
      refine ⟨((consec (m :: L'.reverse ++ [M]))[i]).2, ?_⟩
      have := List.getElem_mem h1
      convert this using 1
      ext1
      · simp only [consec, List.getElem_zip]; rw [List.getElem_append_left]
      · rfl
    obtain ⟨y, hy⟩ : ∃ y, (p, y) ∈ consec (M :: U' ++ [m]) := by
      obtain ⟨i, hi, rfl⟩ := List.mem_iff_getElem.mp hp2
      have h1 : i < (consec (M :: U' ++ [m])).length := by simp [consec] at hi ⊢; omega
      refine ⟨((consec (M :: U' ++ [m]))[i]).2, ?_⟩
      have := List.getElem_mem h1
      convert this using 1
      ext1
      · simp only [consec, List.getElem_zip]; rw [List.getElem_append_left]
      · rfl
    have b1 := edge (p, x) (by rw [edges_closed]; exact List.mem_append_left _ hx)
    have b2 := edge (p, y) (by rw [edges_closed]; exact List.mem_append_right _ hy)
    obtain rfl := boundary_next hn hd b1 b2
    exact LexLt.irrefl _ ((pairwise_consec lo _ hx).trans (pairwise_consec up _ hy))

/-- C73: an input point on a hull edge is an end of the edge, so a vertex -/
theorem C73_boundary_vertex (srt : List (R3.Vector K) → List (R3.Vector K)) (hsrt : SortsHull srt) (Vs : List (R3.Vector K))
    (hsep : Separated Vs) (hn : NotCollinear Vs) {a b : R3.Vector K} (he : (a, b) ∈ edges (ConvexHull srt Vs)) {q : R3.Vector K} (hq : q ∈ Vs)
    {t : K} (h0 : 0 ≤ t) (h1 : t ≤ 1) (hx : q.X = a.X + t * (b.X - a.X)) (hy : q.Y = a.Y + t * (b.Y - a.Y)) : q = a ∨ q = b := by
  have B := (C73_convexHull srt hsrt Vs hsep hn).edge _ he
  have hd := separated_distinct hsep
  rcases eq_or_lt_of_le h0 with rfl | h0
  · exact Or.inl (hd q hq a B.fst (by rw [hx]; ring) (by rw [hy]; ring))
  · rcases eq_or_lt_of_le h1 with rfl | h1
    · exact Or.inr (hd q hq b B.snd (by rw [hx]; ring) (by rw [hy]; ring))
    · exact absurd ⟨t, h0, h1, hx, hy⟩ (B.tight q hq)

/-- a case: a square with the middle of a side and an inner point -/
example : Separated [(⟨0,0,0⟩ : R3.Vector ℚ), ⟨2,0,0⟩, ⟨4,0,0⟩, ⟨4,4,0⟩, ⟨0,4,0⟩, ⟨1,2,0⟩] ∧
    NotCollinear [(⟨0,0,0⟩ : R3.Vector ℚ), ⟨2,0,0⟩, ⟨4,0,0⟩, ⟨4,4,0⟩, ⟨0,4,0⟩, ⟨1,2,0⟩] := by
  constructor
  · unfold Separated; decide +kernel
  · unfold NotCollinear; decide +kernel

end Verif.Props
