import Verif.Model.Delaunator64
import Verif.Proofs.AnyOracle
/-!
# No overflow in the triangulator

`Small M s`: the values that take part in integer arithmetic stay between -1 and `M`. Runs with machine integers and runs with unbounded integers are the
same run when `M` is small.
-/
namespace Verif.Proofs
open Verif Verif.Tri2

/-- the two computations are equal, and a normal result has the property `Q` -/
def Sim {α : Type} (x y : Res α) (Q : α → Prop) : Prop := x = y ∧ ∀ a, y = .ok a → Q a

theorem Sim.bind {α β : Type} {x y : Res α} {f g : α → Res β} {Q : α → Prop} {R : β → Prop} (h : Sim x y Q) (hf : ∀ a, Q a → Sim (f a) (g a) R) :
    Sim (x >>= f) (y >>= g) R := by
  obtain ⟨rfl, h⟩ := h
  cases x with
  | ok a => exact hf a (h a rfl)
  | panic => exact ⟨rfl, fun a e => by cases e⟩
  | fuel => exact ⟨rfl, fun a e => by cases e⟩

theorem Sim.same {α : Type} {x : Res α} {Q : α → Prop} (h : ∀ a, x = .ok a → Q a) : Sim x x Q := ⟨rfl, h⟩

theorem Sim.any {α : Type} (x : Res α) : Sim x x (fun _ => True) := ⟨rfl, fun _ _ => trivial⟩

theorem Sim.ok {α : Type} {a : α} {Q : α → Prop} (h : Q a) : Sim (pure a : Res α) (pure a) Q := ⟨rfl, fun b e => by cases e; exact h⟩

theorem Sim.ite {α : Type} {c : Prop} [Decidable c] {x y x' y' : Res α} {Q : α → Prop} (h : c → Sim x x' Q) (h' : ¬c → Sim y y' Q) :
    Sim (if c then x else y) (if c then x' else y') Q := by
  split
  · exact h ‹_›
  · exact h' ‹_›

theorem Sim.join {α β : Type} {c : Prop} [Decidable c] {x y x' y' : Res α} {f g : α → Res β} {Q : α → Prop} {R : β → Prop} (h : Sim x x' Q) (h' : Sim y y' Q)
    (hf : ∀ a, Q a → Sim (f a) (g a) R) : Sim (if c then x >>= f else y >>= f) (if c then x' >>= g else y' >>= g) R :=
  Sim.ite (fun _ => h.bind hf) (fun _ => h'.bind hf)

/-- all values that are added to anything lie between -1 and `M` -/
structure Small (M : ℤ) (s : St) : Prop where
  he : ∀ h ∈ s.halfedges, -1 ≤ h ∧ h < M
  nt : ∀ n ∈ s.nodes, -1 ≤ n.t
  hl : (s.halfedges.length : ℤ) ≤ M
  tl : (s.triangles.length : ℤ) ≤ M
  hh : (s.hash.length : ℤ) ≤ M
  ln : 0 ≤ s.trianglesLen

theorem goGet_lt {α : Type} {l : List α} {i : ℤ} {v : α} (h : goGet l i = .ok v) : 0 ≤ i ∧ i < l.length ∧ v ∈ l := by
  unfold goGet at h
  split at h
  · cases h
  · rename_i h0
    have h1 := Res.ofOption_eq_ok.mp h
    obtain ⟨h2, _⟩ := List.getElem?_eq_some_iff.mp h1
    exact ⟨by omega, by omega, List.mem_of_getElem? h1⟩

theorem goSet_lt {α : Type} {l l' : List α} {i : ℤ} {v : α} (h : goSet l i v = .ok l') : 0 ≤ i ∧ i < l.length ∧ l' = l.set i.toNat v := by
  unfold goSet at h
  split at h
  · rename_i h0
    injection h with h
    exact ⟨h0.1, by omega, h.symm⟩
  · cases h

variable {M : ℤ} {s s' : St}

theorem Small.node {k : ℕ} {v : Node} (h : Small M s) (ht : -1 ≤ v.t) : Small M { s with nodes := s.nodes.set k v } :=
  ⟨h.he, fun n hn => by
    rcases List.mem_or_eq_of_mem_set hn with hn | rfl
    · exact h.nt n hn
    · exact ht, h.hl, h.tl, h.hh, h.ln⟩

theorem small_mod {e : Option ℕ} {f : Node → Node} (h : Small M s) (hf : ∀ n, -1 ≤ n.t → -1 ≤ (f n).t) (e1 : s.modNode e f = .ok s') : Small M s' := by
  obtain ⟨k, rfl, hk, rfl⟩ := modNode_eq_ok e1
  refine h.node (hf _ ?_)
  have : nd s k = s.nodes[k] := by unfold nd; simp [hk]
  rw [this]
  exact h.nt _ (List.getElem_mem _)

/-- assignments that do not touch the slot -/
theorem small_keep {e : Option ℕ} {f : Node → Node} (h : Small M s) (e1 : s.modNode e f = .ok s') (hf : ∀ n, (f n).t = n.t := by intro n; rfl) : Small M s' :=
  small_mod h (fun n hn => by rw [hf n]; exact hn) e1

theorem small_deref {e : Option ℕ} {n : Node} (h : Small M s) (e1 : s.deref e = .ok n) : -1 ≤ n.t := by
  obtain ⟨k, rfl, hk, rfl⟩ := deref_eq_ok e1
  have : nd s k = s.nodes[k] := by unfold nd; simp [hk]
  rw [this]
  exact h.nt _ (List.getElem_mem _)

theorem small_link {a b : ℤ} (h : Small M s) (hb : -1 ≤ b) (e : link s a b = .ok s') : Small M s' ∧ s'.trianglesLen = s.trianglesLen ∧ s'.triangles = s.triangles := by
  unfold link at e
  obtain ⟨h1, e1, e⟩ := Res.bind_eq_ok.mp e
  obtain ⟨a0, a1, rfl⟩ := goSet_lt e1
  dsimp only at e
  split at e
  · obtain ⟨h2, e2, e⟩ := Res.bind_eq_ok.mp e
    injection e with e
    subst e
    obtain ⟨b0, b1, rfl⟩ := goSet_lt e2
    rw [List.length_set] at b1
    have hl := h.hl
    refine ⟨⟨fun x hx => ?_, h.nt, by simpa using hl, h.tl, h.hh, h.ln⟩, rfl, rfl⟩
    rcases List.mem_or_eq_of_mem_set hx with hx | rfl
    · rcases List.mem_or_eq_of_mem_set hx with hx | rfl
      · exact h.he x hx
      · exact ⟨hb, by omega⟩
    · exact ⟨by omega, by omega⟩
  · injection e with e
    subst e
    have hl := h.hl
    refine ⟨⟨fun x hx => ?_, h.nt, by simpa using hl, h.tl, h.hh, h.ln⟩, rfl, rfl⟩
    rcases List.mem_or_eq_of_mem_set hx with hx | rfl
    · exact h.he x hx
    · exact ⟨hb, by omega⟩

/-- small numbers are represented exactly -/
def Exact (M : ℤ) (w : ℤ → ℤ) : Prop := ∀ z, -20 ≤ z → z ≤ M + 4 → w z = z

variable {w : ℤ → ℤ} {P : Type} {g : Geo P} {Vs : List P}

theorem sim_link {a b : ℤ} (h : Small M s) (hb : -1 ≤ b) : Sim (link s a b) (link s a b) (fun s' => Small M s' ∧ s'.trianglesLen = s.trianglesLen) :=
  Sim.same fun _ e => ⟨(small_link h hb e).1, (small_link h hb e).2.1⟩

theorem sim_addTriangle (W : Exact M w) (h : Small M s) {i0 i1 i2 a b c : ℤ} (ha : -1 ≤ a) (hb : -1 ≤ b) (hc : -1 ≤ c) :
    Sim (addTriangleW w s i0 i1 i2 a b c) (addTriangle s i0 i1 i2 a b c) (fun r => Small M r.1 ∧ 0 ≤ r.2 ∧ r.2 < M) := by
  unfold addTriangleW addTriangle
  refine Sim.bind (Q := fun t => 0 ≤ s.trianglesLen ∧ s.trianglesLen < s.triangles.length ∧ t.length = s.triangles.length)
    (Sim.same fun t e => ?_) fun t ht => ?_
  · obtain ⟨e1, e2, rfl⟩ := goSet_lt e
    exact ⟨e1, e2, List.length_set⟩
  have tl := h.tl
  rw [W (s.trianglesLen + 1) (by omega) (by omega), W (s.trianglesLen + 2) (by omega) (by omega)]
  refine Sim.bind (Q := fun t => t.length = s.triangles.length) (Sim.same fun t' e => ?_) fun t1 ht1 => ?_
  · obtain ⟨e1, e2, rfl⟩ := goSet_lt e
    rw [List.length_set]; exact ht.2.2
  refine Sim.bind (Q := fun t => t.length = s.triangles.length) (Sim.same fun t' e => ?_) fun t2 ht2 => ?_
  · obtain ⟨e1, e2, rfl⟩ := goSet_lt e
    rw [List.length_set]; exact ht1
  have h1 : Small M { s with triangles := t2 } := ⟨h.he, h.nt, h.hl, by rw [ht2]; exact h.tl, h.hh, h.ln⟩
  refine Sim.bind (sim_link h1 ha) fun s1 k1 => ?_
  refine Sim.bind (sim_link k1.1 hb) fun s2 k2 => ?_
  refine Sim.bind (sim_link k2.1 hc) fun s3 k3 => ?_
  have e3 : s3.trianglesLen = s.trianglesLen := k3.2.trans (k2.2.trans k1.2)
  rw [W (s3.trianglesLen + 3) (by omega) (by omega)]
  exact Sim.ok ⟨⟨k3.1.he, k3.1.nt, k3.1.hl, k3.1.tl, k3.1.hh, by show 0 ≤ s3.trianglesLen + 3; omega⟩, by show 0 ≤ s.trianglesLen; omega, by show s.trianglesLen < M; omega⟩

theorem small_fixHull {bl a : ℤ} (ha : -1 ≤ a) : ∀ (f : ℕ) (s : St) (e : Option ℕ) (s' : St), Small M s → fixHull bl a f s e = .ok s' → Small M s'
  | 0, s, e, s', _, h => by cases h
  | f + 1, s, e, s', hs, h => by
    unfold fixHull at h
    obtain ⟨ne, _, h⟩ := Res.bind_eq_ok.mp h
    split at h
    · exact small_mod hs (fun _ _ => ha) h
    · split at h
      · injection h with h; subst h; exact hs
      · exact small_fixHull ha f s _ s' hs h

theorem sim_legalize (W : Exact M w) : ∀ (f : ℕ) (s : St) (a : ℤ), Small M s → Sim (legalizeW w g Vs f s a) (legalize g Vs f s a) (fun r => Small M r.1 ∧ -1 ≤ r.2)
  | 0, s, a, _ => ⟨rfl, fun _ e => by cases e⟩
  | f + 1, s, a, h => by
    unfold legalizeW legalize
    refine Sim.bind (Q := fun b => (0 ≤ a ∧ a < M) ∧ (-1 ≤ b ∧ b < M)) (Sim.same fun b e => ?_) fun b hb => ?_
    · obtain ⟨e1, e2, e3⟩ := goGet_lt e
      have := h.hl
      exact ⟨⟨e1, by omega⟩, h.he b e3⟩
    obtain ⟨⟨a1, a2⟩, b1, b2⟩ := hb
    have da : a - Int.tmod a 3 = 3 * (a / 3) := by rw [Int.tmod_eq_emod_of_nonneg a1]; omega
    have db : b - Int.tmod b 3 = 3 * ((b + 1) / 3) ∨ (0 ≤ b ∧ b - Int.tmod b 3 = 3 * (b / 3)) := by
      rcases eq_or_lt_of_le b1 with e | e
      · subst e; left; rfl
      · right; exact ⟨by omega, by rw [Int.tmod_eq_emod_of_nonneg (by omega)]; omega⟩
    have wb : -4 ≤ b - Int.tmod b 3 ∧ b - Int.tmod b 3 ≤ b + 1 := by
      rcases db with e | ⟨e0, e⟩ <;> rw [e] <;> omega
    have tm : ∀ z : ℤ, 0 ≤ z → 0 ≤ Int.tmod z 3 ∧ Int.tmod z 3 ≤ 2 := by
      intro z hz; rw [Int.tmod_eq_emod_of_nonneg hz]; omega
    have ta1 := tm (a+1) (by omega)
    have ta2 := tm (a+2) (by omega)
    have tb1 := tm (b+1) (by omega)
    have tb2 := tm (b+2) (by omega)
    simp only [W (a - Int.tmod a 3) (by omega) (by omega), W (b - Int.tmod b 3) (by omega) (by omega), W (a+1) (by omega) (by omega),
      W (a+2) (by omega) (by omega), W (b+1) (by omega) (by omega), W (b+2) (by omega) (by omega)]
    simp only [W (a - Int.tmod a 3 + Int.tmod (a+1) 3) (by omega) (by omega), W (a - Int.tmod a 3 + Int.tmod (a+2) 3) (by omega) (by omega),
      W (b - Int.tmod b 3 + Int.tmod (b+1) 3) (by omega) (by omega), W (b - Int.tmod b 3 + Int.tmod (b+2) 3) (by omega) (by omega)]
    refine Sim.ite (fun _ => Sim.ok ⟨h, by show -1 ≤ a - Int.tmod a 3 + Int.tmod (a+2) 3; omega⟩) fun hb0 => ?_
    have ar0 : -1 ≤ a - Int.tmod a 3 + Int.tmod (a+2) 3 := by omega
    have bl0 : -1 ≤ b - Int.tmod b 3 + Int.tmod (b+2) 3 := by
      rcases db with e | ⟨e0, e⟩ <;> omega
    refine Sim.bind (Sim.any _) fun p0 _ => Sim.bind (Sim.any _) fun pr _ => Sim.bind (Sim.any _) fun pl _ => Sim.bind (Sim.any _) fun p1 _ => ?_
    refine Sim.bind (Sim.any _) fun v0 _ => Sim.bind (Sim.any _) fun vr _ => Sim.bind (Sim.any _) fun vl _ => Sim.bind (Sim.any _) fun v1 _ => ?_
    refine Sim.ite (fun _ => ?_) fun _ => Sim.ok ⟨h, ar0⟩
    refine Sim.bind (Q := fun t => t.length = s.triangles.length) (Sim.same fun t' e => ?_) fun t1 ht1 => ?_
    · obtain ⟨e1, e2, rfl⟩ := goSet_lt e
      exact List.length_set
    refine Sim.bind (Q := fun t => t.length = s.triangles.length) (Sim.same fun t' e => ?_) fun t2 ht2 => ?_
    · obtain ⟨e1, e2, rfl⟩ := goSet_lt e
      rw [List.length_set]; exact ht1
    have h1 : Small M { s with triangles := t2 } := ⟨h.he, h.nt, h.hl, by rw [ht2]; exact h.tl, h.hh, h.ln⟩
    refine Sim.bind (Sim.any _) fun hbl _ => ?_
    refine Sim.join (Q := Small M) (Sim.same fun s' e => small_fixHull (by omega) _ _ _ _ h1 e) (Sim.ok h1) fun s1 k1 => ?_
    refine Sim.bind (Q := fun b => -1 ≤ b) (Sim.same fun v e => (k1.he v (goGet_lt e).2.2).1) fun hbl' q1 => ?_
    refine Sim.bind (sim_link k1 q1) fun s2 k2 => ?_
    refine Sim.bind (Q := fun b => -1 ≤ b) (Sim.same fun v e => (k2.1.he v (goGet_lt e).2.2).1) fun har q2 => ?_
    refine Sim.bind (sim_link k2.1 q2) fun s3 k3 => ?_
    refine Sim.bind (sim_link k3.1 bl0) fun s4 k4 => ?_
    refine Sim.bind (sim_legalize W f s4 a k4.1) fun r k5 => ?_
    exact sim_legalize W f r.1 _ k5.1

theorem sim_findStart (W : Exact M w) (h : Small M s) : ∀ (m : ℕ) (key : ℤ) (start : Option ℕ), Sim (findStartW w s m key start) (findStart s m key start) (fun _ => True)
  | 0, _, _ => Sim.ok trivial
  | m + 1, key, start => by
    unfold findStartW findStart
    refine Sim.bind (Q := fun _ => 0 ≤ key ∧ key < M) (Sim.same fun b e => ?_) fun st hk => ?_
    · obtain ⟨e1, e2, e3⟩ := goGet_lt e
      have := h.hh
      exact ⟨e1, by omega⟩
    simp only [W (key + 1) (by omega) (by omega)]
    have step : ∀ live : Bool, Sim (if live = true then pure st else findStartW w s m (if (s.hash.length : ℤ) ≤ key + 1 then 0 else key + 1) st)
        (if live = true then pure st else findStart s m (if (s.hash.length : ℤ) ≤ key + 1 then 0 else key + 1) st) (fun _ => True) := fun live =>
      Sim.ite (fun _ => Sim.ok trivial) fun _ => sim_findStart W h m _ _
    cases st with
    | none => exact step false
    | some k => exact Sim.bind (Sim.any _) fun n _ => step _

theorem small_hull (h : Small M s) (e : Option ℕ) : Small M { s with hull := e } := ⟨h.he, h.nt, h.hl, h.tl, h.hh, h.ln⟩

theorem small_remove {n : Option ℕ} {r : St × Option ℕ} (h : Small M s) (e : remove s n = .ok r) : Small M r.1 := by
  unfold remove at e
  obtain ⟨_, _, e⟩ := Res.bind_eq_ok.mp e
  obtain ⟨s1, e1, e⟩ := Res.bind_eq_ok.mp e
  obtain ⟨_, _, e⟩ := Res.bind_eq_ok.mp e
  obtain ⟨s2, e2, e⟩ := Res.bind_eq_ok.mp e
  obtain ⟨s3, e3, e⟩ := Res.bind_eq_ok.mp e
  obtain ⟨_, _, e⟩ := Res.bind_eq_ok.mp e
  injection e with e
  subst e
  exact small_keep (small_keep (small_keep h e1) e2) e3

theorem small_newNode {i : ℤ} {p : Option ℕ} {r : St × Option ℕ} (h : Small M s) (e : newNode s i p = .ok r) : Small M r.1 := by
  unfold newNode at e
  obtain ⟨_, _, e⟩ := Res.bind_eq_ok.mp e
  obtain ⟨s1, e1, e⟩ := Res.bind_eq_ok.mp e
  have h1 := small_keep h e1
  split at e
  · obtain ⟨s2, e2, e⟩ := Res.bind_eq_ok.mp e
    obtain ⟨s3, e3, e⟩ := Res.bind_eq_ok.mp e
    injection e with e
    subst e
    exact small_keep (small_keep h1 e2) e3
  · obtain ⟨_, _, e⟩ := Res.bind_eq_ok.mp e
    obtain ⟨s2, e2, e⟩ := Res.bind_eq_ok.mp e
    obtain ⟨s3, e3, e⟩ := Res.bind_eq_ok.mp e
    obtain ⟨_, _, e⟩ := Res.bind_eq_ok.mp e
    obtain ⟨s4, e4, e⟩ := Res.bind_eq_ok.mp e
    obtain ⟨s5, e5, e⟩ := Res.bind_eq_ok.mp e
    injection e with e
    subst e
    exact small_keep (small_keep (small_keep (small_keep h1 e2) e3) e4) e5

theorem small_hashEdge {e : Option ℕ} (h : Small M s) (e1 : hashEdge g Vs s e = .ok s') : Small M s' := by
  unfold hashEdge at e1
  obtain ⟨_, _, e1⟩ := Res.bind_eq_ok.mp e1
  obtain ⟨_, _, e1⟩ := Res.bind_eq_ok.mp e1
  obtain ⟨t, e2, e1⟩ := Res.bind_eq_ok.mp e1
  injection e1 with e1
  subst e1
  obtain ⟨_, _, rfl⟩ := goSet_lt e2
  exact ⟨h.he, h.nt, h.hl, h.tl, by show ((s.hash.set _ e).length : ℤ) ≤ M; rw [List.length_set]; exact h.hh, h.ln⟩

theorem sim_walkForward (W : Exact M w) (lf : ℕ) (i : ℤ) (p : P) : ∀ (f : ℕ) (s : St) (q : Option ℕ), Small M s →
    Sim (walkForwardW w g Vs lf i p f s q) (walkForward g Vs lf i p f s q) (Small M)
  | 0, _, _, _ => ⟨rfl, fun _ e => by cases e⟩
  | f + 1, s, q, h => by
    unfold walkForwardW walkForward
    refine Sim.bind (Q := fun n => -1 ≤ n.t) (Sim.same fun _ e => small_deref h e) fun nq k1 => ?_
    refine Sim.bind (Sim.any _) fun a _ => Sim.bind (Sim.any _) fun nn _ => Sim.bind (Sim.any _) fun b _ => ?_
    refine Sim.ite (fun _ => ?_) fun _ => Sim.ok h
    refine Sim.bind (Q := fun n => -1 ≤ n.t) (Sim.same fun _ e => small_deref h e) fun np k2 => ?_
    refine Sim.bind (sim_addTriangle W h k2 (by omega) k1) fun r k3 => ?_
    obtain ⟨s1, t⟩ := r
    obtain ⟨k3, t0, t1⟩ := k3
    simp only [W (t + 2) (by omega) (by omega)]
    refine Sim.bind (sim_legalize W lf s1 (t+2) k3) fun r k4 => ?_
    obtain ⟨s2, r⟩ := r
    refine Sim.bind (Sim.any _) fun nq _ => ?_
    refine Sim.bind (Q := Small M) (Sim.same fun _ e => small_mod k4.1 (fun _ _ => k4.2) e) fun s3 k5 => ?_
    refine Sim.bind (Q := fun r => Small M r.1) (Sim.same fun _ e => small_remove k5 e) fun r k6 => ?_
    obtain ⟨s4, hd⟩ := r
    refine Sim.bind (Sim.any _) fun nq _ => ?_
    exact sim_walkForward W lf i p f _ _ (small_hull k6 hd)

theorem sim_walkBackward (W : Exact M w) (lf : ℕ) (i : ℤ) (p : P) : ∀ (f : ℕ) (s : St) (q : Option ℕ), Small M s →
    Sim (walkBackwardW w g Vs lf i p f s q) (walkBackward g Vs lf i p f s q) (Small M)
  | 0, _, _, _ => ⟨rfl, fun _ e => by cases e⟩
  | f + 1, s, q, h => by
    unfold walkBackwardW walkBackward
    refine Sim.bind (Q := fun n => -1 ≤ n.t) (Sim.same fun _ e => small_deref h e) fun nq k1 => ?_
    refine Sim.bind (Q := fun n => -1 ≤ n.t) (Sim.same fun _ e => small_deref h e) fun np k2 => ?_
    refine Sim.bind (Sim.any _) fun a _ => Sim.bind (Sim.any _) fun b _ => ?_
    refine Sim.ite (fun _ => ?_) fun _ => Sim.ok h
    refine Sim.bind (sim_addTriangle W h (by omega) k1 k2) fun r k3 => ?_
    obtain ⟨s1, t⟩ := r
    obtain ⟨k3, t0, t1⟩ := k3
    simp only [W (t + 2) (by omega) (by omega)]
    refine Sim.bind (sim_legalize W lf s1 (t+2) k3) fun r k4 => ?_
    obtain ⟨s2, r⟩ := r
    refine Sim.bind (Sim.any _) fun nq _ => ?_
    refine Sim.bind (Q := Small M) (Sim.same fun _ e => small_mod k4.1 (fun _ _ => by show -1 ≤ t; omega) e) fun s3 k5 => ?_
    refine Sim.bind (Q := fun r => Small M r.1) (Sim.same fun _ e => small_remove k5 e) fun r k6 => ?_
    obtain ⟨s4, hd⟩ := r
    refine Sim.bind (Sim.any _) fun nq _ => ?_
    exact sim_walkBackward W lf i p f _ _ (small_hull k6 hd)

theorem sim_insertPoint (W : Exact M w) (f : ℕ) (h : Small M s) (i : ℤ) (p : P) : Sim (insertPointW w g Vs f s i p) (insertPoint g Vs f s i p) (Small M) := by
  unfold insertPointW insertPoint
  refine Sim.bind (sim_findStart W h _ _ _) fun start _ => ?_
  refine Sim.bind (Sim.any _) fun ns _ => ?_
  refine Sim.bind (Sim.any _) fun e _ => ?_
  cases e with
  | none => exact Sim.ok h
  | some e =>
    refine Sim.bind (Q := fun n => -1 ≤ n.t) (Sim.same fun _ e => small_deref h e) fun ne k1 => ?_
    refine Sim.bind (Sim.any _) fun nn _ => ?_
    refine Sim.bind (sim_addTriangle W h (by omega) (by omega) k1) fun r k3 => ?_
    obtain ⟨s1, t⟩ := r
    obtain ⟨k3, t0, t1⟩ := k3
    simp only [W (t + 2) (by omega) (by omega)]
    refine Sim.bind (Q := Small M) (Sim.same fun _ e => small_mod k3 (fun _ _ => by show -1 ≤ t; omega) e) fun s2 k4 => ?_
    refine Sim.bind (Q := fun r => Small M r.1) (Sim.same fun _ e => small_newNode k4 e) fun r k5 => ?_
    obtain ⟨s3, e⟩ := r
    refine Sim.bind (sim_legalize W f s3 (t+2) k5) fun r k6 => ?_
    obtain ⟨s4, r⟩ := r
    refine Sim.bind (Q := Small M) (Sim.same fun _ e => small_mod k6.1 (fun _ _ => k6.2) e) fun s5 k7 => ?_
    refine Sim.bind (Sim.any _) fun ne _ => ?_
    refine Sim.bind (sim_walkForward W f i p f _ _ k7) fun s6 k8 => ?_
    have fin : ∀ s7, Small M s7 → Sim (hashEdge g Vs s7 e >>= fun s => s.deref e >>= fun ne => hashEdge g Vs s ne.prev)
        (hashEdge g Vs s7 e >>= fun s => s.deref e >>= fun ne => hashEdge g Vs s ne.prev) (Small M) := fun s7 k9 =>
      Sim.bind (Q := Small M) (Sim.same fun _ e => small_hashEdge k9 e) fun s8 k10 => Sim.bind (Sim.any _) fun ne _ => Sim.same fun _ e => small_hashEdge k10 e
    exact Sim.ite (fun _ => Sim.bind (Sim.any _) fun ne _ => Sim.bind (sim_walkBackward W f i p f _ _ k8) fin) fun _ => fin s6 k8

theorem sim_mainLoop (W : Exact M w) (f : ℕ) (i0 i1 i2 : ℤ) : ∀ (ids : List ℤ) (pp : Option P) (s : St), Small M s →
    Sim (mainLoopW w g Vs f i0 i1 i2 ids pp s) (mainLoop g Vs f i0 i1 i2 ids pp s) (Small M)
  | [], _, _, h => Sim.ok h
  | i :: ids, pp, s, h => by
    unfold mainLoopW mainLoop
    refine Sim.bind (Sim.any _) fun p _ => ?_
    refine Sim.ite (fun _ => sim_mainLoop W f i0 i1 i2 ids _ s h) fun _ => ?_
    refine Sim.ite (fun _ => sim_mainLoop W f i0 i1 i2 ids _ s h) fun _ => ?_
    refine Sim.bind (sim_insertPoint W f h i p) fun s1 k1 => ?_
    exact sim_mainLoop W f i0 i1 i2 ids _ s1 k1

theorem sim_initState (W : Exact M w) (hn : 6 * (Vs.length : ℤ) ≤ M) {m : ℕ} (hm : (m : ℤ) ≤ M) (i0 i1 i2 : ℤ) :
    Sim (initStateW w g Vs m i0 i1 i2) (initState g Vs m i0 i1 i2) (Small M) := by
  have h0 : Small M ⟨[], [], 0, none, List.replicate m none, List.replicate Vs.length Node.zero⟩ :=
    ⟨fun x hx => (by cases hx), fun n hn => (by rw [List.eq_of_mem_replicate hn]; show (-1:ℤ) ≤ 0; omega), (by show ((0:ℕ):ℤ) ≤ M; omega), (by show ((0:ℕ):ℤ) ≤ M; omega),
      (by show ((List.replicate m (none : Option ℕ)).length : ℤ) ≤ M; rw [List.length_replicate]; exact hm), le_rfl⟩
  unfold initStateW initState
  refine Sim.bind (Q := fun r => Small M r.1) (Sim.same fun _ e => small_newNode h0 e) fun r k1 => ?_
  obtain ⟨s1, e1⟩ := r
  refine Sim.bind (Q := Small M) (Sim.same fun _ e => small_mod k1 (fun _ _ => by show (-1:ℤ) ≤ 0; omega) e) fun s2 k2 => ?_
  refine Sim.bind (Q := Small M) (Sim.same fun _ e => small_hashEdge k2 e) fun s3 k3 => ?_
  refine Sim.bind (Q := fun r => Small M r.1) (Sim.same fun _ e => small_newNode k3 e) fun r k1 => ?_
  obtain ⟨s1, e1⟩ := r
  refine Sim.bind (Q := Small M) (Sim.same fun _ e => small_mod k1 (fun _ _ => by show (-1:ℤ) ≤ 1; omega) e) fun s2 k2 => ?_
  refine Sim.bind (Q := Small M) (Sim.same fun _ e => small_hashEdge k2 e) fun s3 k3 => ?_
  refine Sim.bind (Q := fun r => Small M r.1) (Sim.same fun _ e => small_newNode k3 e) fun r k1 => ?_
  obtain ⟨s1, e1⟩ := r
  refine Sim.bind (Q := Small M) (Sim.same fun _ e => small_mod k1 (fun _ _ => by show (-1:ℤ) ≤ 2; omega) e) fun s2 k2 => ?_
  refine Sim.bind (Q := Small M) (Sim.same fun _ e => small_hashEdge k2 e) fun s3 k3 => ?_
  simp only [W (2 * (Vs.length : ℤ)) (by omega) (by omega), W (2 * (Vs.length : ℤ) - 5) (by omega) (by omega), W ((2 * (Vs.length : ℤ) - 5) * 3) (by omega) (by omega)]
  have e : ((2 * (Vs.length : ℤ) - 5) * 3 < 0) = (2 * (Vs.length : ℤ) - 5 < 0) := by apply propext; omega
  simp only [e]
  refine Sim.ite (fun _ => ⟨rfl, fun _ e => by cases e⟩) fun h1 => ?_
  have hl : ((List.replicate ((2 * (Vs.length : ℤ) - 5) * 3).toNat (0:ℤ)).length : ℤ) ≤ M := by rw [List.length_replicate]; omega
  have h4 : Small M { s3 with hull := e1, triangles := List.replicate ((2 * (Vs.length : ℤ) - 5) * 3).toNat 0,
                              halfedges := List.replicate ((2 * (Vs.length : ℤ) - 5) * 3).toNat 0 } :=
    ⟨fun x hx => (by rw [List.eq_of_mem_replicate hx]; omega), k3.nt, hl, hl, k3.hh, k3.ln⟩
  exact Sim.bind (sim_addTriangle W h4 le_rfl le_rfl le_rfl) fun r k4 => Sim.ok k4.1

theorem core_wrap (W : Exact M w) (hn : 6 * (Vs.length : ℤ) ≤ M) {m : ℕ} (hm : (m : ℤ) ≤ M) (f : ℕ) (i0 i1 i2 : ℤ) (ids : List ℤ) :
    triangulateCoreW w g Vs f m i0 i1 i2 ids = triangulateCore g Vs f m i0 i1 i2 ids := by
  unfold triangulateCoreW triangulateCore
  refine (Sim.bind (R := fun _ => True) (sim_initState (g := g) (Vs := Vs) W hn hm i0 i1 i2) fun s1 k1 => ?_).1
  refine Sim.bind (sim_mainLoop W f i0 i1 i2 ids none s1 k1) fun s2 _ => Sim.any _

end Verif.Proofs
