import Verif.Proofs.Legalize
/-!
# `addTriangle`, `newNode`, `remove` (triangulator.go:259-269, node.go:10-30)
-/
namespace Verif.Proofs
open Verif Verif.Tri2

/-- a free slot with the label `y → x`, or none -/
def Port (T : ℕ) (tr he : ℕ → ℤ) (a x y : ℤ) : Prop :=
  a = -1 ∨ ∃ j : ℕ, a = j ∧ j < 3*T ∧ he j = -1 ∧ tr j = y ∧ tr (nx j) = x

/-- the tables after adding the triangle `x0 x1 x2` with the partners `a b c` -/
structure Added (T : ℕ) (tr he tr' he' : ℕ → ℤ) (x0 x1 x2 a b c : ℤ) : Prop where
  t0 : tr' (3*T) = x0
  t1 : tr' (3*T+1) = x1
  t2 : tr' (3*T+2) = x2
  told : ∀ k < 3*T, tr' k = tr k
  h0 : he' (3*T) = a
  h1 : he' (3*T+1) = b
  h2 : he' (3*T+2) = c
  ha : ∀ k < 3*T, (k:ℤ) = a → he' k = (3*T : ℕ)
  hb : ∀ k < 3*T, (k:ℤ) = b → he' k = (3*T+1 : ℕ)
  hc : ∀ k < 3*T, (k:ℤ) = c → he' k = (3*T+2 : ℕ)
  hold : ∀ k < 3*T, (k:ℤ) ≠ a → (k:ℤ) ≠ b → (k:ℤ) ≠ c → he' k = he k

theorem nx_T0 (T : ℕ) : nx (3*T) = 3*T+1 := by unfold nx; omega
theorem nx_T1 (T : ℕ) : nx (3*T+1) = 3*T+2 := by unfold nx; omega
theorem nx_T2 (T : ℕ) : nx (3*T+2) = 3*T := by unfold nx; omega
theorem pv_T0 (T : ℕ) : pv (3*T) = 3*T+2 := by unfold pv; omega
theorem pv_T1 (T : ℕ) : pv (3*T+1) = 3*T := by unfold pv; omega
theorem pv_T2 (T : ℕ) : pv (3*T+2) = 3*T+1 := by unfold pv; omega

theorem new_slot {k T : ℕ} (h : k < 3*(T+1)) (h' : ¬ k < 3*T) : k = 3*T ∨ k = 3*T+1 ∨ k = 3*T+2 := by omega

theorem mesh_add {n T : ℕ} {tr he tr' he' : ℕ → ℤ} {x0 x1 x2 a b c : ℤ} (M : MeshF n T tr he)
    (A : Added T tr he tr' he' x0 x1 x2 a b c) (r0 : 0 ≤ x0 ∧ x0 < n) (r1 : 0 ≤ x1 ∧ x1 < n) (r2 : 0 ≤ x2 ∧ x2 < n)
    (d01 : x0 ≠ x1) (d12 : x1 ≠ x2) (d20 : x2 ≠ x0)
    (pa : Port T tr he a x0 x1) (pb : Port T tr he b x1 x2) (pc : Port T tr he c x2 x0) : MeshF n (T+1) tr' he' := by
  have tnx : ∀ k < 3*T, tr' (nx k) = tr (nx k) := fun k hk => A.told _ (nx_lt hk)
  refine ⟨?_, ?_, ?_⟩
  · intro k hk
    by_cases h : k < 3*T
    · rw [A.told k h]; exact M.rng k h
    · rcases new_slot hk h with rfl | rfl | rfl
      · rw [A.t0]; exact r0
      · rw [A.t1]; exact r1
      · rw [A.t2]; exact r2
  · intro k hk
    by_cases h : k < 3*T
    · rw [A.told k h, tnx k h]; exact M.dst k h
    · rcases new_slot hk h with rfl | rfl | rfl
      · rw [nx_T0, A.t0, A.t1]; exact d01
      · rw [nx_T1, A.t1, A.t2]; exact d12
      · rw [nx_T2, A.t2, A.t0]; exact d20
  · intro k hk
    by_cases h : k < 3*T
    · by_cases ka : (k:ℤ) = a
      · right
        refine ⟨3*T, by omega, A.ha k h ka, by rw [A.h0, ka], ?_⟩
        rcases pa with h' | ⟨j, e1, e2, e3, e4, e5⟩
        · omega
        · have : j = k := by omega
          subst this
          rw [nx_T0, A.t0, A.t1, tnx _ h, A.told _ h]; exact ⟨e5.symm, e4.symm⟩
      by_cases kb : (k:ℤ) = b
      · right
        refine ⟨3*T+1, by omega, A.hb k h kb, by rw [A.h1, kb], ?_⟩
        rcases pb with h' | ⟨j, e1, e2, e3, e4, e5⟩
        · omega
        · have : j = k := by omega
          subst this
          rw [nx_T1, A.t1, A.t2, tnx _ h, A.told _ h]; exact ⟨e5.symm, e4.symm⟩
      by_cases kc : (k:ℤ) = c
      · right
        refine ⟨3*T+2, by omega, A.hc k h kc, by rw [A.h2, kc], ?_⟩
        rcases pc with h' | ⟨j, e1, e2, e3, e4, e5⟩
        · omega
        · have : j = k := by omega
          subst this
          rw [nx_T2, A.t2, A.t0, tnx _ h, A.told _ h]; exact ⟨e5.symm, e4.symm⟩
      rw [A.hold k h ka kb kc, A.told k h, tnx k h]
      rcases M.inv k h with h1 | ⟨j, j1, j2, j3, j4, j5⟩
      · exact Or.inl h1
      · right
        refine ⟨j, by omega, j2, ?_, by rw [A.told j j1]; exact j4, by rw [tnx j j1]; exact j5⟩
        rw [A.hold j j1]
        · exact j3
        · intro e
          rcases pa with h' | ⟨j', e1, e2, e3, _⟩
          · omega
          · have : j' = j := by omega
            subst this; omega
        · intro e
          rcases pb with h' | ⟨j', e1, e2, e3, _⟩
          · omega
          · have : j' = j := by omega
            subst this; omega
        · intro e
          rcases pc with h' | ⟨j', e1, e2, e3, _⟩
          · omega
          · have : j' = j := by omega
            subst this; omega
    · rcases new_slot hk h with rfl | rfl | rfl
      · rw [A.h0, nx_T0, A.t0, A.t1]
        rcases pa with h' | ⟨j, e1, e2, e3, e4, e5⟩
        · exact Or.inl h'
        · right
          exact ⟨j, by omega, e1, A.ha j e2 e1.symm, by rw [A.told j e2, e4], by rw [tnx j e2, e5]⟩
      · rw [A.h1, nx_T1, A.t1, A.t2]
        rcases pb with h' | ⟨j, e1, e2, e3, e4, e5⟩
        · exact Or.inl h'
        · right
          exact ⟨j, by omega, e1, A.hb j e2 e1.symm, by rw [A.told j e2, e4], by rw [tnx j e2, e5]⟩
      · rw [A.h2, nx_T2, A.t2, A.t0]
        rcases pc with h' | ⟨j, e1, e2, e3, e4, e5⟩
        · exact Or.inl h'
        · right
          exact ⟨j, by omega, e1, A.hc j e2 e1.symm, by rw [A.told j e2, e4], by rw [tnx j e2, e5]⟩

theorem port_lt {T : ℕ} {tr he : ℕ → ℤ} {a x y : ℤ} (h : Port T tr he a x y) : a = -1 ∨ ∃ j : ℕ, a = j ∧ j < 3*T := by
  rcases h with h | ⟨j, h1, h2, _⟩
  · exact Or.inl h
  · exact Or.inr ⟨j, h1, h2⟩

/-- two ports with different labels are different slots -/
theorem port_ne {T : ℕ} {tr he : ℕ → ℤ} {a x y a' x' y' : ℤ} (h : Port T tr he a x y) (h' : Port T tr he a' x' y') (hl : y ≠ y') :
    a = -1 ∨ a' = -1 ∨ a ≠ a' := by
  rcases h with h | ⟨j, h1, _, _, h4, _⟩
  · exact Or.inl h
  rcases h' with h' | ⟨j', h1', _, _, h4', _⟩
  · exact Or.inr (Or.inl h')
  right; right
  intro e
  have : j = j' := by omega
  subst this
  exact hl (by rw [← h4, ← h4'])

theorem addTriangle_ok {c n T : ℕ} {s : St} (S : Shape c n T s) (hcap : 3*(T+1) ≤ c) {x0 x1 x2 a b d : ℤ}
    (d01 : x0 ≠ x1) (d12 : x1 ≠ x2) (d20 : x2 ≠ x0)
    (pa : Port T (tr s) (he s) a x0 x1) (pb : Port T (tr s) (he s) b x1 x2) (pd : Port T (tr s) (he s) d x2 x0) :
    ∃ s', addTriangle s x0 x1 x2 a b d = .ok (s', ((3*T : ℕ) : ℤ)) ∧ Shape c n (T+1) s' ∧
      Added T (tr s) (he s) (tr s') (he s') x0 x1 x2 a b d ∧ s'.hull = s.hull ∧ s'.hash = s.hash ∧ s'.nodes = s.nodes := by
  obtain ⟨htl, hhl, hnl, hlen, _⟩ := S
  have na := port_lt pa
  have nb := port_lt pb
  have nd' := port_lt pd
  have nab := port_ne pa pb d12
  have nbd := port_ne pb pd d20
  have nad := port_ne pa pd d01.symm
  unfold addTriangle
  simp only [hlen]
  rw [goSet_eq (n := 3*T) rfl (by omega), Res.bind_ok, goSet_eq (n := 3*T+1) (by push_cast; ring) (by simp; omega), Res.bind_ok,
    goSet_eq (n := 3*T+2) (by push_cast; ring) (by simp; omega), Res.bind_ok]
  set u := ((s.triangles.set (3*T) x0).set (3*T+1) x1).set (3*T+2) x2 with hu
  have hul : u.length = c := by simp [hu, htl]
  obtain ⟨H1, l1, hl1, hv1⟩ := link_ok (s := { s with triangles := u, trianglesLen := ((3*T : ℕ) : ℤ) }) (a := 3*T) (z := ((3*T : ℕ) : ℤ)) (b := a) rfl
    (by show _ < s.halfedges.length; omega) (by show _ ∨ ∃ j : ℕ, _ ∧ j < s.halfedges.length; rcases na with h | ⟨j, h1, h2⟩; exacts [Or.inl h, Or.inr ⟨j, h1, by omega⟩])
  replace hl1 : H1.length = c := by rw [hl1]; exact hhl
  obtain ⟨H2, l2, hl2, hv2⟩ := link_ok (s := { s with triangles := u, halfedges := H1, trianglesLen := ((3*T : ℕ) : ℤ) }) (a := 3*T+1)
    (z := ((3*T : ℕ) : ℤ) + 1) (b := b) (by push_cast; ring)
    (by show _ < H1.length; omega) (by show _ ∨ ∃ j : ℕ, _ ∧ j < H1.length; rcases nb with h | ⟨j, h1, h2⟩; exacts [Or.inl h, Or.inr ⟨j, h1, by omega⟩])
  replace hl2 : H2.length = c := by rw [hl2]; exact hl1
  obtain ⟨H3, l3, hl3, hv3⟩ := link_ok (s := { s with triangles := u, halfedges := H2, trianglesLen := ((3*T : ℕ) : ℤ) }) (a := 3*T+2)
    (z := ((3*T : ℕ) : ℤ) + 2) (b := d) (by push_cast; ring)
    (by show _ < H2.length; omega) (by show _ ∨ ∃ j : ℕ, _ ∧ j < H2.length; rcases nd' with h | ⟨j, h1, h2⟩; exacts [Or.inl h, Or.inr ⟨j, h1, by omega⟩])
  replace hl3 : H3.length = c := by rw [hl3]; exact hl2
  rw [l1, Res.bind_ok, l2, Res.bind_ok, l3, Res.bind_ok]
  refine ⟨_, rfl, ⟨hul, hl3, hnl, by show ((3*T : ℕ) : ℤ) + 3 = _; push_cast; ring, by omega⟩, ?_, rfl, rfl, rfl⟩
  have hh : ∀ k, H3.getD k 0 = linkF (linkF (linkF (he s) (3*T) a) (3*T+1) b) (3*T+2) d k := by
    intro k
    rw [hv3]
    unfold linkF
    rw [show he { s with triangles := u, halfedges := H2, trianglesLen := ((3*T : ℕ) : ℤ) } k = H2.getD k 0 from rfl, hv2]
    unfold linkF
    rw [show he { s with triangles := u, halfedges := H1, trianglesLen := ((3*T : ℕ) : ℤ) } k = H1.getD k 0 from rfl, hv1]
    unfold linkF
    rfl
  have tt : ∀ k, u.getD k 0 = if k = 3*T+2 then x2 else if k = 3*T+1 then x1 else if k = 3*T then x0 else tr s k := by
    intro k
    rw [hu, getD_set' k (by simp; omega), getD_set' k (by simp; omega), getD_set' k (by omega)]
    rfl
  have na' : a < (3*T : ℕ) := by rcases na with h | ⟨j, h1, h2⟩ <;> omega
  have nb' : b < (3*T : ℕ) := by rcases nb with h | ⟨j, h1, h2⟩ <;> omega
  have nd'' : d < (3*T : ℕ) := by rcases nd' with h | ⟨j, h1, h2⟩ <;> omega
  clear na nb nd' pa pb pd hv1 hv2 hv3 l1 l2 l3
  refine ⟨?_, ?_, ?_, ?_, ?_, ?_, ?_, ?_, ?_, ?_, ?_⟩
  · show u.getD _ 0 = _; rw [tt]; split_ifs <;> first | rfl | omega
  · show u.getD _ 0 = _; rw [tt]; split_ifs <;> first | rfl | omega
  · show u.getD _ 0 = _; rw [tt]; split_ifs <;> first | rfl | omega
  · intro k hk; show u.getD _ 0 = _; rw [tt]; split_ifs <;> first | rfl | omega
  · show H3.getD _ 0 = _; rw [hh]; unfold linkF; split_ifs <;> first | rfl | omega
  · show H3.getD _ 0 = _; rw [hh]; unfold linkF; split_ifs <;> first | rfl | omega
  · show H3.getD _ 0 = _; rw [hh]; unfold linkF; split_ifs <;> first | rfl | omega
  · intro k hk hka; show H3.getD _ 0 = _; rw [hh]; unfold linkF; split_ifs <;> first | rfl | omega
  · intro k hk hka; show H3.getD _ 0 = _; rw [hh]; unfold linkF; split_ifs <;> first | rfl | omega
  · intro k hk hka; show H3.getD _ 0 = _; rw [hh]; unfold linkF; split_ifs <;> first | rfl | omega
  · intro k hk h1 h2 h3; show H3.getD _ 0 = _; rw [hh]; unfold linkF; split_ifs <;> first | rfl | omega

/-! ## The ring operations -/

theorem path_congr' {nd nd' : ℕ → Node} (l : List ℕ) (z : ℕ) : ∀ x, (∀ y ∈ x :: l, (nd' y).next = (nd y).next) →
    (∀ y ∈ l ++ [z], (nd' y).prev = (nd y).prev) → Path nd x l z → Path nd' x l z := by
  induction l with
  | nil =>
    intro x h1 h2 h
    exact ⟨by rw [h1 x (by simp)]; exact h.1, by rw [h2 z (by simp)]; exact h.2⟩
  | cons a l ih =>
    intro x h1 h2 h
    refine ⟨⟨by rw [h1 x (by simp)]; exact h.1.1, by rw [h2 a (by simp)]; exact h.1.2⟩, ih a ?_ ?_ h.2⟩
    · intro y hy; exact h1 y (List.mem_cons_of_mem _ hy)
    · intro y hy; exact h2 y (List.mem_cons_of_mem _ hy)

/-- the ring can be read from any of its nodes -/
theorem rot {nd : ℕ → Node} {h x : ℕ} {l : List ℕ} (hp : Path nd h l h) (hx : x ∈ h :: l) :
    ∃ l', (x :: l').Perm (h :: l) ∧ Path nd x l' x := by
  rcases List.mem_cons.mp hx with rfl | hx
  · exact ⟨l, List.Perm.refl _, hp⟩
  · obtain ⟨pre, post, rfl⟩ := List.append_of_mem hx
    rw [path_append] at hp
    refine ⟨post ++ h :: pre, ?_, (path_append _ _ _ _ _ _).mpr ⟨hp.2, hp.1⟩⟩
    have : x :: (post ++ h :: pre) = (x :: post) ++ (h :: pre) := rfl
    rw [this]
    exact List.perm_append_comm

/-- every node has a successor and a predecessor in the ring -/
theorem path_next {nd : ℕ → Node} {h x : ℕ} {l : List ℕ} (hp : Path nd h l h) (hx : x ∈ h :: l) :
    ∃ y ∈ h :: l, Lk nd x y := by
  obtain ⟨l', hl, hp'⟩ := rot hp hx
  cases l' with
  | nil => exact ⟨x, hx, hp'⟩
  | cons y l' => exact ⟨y, hl.mem_iff.mp (by simp), hp'.1⟩

theorem path_prev {nd : ℕ → Node} {h x : ℕ} {l : List ℕ} (hp : Path nd h l h) (hx : x ∈ h :: l) :
    ∃ y ∈ h :: l, Lk nd y x := by
  obtain ⟨l', hl, hp'⟩ := rot hp hx
  rcases List.eq_nil_or_concat l' with rfl | ⟨m, y, rfl⟩
  · exact ⟨x, hx, hp'⟩
  · rw [List.concat_eq_append, path_append] at hp'
    exact ⟨y, hl.mem_iff.mp (by simp), hp'.2⟩

theorem path_insert {nd nd' : ℕ → Node} {e i : ℕ} {l : List ℕ} (hp : Path nd e l e) (hn : (e :: l).Nodup) (hi : i ∉ e :: l)
    (h1 : ∀ x, (nd' x).next = if x = e then some i else if x = i then (nd e).next else (nd x).next)
    (h2 : ∀ x, (nd' x).prev = if some x = (nd e).next then some i else if x = i then some e else (nd x).prev) :
    Path nd' e (i :: l) e := by
  have hie : i ≠ e := by rintro rfl; exact hi (by simp)
  cases l with
  | nil =>
    have e1 := hp.1
    have c : some i ≠ (nd e).next := by rw [e1]; intro h; injection h with h; exact hie h
    refine ⟨⟨by rw [h1, if_pos rfl], by rw [h2, if_neg c, if_pos rfl]⟩, by rw [h1, if_neg hie, if_pos rfl, e1], by rw [h2, e1, if_pos rfl]⟩
  | cons y l =>
    have e1 := hp.1.1
    have hiy : i ≠ y := by rintro rfl; exact hi (by simp)
    have c : some i ≠ (nd e).next := by rw [e1]; intro h; injection h with h; exact hiy h
    refine ⟨⟨by rw [h1, if_pos rfl], by rw [h2, if_neg c, if_pos rfl]⟩, ⟨by rw [h1, if_neg hie, if_pos rfl, e1], by rw [h2, e1, if_pos rfl]⟩, ?_⟩
    refine path_congr' l e y ?_ ?_ hp.2
    · intro z hz
      have c1 : z ≠ e := by rintro rfl; exact (List.nodup_cons.mp hn).1 hz
      have c2 : z ≠ i := by rintro rfl; exact hi (List.mem_cons_of_mem _ hz)
      rw [h1, if_neg c1, if_neg c2]
    · intro z hz
      have c2 : z ≠ i := by
        rintro rfl
        rcases List.mem_append.mp hz with hz | hz
        · exact hi (by simp [hz])
        · simp only [List.mem_cons, List.not_mem_nil, or_false] at hz; exact hie hz
      have c1 : some z ≠ (nd e).next := by
        rw [e1]; intro h; injection h with h
        subst h
        rcases List.mem_append.mp hz with hz | hz
        · exact (List.nodup_cons.mp (List.nodup_cons.mp hn).2).1 hz
        · simp only [List.mem_cons, List.not_mem_nil, or_false] at hz
          subst hz
          exact (List.nodup_cons.mp hn).1 (by simp)
      rw [h2, if_neg c1, if_neg c2]

theorem path_remove {nd nd' : ℕ → Node} {w q : ℕ} {l : List ℕ} (hp : Path nd w (q :: l) w) (hn : (w :: q :: l).Nodup)
    (h1 : ∀ x, (nd' x).next = if x = w then (nd q).next else (nd x).next)
    (h2 : ∀ x, (nd' x).prev = if some x = (nd q).next then some w else (nd x).prev) :
    Path nd' w l w := by
  cases l with
  | nil =>
    have e1 := hp.2.1
    exact ⟨by rw [h1, if_pos rfl, e1], by rw [h2, e1, if_pos rfl]⟩
  | cons y l =>
    have e1 := hp.2.1.1
    refine ⟨⟨by rw [h1, if_pos rfl, e1], by rw [h2, e1, if_pos rfl]⟩, ?_⟩
    refine path_congr' l w y ?_ ?_ hp.2.2
    · intro z hz
      have c1 : z ≠ w := by rintro rfl; exact (List.nodup_cons.mp hn).1 (List.mem_cons_of_mem _ hz)
      rw [h1, if_neg c1]
    · intro z hz
      have c1 : some z ≠ (nd q).next := by
        rw [e1]; intro h; injection h with h
        subst h
        rcases List.mem_append.mp hz with hz | hz
        · exact (List.nodup_cons.mp (List.nodup_cons.mp (List.nodup_cons.mp hn).2).2).1 hz
        · simp only [List.mem_cons, List.not_mem_nil, or_false] at hz
          subst hz
          exact (List.nodup_cons.mp hn).1 (by simp)
      rw [h2, if_neg c1]

/-- `newNode(nodes, i, e)` with a non-nil `e` whose successor is `y` -/
theorem newNode_ok {s : St} {e i y : ℕ} {z : ℤ} (hz : z = i) (he' : e < s.nodes.length) (hi : i < s.nodes.length) (hy : y < s.nodes.length)
    (hie : i ≠ e) (hiy : i ≠ y) (hnext : (nd s e).next = some y) :
    ∃ N, newNode s z (some e) = .ok ({ s with nodes := N }, some i) ∧ N.length = s.nodes.length ∧
      (∀ x, (N.getD x Node.zero).next = if x = e then some i else if x = i then (nd s e).next else (nd s x).next) ∧
      (∀ x, (N.getD x Node.zero).prev = if some x = (nd s e).next then some i else if x = i then some e else (nd s x).prev) ∧
      (∀ x, (N.getD x Node.zero).t = (nd s x).t) ∧
      (∀ x, (N.getD x Node.zero).i = if x = i then (i:ℤ) else (nd s x).i) := by
  subst hz
  unfold newNode
  rw [goGet_eq (n := i) rfl (getD_get (d := Node.zero) hi), Res.bind_ok, Int.toNat_natCast]
  dsimp only
  rw [modNode_ok hi, Res.bind_ok]
  set s1 : St := { s with nodes := s.nodes.set i { nd s i with i := (i:ℤ) } } with hs1
  have l1 : s1.nodes.length = s.nodes.length := by simp [hs1]
  have n1 : ∀ x, nd s1 x = if x = i then { nd s i with i := (i:ℤ) } else nd s x := fun x => nd_set hi _ x
  rw [deref_ok (by rw [l1]; exact he'), Res.bind_ok, modNode_ok (by rw [l1]; exact hi), Res.bind_ok]
  have f1 : (nd s1 e).next = some y := by rw [n1, if_neg hie.symm]; exact hnext
  rw [f1]
  set s2 : St := { s1 with nodes := s1.nodes.set i { nd s1 i with next := some y } } with hs2
  have l2 : s2.nodes.length = s.nodes.length := by simp [hs2, l1]
  have n2 : ∀ x, nd s2 x = if x = i then { nd s1 i with next := some y } else nd s1 x := fun x => nd_set (by rw [l1]; exact hi) _ x
  rw [modNode_ok (by rw [l2]; exact hi), Res.bind_ok]
  set s3 : St := { s2 with nodes := s2.nodes.set i { nd s2 i with prev := some e } } with hs3
  have l3 : s3.nodes.length = s.nodes.length := by simp [hs3, l2]
  have n3 : ∀ x, nd s3 x = if x = i then { nd s2 i with prev := some e } else nd s2 x := fun x => nd_set (by rw [l2]; exact hi) _ x
  rw [deref_ok (by rw [l3]; exact he'), Res.bind_ok]
  have f3 : (nd s3 e).next = some y := by rw [n3, if_neg hie.symm, n2, if_neg hie.symm]; exact f1
  rw [f3, modNode_ok (by rw [l3]; exact hy), Res.bind_ok]
  set s4 : St := { s3 with nodes := s3.nodes.set y { nd s3 y with prev := some i } } with hs4
  have l4 : s4.nodes.length = s.nodes.length := by simp [hs4, l3]
  have n4 : ∀ x, nd s4 x = if x = y then { nd s3 y with prev := some i } else nd s3 x := fun x => nd_set (by rw [l3]; exact hy) _ x
  rw [modNode_ok (by rw [l4]; exact he'), Res.bind_ok]
  have n5 : ∀ x, (s4.nodes.set e { nd s4 e with next := some i }).getD x Node.zero = if x = e then { nd s4 e with next := some i } else nd s4 x :=
    fun x => getD_set' x (by rw [l4]; exact he')
  refine ⟨s4.nodes.set e { nd s4 e with next := some i }, rfl, by simp [l4], ?_, ?_, ?_, ?_⟩
  · intro x
    rw [n5, hnext]
    by_cases c1 : x = e
    · rw [if_pos c1, if_pos c1]
    rw [if_neg c1, if_neg c1, n4]
    have key : (nd s3 x).next = if x = i then some y else (nd s x).next := by
      by_cases c2 : x = i
      · subst c2; rw [n3, if_pos rfl, if_pos rfl, n2, if_pos rfl]
      · rw [n3, if_neg c2, n2, if_neg c2, n1, if_neg c2, if_neg c2]
    by_cases c3 : x = y
    · subst c3; rw [if_pos rfl]; exact key
    · rw [if_neg c3]; exact key
  · intro x
    rw [n5, hnext]
    have e4 : (if x = e then { nd s4 e with next := some i } else nd s4 x).prev = (nd s4 x).prev := by
      split_ifs with c1
      · rw [c1]
      · rfl
    rw [e4, n4]
    by_cases c3 : x = y
    · subst c3; rw [if_pos rfl, if_pos rfl]
    · rw [if_neg c3, if_neg (by intro h; injection h with h; exact c3 h), n3]
      by_cases c2 : x = i
      · rw [if_pos c2, if_pos c2]
      · rw [if_neg c2, if_neg c2, n2, if_neg c2, n1, if_neg c2]
  · intro x
    rw [n5]
    have e4 : (if x = e then { nd s4 e with next := some i } else nd s4 x).t = (nd s4 x).t := by
      split_ifs with c1
      · rw [c1]
      · rfl
    have e3 : (nd s4 x).t = (nd s3 x).t := by
      rw [n4]; split_ifs with c1
      · rw [c1]
      · rfl
    have e2 : (nd s3 x).t = (nd s2 x).t := by
      rw [n3]; split_ifs with c1
      · rw [c1]
      · rfl
    have e1 : (nd s2 x).t = (nd s1 x).t := by
      rw [n2]; split_ifs with c1
      · rw [c1]
      · rfl
    have e0 : (nd s1 x).t = (nd s x).t := by
      rw [n1]; split_ifs with c1
      · rw [c1]
      · rfl
    rw [e4, e3, e2, e1, e0]
  · intro x
    rw [n5]
    have e4 : (if x = e then { nd s4 e with next := some i } else nd s4 x).i = (nd s4 x).i := by
      split_ifs with c1
      · rw [c1]
      · rfl
    have e3 : (nd s4 x).i = (nd s3 x).i := by
      rw [n4]; split_ifs with c1
      · rw [c1]
      · rfl
    have e2 : (nd s3 x).i = (nd s2 x).i := by
      rw [n3]; split_ifs with c1
      · rw [c1]
      · rfl
    have e1 : (nd s2 x).i = (nd s1 x).i := by
      rw [n2]; split_ifs with c1
      · rw [c1]
      · rfl
    have e0 : (nd s1 x).i = if x = i then (i:ℤ) else (nd s x).i := by
      rw [n1]; split_ifs with c1 <;> rfl
    rw [e4, e3, e2, e1, e0]

/-- `q.remove()` for a node with predecessor `w` and successor `r` -/
theorem remove_ok {s : St} {w q r : ℕ} (hw : w < s.nodes.length) (hq : q < s.nodes.length) (hr : r < s.nodes.length)
    (hwq : w ≠ q) (hrq : r ≠ q) (hprev : (nd s q).prev = some w) (hnext : (nd s q).next = some r) :
    ∃ N, remove s (some q) = .ok ({ s with nodes := N }, some w) ∧ N.length = s.nodes.length ∧
      (∀ x, (N.getD x Node.zero).next = if x = w then (nd s q).next else (nd s x).next) ∧
      (∀ x, (N.getD x Node.zero).prev = if some x = (nd s q).next then some w else (nd s x).prev) ∧
      (∀ x, (N.getD x Node.zero).t = (nd s x).t) ∧
      (∀ x, (N.getD x Node.zero).i = if x = q then -1 else (nd s x).i) := by
  unfold remove
  rw [deref_ok hq, Res.bind_ok, hprev, modNode_ok hw, Res.bind_ok]
  set s1 : St := { s with nodes := s.nodes.set w { nd s w with next := (nd s q).next } } with hs1
  have l1 : s1.nodes.length = s.nodes.length := by simp [hs1]
  have n1 : ∀ x, nd s1 x = if x = w then { nd s w with next := (nd s q).next } else nd s x := fun x => nd_set hw _ x
  have f1 : nd s1 q = nd s q := by rw [n1, if_neg hwq.symm]
  rw [deref_ok (by rw [l1]; exact hq), Res.bind_ok, f1, hnext, modNode_ok (by rw [l1]; exact hr), Res.bind_ok]
  rw [hprev]
  set s2 : St := { s1 with nodes := s1.nodes.set r { nd s1 r with prev := some w } } with hs2
  have l2 : s2.nodes.length = s.nodes.length := by simp [hs2, l1]
  have n2 : ∀ x, nd s2 x = if x = r then { nd s1 r with prev := some w } else nd s1 x := fun x => nd_set (by rw [l1]; exact hr) _ x
  have f2 : nd s2 q = nd s q := by rw [n2, if_neg hrq.symm, f1]
  rw [modNode_ok (by rw [l2]; exact hq), Res.bind_ok]
  set s3 : St := { s2 with nodes := s2.nodes.set q { nd s2 q with i := -1 } } with hs3
  have l3 : s3.nodes.length = s.nodes.length := by simp [hs3, l2]
  have n3 : ∀ x, nd s3 x = if x = q then { nd s2 q with i := -1 } else nd s2 x := fun x => nd_set (by rw [l2]; exact hq) _ x
  rw [deref_ok (by rw [l3]; exact hq), Res.bind_ok]
  have f3 : (nd s3 q).prev = some w := by rw [n3, if_pos rfl, f2]; exact hprev
  rw [f3]
  refine ⟨s3.nodes, rfl, l3, ?_, ?_, ?_, ?_⟩
  · intro x
    show (nd s3 x).next = _
    have e3 : (nd s3 x).next = (nd s2 x).next := by
      rw [n3]; split_ifs with c1
      · rw [c1]
      · rfl
    have e2 : (nd s2 x).next = (nd s1 x).next := by
      rw [n2]; split_ifs with c1
      · rw [c1]
      · rfl
    rw [e3, e2, n1, ← hnext]
    split_ifs <;> rfl
  · intro x
    show (nd s3 x).prev = _
    have e3 : (nd s3 x).prev = (nd s2 x).prev := by
      rw [n3]; split_ifs with c1
      · rw [c1]
      · rfl
    have e1 : (nd s1 x).prev = (nd s x).prev := by
      rw [n1]; split_ifs with c1
      · rw [c1]
      · rfl
    rw [e3, n2]
    by_cases c : x = r
    · subst c; rw [if_pos rfl, if_pos rfl]
    · rw [if_neg c, if_neg (by intro h; injection h with h; exact c h), e1]
  · intro x
    show (nd s3 x).t = _
    have e3 : (nd s3 x).t = (nd s2 x).t := by
      rw [n3]; split_ifs with c1
      · rw [c1]
      · rfl
    have e2 : (nd s2 x).t = (nd s1 x).t := by
      rw [n2]; split_ifs with c1
      · rw [c1]
      · rfl
    have e1 : (nd s1 x).t = (nd s x).t := by
      rw [n1]; split_ifs with c1
      · rw [c1]
      · rfl
    rw [e3, e2, e1]
  · intro x
    show (nd s3 x).i = _
    have e2 : (nd s2 x).i = (nd s1 x).i := by
      rw [n2]; split_ifs with c1
      · rw [c1]
      · rfl
    have e1 : (nd s1 x).i = (nd s x).i := by
      rw [n1]; split_ifs with c1
      · rw [c1]
      · rfl
    rw [n3]
    by_cases c : x = q
    · rw [if_pos c, if_pos c]
    · rw [if_neg c, if_neg c, e2, e1]

end Verif.Proofs
