import Verif.Proofs.HalfEdge
import Verif.Proofs.Work
/-!
# `legalize` (triangulator.go:278-345) for arbitrary in-circle answers
-/
namespace Verif.Proofs
open Verif Verif.Tri2

/-! ## Views of the state -/

def tr (s : St) (k : ℕ) : ℤ := s.triangles.getD k 0
def he (s : St) (k : ℕ) : ℤ := s.halfedges.getD k 0
def nd (s : St) (x : ℕ) : Node := s.nodes.getD x Node.zero

theorem getD_set' {α : Type} {l : List α} {i : ℕ} (k : ℕ) {v d : α} (hi : i < l.length) :
    (l.set i v).getD k d = if k = i then v else l.getD k d := by
  simp only [List.getD_eq_getElem?_getD, List.getElem?_set]
  by_cases h : i = k
  · subst h; simp [hi]
  · have h' : ¬ k = i := fun e => h e.symm
    simp [h, h']

theorem getD_get {α : Type} {l : List α} {i : ℕ} {d : α} (hi : i < l.length) : l[i]? = some (l.getD i d) := by
  simp [List.getD_eq_getElem?_getD, hi]

theorem deref_ok {s : St} {x : ℕ} (h : x < s.nodes.length) : s.deref (some x) = .ok (nd s x) := by
  unfold St.deref nd
  simp only
  rw [getD_get (d := Node.zero) h]; rfl

theorem modNode_ok {s : St} {x : ℕ} (h : x < s.nodes.length) (f : Node → Node) :
    s.modNode (some x) f = .ok { s with nodes := s.nodes.set x (f (nd s x)) } := by
  unfold St.modNode nd
  simp only
  rw [getD_get (d := Node.zero) h]

theorem nd_set {s : St} {x : ℕ} (h : x < s.nodes.length) (v : Node) (y : ℕ) :
    nd { s with nodes := s.nodes.set x v } y = if y = x then v else nd s y := by
  unfold nd; exact getD_set' y h

theorem getTr {s : St} {k : ℕ} {z : ℤ} (hz : z = k) (h : k < s.triangles.length) : goGet s.triangles z = .ok (tr s k) :=
  goGet_eq hz (getD_get h)

theorem getHe {s : St} {k : ℕ} {z : ℤ} (hz : z = k) (h : k < s.halfedges.length) : goGet s.halfedges z = .ok (he s k) :=
  goGet_eq hz (getD_get h)

theorem link_ok {s : St} {a : ℕ} {z b : ℤ} (hz : z = a) (ha : a < s.halfedges.length)
    (hb : b = -1 ∨ ∃ j : ℕ, b = j ∧ j < s.halfedges.length) :
    ∃ H, link s z b = .ok { s with halfedges := H } ∧ H.length = s.halfedges.length ∧ ∀ k, H.getD k 0 = linkF (he s) a b k := by
  unfold link
  rw [goSet_eq hz ha, Res.bind_ok]
  rcases hb with rfl | ⟨j, rfl, hj⟩
  · rw [if_neg (by omega)]
    refine ⟨_, rfl, by simp, fun k => ?_⟩
    rw [getD_set' k ha]
    unfold linkF he
    have hk : ¬ (k : ℤ) = -1 := by omega
    rw [if_neg hk]
  · rw [if_pos (by omega), goSet_eq (n := j) rfl (by simpa using hj), hz]
    refine ⟨_, rfl, by simp, fun k => ?_⟩
    rw [getD_set' k (by simpa using hj), getD_set' k ha]
    unfold linkF he
    simp only [Nat.cast_inj]

/-! ## The hull ring -/

/-- `y` follows `x` on the hull -/
def Lk (nd : ℕ → Node) (x y : ℕ) : Prop := (nd x).next = some y ∧ (nd y).prev = some x

/-- the hull runs from `x` through `l` to `z` -/
def Path (nd : ℕ → Node) : ℕ → List ℕ → ℕ → Prop
  | x, [], z => Lk nd x z
  | x, y :: l, z => Lk nd x y ∧ Path nd y l z

theorem path_append (nd : ℕ → Node) (l l' : List ℕ) (y z : ℕ) : ∀ x, Path nd x (l ++ y :: l') z ↔ Path nd x l y ∧ Path nd y l' z := by
  induction l with
  | nil => intro x; rfl
  | cons a l ih => intro x; simp only [List.cons_append, Path, ih, and_assoc]

theorem path_congr {nd nd' : ℕ → Node} (h : ∀ x, (nd' x).next = (nd x).next ∧ (nd' x).prev = (nd x).prev) (l : List ℕ) (z : ℕ) :
    ∀ x, Path nd' x l z ↔ Path nd x l z := by
  induction l with
  | nil => intro x; simp only [Path, Lk, (h _).1, (h _).2]
  | cons a l ih => intro x; simp only [Path, Lk, (h _).1, (h _).2, ih]

/-- the search loop of `legalize` stops at the first node with the wanted slot -/
theorem fixHull_path {s : St} {bl a : ℤ} {h x : ℕ} (hh : s.hull = some h) (hx : (nd s x).t = bl) (hxl : x < s.nodes.length)
    (pre : List ℕ) : ∀ (e fuel : ℕ), Path (nd s) e pre x → (∀ y ∈ e :: pre, (nd s y).t ≠ bl) → (∀ y ∈ pre ++ [x], y ≠ h) →
      (∀ y ∈ e :: pre, y < s.nodes.length) → pre.length + 2 ≤ fuel →
      fixHull bl a fuel s (some e) = .ok { s with nodes := s.nodes.set x { nd s x with t := a } } := by
  have last : ∀ fuel, 1 ≤ fuel → fixHull bl a fuel s (some x) = .ok { s with nodes := s.nodes.set x { nd s x with t := a } } := by
    intro fuel hf
    obtain ⟨f, rfl⟩ : ∃ f, fuel = f + 1 := ⟨fuel - 1, by omega⟩
    rw [fixHull, deref_ok hxl, Res.bind_ok, if_pos hx, modNode_ok hxl]
  induction pre with
  | nil =>
    intro e fuel hp ht hne hlt hf
    obtain ⟨f, rfl⟩ : ∃ f, fuel = f + 1 := ⟨fuel - 1, by omega⟩
    have h1 := ht e (by simp)
    have h2 := hlt e (by simp)
    rw [fixHull, deref_ok h2, Res.bind_ok, if_neg h1, hp.1,
      if_neg (by rw [hh]; intro e'; injection e' with e'; exact hne x (by simp) e')]
    exact last f (by simp at hf; omega)
  | cons y pre ih =>
    intro e fuel hp ht hne hlt hf
    obtain ⟨f, rfl⟩ : ∃ f, fuel = f + 1 := ⟨fuel - 1, by omega⟩
    have h1 := ht e (by simp)
    have h2 := hlt e (by simp)
    rw [fixHull, deref_ok h2, Res.bind_ok, if_neg h1, hp.1.1,
      if_neg (by rw [hh]; intro e'; injection e' with e'; exact hne y (by simp) e')]
    simp only [List.length_cons] at hf
    exact ih y f hp.2 (fun z hz => ht z (List.mem_cons_of_mem _ hz)) (fun z hz => hne z (List.mem_cons_of_mem _ hz))
      (fun z hz => hlt z (List.mem_cons_of_mem _ hz)) (by omega)

theorem fixHull_ok {s : St} {bl a : ℤ} {h x : ℕ} {l : List ℕ} (hh : s.hull = some h) (hp : Path (nd s) h l h) (hn : (h :: l).Nodup)
    (hlt : ∀ y ∈ h :: l, y < s.nodes.length) (hxm : x ∈ h :: l) (hx : (nd s x).t = bl) (huniq : ∀ y ∈ h :: l, (nd s y).t = bl → y = x)
    (fuel : ℕ) (hf : (h :: l).length + 1 ≤ fuel) :
    fixHull bl a fuel s s.hull = .ok { s with nodes := s.nodes.set x { nd s x with t := a } } := by
  have e0 : fixHull bl a fuel s s.hull = fixHull bl a fuel s (some h) := by rw [hh]
  rw [e0]
  rcases List.mem_cons.mp hxm with rfl | hxl
  · obtain ⟨f, rfl⟩ : ∃ f, fuel = f + 1 := ⟨fuel - 1, by omega⟩
    have hxlt := hlt x hxm
    rw [fixHull, deref_ok hxlt, Res.bind_ok, if_pos hx, modNode_ok hxlt]
  · obtain ⟨pre, post, rfl⟩ := List.append_of_mem hxl
    rw [path_append] at hp
    have hnx : h ≠ x := by
      rintro rfl
      exact (List.nodup_cons.mp hn).1 hxl
    have hnl := (List.nodup_cons.mp hn).2
    rw [List.nodup_append] at hnl
    refine fixHull_path hh hx (hlt x hxm) pre h fuel hp.1 ?_ ?_ ?_ ?_
    · intro y hy ht
      have hym : y ∈ h :: (pre ++ x :: post) := by
        rcases List.mem_cons.mp hy with rfl | hy
        · exact List.mem_cons_self
        · exact List.mem_cons_of_mem _ (List.mem_append_left _ hy)
      have := huniq y hym ht
      subst this
      rcases List.mem_cons.mp hy with rfl | hy
      · exact hnx rfl
      · exact hnl.2.2 y hy y (by simp) rfl
    · intro y hy e
      subst e
      apply (List.nodup_cons.mp hn).1
      rcases List.mem_append.mp hy with hy | hy
      · exact List.mem_append_left _ hy
      · simp only [List.mem_cons, List.not_mem_nil, or_false] at hy
        subst hy; simp
    · intro y hy
      apply hlt
      rcases List.mem_cons.mp hy with rfl | hy
      · exact List.mem_cons_self
      · exact List.mem_cons_of_mem _ (List.mem_append_left _ hy)
    · simp only [List.length_cons, List.length_append] at hf; omega

/-! ## Invariant and result of `legalize` -/

/-- the triangle of slot `k` has the vertex `p` -/
def HasP (tr : ℕ → ℤ) (p k : ℕ) : Prop := tr k = p ∨ tr (nx k) = p ∨ tr (pv k) = p

theorem hasP_nx (tr : ℕ → ℤ) (p k : ℕ) : HasP tr p (nx k) ↔ HasP tr p k := by
  unfold HasP; rw [nx_nx, pv_nx]; tauto

theorem hasP_pv (tr : ℕ → ℤ) (p k : ℕ) : HasP tr p (pv k) ↔ HasP tr p k := by
  unfold HasP; rw [nx_pv, pv_pv]; tauto

theorem hasP_div {tr : ℕ → ℤ} {p k m : ℕ} (h : k / 3 = m / 3) : HasP tr p k ↔ HasP tr p m := by
  rcases same_div h with rfl | rfl | rfl
  · rfl
  · exact hasP_nx _ _ _
  · exact hasP_pv _ _ _

structure Shape (c n T : ℕ) (s : St) : Prop where
  tl : s.triangles.length = c
  hl : s.halfedges.length = c
  nl : s.nodes.length = n
  len : s.trianglesLen = (3*T : ℕ)
  cap : 3*T ≤ c

/-- the boundary slot recorded for the hull node `x` is the boundary edge from `x` to its successor -/
def Own (T : ℕ) (s : St) (x : ℕ) : Prop :=
  ∃ t y : ℕ, (nd s x).t = t ∧ (nd s x).next = some y ∧ t < 3*T ∧ he s t = -1 ∧ tr s t = x ∧ tr s (nx t) = y

/-- invariant during a call of `legalize` for the point `p`; nodes in `exc` have outdated slots -/
structure LegInv (c n T p i0 i1 i2 : ℕ) (R : List ℕ) (exc : ℕ → Prop) (s : St) : Prop where
  shape : Shape c n T s
  mesh : MeshF n T (tr s) (he s)
  ring : ∃ h l, R = h :: l ∧ s.hull = some h ∧ Path (nd s) h l h
  nodup : R.Nodup
  rlt : ∀ x ∈ R, x < n
  own : ∀ x ∈ R, ¬ exc x → Own T s x
  nonp : ∀ k < 3*T, he s k = -1 → ¬ HasP (tr s) p k → ∃ x ∈ R, ¬ exc x ∧ (nd s x).t = k
  stale : ∀ x ∈ R, exc x → ∃ k : ℕ, (nd s x).t = k ∧ k < 3*T ∧ (HasP (tr s) p k ∨ k < 3 ∨ he s k ≠ -1)
  seed : 1 ≤ T ∧ tr s 0 = i0 ∧ tr s 1 = i1 ∧ tr s 2 = i2

/-- what happens to the slots: a permutation `σ` moves the boundary slots -/
structure LegPost (T p : ℕ) (R : List ℕ) (exc : ℕ → Prop) (a : ℕ) (s s' : St) (σ : Equiv.Perm ℕ) : Prop where
  rng : ∀ k < 3*T, σ k < 3*T
  bd : ∀ k < 3*T, he s k = -1 → he s' (σ k) = -1 ∧ tr s' (σ k) = tr s k ∧ tr s' (nx (σ k)) = tr s (nx k)
  bdinv : ∀ k < 3*T, he s' k = -1 → ∃ m < 3*T, he s m = -1 ∧ σ m = k
  owners : ∀ x ∈ R, ¬ exc x → ∀ t : ℕ, (nd s x).t = t → (nd s' x).t = (σ t : ℕ)
  fixp : ∀ k < 3*T, HasP (tr s) p k → k / 3 ≠ a / 3 → σ k = k ∧ tr s' k = tr s k
  fixal : σ (nx a) = nx a
  mono : ∀ k < 3*T, HasP (tr s) p k → HasP (tr s') p k
  vals : ∀ k < 3*T, ∃ j < 3*T, tr s' k = tr s j
  vals' : ∀ k < 3*T, ∃ j < 3*T, tr s' j = tr s k
  hull : s'.hull = s.hull
  hash : s'.hash = s.hash
  node : ∀ x, (nd s' x).i = (nd s x).i ∧ (nd s' x).next = (nd s x).next ∧ (nd s' x).prev = (nd s x).prev
  other : ∀ x, (exc x ∨ x ∉ R) → (nd s' x).t = (nd s x).t

theorem LegPost.refl (T p : ℕ) (R : List ℕ) (exc : ℕ → Prop) (a : ℕ) (s : St) : LegPost T p R exc a s s (Equiv.refl ℕ) :=
  ⟨fun _ h => h, fun _ _ h => ⟨h, rfl, rfl⟩, fun k hk h => ⟨k, hk, h, rfl⟩, fun _ _ _ _ h => h, fun _ _ _ _ => ⟨rfl, rfl⟩, rfl,
    fun _ _ h => h, fun k hk => ⟨k, hk, rfl⟩, fun k hk => ⟨k, hk, rfl⟩, rfl, rfl, fun _ => ⟨rfl, rfl, rfl⟩, fun _ _ => rfl⟩

/-- the number of triangles without the vertex `p` -/
noncomputable def nonP (T p : ℕ) (tr : ℕ → ℤ) : Finset ℕ := by
  classical exact (Finset.range T).filter fun m => ¬ HasP tr p (3*m)

theorem mem_nonP {T p : ℕ} {tr : ℕ → ℤ} {m : ℕ} : m ∈ nonP T p tr ↔ m < T ∧ ¬ HasP tr p (3*m) := by
  unfold nonP; simp

/-- one flip, as performed by the straight-line part of `legalize` -/
theorem flip_state {c n T p i0 i1 i2 : ℕ} {R : List ℕ} {exc : ℕ → Prop} {s : St} (I : LegInv c n T p i0 i1 i2 R exc s)
    {a b : ℕ} (ha : a < 3*T) (hab : he s a = b) (hpa : tr s (pv a) = p) (hpb : tr s (pv b) ≠ p) (hb3 : 3 ≤ b)
    (hexc : he s (pv a) = -1 → exc p) (hps : p ≠ i0 ∧ p ≠ i1 ∧ p ≠ i2) :
    ∃ (u1 u2 : List ℤ) (sN sA sB s1 : St) (xb xa : ℤ),
      goSet s.triangles a (tr s (pv b)) = .ok u1 ∧ goSet u1 b (tr s (pv a)) = .ok u2 ∧
      (he s (pv b) = -1 → fixHull (pv b : ℕ) a (s.nodes.length + 1) { s with triangles := u2 } s.hull = .ok sN) ∧
      (he s (pv b) ≠ -1 → sN = { s with triangles := u2 }) ∧
      goGet sN.halfedges (pv b : ℕ) = .ok xb ∧ link sN a xb = .ok sA ∧
      goGet sA.halfedges (pv a : ℕ) = .ok xa ∧ link sA b xa = .ok sB ∧ link sB (pv a : ℕ) (pv b : ℕ) = .ok s1 ∧
      LegInv c n T p i0 i1 i2 R exc s1 ∧ LegPost T p R exc a s s1 (flipPerm a b) ∧
      tr s1 = flipTr (tr s) a b ∧ he s1 = flipHe (he s) a b := by
  obtain ⟨hb, hba, t1, t2, hd⟩ := I.mesh.twin ha hab
  have hd' : a / 3 ≠ b / 3 := fun e => hd e.symm
  obtain ⟨q1, q2, q3, q4, q5⟩ := flipPerm_spec hd'
  obtain ⟨M', frng, fbd, fconj, flab⟩ := flip_spec I.mesh ha hab (by rw [hpa]; exact hpb)
  have la := pv_lt ha
  have lb := pv_lt hb
  obtain ⟨htl, hhl, hnl, hlen, hcap⟩ := I.shape
  obtain ⟨h, l, hR, hhull, hpath⟩ := I.ring
  -- the triangle of b does not contain p
  have nb : ¬ HasP (tr s) p b := by
    unfold HasP
    rw [t1, t2]
    rintro (h | h | h)
    · have := I.mesh.dst (nx a) (nx_lt ha)
      rw [nx_nx, hpa] at this; exact this h
    · have := I.mesh.dst2 ha
      rw [hpa] at this; exact this h
    · exact hpb h
  have nbl : ¬ HasP (tr s) p (pv b) := by rw [hasP_pv]; exact nb
  set s0 : St := { s with triangles := (s.triangles.set a (tr s (pv b))).set b (tr s (pv a)) } with hs0
  have tr0 : ∀ k, tr s0 k = flipTr (tr s) a b k := by
    intro k
    show ((s.triangles.set a (tr s (pv b))).set b (tr s (pv a))).getD k 0 = _
    rw [getD_set' k (by simp; omega), getD_set' k (by omega)]
    rfl
  -- owner of the moved boundary slot
  have own_bl : he s (pv b) = -1 → ∃ x ∈ R, ¬ exc x ∧ (nd s x).t = (pv b : ℕ) ∧ ∀ y ∈ R, (nd s y).t = (pv b : ℕ) → y = x := by
    intro hbl
    obtain ⟨x, hx, hnx, ht⟩ := I.nonp (pv b) lb hbl nbl
    refine ⟨x, hx, hnx, ht, ?_⟩
    intro y hy hty
    obtain ⟨tx, _, htx, _, _, _, hvx, _⟩ := I.own x hx hnx
    have e1 : tx = pv b := by omega
    by_cases hey : exc y
    · obtain ⟨k, hk, _, hk2⟩ := I.stale y hy hey
      have e2 : k = pv b := by omega
      subst e2
      rcases hk2 with h | h | h
      · exact absurd h nbl
      · have := pv_div b; omega
      · exact absurd hbl h
    · obtain ⟨ty, _, hty', _, _, _, hvy, _⟩ := I.own y hy hey
      have e2 : ty = pv b := by omega
      rw [e2] at hvy; rw [e1] at hvx
      rw [hvx] at hvy
      exact_mod_cast hvy.symm
  -- the state after fixHull
  obtain ⟨N, hfix, hNl, hNode, hNt⟩ : ∃ N, (if he s (pv b) = -1 then fixHull (pv b : ℕ) a (s0.nodes.length + 1) s0 s0.hull else pure s0) =
      Res.ok { s0 with nodes := N } ∧ N.length = n ∧
      (∀ x, (N.getD x Node.zero).i = (nd s x).i ∧ (N.getD x Node.zero).next = (nd s x).next ∧ (N.getD x Node.zero).prev = (nd s x).prev ∧
        (he s (pv b) = -1 → x ∈ R → (nd s x).t = (pv b : ℕ) → (N.getD x Node.zero).t = a) ∧
        ((he s (pv b) ≠ -1 ∨ x ∉ R ∨ (nd s x).t ≠ (pv b : ℕ)) → (N.getD x Node.zero).t = (nd s x).t)) ∧ True := by
    by_cases hbl : he s (pv b) = -1
    · obtain ⟨x, hx, hnx, ht, huniq⟩ := own_bl hbl
      have hxn := I.rlt x hx
      refine ⟨s.nodes.set x { nd s x with t := a }, ?_, by simp [hnl], ?_, trivial⟩
      · rw [if_pos hbl]
        have hcard : (h :: l).length ≤ n := by
          have h1 : (h :: l).Nodup := hR ▸ I.nodup
          have h2 : ∀ y ∈ h :: l, y < n := by rw [← hR]; exact I.rlt
          have := Finset.card_le_card (s := (h :: l).toFinset) (t := Finset.range n) (by
            intro y hy; rw [List.mem_toFinset] at hy; exact Finset.mem_range.mpr (h2 y hy))
          rwa [List.toFinset_card_of_nodup h1, Finset.card_range] at this
        have := fixHull_ok (s := s0) (bl := (pv b : ℕ)) (a := a) (h := h) (x := x) (l := l) hhull hpath (hR ▸ I.nodup)
          (by rw [← hR]; intro y hy; have := I.rlt y hy; show y < s.nodes.length; omega) (hR ▸ hx) ht
          (by rw [← hR]; exact huniq) (s0.nodes.length + 1) (by show _ ≤ s.nodes.length + 1; omega)
        rw [this]; rfl
      · intro y
        have e : (s.nodes.set x { nd s x with t := (a:ℤ) }).getD y Node.zero = if y = x then { nd s x with t := (a:ℤ) } else nd s y :=
          getD_set' y (by omega)
        rw [e]
        by_cases hy : y = x
        · subst hy
          rw [if_pos rfl]
          refine ⟨rfl, rfl, rfl, fun _ _ _ => rfl, ?_⟩
          rintro (h' | h' | h')
          · exact absurd hbl h'
          · exact absurd hx h'
          · exact absurd ht h'
        · rw [if_neg hy]
          exact ⟨rfl, rfl, rfl, fun _ h1 h2 => absurd (huniq y h1 h2) hy, fun _ => rfl⟩
    · refine ⟨s.nodes, ?_, hnl, ?_, trivial⟩
      · rw [if_neg hbl]; rfl
      · intro x
        exact ⟨rfl, rfl, rfl, fun h => absurd h hbl, fun _ => rfl⟩
  -- the links
  set sN : St := { s0 with nodes := N } with hsN
  have heN : he sN = he s := rfl
  have part : ∀ k < 3*T, he s k = -1 ∨ ∃ j : ℕ, he s k = j ∧ j < c := by
    intro k hk
    rcases I.mesh.inv k hk with h | ⟨j, h1, h2, _⟩
    · exact Or.inl h
    · exact Or.inr ⟨j, h2, by omega⟩
  obtain ⟨H1, l1, hl1, hv1⟩ := link_ok (s := sN) (a := a) (b := he s (pv b)) rfl (by show a < s.halfedges.length; omega)
    (by show _ ∨ ∃ j : ℕ, _ ∧ j < s.halfedges.length; rw [hhl]; exact part _ lb)
  set s1 : St := { sN with halfedges := H1 } with hs1
  have hl1' : H1.length = c := by rw [hl1]; exact hhl
  have he1 : ∀ k, he s1 k = linkF (he s) a (he s (pv b)) k := fun k => by
    show H1.getD k 0 = _
    rw [hv1, heN]
  have part1 : he s1 (pv a) = -1 ∨ ∃ j : ℕ, he s1 (pv a) = j ∧ j < c := by
    rw [he1]
    unfold linkF
    split_ifs
    · exact Or.inr ⟨a, rfl, by omega⟩
    · exact part _ lb
    · exact part _ la
  obtain ⟨H2, l2, hl2, hv2⟩ := link_ok (s := s1) (a := b) (b := he s1 (pv a)) rfl (by show b < H1.length; omega)
    (by show _ ∨ ∃ j : ℕ, _ ∧ j < H1.length; rw [hl1']; exact part1)
  set s2 : St := { s1 with halfedges := H2 } with hs2
  have hl2' : H2.length = c := by rw [hl2]; exact hl1'
  obtain ⟨H3, l3, hl3, hv3⟩ := link_ok (s := s2) (a := pv a) (b := (pv b : ℕ)) rfl (by show pv a < H2.length; omega)
    (Or.inr ⟨pv b, rfl, by show pv b < H2.length; omega⟩)
  set s3 : St := { s2 with halfedges := H3 } with hs3
  have hl3' : H3.length = c := by rw [hl3]; exact hl2'
  have he3 : he s3 = flipHe (he s) a b := by
    funext k
    show H3.getD k 0 = _
    rw [hv3]
    unfold flipHe
    have e1 : he s1 = linkF (he s) a (he s (pv b)) := funext he1
    have e2 : he s2 = linkF (he s1) b (he s1 (pv a)) := funext fun k => hv2 k
    rw [e2, e1]
  have tr3 : tr s3 = flipTr (tr s) a b := funext tr0
  have nd3 : ∀ x, nd s3 x = N.getD x Node.zero := fun x => rfl
  refine ⟨_, _, sN, s1, s2, s3, he s (pv b), he s1 (pv a), goSet_eq (n := a) rfl (by omega), goSet_eq (n := b) rfl (by simp; omega), ?_, ?_,
    getHe (s := sN) (k := pv b) rfl (by show _ < s.halfedges.length; omega), l1,
    getHe (s := s1) (k := pv a) rfl (by show _ < H1.length; omega), l2, l3, ?_, ?_, tr3, he3⟩
  · intro hbl
    rw [if_pos hbl] at hfix
    exact hfix
  · intro hbl
    rw [if_neg hbl] at hfix
    injection hfix with hfix
    exact hfix.symm
  all_goals
    have pnode : ∀ x, (nd s3 x).i = (nd s x).i ∧ (nd s3 x).next = (nd s x).next ∧ (nd s3 x).prev = (nd s x).prev := by
      intro x; rw [nd3]; exact ⟨(hNode x).1, (hNode x).2.1, (hNode x).2.2.1⟩
    have powner : ∀ x ∈ R, ¬ exc x → ∀ t : ℕ, (nd s x).t = t → (nd s3 x).t = (flipPerm a b t : ℕ) := by
      intro x hx hnx t ht
      rw [nd3]
      obtain ⟨t', y, ht', hnext, htlt, hbd, hv, _⟩ := I.own x hx hnx
      have e : t' = t := by omega
      subst e
      by_cases c1 : t' = pv b
      · subst c1
        rw [q4]
        exact (hNode x).2.2.2.1 hbd hx ht
      · rw [(hNode x).2.2.2.2 (Or.inr (Or.inr (by rw [ht]; exact_mod_cast c1))), ht]
        have c2 : t' ≠ a := by rintro rfl; omega
        have c3 : t' ≠ b := by rintro rfl; omega
        have c4 : t' ≠ pv a := by
          rintro rfl
          have : (p:ℤ) = x := by rw [← hpa]; exact hv
          have : p = x := by exact_mod_cast this
          subst this
          exact hnx (hexc hbd)
        rw [q5 t' c2 c3 c4 c1]
    have pother : ∀ x, (exc x ∨ x ∉ R) → (nd s3 x).t = (nd s x).t := by
      intro x hx
      rw [nd3]
      apply (hNode x).2.2.2.2
      by_cases hbl : he s (pv b) = -1
      · right
        rcases hx with hx | hx
        · by_cases hxR : x ∈ R
          · right
            intro ht
            obtain ⟨z, hz, hnz, _, huniq⟩ := own_bl hbl
            have := huniq x hxR ht
            subst this
            exact hnz hx
          · exact Or.inl hxR
        · exact Or.inl hx
      · exact Or.inl hbl
    have pbd : ∀ k < 3*T, he s k = -1 → he s3 (flipPerm a b k) = -1 ∧ tr s3 (flipPerm a b k) = tr s k ∧ tr s3 (nx (flipPerm a b k)) = tr s (nx k) := by
      intro k hk hkb
      rw [he3, tr3]
      refine ⟨fbd k hk hkb, flab k hk ?_ ?_⟩
      · rintro rfl; omega
      · rintro rfl; omega
    have pfix : ∀ k < 3*T, HasP (tr s) p k → k / 3 ≠ a / 3 → flipPerm a b k = k ∧ tr s3 k = tr s k := by
      intro k hk hkp hkd
      have c1 : k ≠ a := fun e => hkd (by rw [e])
      have c2 : k ≠ b := fun e => nb (e ▸ hkp)
      have c3 : k ≠ pv a := fun e => hkd (by rw [e, pv_div])
      have c4 : k ≠ pv b := fun e => nbl (e ▸ hkp)
      refine ⟨q5 k c1 c2 c3 c4, ?_⟩
      rw [tr3]; unfold flipTr; rw [if_neg c2, if_neg c1]
    have pmono : ∀ k < 3*T, HasP (tr s) p k → HasP (tr s3) p k := by
      intro k hk hkp
      by_cases hkd : k / 3 = a / 3
      · rw [hasP_div hkd]
        right; right
        rw [tr3]; unfold flipTr
        rw [if_neg (fun e => hd' (by rw [← pv_div a, e])), if_neg (pv_ne a)]
        exact hpa
      · have e1 := (pfix k hk hkp hkd).2
        have e2 := (pfix (nx k) (nx_lt hk) ((hasP_nx _ _ _).mpr hkp) (by rw [nx_div]; exact hkd)).2
        have e3 := (pfix (pv k) (pv_lt hk) ((hasP_pv _ _ _).mpr hkp) (by rw [pv_div]; exact hkd)).2
        unfold HasP at hkp ⊢
        rw [e1, e2, e3]; exact hkp
  · refine ⟨⟨?_, hl3', hNl, hlen, hcap⟩, ?_, ⟨h, l, hR, hhull, ?_⟩, I.nodup, I.rlt, ?_, ?_, ?_, ?_⟩
    · show ((s.triangles.set a _).set b _).length = c
      simp [htl]
    · rw [tr3, he3]; exact M'
    · rw [path_congr (fun x => ⟨(pnode x).2.1, (pnode x).2.2⟩)]; exact hpath
    · intro x hx hnx
      obtain ⟨t, y, ht, hnext, htlt, hbd, hv, hv2⟩ := I.own x hx hnx
      obtain ⟨b1, b2, b3⟩ := pbd t htlt hbd
      exact ⟨flipPerm a b t, y, powner x hx hnx t ht, by rw [(pnode x).2.1]; exact hnext, frng t htlt, b1, by rw [b2, hv], by rw [b3, hv2]⟩
    · intro k hk hkb hkp
      have hkd : k / 3 ≠ a / 3 := by
        intro e
        apply hkp
        rw [hasP_div e]
        right; right
        rw [tr3]; unfold flipTr
        rw [if_neg (fun e => hd' (by rw [← pv_div a, e])), if_neg (pv_ne a)]
        exact hpa
      have hkd2 : k / 3 ≠ b / 3 := by
        intro e
        apply hkp
        rw [hasP_div e]
        left
        rw [tr3]; unfold flipTr
        rw [if_pos rfl]
        exact hpa
      have c1 : k ≠ a := fun e => hkd (by rw [e])
      have c2 : k ≠ b := fun e => hkd2 (by rw [e])
      have c3 : k ≠ pv a := fun e => hkd (by rw [e, pv_div])
      have c4 : k ≠ pv b := fun e => hkd2 (by rw [e, pv_div])
      have hk1 := q5 k c1 c2 c3 c4
      have hold : he s k = -1 := by
        rcases I.mesh.inv k hk with h' | ⟨j, j1, j2, _⟩
        · exact h'
        · have := fconj k hk j j2
          rw [hk1, ← he3, hkb] at this
          omega
      obtain ⟨x, hx, hnx, ht⟩ := I.nonp k hk hold (fun h' => hkp (pmono k hk h'))
      exact ⟨x, hx, hnx, by rw [powner x hx hnx k ht, hk1]⟩
    · intro x hx hex
      obtain ⟨k, hk1, hk2, hk3⟩ := I.stale x hx hex
      refine ⟨k, by rw [pother x (Or.inl hex)]; exact hk1, hk2, ?_⟩
      rcases hk3 with h' | h' | h'
      · exact Or.inl (pmono k hk2 h')
      · exact Or.inr (Or.inl h')
      · by_cases hkp : HasP (tr s3) p k
        · exact Or.inl hkp
        · right; right
          have hkd : k / 3 ≠ a / 3 := by
            intro e
            apply hkp
            rw [hasP_div e]
            right; right
            rw [tr3]; unfold flipTr
            rw [if_neg (fun e => hd' (by rw [← pv_div a, e])), if_neg (pv_ne a)]
            exact hpa
          have hkd2 : k / 3 ≠ b / 3 := by
            intro e
            apply hkp
            rw [hasP_div e]
            left
            rw [tr3]; unfold flipTr
            rw [if_pos rfl]
            exact hpa
          have hk4 := q5 k (fun e => hkd (by rw [e])) (fun e => hkd2 (by rw [e])) (fun e => hkd (by rw [e, pv_div])) (fun e => hkd2 (by rw [e, pv_div]))
          rcases I.mesh.inv k hk2 with h'' | ⟨j, j1, j2, _⟩
          · exact absurd h'' h'
          · have := fconj k hk2 j j2
            rw [hk4, ← he3] at this
            omega
    · obtain ⟨s1', s2', s3', s4'⟩ := I.seed
      have nob : ∀ k < 3, flipTr (tr s) a b k = tr s k := by
        intro k hk
        unfold flipTr
        have c2 : k ≠ b := by omega
        by_cases c1 : k = a
        · exfalso
          -- the seed triangle does not contain p
          subst c1
          obtain ⟨n0, n1, n2⟩ := hps
          have hk' : k = 0 ∨ k = 1 ∨ k = 2 := by omega
          rcases hk' with rfl | rfl | rfl
          · rw [show pv 0 = 2 from rfl] at hpa; rw [hpa] at s4'; exact n2 (by exact_mod_cast s4')
          · rw [show pv 1 = 0 from rfl] at hpa; rw [hpa] at s2'; exact n0 (by exact_mod_cast s2')
          · rw [show pv 2 = 1 from rfl] at hpa; rw [hpa] at s3'; exact n1 (by exact_mod_cast s3')
        · rw [if_neg c2, if_neg c1]
      rw [tr3]
      exact ⟨s1', by rw [nob 0 (by omega)]; exact s2', by rw [nob 1 (by omega)]; exact s3', by rw [nob 2 (by omega)]; exact s4'⟩
  · refine ⟨frng, pbd, ?_, powner, pfix, ?_, pmono, ?_, ?_, rfl, rfl, pnode, pother⟩
    · intro k hk hkb
      rw [he3] at hkb
      refine ⟨(flipPerm a b).symm k, ?_⟩
      have surj : ∃ m < 3*T, flipPerm a b m = k := by
        by_cases k1 : k = a
        · exact ⟨pv b, lb, by rw [q4, k1]⟩
        by_cases k2 : k = b
        · exact ⟨pv a, la, by rw [q2, k2]⟩
        by_cases k3 : k = pv a
        · exact ⟨a, ha, by rw [q1, k3]⟩
        by_cases k4 : k = pv b
        · exact ⟨b, hb, by rw [q3, k4]⟩
        exact ⟨k, hk, q5 k k1 k2 k3 k4⟩
      obtain ⟨m, hm, rfl⟩ := surj
      rw [Equiv.symm_apply_apply]
      refine ⟨hm, ?_, rfl⟩
      rcases I.mesh.inv m hm with h' | ⟨j, j1, j2, _⟩
      · exact h'
      · have := fconj m hm j j2
        omega
    · exact q5 (nx a) (nx_ne a) (fun e => hd' (by rw [← nx_div a, e])) (nx_ne_pv a) (fun e => hd' (by rw [← nx_div a, e, pv_div]))
    · intro k hk
      rw [tr3]; unfold flipTr
      split_ifs
      · exact ⟨_, la, rfl⟩
      · exact ⟨_, lb, rfl⟩
      · exact ⟨_, hk, rfl⟩
    · intro k hk
      rw [tr3]
      by_cases c1 : k = a
      · subst c1
        refine ⟨nx b, nx_lt hb, ?_⟩
        unfold flipTr
        rw [if_neg (nx_ne b), if_neg (fun e => hd' (by rw [← nx_div b, e]))]
        exact t2
      · by_cases c2 : k = b
        · subst c2
          refine ⟨nx a, nx_lt ha, ?_⟩
          unfold flipTr
          rw [if_neg (fun e => hd' (by rw [← nx_div a, e])), if_neg (nx_ne a)]
          exact t1.symm
        · refine ⟨k, hk, ?_⟩
          unfold flipTr
          rw [if_neg c2, if_neg c1]

/-! ## The recursion -/

theorem idx_nx (a : ℕ) : (a:ℤ) - Int.tmod a 3 + Int.tmod (a+1) 3 = (nx a : ℕ) := by
  have h1 : (0:ℤ) ≤ a := by omega
  have h2 : (0:ℤ) ≤ a + 1 := by omega
  rw [Int.tmod_eq_emod_of_nonneg h1, Int.tmod_eq_emod_of_nonneg h2]
  unfold nx; omega

theorem idx_pv (a : ℕ) : (a:ℤ) - Int.tmod a 3 + Int.tmod (a+2) 3 = (pv a : ℕ) := by
  have h1 : (0:ℤ) ≤ a := by omega
  have h2 : (0:ℤ) ≤ a + 2 := by omega
  rw [Int.tmod_eq_emod_of_nonneg h1, Int.tmod_eq_emod_of_nonneg h2]
  unfold pv; omega

/-- the in-circle answers used: a point is not inside a circle through itself, and the point `p`
never asks to flip away the seed triangle -/
structure Safe {P : Type} (g : Geo P) (Vs : List P) (p i0 i1 i2 : ℕ) : Prop where
  self : ∀ v x y : P, g.inC v x y v = false
  seed : ∀ v v0 v1 v2 : P, Vs[p]? = some v → Vs[i0]? = some v0 → Vs[i1]? = some v1 → Vs[i2]? = some v2 →
    g.inC v v1 v0 v2 = false ∧ g.inC v v2 v1 v0 = false ∧ g.inC v v0 v2 v1 = false

theorem LegPost.trans_flip {c n T p i0 i1 i2 : ℕ} {R : List ℕ} {exc : ℕ → Prop} {s s1 s2 s3 : St} {a b : ℕ} {π σ1 σ2 : Equiv.Perm ℕ}
    (I : LegInv c n T p i0 i1 i2 R exc s) (ha : a < 3*T) (hpa : HasP (tr s) p a)
    (hnb : ¬ HasP (tr s) p b)
    (h1 : LegPost T p R exc a s s1 π) (h2 : LegPost T p R exc a s1 s2 σ1) (h3 : LegPost T p R exc (nx b) s2 s3 σ2) (hd : a / 3 ≠ b / 3) :
    LegPost T p R exc a s s3 ((π.trans σ1).trans σ2) := by
  have own1 : ∀ x ∈ R, ¬ exc x → ∃ t : ℕ, (nd s x).t = t := fun x hx hn => by
    obtain ⟨t, _, h, _⟩ := I.own x hx hn
    exact ⟨t, h⟩
  refine ⟨fun k hk => h3.rng _ (h2.rng _ (h1.rng k hk)), ?_, ?_, ?_, ?_, ?_, ?_, ?_, ?_, ?_, ?_, ?_, ?_⟩
  · intro k hk hb
    obtain ⟨a1, a2, a3⟩ := h1.bd k hk hb
    obtain ⟨b1, b2, b3⟩ := h2.bd _ (h1.rng k hk) a1
    obtain ⟨c1, c2, c3⟩ := h3.bd _ (h2.rng _ (h1.rng k hk)) b1
    exact ⟨c1, by rw [← a2, ← b2, ← c2]; rfl, by rw [← a3, ← b3, ← c3]; rfl⟩
  · intro k hk hb
    obtain ⟨m3, q1, q2, q3⟩ := h3.bdinv k hk hb
    obtain ⟨m2, q4, q5, q6⟩ := h2.bdinv m3 q1 q2
    obtain ⟨m1, q7, q8, q9⟩ := h1.bdinv m2 q4 q5
    exact ⟨m1, q7, q8, by simp only [Equiv.trans_apply]; rw [q9, q6, q3]⟩
  · intro x hx hn t ht
    exact h3.owners x hx hn _ (h2.owners x hx hn _ (h1.owners x hx hn t ht))
  · intro k hk hkp hkd
    obtain ⟨a1, a2⟩ := h1.fixp k hk hkp hkd
    obtain ⟨b1, b2⟩ := h2.fixp k hk (h1.mono k hk hkp) hkd
    have hkb : k / 3 ≠ nx b / 3 := by
      rw [nx_div]
      intro e
      exact hnb ((hasP_div e).mp hkp)
    obtain ⟨c1, c2⟩ := h3.fixp k hk (h2.mono k hk (h1.mono k hk hkp)) hkb
    exact ⟨by simp only [Equiv.trans_apply]; rw [a1, b1, c1], by rw [c2, b2, a2]⟩
  · simp only [Equiv.trans_apply]
    rw [h1.fixal, h2.fixal]
    refine (h3.fixp (nx a) (nx_lt ha) ?_ ?_).1
    · exact h2.mono _ (nx_lt ha) (h1.mono _ (nx_lt ha) ((hasP_nx _ _ _).mpr hpa))
    · rw [nx_div, nx_div]; exact hd
  · intro k hk hkp
    exact h3.mono k hk (h2.mono k hk (h1.mono k hk hkp))
  · intro k hk
    obtain ⟨j3, y3, e3⟩ := h3.vals k hk
    obtain ⟨j2, y2, e2⟩ := h2.vals j3 y3
    obtain ⟨j1, y1, e1⟩ := h1.vals j2 y2
    exact ⟨j1, y1, by rw [e3, e2, e1]⟩
  · intro k hk
    obtain ⟨j1, y1, e1⟩ := h1.vals' k hk
    obtain ⟨j2, y2, e2⟩ := h2.vals' j1 y1
    obtain ⟨j3, y3, e3⟩ := h3.vals' j2 y2
    exact ⟨j3, y3, by rw [e3, e2, e1]⟩
  · rw [h3.hull, h2.hull, h1.hull]
  · rw [h3.hash, h2.hash, h1.hash]
  · intro x
    obtain ⟨a1, a2, a3⟩ := h1.node x
    obtain ⟨b1, b2, b3⟩ := h2.node x
    obtain ⟨c1, c2, c3⟩ := h3.node x
    exact ⟨by rw [c1, b1, a1], by rw [c2, b2, a2], by rw [c3, b3, a3]⟩
  · intro x hx
    rw [h3.other x hx, h2.other x hx, h1.other x hx]

/-- the question asked about the slot `a` opposite to `p` with twin `b`, and the answer -/
def Test {P : Type} (g : Geo P) (Vs : List P) (n T p a b : ℕ) (x : (ℕ → ℤ) × (ℕ → ℤ)) (ans : Bool) : Prop :=
  a < 3*T ∧ MeshF n T x.1 x.2 ∧ x.1 (pv a) = p ∧ x.2 a = b ∧ ∃ (r l o : ℕ) (v0 vr vl v1 : P), x.1 a = r ∧ x.1 (nx a) = l ∧ x.1 (pv b) = o ∧
    Vs[p]? = some v0 ∧ Vs[r]? = some vr ∧ Vs[l]? = some vl ∧ Vs[o]? = some v1 ∧ g.inC v0 vr vl v1 = ans

/-- the recursion of `legalize` on the tables -/
inductive Leg {P : Type} (g : Geo P) (Vs : List P) (n T p : ℕ) : ℕ → (ℕ → ℤ) × (ℕ → ℤ) → (ℕ → ℤ) × (ℕ → ℤ) → Prop
  | bd {a : ℕ} {x : (ℕ → ℤ) × (ℕ → ℤ)} : a < 3*T → MeshF n T x.1 x.2 → x.1 (pv a) = p → x.2 a = -1 → Leg g Vs n T p a x x
  | legal {a b : ℕ} {x : (ℕ → ℤ) × (ℕ → ℤ)} : Test g Vs n T p a b x false → Leg g Vs n T p a x x
  | flip {a b : ℕ} {x y z : (ℕ → ℤ) × (ℕ → ℤ)} : Test g Vs n T p a b x true → x.1 (pv b) ≠ p →
      Leg g Vs n T p a (flipTr x.1 a b, flipHe x.2 a b) y → Leg g Vs n T p (nx b) y z → Leg g Vs n T p a x z

/-- bound of the counter for `legalize` calls with `t` starting calls and `f` flips, `n` points -/
def legBound (w : Weights) (n t f : ℕ) : ℕ := w.call * (2*f + t) + (w.flip + w.fix * (n+1)) * f

/-- `legalize` terminates without panic and only moves slots; every flip takes away a triangle without the vertex `p` -/
theorem legalize_ok {P : Type} {g : Geo P} {Vs : List P} {c n T p i0 i1 i2 : ℕ} {R : List ℕ} {exc : ℕ → Prop}
    (hVs : Vs.length = n) (hps : p ≠ i0 ∧ p ≠ i1 ∧ p ≠ i2) (hsafe : Safe g Vs p i0 i1 i2) :
    ∀ (fuel : ℕ) (s : St) (a : ℕ), LegInv c n T p i0 i1 i2 R exc s → a < 3*T → tr s (pv a) = p → (he s (pv a) = -1 → exc p) →
      (nonP T p (tr s)).card < fuel →
      ∃ s' σ, legalize g Vs fuel s a = .ok (s', ((σ (pv a) : ℕ) : ℤ)) ∧ LegInv c n T p i0 i1 i2 R exc s' ∧ LegPost T p R exc a s s' σ ∧
        Leg g Vs n T p a (tr s, he s) (tr s', he s') ∧
        ∃ f, f + (nonP T p (tr s')).card ≤ (nonP T p (tr s)).card ∧
          ∀ w : Weights, ∃ k ≤ legBound w n 1 f, (legalizeCt w g Vs fuel s a).run = .ok ((s', ((σ (pv a) : ℕ) : ℤ)), k) := by
  intro fuel
  induction fuel with
  | zero => intro s a _ _ _ _ h; omega
  | succ fuel ih =>
    intro s a I ha hpa hexc hfuel
    obtain ⟨htl, hhl, hnl, hlen, hcap⟩ := I.shape
    have noflip : ∀ (hL : Leg g Vs n T p a (tr s, he s) (tr s, he s)), flipStep g Vs s a = .ok (none, ((pv a : ℕ) : ℤ)) →
        ∃ s' σ, legalize g Vs (fuel+1) s a = .ok (s', ((σ (pv a) : ℕ) : ℤ)) ∧ LegInv c n T p i0 i1 i2 R exc s' ∧ LegPost T p R exc a s s' σ ∧
        Leg g Vs n T p a (tr s, he s) (tr s', he s') ∧
        ∃ f, f + (nonP T p (tr s')).card ≤ (nonP T p (tr s)).card ∧
          ∀ w : Weights, ∃ k ≤ legBound w n 1 f, (legalizeCt w g Vs (fuel+1) s a).run = .ok ((s', ((σ (pv a) : ℕ) : ℤ)), k) := by
      intro hL hstep
      refine ⟨s, Equiv.refl ℕ, ?_, I, LegPost.refl _ _ _ _ _ _, hL, 0, by omega, fun w => ⟨w.call, by unfold legBound; omega, legalizeCt_none w hstep⟩⟩
      rw [legalize_flip, hstep, Res.bind_ok]; rfl
    rcases I.mesh.inv a ha with hb | ⟨b, hb, hab, _⟩
    · refine noflip (.bd ha I.mesh hpa hb) ?_
      rw [flipStep, getHe (s := s) (k := a) rfl (by omega), Res.bind_ok]
      simp only [idx_nx, idx_pv]
      rw [if_pos (by omega)]; rfl
    · obtain ⟨_, hba, t1, t2, hd⟩ := I.mesh.twin ha hab
      have hd' : a / 3 ≠ b / 3 := fun e => hd e.symm
      have la := pv_lt ha
      have lb := pv_lt hb
      have la' := nx_lt ha
      have vtx : ∀ k < 3*T, ∃ m : ℕ, tr s k = m ∧ m < n ∧ ∃ v, Vs[m]? = some v ∧ goGet Vs (tr s k) = .ok v := by
        intro k hk
        obtain ⟨m1, m2⟩ := I.mesh.rng k hk
        refine ⟨(tr s k).toNat, by omega, by omega, ?_⟩
        have hm : (tr s k).toNat < Vs.length := by omega
        exact ⟨Vs[(tr s k).toNat], by simp [hm], goGet_eq (n := (tr s k).toNat) (by omega) (by simp [hm])⟩
      obtain ⟨m0, e0, _, v0, w0, g0⟩ := vtx (pv a) la
      obtain ⟨mr, er, _, vr, wr, gr⟩ := vtx a ha
      obtain ⟨ml, el, _, vl, wl, gl⟩ := vtx (nx a) la'
      obtain ⟨m1, e1, _, v1, w1, g1⟩ := vtx (pv b) lb
      by_cases hill : g.inC v0 vr vl v1 = true
      · have hm0 : m0 = p := by rw [hpa] at e0; exact_mod_cast e0.symm
        subst hm0
        have hpb : tr s (pv b) ≠ m0 := by
          intro e
          rw [e] at e1
          have : m0 = m1 := by exact_mod_cast e1
          subst this
          rw [w0] at w1
          injection w1 with w1
          subst w1
          rw [hsafe.self] at hill
          exact absurd hill (by simp)
        have hb3 : 3 ≤ b := by
          by_contra hlt
          obtain ⟨s1', s2', s3', s4'⟩ := I.seed
          have hk' : b = 0 ∨ b = 1 ∨ b = 2 := by omega
          rw [er] at t2
          rw [el] at t1
          rcases hk' with rfl | rfl | rfl
          · rw [show nx 0 = 1 from rfl, s3'] at t2
            rw [s2'] at t1
            rw [show pv 0 = 2 from rfl, s4'] at e1
            have := (hsafe.seed v0 vl vr v1 w0 (by rw [show i0 = ml by exact_mod_cast t1]; exact wl)
              (by rw [show i1 = mr by exact_mod_cast t2]; exact wr) (by rw [show i2 = m1 by exact_mod_cast e1]; exact w1)).1
            rw [this] at hill; exact absurd hill (by simp)
          · rw [show nx 1 = 2 from rfl, s4'] at t2
            rw [s3'] at t1
            rw [show pv 1 = 0 from rfl, s2'] at e1
            have := (hsafe.seed v0 v1 vl vr w0 (by rw [show i0 = m1 by exact_mod_cast e1]; exact w1)
              (by rw [show i1 = ml by exact_mod_cast t1]; exact wl) (by rw [show i2 = mr by exact_mod_cast t2]; exact wr)).2.1
            rw [this] at hill; exact absurd hill (by simp)
          · rw [show nx 2 = 0 from rfl, s2'] at t2
            rw [s4'] at t1
            rw [show pv 2 = 1 from rfl, s3'] at e1
            have := (hsafe.seed v0 vr v1 vl w0 (by rw [show i0 = mr by exact_mod_cast t2]; exact wr)
              (by rw [show i1 = m1 by exact_mod_cast e1]; exact w1) (by rw [show i2 = ml by exact_mod_cast t1]; exact wl)).2.2
            rw [this] at hill; exact absurd hill (by simp)
        obtain ⟨u1, u2, sN, sA, sB, s1, xb, xa, z1, z2, z3, z4, z5, z6, z7, z8, z9, I1, P1, T1, E1⟩ :=
          flip_state I ha hab hpa hpb hb3 hexc hps
        have nb : ¬ HasP (tr s) m0 b := by
          unfold HasP
          rw [t1, t2]
          rintro (h | h | h)
          · have := I.mesh.dst (nx a) (nx_lt ha)
            rw [nx_nx, hpa] at this; exact this h
          · have := I.mesh.dst2 ha
            rw [hpa] at this; exact this h
          · exact hpb h
        have hp1 : tr s1 (pv a) = m0 := by
          rw [T1]; unfold flipTr
          rw [if_neg (fun e => hd' (by rw [← pv_div a, e])), if_neg (pv_ne a)]
          exact hpa
        have hp1b : tr s1 b = m0 := by
          rw [T1]; unfold flipTr
          rw [if_pos rfl]; exact hpa
        obtain ⟨q1, q2, q3, q4, q5⟩ := flipPerm_spec hd'
        have hcard : (nonP T m0 (tr s1)).card < (nonP T m0 (tr s)).card := by
          apply Finset.card_lt_card
          rw [Finset.ssubset_iff_of_subset]
          · refine ⟨b / 3, ?_, ?_⟩
            · rw [mem_nonP]
              refine ⟨by omega, ?_⟩
              rw [hasP_div (m := b) (by omega)]; exact nb
            · rw [mem_nonP]
              rintro ⟨_, h⟩
              apply h
              rw [hasP_div (m := b) (by omega)]
              exact Or.inl hp1b
          · intro m hm
            rw [mem_nonP] at hm ⊢
            exact ⟨hm.1, fun h => hm.2 (P1.mono _ (by omega) h)⟩
        have hnb1 : he s1 (pv a) ≠ -1 := by
          rw [E1]; unfold flipHe linkF
          simp only [Nat.cast_inj, if_true]
          split_ifs <;> omega
        obtain ⟨s2, σ1, f1, I2, P2, F2, fl1, hfl1, W1⟩ := ih s1 a I1 ha hp1 (fun h => absurd h hnb1) (by omega)
        have hpB1 : HasP (tr s1) m0 b := Or.inl hp1b
        obtain ⟨x1, x2⟩ := P2.fixp b hb hpB1 (fun e => hd' e.symm)
        obtain ⟨s3, σ2, f2, I3, P3, F3, fl2, hfl2, W2⟩ := ih s2 (nx b) I2 (nx_lt hb) (by rw [pv_nx, x2]; exact hp1b)
          (by
            rw [pv_nx]
            intro h
            obtain ⟨m, y1, y2, y3⟩ := P2.bdinv b hb h
            have : m = b := σ1.injective (by rw [y3, x1])
            subst this
            obtain ⟨m', y4, y5, y6⟩ := P1.bdinv m hb y2
            have : m' = pv a := (flipPerm a m).injective (by rw [y6, q2])
            subst this
            exact hexc y5)
          (by
            have : (nonP T m0 (tr s2)).card ≤ (nonP T m0 (tr s1)).card := by
              apply Finset.card_le_card
              intro m hm
              rw [mem_nonP] at hm ⊢
              exact ⟨hm.1, fun h => hm.2 (P2.mono _ (by omega) h)⟩
            omega)
        have hstep : flipStep g Vs s a = .ok (some (s1, ((nx b : ℕ) : ℤ)), ((pv a : ℕ) : ℤ)) := by
          rw [flipStep, getHe (s := s) (k := a) rfl (by omega), Res.bind_ok, hab]
          simp only [idx_nx, idx_pv]
          rw [if_neg (by omega), getTr (s := s) (k := pv a) rfl (by omega), Res.bind_ok, getTr (s := s) (k := a) rfl (by omega), Res.bind_ok,
            getTr (s := s) (k := nx a) rfl (by omega), Res.bind_ok, getTr (s := s) (k := pv b) rfl (by omega), Res.bind_ok,
            g0, Res.bind_ok, gr, Res.bind_ok, gl, Res.bind_ok, g1, Res.bind_ok, if_pos hill, z1, Res.bind_ok, z2, Res.bind_ok]
          rw [getHe (s := { s with triangles := u2 }) (k := pv b) rfl (by show _ < s.halfedges.length; omega), Res.bind_ok,
            show he { s with triangles := u2 } (pv b) = he s (pv b) from rfl]
          by_cases hbl : he s (pv b) = -1
          · rw [if_pos hbl, z3 hbl, Res.bind_ok, z5, Res.bind_ok, z6, Res.bind_ok, z7, Res.bind_ok, z8, Res.bind_ok, z9, Res.bind_ok]; rfl
          · rw [if_neg hbl, ← z4 hbl, Res.pure_eq, Res.bind_ok, z5, Res.bind_ok, z6, Res.bind_ok, z7, Res.bind_ok, z8, Res.bind_ok, z9, Res.bind_ok]; rfl
        have hres : ((flipPerm a b).trans σ1).trans σ2 (pv a) = σ2 (pv (nx b)) := by
          simp only [Equiv.trans_apply]
          rw [q2, x1, pv_nx]
        refine ⟨s3, ((flipPerm a b).trans σ1).trans σ2, ?_, I3,
          LegPost.trans_flip I ha (Or.inr (Or.inr hpa)) nb P1 P2 P3 hd', ?_, fl1 + fl2 + 1, by omega, ?_⟩
        · rw [hres, legalize_flip, hstep, Res.bind_ok]
          simp only
          rw [f1, Res.bind_ok]
          exact f2
        · refine .flip ⟨ha, I.mesh, hpa, hab, mr, ml, m1, v0, vr, vl, v1, er, el, e1, w0, wr, wl, w1, hill⟩ hpb ?_ F3
          rw [T1, E1] at F2; exact F2
        · intro w
          obtain ⟨k1, hk1, r1⟩ := W1 w
          obtain ⟨k2, hk2, r2⟩ := W2 w
          obtain ⟨k, hk, hr⟩ := legalizeCt_some w hstep r1 r2
          refine ⟨k, ?_, by rw [hres]; exact hr⟩
          rw [hnl] at hk
          unfold legBound at hk1 hk2 ⊢
          have e : w.call * (2 * (fl1 + fl2 + 1) + 1) + (w.flip + w.fix * (n + 1)) * (fl1 + fl2 + 1) =
            w.call + w.flip + w.fix * (n+1) + (w.call * (2*fl1 + 1) + (w.flip + w.fix * (n+1)) * fl1) + (w.call * (2*fl2 + 1) + (w.flip + w.fix * (n+1)) * fl2) := by ring
          omega
      · have hm0 : m0 = p := by rw [hpa] at e0; exact_mod_cast e0.symm
        subst hm0
        refine noflip (.legal ⟨ha, I.mesh, hpa, hab, mr, ml, m1, v0, vr, vl, v1, er, el, e1, w0, wr, wl, w1, by simpa using hill⟩) ?_
        rw [flipStep, getHe (s := s) (k := a) rfl (by omega), Res.bind_ok, hab]
        simp only [idx_nx, idx_pv]
        rw [if_neg (by omega), getTr (s := s) (k := pv a) rfl (by omega), Res.bind_ok, getTr (s := s) (k := a) rfl (by omega), Res.bind_ok,
          getTr (s := s) (k := nx a) rfl (by omega), Res.bind_ok, getTr (s := s) (k := pv b) rfl (by omega), Res.bind_ok,
          g0, Res.bind_ok, gr, Res.bind_ok, gl, Res.bind_ok, g1, Res.bind_ok, if_neg hill]; rfl

end Verif.Proofs
