import Verif.Model.Delaunator
/-!
# The triangulator looks at the points only through the predicates

Two lists of points with the same answers of the predicates lead to the same run.
-/
namespace Verif.Proofs
open Verif Verif.Tri2

variable {α P P' : Type}

/-- the predicates agree on the points named by `L` -/
structure Agree (L : List α) (e : α → P) (e' : α → P') (g : Geo P) (g' : Geo P') : Prop where
  ge : ∀ a ∈ L, ∀ b ∈ L, ∀ c ∈ L, g.areaGe (e a) (e b) (e c) = g'.areaGe (e' a) (e' b) (e' c)
  lt : ∀ a ∈ L, ∀ b ∈ L, ∀ c ∈ L, g.areaLt (e a) (e b) (e c) = g'.areaLt (e' a) (e' b) (e' c)
  inC : ∀ a ∈ L, ∀ b ∈ L, ∀ c ∈ L, ∀ d ∈ L, g.inC (e a) (e b) (e c) (e d) = g'.inC (e' a) (e' b) (e' c) (e' d)
  near : ∀ a ∈ L, ∀ b ∈ L, g.near (e a) (e b) = g'.near (e' a) (e' b)
  key : ∀ a ∈ L, g.key (e a) = g'.key (e' a)

theorem bind_congr' {α β : Type} (m : Res α) {f g : α → Res β} (h : ∀ x, f x = g x) : (m >>= f) = (m >>= g) := by
  rw [funext h]

theorem bind_congr2 {α β : Type} {m m' : Res α} (hm : m = m') {f g : α → Res β} (h : ∀ x, f x = g x) : (m >>= f) = (m' >>= g) := by
  rw [funext h, hm]

variable {L : List α} {e : α → P} {e' : α → P'} {g : Geo P} {g' : Geo P'}

theorem bind_get {β : Type} {z : ℤ} {f : P → Res β} {f' : P' → Res β} (h : ∀ a ∈ L, f (e a) = f' (e' a)) :
    (goGet (L.map e) z >>= f) = (goGet (L.map e') z >>= f') := by
  unfold goGet
  split
  · rfl
  · rw [List.getElem?_map, List.getElem?_map]
    cases hl : L[z.toNat]? with
    | none => rfl
    | some a => exact h a (List.mem_of_getElem? hl)

theorem ite_congr' {β : Type} {b b' : Bool} (hb : b = b') {x y x' y' : Res β} (hx : x = x') (hy : y = y') :
    (if b = true then x else y) = (if b' = true then x' else y') := by rw [hb, hx, hy]

theorem legalize_map (A : Agree L e e' g g') : ∀ (fuel : ℕ) (s : St) (a : ℤ), legalize g (L.map e) fuel s a = legalize g' (L.map e') fuel s a := by
  intro fuel
  induction fuel with
  | zero => intros; rfl
  | succ fuel ih =>
    intro s a
    unfold legalize
    refine bind_congr' _ fun b => ?_
    dsimp only
    split
    · rfl
    · refine bind_congr' _ fun p0 => bind_congr' _ fun pr => bind_congr' _ fun pl => bind_congr' _ fun p1 => ?_
      refine bind_get fun v0 h0 => bind_get fun vr hr => bind_get fun vl hl => bind_get fun v1 h1 => ?_
      refine ite_congr' (A.inC _ h0 _ hr _ hl _ h1) ?_ rfl
      refine bind_congr' _ fun t => bind_congr' _ fun t => bind_congr' _ fun hbl => ?_
      split <;>
      exact bind_congr' _ fun s => bind_congr' _ fun hbl => bind_congr' _ fun s =>
        bind_congr' _ fun har => bind_congr' _ fun s => bind_congr' _ fun s => bind_congr2 (ih _ _) fun r => ih _ _

theorem hashEdge_map (A : Agree L e e' g g') (s : St) (x : Option ℕ) : hashEdge g (L.map e) s x = hashEdge g' (L.map e') s x := by
  unfold hashEdge
  refine bind_congr' _ fun ne => bind_get fun a ha => ?_
  rw [A.key a ha]

theorem findVisible_map (A : Agree L e e' g g') {p : α} (hp : p ∈ L) (start : Option ℕ) (s : St) : ∀ (fuel : ℕ) (x : Option ℕ),
    findVisible g (L.map e) (e p) start s fuel x = findVisible g' (L.map e') (e' p) start s fuel x := by
  intro fuel
  induction fuel with
  | zero => intros; rfl
  | succ fuel ih =>
    intro x
    unfold findVisible
    refine bind_congr' _ fun ne => bind_get fun a ha => bind_congr' _ fun nn => bind_get fun b hb => ?_
    refine ite_congr' (A.ge _ hp _ ha _ hb) ?_ rfl
    dsimp only
    split
    · rfl
    · exact ih _

theorem walkForward_map (A : Agree L e e' g g') (lf : ℕ) (i : ℤ) {p : α} (hp : p ∈ L) : ∀ (fuel : ℕ) (s : St) (q : Option ℕ),
    walkForward g (L.map e) lf i (e p) fuel s q = walkForward g' (L.map e') lf i (e' p) fuel s q := by
  intro fuel
  induction fuel with
  | zero => intros; rfl
  | succ fuel ih =>
    intro s q
    unfold walkForward
    refine bind_congr' _ fun ne => bind_get fun a ha => bind_congr' _ fun nn => bind_get fun b hb => ?_
    refine ite_congr' (A.lt _ hp _ ha _ hb) ?_ rfl
    refine bind_congr' _ fun np => bind_congr' _ fun st => bind_congr2 (legalize_map A _ _ _) fun sr => bind_congr' _ fun nq => bind_congr' _ fun s =>
      bind_congr' _ fun sh => bind_congr' _ fun nq => ih _ _

theorem walkBackward_map (A : Agree L e e' g g') (lf : ℕ) (i : ℤ) {p : α} (hp : p ∈ L) : ∀ (fuel : ℕ) (s : St) (q : Option ℕ),
    walkBackward g (L.map e) lf i (e p) fuel s q = walkBackward g' (L.map e') lf i (e' p) fuel s q := by
  intro fuel
  induction fuel with
  | zero => intros; rfl
  | succ fuel ih =>
    intro s q
    unfold walkBackward
    refine bind_congr' _ fun ne => bind_congr' _ fun nn => bind_get fun a ha => bind_get fun b hb => ?_
    refine ite_congr' (A.lt _ hp _ ha _ hb) ?_ rfl
    refine bind_congr' _ fun st => bind_congr2 (legalize_map A _ _ _) fun sr => bind_congr' _ fun nq => bind_congr' _ fun s =>
      bind_congr' _ fun sh => bind_congr' _ fun nq => ih _ _

theorem insertPoint_map (A : Agree L e e' g g') (fuel : ℕ) (s : St) (i : ℤ) {p : α} (hp : p ∈ L) :
    insertPoint g (L.map e) fuel s i (e p) = insertPoint g' (L.map e') fuel s i (e' p) := by
  unfold insertPoint
  rw [A.key p hp]
  refine bind_congr' _ fun start => bind_congr' _ fun ns => bind_congr2 (findVisible_map A hp _ _ _ _) fun x => ?_
  cases x with
  | none => rfl
  | some x =>
    dsimp only
    refine bind_congr' _ fun ne => bind_congr' _ fun nn => bind_congr' _ fun st => bind_congr' _ fun s => bind_congr' _ fun se =>
      bind_congr2 (legalize_map A _ _ _) fun sr => bind_congr' _ fun s => bind_congr' _ fun ne => bind_congr2 (walkForward_map A _ _ hp _ _ _) fun s => ?_
    split
    · exact bind_congr' _ fun ne => bind_congr2 (walkBackward_map A _ _ hp _ _ _) fun s =>
        bind_congr2 (hashEdge_map A _ _) fun s => bind_congr' _ fun ne => hashEdge_map A _ _
    · exact bind_congr' _ fun s => bind_congr2 (hashEdge_map A _ _) fun s => bind_congr' _ fun ne => hashEdge_map A _ _

theorem mainLoop_map (A : Agree L e e' g g') (fuel : ℕ) (i0 i1 i2 : ℤ) : ∀ (ids : List ℤ) (pp : Option α) (s : St), (∀ q ∈ pp, q ∈ L) →
    mainLoop g (L.map e) fuel i0 i1 i2 ids (pp.map e) s = mainLoop g' (L.map e') fuel i0 i1 i2 ids (pp.map e') s := by
  intro ids
  induction ids with
  | nil => intros; rfl
  | cons i ids ih =>
    intro pp s hpp
    unfold mainLoop
    refine bind_get fun p hp => ?_
    dsimp only
    have hskip : (match pp.map e with | none => false | some q => g.near (e p) q) = (match pp.map e' with | none => false | some q => g'.near (e' p) q) := by
      cases pp with
      | none => rfl
      | some q => exact A.near _ hp _ (hpp q rfl)
    refine ite_congr' hskip (ih pp s hpp) ?_
    have hp' : ∀ q ∈ some p, q ∈ L := by intro q hq; cases hq; exact hp
    split
    · exact ih (some p) s hp'
    · exact bind_congr2 (insertPoint_map A _ _ _ hp) fun s => ih (some p) s hp'

theorem initState_map (A : Agree L e e' g g') (hashSize : ℕ) (i0 i1 i2 : ℤ) :
    initState g (L.map e) hashSize i0 i1 i2 = initState g' (L.map e') hashSize i0 i1 i2 := by
  unfold initState
  simp only [List.length_map, hashEdge_map A]

theorem core_map (A : Agree L e e' g g') (fuel hashSize : ℕ) (i0 i1 i2 : ℤ) (ids : List ℤ) :
    triangulateCore g (L.map e) fuel hashSize i0 i1 i2 ids = triangulateCore g' (L.map e') fuel hashSize i0 i1 i2 ids := by
  unfold triangulateCore
  refine bind_congr2 (initState_map A _ _ _ _) fun s => bind_congr2 (mainLoop_map A fuel i0 i1 i2 ids none s (by simp)) fun s => rfl

/-- the hulls are images of the same list -/
theorem hullWalk_map (s : St) : ∀ (fuel : ℕ) (x : Option ℕ) (acc : List α),
    hullWalk (L.map e) s fuel x (acc.map e) = Res.map' (List.map e) (hullWalk L s fuel x acc) := by
  intro fuel
  induction fuel with
  | zero => intros; rfl
  | succ fuel ih =>
    intro x acc
    unfold hullWalk
    cases x with
    | none => rfl
    | some x =>
      dsimp only
      cases s.deref (some x) with
      | panic => rfl
      | fuel => rfl
      | ok ne =>
        simp only [Res.bind_ok]
        unfold goGet
        split
        · rfl
        · rw [List.getElem?_map]
          cases L[ne.i.toNat]? with
          | none => rfl
          | some a =>
            simp only [Option.map_some, Res.ofOption_some, Res.bind_ok]
            split
            · simp [Res.map']
            · rw [← ih]; simp

end Verif.Proofs
