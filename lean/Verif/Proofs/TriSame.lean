import Verif.Proofs.CoreMap
/-!
# A transformation of the points under which every test of the triangulator answers the same

`SameTests T Vs`: all comparisons the triangulator makes on the points `Vs` answer as on their images under `T`. Then the run on the images is the image of the
run (`triangulate_same`).
-/
set_option linter.unusedSectionVars false

namespace Verif.Proofs
open Verif Verif.Tri2 Verif.R3

section fold
variable {F α : Type} [LT F] [DecidableLT F] [GoTop F]

/-- one step of the search for a minimum (all three seed searches) -/
def minStep (D : α × ℕ → Option F) (acc : ℕ × Option F) (x : α × ℕ) : ℕ × Option F :=
  match D x with
  | none => acc
  | some r => if ltInf r acc.2 then (x.2, some r) else acc

theorem minFold_same {R : F → F → Prop} (hlt : ∀ {x x' y y'}, R x x' → R y y' → (x < y ↔ x' < y')) (htop : ∀ {x x'}, R x x' → GoTop.ltTop x = GoTop.ltTop x')
    {D D' : α × ℕ → Option F} : ∀ (l : List (α × ℕ)) (acc acc' : ℕ × Option F), (∀ x ∈ l, Option.Rel R (D x) (D' x)) → acc.1 = acc'.1 → Option.Rel R acc.2 acc'.2 →
    (l.foldl (minStep D) acc).1 = (l.foldl (minStep D') acc').1 ∧ Option.Rel R (l.foldl (minStep D) acc).2 (l.foldl (minStep D') acc').2 := by
  intro l
  induction l with
  | nil => intro acc acc' _ h1 h2; exact ⟨h1, h2⟩
  | cons x l ih =>
    intro acc acc' h h1 h2
    have hx := h x List.mem_cons_self
    have hl := fun y hy => h y (List.mem_cons_of_mem _ hy)
    rw [List.foldl_cons, List.foldl_cons]
    have key : (minStep D acc x).1 = (minStep D' acc' x).1 ∧ Option.Rel R (minStep D acc x).2 (minStep D' acc' x).2 := by
      unfold minStep
      cases hD : D x with
      | none =>
        rw [hD] at hx
        cases hD' : D' x with
        | none => exact ⟨h1, h2⟩
        | some r' => rw [hD'] at hx; cases hx
      | some r =>
        rw [hD] at hx
        cases hD' : D' x with
        | none => rw [hD'] at hx; cases hx
        | some r' =>
          rw [hD'] at hx
          cases hx with
          | some hr =>
            have hc : ltInf r acc.2 = ltInf r' acc'.2 := by
              obtain ⟨i, o⟩ := acc
              obtain ⟨i', o'⟩ := acc'
              dsimp only at h2 ⊢
              cases h2 with
              | none => exact htop hr
              | some ho =>
                unfold ltInf
                exact decide_eq_decide.mpr (hlt hr ho)
            dsimp only
            rw [hc]
            split
            · exact ⟨rfl, .some hr⟩
            · exact ⟨h1, h2⟩
    exact ih _ _ hl key.1 key.2

end fold

section
variable {F : Type} [_root_.Add F] [_root_.Sub F] [Mul F] [Div F] [LT F] [DecidableLT F] [GoTop F] [LE F] [DecidableLE F]
    [BEq F] [GoAbs F] [GoMinMax F] [GoConst F] [GoTrunc F] [GoOfInt F]
    [OfNat F 0] [OfNat F 1] [OfNat F 2] [OfNat F 3] [OfNat F 4]

/-- the midpoint of the bounding box -/
def boxMid (a b c d : Vector F) : Vector F := ⟨(a.X + b.X) / 2, (c.Y + d.Y) / 2, 0⟩

/-- all tests of the triangulator answer the same on `Vs` and on the images under `T`; `R` relates the compared squared distances, `Q` the radii -/
structure SameTests (T : Vector F → Vector F) (Vs : List (Vector F)) (R Q : F → F → Prop) : Prop where
  ltX : ∀ a ∈ Vs, ∀ b ∈ Vs, (a.X < b.X ↔ (T a).X < (T b).X)
  ltY : ∀ a ∈ Vs, ∀ b ∈ Vs, (a.Y < b.Y ↔ (T a).Y < (T b).Y)
  lt : ∀ {x x' y y'}, R x x' → R y y' → (x < y ↔ x' < y')
  top : ∀ {x x'}, R x x' → GoTop.ltTop x = GoTop.ltTop x'
  pos : ∀ {x x'}, R x x' → (0 < x ↔ 0 < x')
  lt' : ∀ {x x' y y'}, Q x x' → Q y y' → (x < y ↔ x' < y')
  top' : ∀ {x x'}, Q x x' → GoTop.ltTop x = GoTop.ltTop x'
  mid : ∀ a ∈ Vs, ∀ b ∈ Vs, ∀ c ∈ Vs, ∀ d ∈ Vs, ∀ p ∈ Vs, R (SquaredDistance p (boxMid a b c d)) (SquaredDistance (T p) (boxMid (T a) (T b) (T c) (T d)))
  dist : ∀ a ∈ Vs, ∀ b ∈ Vs, R (SquaredDistance a b) (SquaredDistance (T a) (T b))
  rad : ∀ a ∈ Vs, ∀ b ∈ Vs, ∀ c ∈ Vs, Option.Rel Q (circumradius a b c) (circumradius (T a) (T b) (T c))
  area : ∀ a ∈ Vs, ∀ b ∈ Vs, ∀ c ∈ Vs, (area a b c < 0 ↔ area (T a) (T b) (T c) < 0)
  geo : ∀ a ∈ Vs, ∀ b ∈ Vs, ∀ c ∈ Vs, ((circumradius a b c).isSome ∨ (circumradius a c b).isSome) → ∀ h, Agree Vs id T (Geo.ofScalar h (circumcenter a b c)) (Geo.ofScalar h (circumcenter (T a) (T b) (T c)))
  less : ∀ a ∈ Vs, ∀ b ∈ Vs, ∀ c ∈ Vs, ((circumradius a b c).isSome ∨ (circumradius a c b).isSome) → ∀ p ∈ Vs, ∀ q ∈ Vs, idLess (circumcenter a b c) p q = idLess (circumcenter (T a) (T b) (T c)) (T p) (T q)

variable {T : Vector F → Vector F} {Vs : List (Vector F)} {R Q : F → F → Prop}

theorem bounds_same (S : SameTests T Vs R Q) : (bounds Vs = .panic ∧ bounds (Vs.map T) = .panic) ∨ ∃ a ∈ Vs, ∃ b ∈ Vs, ∃ c ∈ Vs, ∃ d ∈ Vs,
    bounds Vs = .ok (a.X, b.X, c.Y, d.Y) ∧ bounds (Vs.map T) = .ok ((T a).X, (T b).X, (T c).Y, (T d).Y) := by
  have key : ∀ (l : List (Vector F)) (a b c d : Vector F), (∀ v ∈ l, v ∈ Vs) → a ∈ Vs → b ∈ Vs → c ∈ Vs → d ∈ Vs → ∃ a' ∈ Vs, ∃ b' ∈ Vs, ∃ c' ∈ Vs, ∃ d' ∈ Vs,
      l.foldl (fun (b : F × F × F × F) p =>
        let (x0, x1, y0, y1) := b
        (if p.X < x0 then p.X else x0, if x1 < p.X then p.X else x1,
         if p.Y < y0 then p.Y else y0, if y1 < p.Y then p.Y else y1)) (a.X, b.X, c.Y, d.Y) = (a'.X, b'.X, c'.Y, d'.Y) ∧
      (l.map T).foldl (fun (b : F × F × F × F) p =>
        let (x0, x1, y0, y1) := b
        (if p.X < x0 then p.X else x0, if x1 < p.X then p.X else x1,
         if p.Y < y0 then p.Y else y0, if y1 < p.Y then p.Y else y1)) ((T a).X, (T b).X, (T c).Y, (T d).Y) = ((T a').X, (T b').X, (T c').Y, (T d').Y) := by
    intro l
    induction l with
    | nil => intro a b c d _ ha hb hc hd; exact ⟨a, ha, b, hb, c, hc, d, hd, rfl, rfl⟩
    | cons p l ih =>
      intro a b c d hl ha hb hc hd
      have hp := hl p List.mem_cons_self
      have hl' := fun v hv => hl v (List.mem_cons_of_mem _ hv)
      obtain ⟨a', ha', b', hb', c', hc', d', hd', e1, e2⟩ := ih (if p.X < a.X then p else a) (if b.X < p.X then p else b) (if p.Y < c.Y then p else c)
        (if d.Y < p.Y then p else d) hl' (by split <;> assumption) (by split <;> assumption) (by split <;> assumption) (by split <;> assumption)
      refine ⟨a', ha', b', hb', c', hc', d', hd', ?_, ?_⟩
      · rw [List.foldl_cons, ← e1]
        congr 1
        simp only [apply_ite Vector.X, apply_ite Vector.Y]
      · rw [List.map_cons, List.foldl_cons, ← e2]
        congr 1
        simp only [apply_ite T, apply_ite Vector.X, apply_ite Vector.Y, S.ltX p hp a ha, S.ltX b hb p hp, S.ltY p hp c hc, S.ltY d hd p hp]
  rcases Vs with _ | ⟨v0, _ | ⟨v1, vs⟩⟩
  · exact Or.inl ⟨rfl, rfl⟩
  · exact Or.inl ⟨rfl, rfl⟩
  · obtain ⟨a, ha, b, hb, c, hc, d, hd, e1, e2⟩ := key (v0 :: v1 :: vs) v0 v1 v0 v1 (fun _ h => h) (by simp) (by simp) (by simp) (by simp)
    refine Or.inr ⟨a, ha, b, hb, c, hc, d, hd, ?_, ?_⟩
    · show Res.ok _ = _
      rw [← e1]
    · show Res.ok _ = _
      rw [← e2]

theorem mem_zip {x : Vector F × ℕ} (h : x ∈ Vs.zipIdx) : x.1 ∈ Vs := by
  obtain ⟨v, i⟩ := x
  rw [List.mem_zipIdx_iff_getElem?] at h
  exact List.mem_of_getElem? h

theorem zipIdx_mapT (T : Vector F → Vector F) : (Vs.map T).zipIdx = Vs.zipIdx.map (fun x => (T x.1, x.2)) := by
  rw [List.zipIdx_map]; rfl

theorem seed0_same (S : SameTests T Vs R Q) {a b c d : Vector F} (ha : a ∈ Vs) (hb : b ∈ Vs) (hc : c ∈ Vs) (hd : d ∈ Vs) :
    seed0 (Vs.map T) (boxMid (T a) (T b) (T c) (T d)) = seed0 Vs (boxMid a b c d) := by
  unfold seed0
  rw [zipIdx_mapT, List.foldl_map]
  exact (minFold_same S.lt S.top (D := fun x => some (SquaredDistance x.1 (boxMid a b c d)))
    (D' := fun x => some (SquaredDistance (T x.1) (boxMid (T a) (T b) (T c) (T d)))) Vs.zipIdx (0, none) (0, none)
    (fun x hx => .some (S.mid a ha b hb c hc d hd _ (mem_zip hx))) rfl .none).1.symm

/-- the distances the second search looks at -/
def dist1 (i0 : ℕ) (q : Vector F) (x : Vector F × ℕ) : Option F :=
  if x.2 = i0 then none else if 0 < SquaredDistance x.1 q then some (SquaredDistance x.1 q) else none

theorem seed1_fold (Vs : List (Vector F)) (i0 : ℕ) (q : Vector F) : seed1 Vs i0 q = (Vs.zipIdx.foldl (minStep (dist1 i0 q)) (0, none)).1 := by
  unfold seed1
  congr 2
  funext acc x
  unfold minStep dist1
  by_cases h : x.2 = i0
  · simp only [if_pos h]
  · simp only [if_neg h]
    by_cases h2 : 0 < SquaredDistance x.1 q
    · simp [h2]
    · simp [h2]

/-- the radii the third search looks at -/
def rad2 (i0 i1 : ℕ) (p q : Vector F) (x : Vector F × ℕ) : Option F :=
  if x.2 = i0 ∨ x.2 = i1 then none else circumradius p q x.1

theorem seed2_fold (Vs : List (Vector F)) (i0 i1 : ℕ) (p q : Vector F) : seed2 Vs i0 i1 p q = Vs.zipIdx.foldl (minStep (rad2 i0 i1 p q)) (0, none) := by
  unfold seed2
  congr 1
  funext acc x
  unfold minStep rad2
  by_cases h : x.2 = i0 ∨ x.2 = i1
  · simp only [if_pos h]
  · simp only [if_neg h]
    cases circumradius p q x.1 <;> rfl

theorem foldl_minStep_map (D : Vector F × ℕ → Option F) (acc : ℕ × Option F) :
    (Vs.map T).zipIdx.foldl (minStep D) acc = Vs.zipIdx.foldl (minStep (fun x => D (T x.1, x.2))) acc := by
  rw [zipIdx_mapT, List.foldl_map]; rfl

theorem seed1_same (S : SameTests T Vs R Q) (i0 : ℕ) {p0 : Vector F} (h0 : p0 ∈ Vs) : seed1 (Vs.map T) i0 (T p0) = seed1 Vs i0 p0 := by
  rw [seed1_fold, seed1_fold, foldl_minStep_map]
  refine (minFold_same S.lt S.top Vs.zipIdx (0, none) (0, none) (fun x hx => ?_) rfl .none).1.symm
  have hd := S.dist _ (mem_zip hx) _ h0
  unfold dist1
  by_cases h : x.2 = i0
  · simp only [if_pos h]; exact .none
  · simp only [if_neg h]
    by_cases h2 : 0 < SquaredDistance x.1 p0
    · rw [if_pos h2, if_pos ((S.pos hd).mp h2)]; exact .some hd
    · rw [if_neg h2, if_neg (fun hc => h2 ((S.pos hd).mpr hc))]; exact .none

theorem seed2_same (S : SameTests T Vs R Q) (i0 i1 : ℕ) {p0 p1 : Vector F} (h0 : p0 ∈ Vs) (h1 : p1 ∈ Vs) :
    (seed2 (Vs.map T) i0 i1 (T p0) (T p1)).1 = (seed2 Vs i0 i1 p0 p1).1 ∧ Option.Rel Q (seed2 Vs i0 i1 p0 p1).2 (seed2 (Vs.map T) i0 i1 (T p0) (T p1)).2 := by
  rw [seed2_fold, seed2_fold, foldl_minStep_map]
  obtain ⟨e1, e2⟩ := minFold_same S.lt' S.top' (D := rad2 i0 i1 p0 p1) (D' := fun x => rad2 i0 i1 (T p0) (T p1) (T x.1, x.2))
    Vs.zipIdx (0, none) (0, none) (fun x hx => by
      unfold rad2
      by_cases h : x.2 = i0 ∨ x.2 = i1
      · simp only [if_pos h]; exact .none
      · simp only [if_neg h]
        exact S.rad _ h0 _ h1 _ (mem_zip hx)) rfl .none
  exact ⟨e1.symm, e2⟩

/-- the third seed, if one is found -/
theorem seed2_found {Vs : List (Vector F)} {i0 i1 : ℕ} {p q : Vector F} {r : F} (h : (seed2 Vs i0 i1 p q).2 = some r) :
    ∃ v, Vs[(seed2 Vs i0 i1 p q).1]? = some v ∧ (circumradius p q v).isSome := by
  rw [seed2_fold] at h ⊢
  have key : ∀ (l : List (Vector F × ℕ)) (acc : ℕ × Option F), (∀ x ∈ l, x ∈ Vs.zipIdx) →
      (∀ r, acc.2 = some r → ∃ v, Vs[acc.1]? = some v ∧ (circumradius p q v).isSome) →
      ∀ r, (l.foldl (minStep (rad2 i0 i1 p q)) acc).2 = some r →
        ∃ v, Vs[(l.foldl (minStep (rad2 i0 i1 p q)) acc).1]? = some v ∧ (circumradius p q v).isSome := by
    intro l
    induction l with
    | nil => intro acc _ h; exact h
    | cons x l ih =>
      intro acc hl h
      rw [List.foldl_cons]
      refine ih _ (fun y hy => hl y (List.mem_cons_of_mem _ hy)) ?_
      intro r hr
      unfold minStep at hr ⊢
      cases hD : rad2 i0 i1 p q x with
      | none => rw [hD] at hr; simp only at hr ⊢; exact h r hr
      | some d =>
        rw [hD] at hr
        simp only at hr ⊢
        split at hr
        · rename_i hc
          rw [if_pos hc]
          obtain ⟨v, i⟩ := x
          have hx := hl _ List.mem_cons_self
          rw [List.mem_zipIdx_iff_getElem?] at hx
          refine ⟨v, hx, ?_⟩
          unfold rad2 at hD
          split at hD
          · cases hD
          · rw [hD]; rfl
        · rename_i hc
          rw [if_neg hc]; exact h r hr
  exact key Vs.zipIdx (0, none) (fun _ h => h) (by simp) r h

/-- sorting the ids with the comparison of the triangulator: `sortBy` stands for `sort.Sort`, which sees the points only through `Less` -/
def sortIds (sortBy : (ℤ → ℤ → Bool) → List ℤ → List ℤ) (Vs : List (Vector F)) (center : Vector F) : List ℤ → List ℤ :=
  sortBy (fun i j => match Vs[i.toNat]?, Vs[j.toNat]? with
    | some p, some q => idLess center p q
    | _, _ => false)

/-- the image of an outcome -/
def outMap (T : Vector F → Vector F) : TriOut F → TriOut F
  | .noTriangulation => .noTriangulation
  | .triangulation hull ts hs => .triangulation (hull.map T) ts hs

theorem goGet_mem {β : Type} {l : List β} {z : ℤ} {v : β} (h : goGet l z = .ok v) : v ∈ l := by
  unfold goGet at h
  split at h
  · cases h
  · exact List.mem_of_getElem? (Res.ofOption_eq_ok.mp h)

theorem goGet_map {β γ : Type} (f : β → γ) (l : List β) (z : ℤ) : goGet (l.map f) z = Res.map' f (goGet l z) := by
  unfold goGet
  split
  · rfl
  · rw [List.getElem?_map]; cases l[z.toNat]? <;> rfl

theorem map_bind' {β γ δ : Type} (f : γ → δ) (m : Res β) (k : β → Res γ) : Res.map' f (m >>= k) = (m >>= fun x => Res.map' f (k x)) := by
  cases m <;> rfl

theorem bind_map' {β γ δ : Type} (f : β → γ) (m : Res β) (k : γ → Res δ) : (Res.map' f m >>= k) = (m >>= fun x => k (f x)) := by
  cases m <;> rfl

theorem bind_congr_ok {β γ : Type} (m : Res β) {f g : β → Res γ} (h : ∀ x, m = .ok x → f x = g x) : (m >>= f) = (m >>= g) := by
  cases m with
  | ok x => exact h x rfl
  | panic => rfl
  | fuel => rfl

/-- the run on the images is the image of the run -/
theorem triangulate_same (S : SameTests T Vs R Q) (sortBy : (ℤ → ℤ → Bool) → List ℤ → List ℤ) (hashSize : ℕ → ℕ) (fuel : ℕ) :
    Triangulate (sortIds sortBy (Vs.map T)) hashSize fuel (Vs.map T) = Res.map' (outMap T) (Triangulate (sortIds sortBy Vs) hashSize fuel Vs) := by
  unfold Triangulate
  rw [List.length_map]
  by_cases hn : Vs.length = 0
  · simp only [hn, if_true]; rfl
  · simp only [if_neg hn]
    rcases bounds_same S with ⟨e1, e2⟩ | ⟨a, ha, b, hb, c, hc, d, hd, e1, e2⟩
    · rw [e1, e2]; rfl
    · rw [e1, e2, Res.bind_ok, Res.bind_ok]
      dsimp only
      rw [show (⟨((T a).X + (T b).X) / 2, ((T c).Y + (T d).Y) / 2, 0⟩ : Vector F) = boxMid (T a) (T b) (T c) (T d) from rfl,
        show (⟨(a.X + b.X) / 2, (c.Y + d.Y) / 2, 0⟩ : Vector F) = boxMid a b c d from rfl, seed0_same S ha hb hc hd]
      rw [goGet_map, bind_map', map_bind']
      refine bind_congr_ok _ fun p0 h0 => ?_
      have m0 := goGet_mem h0
      rw [seed1_same S _ m0, goGet_map, bind_map', map_bind']
      refine bind_congr_ok _ fun p1 h1 => ?_
      have m1 := goGet_mem h1
      obtain ⟨s1, s2⟩ := seed2_same S (seed0 Vs (boxMid a b c d)) (seed1 Vs (seed0 Vs (boxMid a b c d)) p0) m0 m1
      rw [s1]
      have found := fun r => seed2_found (r := r) (Vs := Vs) (i0 := seed0 Vs (boxMid a b c d)) (i1 := seed1 Vs (seed0 Vs (boxMid a b c d)) p0) (p := p0) (q := p1)
      generalize (seed2 (Vs.map T) (seed0 Vs (boxMid a b c d)) (seed1 Vs (seed0 Vs (boxMid a b c d)) p0) (T p0) (T p1)).2 = o at s2 ⊢
      generalize (seed2 Vs (seed0 Vs (boxMid a b c d)) (seed1 Vs (seed0 Vs (boxMid a b c d)) p0) p0 p1).1 = i2 at found ⊢
      generalize (seed2 Vs (seed0 Vs (boxMid a b c d)) (seed1 Vs (seed0 Vs (boxMid a b c d)) p0) p0 p1).2 = r at found s2 ⊢
      generalize hi1 : seed1 Vs (seed0 Vs (boxMid a b c d)) p0 = i1 at h1 ⊢
      cases s2 with
      | none => rfl
      | some =>
        obtain ⟨p2, g2, hrad⟩ := found _ rfl
        have h2 : goGet Vs ((i2 : ℕ) : ℤ) = .ok p2 := by
          unfold goGet
          rw [if_neg (by omega), Int.toNat_natCast, g2]; rfl
        have m2 := goGet_mem h2
        dsimp only
        rw [goGet_map, bind_map', h2, Res.bind_ok, Res.bind_ok]
        have fin : ∀ (j1 j2 : ℕ) (q1 q2 : Vector F), goGet Vs (j1 : ℤ) = .ok q1 → goGet Vs (j2 : ℤ) = .ok q2 →
            ((circumradius p0 q1 q2).isSome ∨ (circumradius p0 q2 q1).isSome) → ∀ i0 : ℤ,
            (do
              let p1 ← goGet (Vs.map T) (j1 : ℤ)
              let p2 ← goGet (Vs.map T) (j2 : ℤ)
              let s ← triangulateCore (Geo.ofScalar (hashSize Vs.length) (circumcenter (T p0) p1 p2)) (Vs.map T) fuel (hashSize Vs.length) i0 j1 j2
                (sortIds sortBy (Vs.map T) (circumcenter (T p0) p1 p2) ((List.range Vs.length).map Int.ofNat))
              let hull ← hullWalk (Vs.map T) s fuel s.hull []
              pure (TriOut.triangulation hull s.triangles s.halfedges)) =
            Res.map' (outMap T) (do
              let p1 ← goGet Vs (j1 : ℤ)
              let p2 ← goGet Vs (j2 : ℤ)
              let s ← triangulateCore (Geo.ofScalar (hashSize Vs.length) (circumcenter p0 p1 p2)) Vs fuel (hashSize Vs.length) i0 j1 j2
                (sortIds sortBy Vs (circumcenter p0 p1 p2) ((List.range Vs.length).map Int.ofNat))
              let hull ← hullWalk Vs s fuel s.hull []
              pure (TriOut.triangulation hull s.triangles s.halfedges)) := by
          intro j1 j2 q1 q2 e1 e2 hq i0
          have n1 := goGet_mem e1
          have n2 := goGet_mem e2
          simp only [goGet_map, bind_map', map_bind', e1, e2, Res.bind_ok]
          have A := S.geo p0 m0 q1 n1 q2 n2 hq (hashSize Vs.length)
          have hs : sortIds sortBy (Vs.map T) (circumcenter (T p0) (T q1) (T q2)) = sortIds sortBy Vs (circumcenter p0 q1 q2) := by
            unfold sortIds
            congr 1
            funext i j
            rw [List.getElem?_map, List.getElem?_map]
            cases hi : Vs[i.toNat]? with
            | none => rfl
            | some v =>
              cases hj : Vs[j.toNat]? with
              | none => rfl
              | some w => exact (S.less p0 m0 q1 n1 q2 n2 hq v (List.mem_of_getElem? hi) w (List.mem_of_getElem? hj)).symm
          have hc := core_map A fuel (hashSize Vs.length) i0 j1 j2 (sortIds sortBy Vs (circumcenter p0 q1 q2) ((List.range Vs.length).map Int.ofNat))
          rw [List.map_id] at hc
          rw [hs, ← hc]
          refine bind_congr' _ fun s => ?_
          rw [show ([] : List (Vector F)) = ([] : List (Vector F)).map T from rfl, hullWalk_map, bind_map']
          rfl
        by_cases ha : Tri2.area p0 p1 p2 < 0
        · rw [if_pos ha, if_pos ((S.area p0 m0 p1 m1 p2 m2).mp ha)]
          exact fin i2 i1 p2 p1 h2 h1 (Or.inr hrad) _
        · rw [if_neg ha, if_neg (fun hc => ha ((S.area p0 m0 p1 m1 p2 m2).mpr hc))]
          exact fin i1 i2 p1 p2 h1 h2 (Or.inl hrad) _

/-! ## The hull -/

/-- the comparison of the points at two positions -/
def lessAt (Vs : List (Vector F)) (i j : ℕ) : Bool :=
  match Vs[i]?, Vs[j]? with
  | some p, some q => hullLess p q
  | _, _ => false

/-- sorting with the comparison of `ConvexHull`: `perm` stands for the order in which `sort.Slice` leaves the positions, which it decides from the answers
of the comparisons -/
def sortPoints (perm : ℕ → (ℕ → ℕ → Bool) → List ℕ) (Vs : List (Vector F)) : List (Vector F) :=
  (perm Vs.length (lessAt Vs)).filterMap (fun i => Vs[i]?)

/-- all tests of `ConvexHull` answer the same on `Vs` and on the images under `T` -/
structure SameHull (T : Vector F → Vector F) (Vs : List (Vector F)) : Prop where
  less : ∀ a ∈ Vs, ∀ b ∈ Vs, hullLess a b = hullLess (T a) (T b)
  near : ∀ a ∈ Vs, ∀ b ∈ Vs, (SquaredDistance a b < eps ↔ SquaredDistance (T a) (T b) < eps)
  pos : ∀ a ∈ Vs, ∀ b ∈ Vs, ∀ c ∈ Vs, (0 < cross2D a b c ↔ 0 < cross2D (T a) (T b) (T c))
  neg : ∀ a ∈ Vs, ∀ b ∈ Vs, ∀ c ∈ Vs, (cross2D a b c < 0 ↔ cross2D (T a) (T b) (T c) < 0)

theorem sortPoints_mem (perm : ℕ → (ℕ → ℕ → Bool) → List ℕ) {v : Vector F} (h : v ∈ sortPoints perm Vs) : v ∈ Vs := by
  unfold sortPoints at h
  obtain ⟨i, _, hi⟩ := List.mem_filterMap.mp h
  exact List.mem_of_getElem? hi

theorem sortPoints_same (S : SameHull T Vs) (perm : ℕ → (ℕ → ℕ → Bool) → List ℕ) : sortPoints perm (Vs.map T) = (sortPoints perm Vs).map T := by
  unfold sortPoints
  rw [List.map_filterMap, List.length_map]
  have e : lessAt (Vs.map T) = lessAt Vs := by
    funext i j
    unfold lessAt
    rw [List.getElem?_map, List.getElem?_map]
    cases hi : Vs[i]? with
    | none => rfl
    | some v =>
      cases hj : Vs[j]? with
      | none => rfl
      | some w => exact (S.less v (List.mem_of_getElem? hi) w (List.mem_of_getElem? hj)).symm
  rw [e]
  congr 1
  funext i
  rw [List.getElem?_map]

theorem filterLoop_same (S : SameHull T Vs) : ∀ (n i k : ℕ) (arr : List (Vector F)), (∀ v ∈ arr, v ∈ Vs) →
    filterLoop n i k (arr.map T) = (filterLoop n i k arr).map T ∧ ∀ v ∈ filterLoop n i k arr, v ∈ Vs := by
  intro n
  induction n with
  | zero =>
    intro i k arr h
    exact ⟨by unfold filterLoop; rw [List.map_take], fun v hv => h v (List.mem_of_mem_take hv)⟩
  | succ n ih =>
    intro i k arr h
    unfold filterLoop
    rw [List.getElem?_map]
    cases hi : arr[i]? with
    | none => exact ⟨by rw [List.map_take]; rfl, fun v hv => h v (List.mem_of_mem_take hv)⟩
    | some p =>
      have hp := h p (List.mem_of_getElem? hi)
      have hset : ∀ v ∈ arr.set k p, v ∈ Vs := by
        intro v hv
        rcases List.mem_or_eq_of_mem_set hv with h' | rfl
        · exact h v h'
        · exact hp
      simp only [Option.map_some]
      have hno : filterLoop n (i + 1) (k + 1) ((arr.map T).set k (T p)) = (filterLoop n (i + 1) (k + 1) (arr.set k p)).map T ∧
          ∀ v ∈ filterLoop n (i + 1) (k + 1) (arr.set k p), v ∈ Vs := by
        rw [← List.map_set]
        exact ih _ _ _ hset
      cases i with
      | zero => simpa using hno
      | succ j =>
        cases hj : arr[j]? with
        | none => simpa [hj] using hno
        | some q =>
          have hc := S.near p hp q (h q (List.mem_of_getElem? hj))
          simp only [List.getElem?_map, hj, Option.map_some, decide_eq_true_eq]
          by_cases h0 : SquaredDistance p q < eps
          · rw [if_pos h0, if_pos (hc.mp h0)]
            exact ih _ _ _ h
          · rw [if_neg h0, if_neg (fun h' => h0 (hc.mpr h'))]
            exact hno

theorem popU_same (S : SameHull T Vs) {p : Vector F} (hp : p ∈ Vs) : ∀ l : List (Vector F), (∀ v ∈ l, v ∈ Vs) →
    popU (T p) (l.map T) = (popU p l).map T ∧ ∀ v ∈ popU p l, v ∈ Vs := by
  intro l
  induction l with
  | nil => intro h; exact ⟨rfl, h⟩
  | cons b l ih =>
    intro h
    cases l with
    | nil => exact ⟨rfl, h⟩
    | cons a rest =>
      simp only [List.map_cons]
      unfold popU
      have hc := S.pos a (h a (by simp)) b (h b (by simp)) p hp
      have ih' := ih (fun v hv => h v (List.mem_cons_of_mem _ hv))
      by_cases h0 : 0 < cross2D a b p
      · rw [if_pos h0, if_pos (hc.mp h0)]
        exact ih'
      · rw [if_neg h0, if_neg (fun h' => h0 (hc.mpr h'))]
        exact ⟨rfl, h⟩

theorem popL_same (S : SameHull T Vs) {p : Vector F} (hp : p ∈ Vs) : ∀ l : List (Vector F), (∀ v ∈ l, v ∈ Vs) →
    popL (T p) (l.map T) = (popL p l).map T ∧ ∀ v ∈ popL p l, v ∈ Vs := by
  intro l
  induction l with
  | nil => intro h; exact ⟨rfl, h⟩
  | cons b l ih =>
    intro h
    cases l with
    | nil => exact ⟨rfl, h⟩
    | cons a rest =>
      simp only [List.map_cons]
      unfold popL
      have hc := S.neg a (h a (by simp)) b (h b (by simp)) p hp
      have ih' := ih (fun v hv => h v (List.mem_cons_of_mem _ hv))
      by_cases h0 : cross2D a b p < 0
      · rw [if_pos h0, if_pos (hc.mp h0)]
        exact ih'
      · rw [if_neg h0, if_neg (fun h' => h0 (hc.mpr h'))]
        exact ⟨rfl, h⟩

theorem hullLoop_same (S : SameHull T Vs) (l : List (Vector F)) (h : ∀ v ∈ l, v ∈ Vs) :
    hullLoop (l.map T) = ((hullLoop l).1.map T, (hullLoop l).2.map T) := by
  have key : ∀ (l u w : List (Vector F)), (∀ v ∈ l, v ∈ Vs) → (∀ v ∈ u, v ∈ Vs) → (∀ v ∈ w, v ∈ Vs) →
      (l.map T).foldl (fun st p => (p :: popU p st.1, p :: popL p st.2)) (u.map T, w.map T) =
        ((l.foldl (fun st p => (p :: popU p st.1, p :: popL p st.2)) (u, w)).1.map T, (l.foldl (fun st p => (p :: popU p st.1, p :: popL p st.2)) (u, w)).2.map T) := by
    intro l
    induction l with
    | nil => intros; rfl
    | cons p l ih =>
      intro u w hl hu hw
      have hp := hl p (by simp)
      obtain ⟨e1, m1⟩ := popU_same S hp u hu
      obtain ⟨e2, m2⟩ := popL_same S hp w hw
      rw [List.map_cons, List.foldl_cons, List.foldl_cons]
      dsimp only
      rw [e1, e2, ← List.map_cons, ← List.map_cons]
      refine ih _ _ (fun v hv => hl v (List.mem_cons_of_mem _ hv)) ?_ ?_
      · intro v hv
        rcases List.mem_cons.mp hv with rfl | hv
        · exact hp
        · exact m1 v hv
      · intro v hv
        rcases List.mem_cons.mp hv with rfl | hv
        · exact hp
        · exact m2 v hv
  exact key l [] [] h (by simp) (by simp)

/-- the hull of the images is the image of the hull -/
theorem convexHull_same (S : SameHull T Vs) (perm : ℕ → (ℕ → ℕ → Bool) → List ℕ) :
    ConvexHull (sortPoints perm) (Vs.map T) = (ConvexHull (sortPoints perm) Vs).map T := by
  unfold ConvexHull
  dsimp only
  rw [sortPoints_same S, filterDup, List.length_map]
  obtain ⟨e, m⟩ := filterLoop_same S (sortPoints perm Vs).length 0 0 _ (fun v hv => sortPoints_mem perm hv)
  rw [e, hullLoop_same S _ m, filterDup]
  simp only [← List.map_reverse, ← List.map_dropLast, List.map_append]

end

end Verif.Proofs
