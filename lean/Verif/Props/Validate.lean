import Verif.Props.Delaunator
/-!
# C26: `Validate`
-/
namespace Verif.Props
open Verif Verif.Tri2 Verif.Proofs

/-- the half-edge table is an involution wherever it is not -1 -/
def Involution (hs : List ℤ) : Prop := ∀ (i j : ℕ), hs[i]? = some (j:ℤ) → hs[j]? = some (i:ℤ)

/-- all entries are -1 or an index of the table -/
def TableRange (hs : List ℤ) : Prop := ∀ z ∈ hs, z = -1 ∨ (0 ≤ z ∧ z < hs.length)

/-- sum of the signed doubled triangle areas -/
def triSum {K : Type} [Field K] (Vs : List (R3.Vector K)) : List ℤ → K
  | a :: b :: c :: ts => area (Vs.getD a.toNat ⟨0,0,0⟩) (Vs.getD b.toNat ⟨0,0,0⟩) (Vs.getD c.toNat ⟨0,0,0⟩) + triSum Vs ts
  | _ => 0

theorem checkHalfedges_spec {hs : List ℤ} (hr : TableRange hs) : ∀ (l : List (ℤ × ℕ)), (∀ x ∈ l, hs[x.2]? = some x.1) →
    ∃ b, checkHalfedges hs l = .ok b ∧ (b = true ↔ ∀ x ∈ l, ∀ j : ℕ, x.1 = (j:ℤ) → hs[j]? = some (x.2:ℤ)) := by
  intro l
  induction l with
  | nil => intro _; exact ⟨true, rfl, by simp⟩
  | cons x l ih =>
    intro hl
    obtain ⟨i2, i1⟩ := x
    obtain ⟨b, hb, hb'⟩ := ih (fun x hx => hl x (List.mem_cons_of_mem _ hx))
    have h0 : hs[i1]? = some i2 := hl (i2, i1) List.mem_cons_self
    unfold checkHalfedges
    rw [goGet_eq rfl h0, Res.bind_ok, if_neg (by simp)]
    rcases hr i2 (List.mem_of_getElem? h0) with h | ⟨h1, h2⟩
    · subst h
      rw [if_neg (by simp)]
      refine ⟨b, hb, hb'.trans ⟨fun h x hx => ?_, fun h x hx => h x (List.mem_cons_of_mem _ hx)⟩⟩
      rcases List.mem_cons.mp hx with rfl | hx
      · intro j hj; exact absurd hj (by omega)
      · exact h x hx
    · rw [if_pos (by omega)]
      obtain ⟨j, rfl⟩ := Int.eq_ofNat_of_zero_le h1
      have hj : j < hs.length := by omega
      rw [goGet_eq rfl (List.getElem?_eq_getElem hj), Res.bind_ok]
      by_cases h : hs[j] = (i1:ℤ)
      · rw [if_neg (by simp [h])]
        refine ⟨b, hb, hb'.trans ⟨fun g x hx => ?_, fun g x hx => g x (List.mem_cons_of_mem _ hx)⟩⟩
        rcases List.mem_cons.mp hx with rfl | hx
        · intro k hk
          obtain rfl : j = k := Int.ofNat.inj hk
          rw [List.getElem?_eq_getElem hj, h]
        · exact g x hx
      · rw [if_pos h]
        refine ⟨false, rfl, ⟨fun g => (by simp at g), fun g => ?_⟩⟩
        have := g (↑j, i1) List.mem_cons_self j rfl
        rw [List.getElem?_eq_getElem hj, Option.some_inj] at this
        exact absurd this h

theorem check_iff {hs : List ℤ} (hr : TableRange hs) : ∃ b, checkHalfedges hs hs.zipIdx = .ok b ∧ (b = true ↔ Involution hs) := by
  have key : ∀ (z : ℤ) (i : ℕ), (z, i) ∈ hs.zipIdx ↔ hs[i]? = some z := fun z i => List.mk_mem_zipIdx_iff_getElem?
  obtain ⟨b, h, hb⟩ := checkHalfedges_spec hr hs.zipIdx (fun x hx => (key x.1 x.2).mp hx)
  refine ⟨b, h, hb.trans ⟨fun g i j hij => g ((j:ℤ), i) ((key _ _).mpr hij) j rfl, ?_⟩⟩
  rintro g ⟨z, i⟩ hx j rfl
  exact g i j ((key _ _).mp hx)

section
variable {K : Type} [Field K]

theorem triAreaLoop_spec (Vs : List (R3.Vector K)) : ∀ (m : ℕ) (ts : List ℤ) (r : K), ts.length = 3*m → (∀ z ∈ ts, 0 ≤ z ∧ z < Vs.length) →
    triAreaLoop Vs ts r = .ok (r + triSum Vs ts) := by
  intro m
  induction m with
  | zero =>
    intro ts r h _
    obtain rfl : ts = [] := List.length_eq_zero_iff.mp (by omega)
    show Res.ok r = .ok (r + 0)
    rw [add_zero]
  | succ m ih =>
    intro ts r h hr
    match ts, h, hr with
    | a :: b :: c :: ts, h, hr =>
      have get : ∀ z ∈ a :: b :: c :: ts, goGet Vs z = .ok (Vs.getD z.toNat ⟨0,0,0⟩) := by
        intro z hz
        obtain ⟨h1, h2⟩ := hr z hz
        have : z.toNat < Vs.length := by omega
        refine goGet_eq (n := z.toNat) (by omega) ?_
        rw [List.getD_eq_getElem?_getD, List.getElem?_eq_getElem this]; rfl
      rw [triAreaLoop, get a (by simp), Res.bind_ok, get b (by simp), Res.bind_ok, get c (by simp), Res.bind_ok,
        ih ts _ (by simp at h; omega) (fun z hz => hr z (by simp [hz])), triSum, add_assoc]
    | [], h, _ => simp at h; 
    | [_], h, _ => simp at h; omega
    | [_, _], h, _ => simp at h; omega

variable [LinearOrder K] [IsStrictOrderedRing K] [GoSqrt K]

/-- C26: `Validate` returns nil exactly for a half-edge table that is an involution, with the areas and perimeters within 1e-9; it does not panic.
The hypotheses say that the tables are in range. -/
theorem C26_validate (srt : List (R3.Vector K) → List (R3.Vector K)) (Vs hull : List (R3.Vector K)) (ts hs : List ℤ)
    (hlen : 3 ∣ ts.length) (hts : ∀ z ∈ ts, 0 ≤ z ∧ z < Vs.length) (hhs : TableRange hs) :
    ∃ b, Validate srt Vs hull ts hs = .ok b ∧
      (b = true ↔ Involution hs ∧ |polygonArea hull - polygonArea (ConvexHull srt Vs)| ≤ 1/10^9 ∧ |polygonArea hull - triSum Vs ts / 2| ≤ 1/10^9 ∧
        |polygonPerimeter hull - polygonPerimeter (ConvexHull srt Vs)| ≤ 1/10^9) := by
  obtain ⟨b, h, hb⟩ := check_iff hhs
  obtain ⟨m, hm⟩ := hlen
  unfold Validate
  rw [h, Res.bind_ok]
  cases b with
  | false =>
    refine ⟨false, rfl, ⟨fun g => (by simp at g), fun g => ?_⟩⟩
    exact absurd (hb.mpr g.1) (by simp)
  | true =>
    have hI := hb.mp rfl
    dsimp only
    rw [triArea, triAreaLoop_spec Vs m ts 0 hm hts]
    simp only [Bool.not_true, Bool.false_eq_true, if_false, Res.bind_ok, Res.pure_eq, zero_add, goConst_field, goAbs_field]
    have c9 : (((1/10^9 : ℚ)) : K) = 1/10^9 := by push_cast; ring
    rw [c9]
    split_ifs with h1 h2
    · refine ⟨false, rfl, ⟨fun g => (by simp at g), fun g => ?_⟩⟩
      obtain ⟨_, g1, g2, _⟩ := g
      rcases h1 with h1 | h1
      · exact absurd g1 (not_le.mpr h1)
      · exact absurd g2 (not_le.mpr h1)
    · refine ⟨false, rfl, ⟨fun g => (by simp at g), fun g => ?_⟩⟩
      exact absurd g.2.2.2 (not_le.mpr h2)
    · push Not at h1 h2
      exact ⟨true, rfl, ⟨fun _ => ⟨hI, h1.1, h1.2, h2⟩, fun _ => rfl⟩⟩

end

/-- an index that is neither -1 nor in the table makes `Validate` panic -/
theorem C26_panics : checkHalfedges [5] [5].zipIdx = .panic ∧ checkHalfedges [-2] [-2].zipIdx = .panic := by decide

/-- a table of two triangles -/
example : (3:ℕ) ∣ [0,1,2,0,2,3].length ∧ TableRange [-1, -1, 3, 2, -1, -1] ∧ Involution [-1, -1, 3, 2, -1, -1] := by
  refine ⟨by decide, by unfold TableRange; decide, ?_⟩
  intro i j h
  have hi : i < 6 := (List.getElem?_eq_some_iff.mp h).1
  interval_cases i <;> simp at h
  all_goals (obtain rfl : j = _ := by exact_mod_cast h.symm) <;> rfl

end Verif.Props
