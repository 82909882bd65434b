import Verif.Model.StepJob
import Verif.Props.StepParse
import Verif.Props.StepLex
import Mathlib.Tactic.Tauto
/-!
# C94: B-spline surfaces, from the file to the record that is printed
-/
namespace Verif.Props
open Verif Verif.Step

/-! ## The record -/

theorem res_bind_assoc {α β γ : Type} (x : Res α) (f : α → Res β) (g : β → Res γ) : (x >>= f >>= g) = (x >>= fun a => f a >>= g) := by
  cases x <;> rfl

/-- the call that `Parse` makes and the record it prints are the same computation -/
theorem C94_handler (lex : SymbolTable) (key : GoString) :
    runHandler lex .bSplineSurfaceWithKnots key = (surfaceJob lex key >>= fun _ => pure []) := by
  simp only [runHandler, surfaceJob, res_bind_assoc, Res.pure_eq, Res.bind_ok]

/-- the texts of a surface: the entries of the argument list, lists as lists -/
structure SurfaceText where
  name : List Nat
  uDegree : List Nat
  vDegree : List Nat
  controlPoints : List (List (List Nat))
  form : List Nat
  uClosed : List Nat
  vClosed : List Nat
  selfIntersect : List Nat
  uMult : List (List Nat)
  vMult : List (List Nat)
  uKnots : List (List Nat)
  vKnots : List (List Nat)
  knotSpec : List Nat

/-- the arguments as ISO 10303-21 writes them -/
def SurfaceText.args (t : SurfaceText) : List (List Nat) :=
  [t.name, t.uDegree, t.vDegree, bracket (t.controlPoints.map bracket), t.form, t.uClosed, t.vClosed, t.selfIntersect, bracket t.uMult, bracket t.vMult,
    bracket t.uKnots, bracket t.vKnots]

/-- a text without unbalanced brackets, without commas outside brackets, of Unicode scalar values -/
def GoodText (a : List Nat) : Prop := Arg a ∧ Valid a

structure SurfaceText.WF (t : SurfaceText) : Prop where
  scalars : ∀ a ∈ [t.name, t.uDegree, t.vDegree, t.form, t.uClosed, t.vClosed, t.selfIntersect, t.knotSpec], GoodText a
  points : t.controlPoints ≠ [] ∧ ∀ r ∈ t.controlPoints, r ≠ [] ∧ ∀ a ∈ r, GoodText a
  lists : ∀ l ∈ [t.uMult, t.vMult, t.uKnots, t.vKnots], l ≠ [] ∧ ∀ a ∈ l, GoodText a
  ascii : ∀ r ∈ t.knotSpec, r < 128

/-- the record of a surface: each field from its own place -/
def SurfaceText.record (t : SurfaceText) : BSplineSurface where
  name := encode t.name
  uDegree := encode t.uDegree
  vDegree := encode t.vDegree
  controlPointsList := t.controlPoints.map (List.map encode)
  surfaceForm := encode t.form
  uClosed := decide (encode t.uClosed = [46, 84, 46])
  vClosed := decide (encode t.vClosed = [46, 84, 46])
  selfIntersect := decide (encode t.selfIntersect = [46, 84, 46])
  uMultiplicities := t.uMult.map encode
  vMultiplicities := t.vMult.map encode
  uKnots := t.uKnots.map encode
  vKnots := t.vKnots.map encode

theorem getLogical_T (s : GoString) : getLogical s = decide (s = [46, 84, 46]) := by
  unfold getLogical
  have e : ascii ['.', 'T', '.'] = [46, 84, 46] := by decide
  rw [e]
  by_cases h : s = [46, 84, 46]
  · rw [if_pos h]; simp [h]
  · rw [if_neg h]; simp [h]

/-- C94: an entry with these arguments gives the record of the surface -/
theorem C94_record (t : SurfaceText) (h : t.WF) (lex : SymbolTable) (key : GoString) (more : List GoString)
    (hk : (lookup lex key).Arguments = t.args.map encode ++ more) : surfaceJob lex key = .ok t.record := by
  have hm := C55_matrix t.controlPoints h.points.1 (fun r hr => (h.points.2 r hr).1) (fun r hr a ha => ((h.points.2 r hr).2 a ha).1)
    (fun r hr a ha => ((h.points.2 r hr).2 a ha).2)
  have ha : ∀ l ∈ [t.uMult, t.vMult, t.uKnots, t.vKnots], getArray (encode (bracket l)) = .ok (l.map encode) := fun l hl =>
    C55_array l (h.lists l hl).1 (fun a ha => ((h.lists l hl).2 a ha).1) (fun a ha => ((h.lists l hl).2 a ha).2)
  have h8 := ha t.uMult (by simp)
  have h9 := ha t.vMult (by simp)
  have h10 := ha t.uKnots (by simp)
  have h11 := ha t.vKnots (by simp)
  have g : ∀ (i : ℕ) (a : List Nat), t.args[i]? = some a → goGet (lookup lex key).Arguments (i : Int) = .ok (encode a) := by
    intro i a hi
    apply goGet_some
    have hlt := (List.getElem?_eq_some_iff.mp hi).1
    rw [hk, List.getElem?_append_left (by simpa using hlt), List.getElem?_map, hi]
    rfl
  have g0 := g 0 _ rfl
  have g1 := g 1 _ rfl
  have g2 := g 2 _ rfl
  have g3 := g 3 _ rfl
  have g4 := g 4 _ rfl
  have g5 := g 5 _ rfl
  have g6 := g 6 _ rfl
  have g7 := g 7 _ rfl
  have g8 := g 8 _ rfl
  have g9 := g 9 _ rfl
  have g10 := g 10 _ rfl
  have g11 := g 11 _ rfl
  push_cast at g0 g1 g2 g3 g4 g5 g6 g7 g8 g9 g10 g11
  unfold surfaceJob
  simp only [g0, g1, g2, g3, g4, g5, g6, g7, g8, g9, g10, g11, Res.bind_ok, hm, h8, h9, h10, h11, Res.pure_eq, getLogical_T]
  rfl

/-! ## Which calls are made -/

theorem mem_of_lookup {lex : SymbolTable} {k : GoString} {i : ℕ} {a : GoString} (h : (lookup lex k).Arguments[i]? = some a) :
    (k, lookup lex k) ∈ lex := by
  unfold lookup at h ⊢
  cases hg : GoMap.get? lex k with
  | none => rw [hg] at h; simp [Definition.zero] at h
  | some d =>
    exact get?_mem _ _ _ hg

theorem goGet_inv {α : Type} (l : List α) (i : ℕ) (a : α) (h : goGet l (i : Int) = .ok a) : l[i]? = some a := by
  unfold goGet at h
  rw [if_neg (by omega), Res.ofOption_eq_ok] at h
  simpa using h

/-- the states a handler appends, and the argument they come from -/
theorem pushed_from (lex : SymbolTable) (fn : Handler) (key : GoString) (pushed : List ParseState) (h : runHandler lex fn key = .ok pushed)
    (s : ParseState) (hs : s ∈ pushed) : s.fn ≠ .bSplineSurfaceWithKnots ∧
      ((fn = .productDefinitionShape ∧ s.fn = .productDefinition ∧ (lookup lex key).Arguments[2]? = some s.key) ∨
       (fn = .productDefinition ∧ s.fn ≠ .productDefinition ∧ s.fn ≠ .productDefinitionShape ∧ (lookup lex key).Arguments[2]? = some s.key) ∨
       (fn = .axis2Placement3D ∧ s.fn ≠ .productDefinition ∧ s.fn ≠ .productDefinitionShape ∧ (lookup lex key).Arguments[1]? = some s.key) ∨
       (fn = .advancedFace ∧ s.fn ≠ .productDefinition ∧ (trimSpace (lookup lex s.key).Typ = ascii "SPHERICAL_SURFACE".toList ∨
          trimSpace (lookup lex s.key).Typ = ascii "TOROIDAL_SURFACE".toList))) ∧
      s.fn ≠ .axis2Placement3D ∧ s.fn ≠ .advancedFace ∧ s.fn ≠ .productDefinitionShape := by
  cases fn
  case productDefinitionShape =>
    simp only [runHandler, Res.bind_eq_ok, Res.pure_eq, Res.ok.injEq] at h
    obtain ⟨a, ha, rfl⟩ := h
    have := goGet_inv _ 2 a ha
    simp only [List.mem_cons, List.not_mem_nil, or_false] at hs
    subst hs
    simp [this]
  case productDefinition =>
    simp only [runHandler, Res.bind_eq_ok, Res.pure_eq, Res.ok.injEq] at h
    obtain ⟨a, ha, b, hb, rfl⟩ := h
    have ha := goGet_inv _ 2 a ha
    have hb := goGet_inv _ 2 b hb
    simp only [List.mem_cons, List.not_mem_nil, or_false] at hs
    rw [ha] at hb
    injection hb with hb
    subst hb
    rcases hs with rfl | rfl <;> simp [ha]
  case axis2Placement3D =>
    simp only [runHandler, Res.bind_eq_ok, Res.pure_eq, Res.ok.injEq] at h
    obtain ⟨a, ha, b, hb, c, hc, rfl⟩ := h
    have ha := goGet_inv _ 1 a ha
    have hb := goGet_inv _ 1 b hb
    have hc := goGet_inv _ 1 c hc
    simp only [List.mem_cons, List.not_mem_nil, or_false] at hs
    rw [ha] at hb hc
    injection hb with hb
    injection hc with hc
    subst hb hc
    rcases hs with rfl | rfl | rfl <;> simp [ha]
  case advancedFace =>
    simp only [runHandler, Res.bind_eq_ok] at h
    obtain ⟨a, ha, h⟩ := h
    split_ifs at h with c1 c2
    · simp only [Res.pure_eq, Res.ok.injEq] at h
      subst h
      simp only [List.mem_cons, List.not_mem_nil, or_false] at hs
      subst hs
      simp [c1]
    · simp only [Res.pure_eq, Res.ok.injEq] at h
      subst h
      simp only [List.mem_cons, List.not_mem_nil, or_false] at hs
      subst hs
      simp [c2]
    · simp only [Res.pure_eq, Res.ok.injEq] at h
      subst h
      cases hs
  case bSplineSurfaceWithKnots =>
    rw [C94_handler, Res.bind_eq_ok] at h
    obtain ⟨_, _, h⟩ := h
    simp only [Res.pure_eq, Res.ok.injEq] at h
    subst h
    cases hs
  case cartesianPoint =>
    simp only [runHandler, Res.bind_eq_ok, Res.pure_eq, Res.ok.injEq] at h
    obtain ⟨a, ha, b, hb, rfl⟩ := h
    cases hs
  case sphericalSurface =>
    simp only [runHandler, Res.bind_eq_ok, Res.pure_eq, Res.ok.injEq] at h
    obtain ⟨a, ha, rfl⟩ := h
    cases hs
  all_goals
    simp only [runHandler, Res.pure_eq, Res.ok.injEq] at h
    subst h
    cases hs

theorem bridge_inv (d : Definition) :
    (bridge d = .productDefinitionShape → d.Typ = ascii "PRODUCT_DEFINITION_SHAPE".toList) ∧
    (bridge d = .productDefinition → d.Typ = ascii "PRODUCT_DEFINITION".toList) ∧
    (bridge d = .axis2Placement3D → d.Typ = ascii "AXIS_2_PLACEMENT_3D".toList) ∧
    (bridge d = .advancedFace → d.Typ = ascii "ADVENCED_FACE".toList) ∧
    (bridge d = .bSplineSurfaceWithKnots → d.Typ = ascii "B_SPLINE_SURFACE_WITH_KNOTS".toList) := by
  by_cases H : ∀ e ∈ dispatch, d.Typ ≠ ascii e.1.toList
  · rw [(C65_dispatch d).2.1 H]
    refine ⟨fun h => ?_, fun h => ?_, fun h => ?_, fun h => ?_, fun h => ?_⟩ <;> cases h
  · push Not at H
    obtain ⟨e, he, hT⟩ := H
    rw [(C65_dispatch d).1 e he hT, hT]
    have K : ∀ e ∈ dispatch, (e.2 = .productDefinitionShape → e.1 = "PRODUCT_DEFINITION_SHAPE") ∧
        (e.2 = .productDefinition → e.1 = "PRODUCT_DEFINITION") ∧ (e.2 = .axis2Placement3D → e.1 = "AXIS_2_PLACEMENT_3D") ∧
        (e.2 = .advancedFace → e.1 = "ADVENCED_FACE") ∧ (e.2 = .bSplineSurfaceWithKnots → e.1 = "B_SPLINE_SURFACE_WITH_KNOTS") := by decide
    obtain ⟨k1, k2, k3, k4, k5⟩ := K e he
    exact ⟨fun h => by rw [k1 h], fun h => by rw [k2 h], fun h => by rw [k3 h], fun h => by rw [k4 h], fun h => by rw [k5 h]⟩

/-- some entry sends the parser to `k` before or instead of its own handler: an axis by its argument 1, a product definition by its argument 2 -/
def LeadsTo (lex : SymbolTable) (k : GoString) : Prop :=
  (∃ e ∈ lex, e.2.Typ = ascii "AXIS_2_PLACEMENT_3D".toList ∧ e.2.Arguments[1]? = some k) ∨
  (∃ e ∈ lex, (e.2.Typ = ascii "PRODUCT_DEFINITION_SHAPE".toList ∨ e.2.Typ = ascii "PRODUCT_DEFINITION".toList ∨
    ∃ e' ∈ lex, e'.2.Typ = ascii "PRODUCT_DEFINITION_SHAPE".toList ∧ e'.2.Arguments[2]? = some e.1) ∧ e.2.Arguments[2]? = some k)

/-- C94: in every run, whatever the order of the map, a surface is printed only for an entry of that type, and exactly once for each such entry that no
other entry leads to -/
theorem C94_calls (lex : SymbolTable) (hn : (lex.map Prod.fst).Nodup) (fuel : ℕ) (order : List (GoString × Definition)) (ho : order.Perm lex)
    (st : ParserSt) (h : Parse fuel lex order = .ok st) :
    (∀ s ∈ st.trace, s.fn = .bSplineSurfaceWithKnots → (lookup lex s.key).Typ = ascii "B_SPLINE_SURFACE_WITH_KNOTS".toList ∧ (s.key, lookup lex s.key) ∈ lex) ∧
    (st.trace.map ParseState.key).Nodup ∧
    ∀ e ∈ lex, e.2.Typ = ascii "B_SPLINE_SURFACE_WITH_KNOTS".toList → ¬ LeadsTo lex e.1 → ⟨.bSplineSurfaceWithKnots, e.1⟩ ∈ st.trace := by
  have J := C62_justified lex fuel order st h
  obtain ⟨h1, h2, _⟩ := C62_once lex fuel order ho st h
  have look : ∀ e ∈ lex, lookup lex e.1 = e.2 := fun e he => lookup_of_get? lex e.1 e.2 (get?_of_mem lex hn _ _ he)
  -- a call in the trace is a dispatch or comes from an earlier call
  have just : ∀ s ∈ st.trace, (∃ e ∈ lex, s = ⟨bridge e.2, e.1⟩) ∨ ∃ t ∈ st.trace, ∃ pushed, runHandler lex t.fn t.key = .ok pushed ∧ s ∈ pushed := by
    intro s hs
    obtain ⟨pre, post, he⟩ := List.append_of_mem hs
    rcases J pre s post he with ⟨e, he', hse⟩ | ⟨t, ht, p, hp, hsp⟩
    · exact Or.inl ⟨e, ho.subset he', hse⟩
    · exact Or.inr ⟨t, by rw [he]; exact List.mem_append_left _ ht, p, hp, hsp⟩
  -- handlers that are only called by dispatch
  have disp : ∀ s ∈ st.trace, s.fn = .axis2Placement3D ∨ s.fn = .advancedFace ∨ s.fn = .productDefinitionShape ∨ s.fn = .bSplineSurfaceWithKnots →
      bridge (lookup lex s.key) = s.fn ∧ (s.key, lookup lex s.key) ∈ lex := by
    intro s hs hf
    rcases just s hs with ⟨e, he, rfl⟩ | ⟨t, ht, p, hp, hsp⟩
    · rw [show lookup lex (ParseState.mk (bridge e.2) e.1).key = e.2 from look e he]
      exact ⟨rfl, he⟩
    · obtain ⟨a1, _, a2, a3, a4⟩ := pushed_from lex _ _ _ hp s hsp
      rcases hf with hf | hf | hf | hf
      · exact absurd hf a2
      · exact absurd hf a3
      · exact absurd hf a4
      · exact absurd hf a1
  refine ⟨fun s hs hf => ?_, h1, fun e he hT hL => ?_⟩
  · obtain ⟨b, m⟩ := disp s hs (by simp [hf])
    exact ⟨(bridge_inv _).2.2.2.2 (b.trans hf), m⟩
  · obtain ⟨s, hs, hk⟩ := List.mem_map.mp (h2 e he)
    rcases just s hs with ⟨e', he', rfl⟩ | ⟨t, ht, p, hp, hsp⟩
    · have e1 : e'.2 = e.2 := by
        rw [← look e' he', ← look e he]
        exact congrArg _ hk
      have e2 : bridge e'.2 = .bSplineSurfaceWithKnots := by
        rw [e1]
        exact (C65_dispatch e.2).1 ("B_SPLINE_SURFACE_WITH_KNOTS", .bSplineSurfaceWithKnots) (by decide) hT
      rw [e2] at hs
      have hk : e'.1 = e.1 := hk
      rw [hk] at hs
      exact hs
    · exfalso
      apply hL
      rw [← hk]
      obtain ⟨_, a, _⟩ := pushed_from lex _ _ _ hp s hsp
      rcases a with ⟨hf, _, ha⟩ | ⟨hf, _, _, ha⟩ | ⟨hf, _, _, ha⟩ | ⟨_, _, ha⟩
      · obtain ⟨b, m⟩ := disp t ht (by simp [hf])
        exact Or.inr ⟨_, m, Or.inl ((bridge_inv _).1 (b.trans hf)), ha⟩
      · refine Or.inr ⟨_, mem_of_lookup ha, ?_, ha⟩
        rcases just t ht with ⟨e', he', rfl⟩ | ⟨u, hu, q, hq, htq⟩
        · refine Or.inr (Or.inl ?_)
          simp only [look e' he']
          exact (bridge_inv _).2.1 hf
        · refine Or.inr (Or.inr ?_)
          obtain ⟨_, b, _⟩ := pushed_from lex _ _ _ hq t htq
          rcases b with ⟨hf', _, hb⟩ | ⟨_, b1, _⟩ | ⟨_, b1, _⟩ | ⟨_, b1, _⟩
          · obtain ⟨b, m⟩ := disp u hu (by simp [hf'])
            exact ⟨_, m, (bridge_inv _).1 (b.trans hf'), hb⟩
          · exact absurd hf b1
          · exact absurd hf b1
          · exact absurd hf b1
      · obtain ⟨b, m⟩ := disp t ht (by simp [hf])
        exact Or.inl ⟨_, m, (bridge_inv _).2.2.1 (b.trans hf), ha⟩
      · rw [show lookup lex s.key = e.2 from by rw [hk]; exact look e he, hT] at ha
        exact absurd ha (by decide +kernel)

/-! ## What is printed -/

/-- the type of the entries -/
def surfaceType : GoString := ascii "B_SPLINE_SURFACE_WITH_KNOTS".toList

theorem printed_ok (lex : SymbolTable) (r : GoString → BSplineSurface) (trace : List ParseState)
    (h : ∀ s ∈ trace, s.fn = .bSplineSurfaceWithKnots → surfaceJob lex s.key = .ok (r s.key)) :
    printed lex trace = .ok ((trace.filter (fun s => decide (s.fn = .bSplineSurfaceWithKnots))).map fun s => (s.key, r s.key)) := by
  induction trace with
  | nil => rfl
  | cons s rest ih =>
    have ih := ih fun t ht => h t (List.mem_cons_of_mem _ ht)
    by_cases hs : s.fn = .bSplineSurfaceWithKnots
    · rw [printed, if_pos hs, h s List.mem_cons_self hs, ih, List.filter_cons_of_pos (by simpa using hs)]
      rfl
    · rw [printed, if_neg hs, ih, List.filter_cons_of_neg (by simpa using hs)]

/-- C94 on the table: if the table is well formed, its surfaces are written as surfaces and no entry leads to one, then a run prints each surface once, with
its own texts, and nothing else, in every order of the map -/
theorem C94_table (lex : SymbolTable) (hwf : WFTable lex) (txt : GoString → SurfaceText)
    (hs : ∀ e ∈ lex, e.2.Typ = surfaceType → (txt e.1).WF ∧ (∃ more, e.2.Arguments = (txt e.1).args.map encode ++ more) ∧ ¬ LeadsTo lex e.1)
    (order : List (GoString × Definition)) (ho : order.Perm lex) :
    ∃ N out, (∀ fuel, N ≤ fuel → ParseJobs fuel lex order = .ok out) ∧
      out.Perm ((lex.filter fun e => decide (e.2.Typ = surfaceType)).map fun e => (e.1, (txt e.1).record)) := by
  have hn := hwf.1
  obtain ⟨N, st, hN⟩ := C64_no_panic lex hwf order ho
  have hP := hN N (Nat.le_refl N)
  obtain ⟨c1, c2, c3⟩ := C94_calls lex hn N order ho st hP
  have look : ∀ e ∈ lex, lookup lex e.1 = e.2 := fun e he => lookup_of_get? lex e.1 e.2 (get?_of_mem lex hn _ _ he)
  have hrec : ∀ s ∈ st.trace, s.fn = .bSplineSurfaceWithKnots → surfaceJob lex s.key = .ok (txt s.key).record := by
    intro s hs' hf
    obtain ⟨hT, hm⟩ := c1 s hs' hf
    obtain ⟨w, ⟨more, hmore⟩, _⟩ := hs _ hm hT
    exact C94_record _ w lex _ more hmore
  refine ⟨N, (st.trace.filter (fun s => decide (s.fn = .bSplineSurfaceWithKnots))).map fun s => (s.key, (txt s.key).record), fun fuel hfuel => ?_, ?_⟩
  · rw [ParseJobs, hN fuel hfuel, Res.bind_ok, printed_ok lex (fun k => (txt k).record) st.trace hrec]
  · have e1 : ((st.trace.filter (fun s => decide (s.fn = .bSplineSurfaceWithKnots))).map fun s => (s.key, (txt s.key).record)) =
        ((st.trace.filter (fun s => decide (s.fn = .bSplineSurfaceWithKnots))).map ParseState.key).map fun k => (k, (txt k).record) := by
      rw [List.map_map]; rfl
    have e2 : ((lex.filter fun e => decide (e.2.Typ = surfaceType)).map fun e => (e.1, (txt e.1).record)) =
        ((lex.filter fun e => decide (e.2.Typ = surfaceType)).map Prod.fst).map fun k => (k, (txt k).record) := by
      rw [List.map_map]; rfl
    rw [e1, e2]
    apply List.Perm.map
    rw [List.perm_ext_iff_of_nodup (c2.sublist (List.filter_sublist.map _)) (hn.sublist (List.filter_sublist.map _))]
    intro k
    simp only [List.mem_map, List.mem_filter, decide_eq_true_eq]
    constructor
    · rintro ⟨s, ⟨hs', hf⟩, rfl⟩
      obtain ⟨hT, hm⟩ := c1 s hs' hf
      exact ⟨_, ⟨hm, hT⟩, rfl⟩
    · rintro ⟨e, ⟨he, hT⟩, rfl⟩
      exact ⟨_, ⟨c3 e he hT (hs e he hT).2.2, rfl⟩, rfl⟩

/-! ## From the file -/

/-- types whose handlers read no argument and append no state -/
def Quiet (T : GoString) : Prop :=
  T ≠ ascii "PRODUCT_DEFINITION_SHAPE".toList ∧ T ≠ ascii "PRODUCT_DEFINITION".toList ∧ T ≠ ascii "AXIS_2_PLACEMENT_3D".toList ∧
  T ≠ ascii "ADVENCED_FACE".toList ∧ T ≠ ascii "SPHERICAL_SURFACE".toList ∧ T ≠ surfaceType

/-- the right hand side of a surface in the file: type, bracket, the texts with commas, bracket, semicolon -/
def SurfaceText.rhs (t : SurfaceText) : GoString :=
  surfaceType ++ 40 :: encode (joinComma (t.args ++ [t.knotSpec]) ++ [')'.toNat, ';'.toNat])

theorem SurfaceText.good (t : SurfaceText) (h : t.WF) : ∀ a ∈ t.args ++ [t.knotSpec], GoodText a := by
  have hs := h.scalars
  have hl : ∀ l ∈ [t.uMult, t.vMult, t.uKnots, t.vKnots], GoodText (bracket l) := fun l hl =>
    ⟨bracket_arg l fun a ha => ((h.lists l hl).2 a ha).1, bracket_valid l fun a ha => ((h.lists l hl).2 a ha).2⟩
  have hp : GoodText (bracket (t.controlPoints.map bracket)) := by
    constructor
    · apply bracket_arg
      intro a ha
      obtain ⟨r, hr, rfl⟩ := List.mem_map.mp ha
      exact bracket_arg r fun a ha => ((h.points.2 r hr).2 a ha).1
    · apply bracket_valid
      intro a ha
      obtain ⟨r, hr, rfl⟩ := List.mem_map.mp ha
      exact bracket_valid r fun a ha => ((h.points.2 r hr).2 a ha).2
  simp only [List.mem_cons, List.not_mem_nil, or_false, forall_eq_or_imp, forall_eq] at hs hl
  simp only [SurfaceText.args, List.cons_append, List.nil_append, List.mem_cons, List.not_mem_nil, or_false, forall_eq_or_imp, forall_eq]
  tauto

theorem SurfaceText.tokenize (t : SurfaceText) (h : t.WF) :
    Step.tokenize t.rhs = .ok ⟨surfaceType, t.args.map encode ++ [encode t.knotSpec]⟩ := by
  have g := t.good h
  rw [SurfaceText.rhs, C58_definition surfaceType (by decide) t.args t.knotSpec (fun a ha => (g a ha).1) (fun a ha => (g a ha).2) h.ascii,
    List.map_append, show stripWhiteSpaces surfaceType = surfaceType by decide +kernel]
  rfl

theorem nodup_of_map {α β : Type} (f : α → β) (l : List α) (h : (l.map f).Nodup) : l.Nodup :=
  (List.pairwise_map.mp h).imp fun hne e => hne (congrArg f e)

/-- C94: a file of entities with distinct identifiers, some of them surfaces, the others of types that are passed over, printed for every order of the map:
each surface once, each field from its own text, nothing else -/
theorem C94_file (ls : List (GoString × Bool)) (tail : GoString)
    (hl : ∀ p ∈ ls, (10 : UInt8) ∉ p.1 ∧ p.1.getLast? ≠ some 13) (ht : (10 : UInt8) ∉ tail)
    (blank : List GoString) (hb : ∀ l ∈ blank, l = []) (es : List Entity) (hne : es ≠ [])
    (hlines : ls.map Prod.fst ++ (if tail = [] then [] else [tail]) = blank ++ es.flatMap Entity.lines)
    (hwf : ∀ e ∈ es, e.WF) (hearly : ∀ e ∈ es, (61 : UInt8) ∉ (e.id ++ 61 :: e.first).drop 4095)
    (hid : (es.map Entity.id).Nodup) (kind : Entity → SurfaceText ⊕ Definition)
    (hk : ∀ e ∈ es, (∀ t, kind e = .inl t → t.WF ∧ e.rhs = t.rhs) ∧ ∀ d, kind e = .inr d → tokenize e.rhs = .ok d ∧ Quiet d.Typ) :
    ∃ tbl, Lex (fileOf ls ++ tail) = .ok tbl ∧ ∀ order : List (GoString × Definition), order.Perm tbl →
      ∃ N out, (∀ fuel, N ≤ fuel → ParseJobs fuel tbl order = .ok out) ∧
        out.Perm (es.filterMap fun e => match kind e with
          | .inl t => some (e.id, t.record)
          | .inr _ => none) := by
  let dfn : Entity → Definition := fun e => match kind e with
    | .inl t => ⟨surfaceType, t.args.map encode ++ [encode t.knotSpec]⟩
    | .inr d => d
  have htok : ∀ e ∈ es, Step.tokenize e.rhs = .ok (dfn e) := by
    intro e he
    obtain ⟨h1, h2⟩ := hk e he
    cases hke : kind e with
    | inl t =>
      obtain ⟨w, hr⟩ := h1 t hke
      simp only [dfn, hke]
      rw [hr, t.tokenize w]
    | inr d =>
      simp only [dfn, hke]
      exact (h2 d hke).1
  obtain ⟨tbl, hL, hn, hg⟩ := C59_Lex ls tail hl ht blank hb es hne hlines hwf hearly dfn htok
  refine ⟨tbl, hL, fun order ho => ?_⟩
  have inj : ∀ a ∈ es, ∀ b ∈ es, a.id = b.id → a = b := by
    clear hlines hne hk htok hg hwf hearly
    induction es with
    | nil => intro a ha; cases ha
    | cons e es ih =>
      rw [List.map_cons, List.nodup_cons] at hid
      intro a ha b hb h
      rcases List.mem_cons.mp ha with ha | ha <;> rcases List.mem_cons.mp hb with hb | hb
      · rw [ha, hb]
      · exact absurd (List.mem_map.mpr ⟨b, hb, by rw [← h, ha]⟩) hid.1
      · exact absurd (List.mem_map.mpr ⟨a, ha, by rw [h, hb]⟩) hid.1
      · exact ih hid.2 a ha b hb h
  -- the entries of the table are the entities
  have find : ∀ e ∈ es, lastDef es dfn e.id = some (dfn e) := by
    intro e he
    unfold lastDef
    cases hf : es.reverse.find? (fun e' => decide (e'.id = e.id)) with
    | none =>
      rw [List.find?_eq_none] at hf
      exact absurd (decide_eq_true rfl) (hf e (List.mem_reverse.mpr he))
    | some e' =>
      have m : e' ∈ es := List.mem_reverse.mp (List.mem_of_find?_eq_some hf)
      have i : e'.id = e.id := by simpa using List.find?_some hf
      rw [inj e' m e he i]
      rfl
  have mem : ∀ x, x ∈ tbl ↔ ∃ e ∈ es, x = (e.id, dfn e) := by
    intro x
    constructor
    · intro hx
      have := get?_of_mem tbl hn x.1 x.2 hx
      rw [hg] at this
      unfold lastDef at this
      obtain ⟨e, hf, he⟩ := Option.map_eq_some_iff.mp this
      have m : e ∈ es := List.mem_reverse.mp (List.mem_of_find?_eq_some hf)
      have i : e.id = x.1 := by simpa using List.find?_some hf
      exact ⟨e, m, Prod.ext i.symm he.symm⟩
    · rintro ⟨e, he, rfl⟩
      exact get?_mem _ _ _ ((hg e.id).trans (find e he))
  have typ : ∀ e ∈ es, (dfn e).Typ = surfaceType ∨ Quiet (dfn e).Typ := by
    intro e he
    cases hke : kind e with
    | inl t => left; simp only [dfn, hke]
    | inr d => right; simp only [dfn, hke]; exact ((hk e he).2 d hke).2
  have nolead : ∀ k, ¬ LeadsTo tbl k := by
    have q : ∀ x ∈ tbl, x.2.Typ ≠ ascii "PRODUCT_DEFINITION_SHAPE".toList ∧ x.2.Typ ≠ ascii "PRODUCT_DEFINITION".toList ∧
        x.2.Typ ≠ ascii "AXIS_2_PLACEMENT_3D".toList := by
      intro x hx
      obtain ⟨e, he, rfl⟩ := (mem x).mp hx
      rcases typ e he with h | h
      · simp only [h]; decide
      · exact ⟨h.1, h.2.1, h.2.2.1⟩
    rintro k (⟨x, hx, hT, _⟩ | ⟨x, hx, hT | hT | ⟨y, hy, hT, _⟩, _⟩)
    · exact (q x hx).2.2 hT
    · exact (q x hx).1 hT
    · exact (q x hx).2.1 hT
    · exact (q y hy).1 hT
  have surf : ∀ e ∈ es, (dfn e).Typ = surfaceType → ∃ t, kind e = .inl t ∧ t.WF ∧ dfn e = ⟨surfaceType, t.args.map encode ++ [encode t.knotSpec]⟩ := by
    intro e he hT
    cases hke : kind e with
    | inl t => exact ⟨t, rfl, ((hk e he).1 t hke).1, by simp only [dfn, hke]⟩
    | inr d =>
      simp only [dfn, hke] at hT
      exact absurd hT ((hk e he).2 d hke).2.2.2.2.2.2
  have wfd : ∀ x ∈ tbl, WFDef tbl x.2 := by
    intro x hx
    obtain ⟨e, he, rfl⟩ := (mem x).mp hx
    rcases typ e he with h | h
    · obtain ⟨t, _, w, hd⟩ := surf e he h
      refine ⟨fun h' => ?_, fun h' => ?_, fun h' => ?_, fun h' => ?_, fun h' => ?_, fun _ => ?_⟩
      · exact absurd (h.symm.trans h') (by decide)
      · exact absurd (h.symm.trans h') (by decide)
      · exact absurd (h.symm.trans h') (by decide)
      · exact absurd (h.symm.trans h') (by decide)
      · exact absurd (h.symm.trans h') (by decide)
      · have hm := C55_matrix t.controlPoints w.points.1 (fun r hr => (w.points.2 r hr).1) (fun r hr a ha => ((w.points.2 r hr).2 a ha).1)
          (fun r hr a ha => ((w.points.2 r hr).2 a ha).2)
        have len : ∀ l ∈ [t.uMult, t.vMult, t.uKnots, t.vKnots], 2 ≤ (encode (bracket l)).length := by
          intro l hl
          by_contra hc
          have := (C55_panics (encode (bracket l))).mpr (by omega)
          rw [C55_array l (w.lists l hl).1 (fun a ha => ((w.lists l hl).2 a ha).1) (fun a ha => ((w.lists l hl).2 a ha).2)] at this
          cases this
        simp only [hd]
        exact ⟨⟨_, _, rfl, hm⟩, ⟨_, rfl, len t.uMult (by simp)⟩, ⟨_, rfl, len t.vMult (by simp)⟩, ⟨_, rfl, len t.uKnots (by simp)⟩,
          ⟨_, rfl, len t.vKnots (by simp)⟩⟩
    · obtain ⟨h1, h2, h3, h4, h5, h6⟩ := h
      exact ⟨fun h' => absurd h' h1, fun h' => absurd h' h2, fun h' => absurd h' h3, fun h' => absurd h' h4, fun h' => absurd h' h5,
        fun h' => absurd h' h6⟩
  let none' : SurfaceText := ⟨[], [], [], [], [], [], [], [], [], [], [], [], []⟩
  let txt : GoString → SurfaceText := fun k => match es.find? (fun e => decide (e.id = k)) with
    | some e => (match kind e with | .inl t => t | .inr _ => none')
    | none => none'
  have htxt : ∀ e ∈ es, ∀ t, kind e = .inl t → txt e.id = t := by
    intro e he t hke
    have hf : es.find? (fun e' => decide (e'.id = e.id)) = some e := by
      cases hf : es.find? (fun e' => decide (e'.id = e.id)) with
      | none =>
        rw [List.find?_eq_none] at hf
        exact absurd (decide_eq_true rfl) (hf e he)
      | some e' =>
        rw [inj e' (List.mem_of_find?_eq_some hf) e he (by simpa using List.find?_some hf)]
    simp only [txt, hf, hke]
  obtain ⟨N, out, h1, h2⟩ := C94_table tbl ⟨hn, wfd⟩ txt (fun x hx hT => by
    obtain ⟨e, he, rfl⟩ := (mem x).mp hx
    obtain ⟨t, hke, w, hd⟩ := surf e he hT
    simp only [htxt e he t hke, hd]
    exact ⟨w, ⟨_, rfl⟩, nolead _⟩) order ho
  refine ⟨N, out, h1, h2.trans ?_⟩
  have perm : tbl.Perm (es.map fun e => (e.id, dfn e)) := by
    rw [List.perm_ext_iff_of_nodup (nodup_of_map _ _ hn) (nodup_of_map Prod.fst _ (by rw [List.map_map]; exact hid))]
    intro x
    rw [mem x, List.mem_map]
    exact ⟨fun ⟨e, he, h⟩ => ⟨e, he, h.symm⟩, fun ⟨e, he, h⟩ => ⟨e, he, h.symm⟩⟩
  refine ((perm.filter _).map _).trans (List.Perm.of_eq ?_)
  clear_value txt
  clear perm h2 h1 wfd nolead mem find inj hg hlines hne hid htok hk hwf hearly hL ho
  induction es with
  | nil => rfl
  | cons e es ih =>
    have ih := ih (fun e he => typ e (List.mem_cons_of_mem _ he)) (fun e he => surf e (List.mem_cons_of_mem _ he))
      (fun e he => htxt e (List.mem_cons_of_mem _ he))
    rw [List.map_cons]
    cases hke : kind e with
    | inl t =>
      rw [List.filter_cons_of_pos (by simp [dfn, hke]), List.map_cons, ih, htxt e List.mem_cons_self t hke, List.filterMap_cons_some (b := (e.id, t.record)) (by simp [hke])]
    | inr d =>
      have : ¬ (dfn e).Typ = surfaceType := by
        intro h
        obtain ⟨t, ht, _⟩ := surf e List.mem_cons_self h
        rw [hke] at ht
        cases ht
      rw [List.filter_cons_of_neg (by simpa using this), ih, List.filterMap_cons_none (by simp [hke])]

/-! ## A concrete file -/

theorem good_plain (a : List Nat) (h : ∀ r ∈ a, r ≠ '('.toNat ∧ r ≠ ')'.toNat ∧ r ≠ ','.toNat ∧ validRune r = true) : GoodText a := by
  refine ⟨?_, fun r hr => (h r hr).2.2.2⟩
  induction a with
  | nil => exact .nil
  | cons r a ih =>
    obtain ⟨h1, h2, h3, _⟩ := h r List.mem_cons_self
    exact .char r a h1 h2 h3 (ih fun x hx => h x (List.mem_cons_of_mem _ hx))

def txtOf (s : String) : List Nat := s.toList.map Char.toNat

/-- a bilinear patch -/
def patchText : SurfaceText where
  name := txtOf "'patch'"
  uDegree := txtOf "1"
  vDegree := txtOf "2"
  controlPoints := [[txtOf "#1", txtOf "#2", txtOf "#3"], [txtOf "#4", txtOf "#5", txtOf "#6"]]
  form := txtOf ".UNSPECIFIED."
  uClosed := txtOf ".F."
  vClosed := txtOf ".T."
  selfIntersect := txtOf ".U."
  uMult := [txtOf "2", txtOf "2"]
  vMult := [txtOf "3", txtOf "3"]
  uKnots := [txtOf "0.", txtOf "1."]
  vKnots := [txtOf "0.", txtOf "5."]
  knotSpec := txtOf ".UNSPECIFIED."

theorem patchText_wf : patchText.WF where
  scalars := by
    intro a ha
    apply good_plain
    revert a
    decide
  points := by
    refine ⟨by decide, fun r hr => ⟨?_, fun a ha => good_plain a ?_⟩⟩
    · revert r; decide
    · revert a; revert r; decide
  lists := by
    refine fun l hl => ⟨?_, fun a ha => good_plain a ?_⟩
    · revert l; decide
    · revert a; revert l; decide
  ascii := by decide

/-- the patch on two lines and a point: the hypotheses of `C94_file` hold -/
example : ∃ tbl, Lex (ascii "#1=CARTESIAN_POINT('',(0.,0.,0.));\n#9=B_SPLINE_SURFACE_WITH_KNOTS('patch',1,2,((#1,#2,#3),(#4,#5,#6)),.UNSPECIFIED.,.F.,.T.,.U.,\n(2,2),(3,3),(0.,1.),(0.,5.),.UNSPECIFIED.);\n".toList) = .ok tbl ∧
    ∀ order : List (GoString × Definition), order.Perm tbl →
      ∃ N out, (∀ fuel, N ≤ fuel → ParseJobs fuel tbl order = .ok out) ∧ out.Perm [(ascii "#9".toList, patchText.record)] := by
  let e1 : Entity := ⟨ascii "#1".toList, ascii "CARTESIAN_POINT('',(0.,0.,0.));".toList, []⟩
  let e2 : Entity := ⟨ascii "#9".toList, ascii "B_SPLINE_SURFACE_WITH_KNOTS('patch',1,2,((#1,#2,#3),(#4,#5,#6)),.UNSPECIFIED.,.F.,.T.,.U.,".toList,
    [ascii "(2,2),(3,3),(0.,1.),(0.,5.),.UNSPECIFIED.);".toList]⟩
  have h := C94_file ([e1, e2].flatMap Entity.lines |>.map fun l => (l, false)) [] (by decide +kernel) (by decide) [] (by simp) [e1, e2] (by simp)
    (by decide +kernel)
    (by
      intro e he
      simp only [List.mem_cons, List.not_mem_nil, or_false] at he
      rcases he with rfl | rfl <;> unfold Entity.WF <;> decide +kernel)
    (by
      intro e he
      simp only [List.mem_cons, List.not_mem_nil, or_false] at he
      rcases he with rfl | rfl <;> decide +kernel)
    (by decide +kernel)
    (fun e => if e.id = ascii "#9".toList then .inl patchText else .inr ⟨ascii "CARTESIAN_POINT".toList, [ascii "''".toList, ascii "(0.,0.,0.)".toList]⟩)
    (by
      intro e he
      simp only [List.mem_cons, List.not_mem_nil, or_false] at he
      rcases he with rfl | rfl
      · refine ⟨fun t ht => ?_, fun d hd => ?_⟩
        · rw [if_neg (by decide)] at ht
          cases ht
        · rw [if_neg (by decide)] at hd
          cases hd
          refine ⟨by decide +kernel, ?_⟩
          unfold Quiet
          decide +kernel
      · refine ⟨fun t ht => ?_, fun d hd => ?_⟩
        · rw [if_pos rfl] at ht
          cases ht
          exact ⟨patchText_wf, by decide +kernel⟩
        · rw [if_pos rfl] at hd
          cases hd)
  obtain ⟨tbl, hL, H⟩ := h
  refine ⟨tbl, (congrArg Lex (by decide +kernel)).trans hL, fun order ho => ?_⟩
  obtain ⟨N, out, a, b⟩ := H order ho
  exact ⟨N, out, a, b.trans (List.Perm.of_eq (by decide +kernel))⟩

/-- an axis whose argument 1 is a surface of degree 10 -/
def hiddenTable : SymbolTable :=
  [(ascii "#1".toList, ⟨ascii "AXIS_2_PLACEMENT_3D".toList, [ascii "''".toList, ascii "#2".toList]⟩),
   (ascii "#2".toList, ⟨surfaceType, { patchText with uDegree := txtOf "10" }.args.map encode⟩)]

/-- C94 is false of a surface that another entry leads to, even in a well-formed table: whether it is printed depends on the order in which Go walks the map -/
theorem C94_refuted : ∃ (lex : SymbolTable) (o1 o2 : List (GoString × Definition)) (out : List (GoString × BSplineSurface)), WFTable lex ∧
    o1.Perm lex ∧ o2.Perm lex ∧ out ≠ [] ∧
    ∃ N, ∀ fuel, N ≤ fuel → ParseJobs fuel lex o1 = .ok out ∧ ParseJobs fuel lex o2 = .ok [] := by
  have run : ∀ (lex order : SymbolTable), order.Perm lex → ∀ fuel, enough lex ≤ fuel →
      Parse fuel lex order = Parse (enough lex) lex order :=
    fun lex order ho fuel hf => (parseLoop_enough lex fuel hf order (fun _ he => ho.subset he) _).2
  refine ⟨hiddenTable, hiddenTable.reverse, hiddenTable, [(ascii "#2".toList, { patchText with uDegree := txtOf "10" }.record)], ⟨by decide +kernel, ?_⟩,
    List.reverse_perm _, List.Perm.refl _, by simp, enough hiddenTable, fun fuel hf => ⟨?_, ?_⟩⟩
  · intro e he
    simp only [hiddenTable, List.mem_cons, List.not_mem_nil, or_false] at he
    rcases he with rfl | rfl
    · exact ⟨fun h => absurd h (by decide), fun h => absurd h (by decide), fun _ => ⟨_, _, rfl, rfl, ascii "10".toList, by decide +kernel, by decide⟩,
        fun h => absurd h (by decide), fun h => absurd h (by decide), fun h => absurd h (by decide)⟩
    · exact ⟨fun h => absurd h (by decide), fun h => absurd h (by decide), fun h => absurd h (by decide), fun h => absurd h (by decide),
        fun h => absurd h (by decide), fun _ => ⟨⟨_, patchText.record.controlPointsList, rfl, by decide +kernel⟩, ⟨_, rfl, by decide +kernel⟩, ⟨_, rfl, by decide +kernel⟩,
          ⟨_, rfl, by decide +kernel⟩, ⟨_, rfl, by decide +kernel⟩⟩⟩
  · rw [ParseJobs, run _ _ (List.reverse_perm _) fuel hf]
    decide +kernel
  · rw [ParseJobs, run _ _ (List.Perm.refl _) fuel hf]
    decide +kernel

end Verif.Props
