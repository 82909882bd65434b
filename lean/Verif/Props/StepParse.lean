import Verif.Props.StepLex
/-!
# C62 - C65: the parser

The result of `Parse` in the model is the sequence of handler calls (`trace`). The iteration order of the Go map is
a parameter `order`, an arbitrary permutation of the table.
-/
namespace Verif.Props
open Verif Verif.Step

/-- all keys and arguments occurring in the table -/
def allKeys (lex : SymbolTable) : List GoString := lex.flatMap fun e => e.1 :: e.2.Arguments

theorem get?_mem {κ α : Type} [DecidableEq κ] (m : List (κ × α)) (k : κ) (v : α) (h : GoMap.get? m k = some v) :
    (k, v) ∈ m := by
  induction m with
  | nil => simp [GoMap.get?] at h
  | cons e m ih =>
    obtain ⟨a, b⟩ := e
    simp only [GoMap.get?] at h
    split at h
    · rename_i hk; cases h; subst hk; simp
    · exact List.mem_cons_of_mem _ (ih h)

theorem get?_of_mem {κ α : Type} [DecidableEq κ] (m : List (κ × α)) (hn : (m.map Prod.fst).Nodup) (k : κ) (v : α)
    (h : (k, v) ∈ m) : GoMap.get? m k = some v := by
  induction m with
  | nil => simp at h
  | cons e m ih =>
    obtain ⟨a, b⟩ := e
    simp only [List.map_cons, List.nodup_cons] at hn
    simp only [GoMap.get?]
    rcases List.mem_cons.mp h with h | h
    · cases h; simp
    · have : a ≠ k := by
        rintro rfl
        exact hn.1 (List.mem_map.mpr ⟨_, h, rfl⟩)
      rw [if_neg this, ih hn.2 h]

theorem lookup_args (lex : SymbolTable) (key a : GoString) (h : a ∈ (lookup lex key).Arguments) :
    a ∈ allKeys lex := by
  unfold lookup at h
  cases hg : GoMap.get? lex key with
  | none => rw [hg] at h; simp [Definition.zero] at h
  | some d =>
    rw [hg] at h
    exact List.mem_flatMap.mpr ⟨(key, d), get?_mem _ _ _ hg, List.mem_cons_of_mem _ h⟩

theorem goGet_ok {α : Type} {l : List α} {i : Int} {a : α} (h : goGet l i = .ok a) : a ∈ l := by
  unfold goGet at h
  split at h
  · cases h
  · rw [Res.ofOption_eq_ok] at h; exact List.mem_of_getElem? h

theorem goGet_ne_fuel {α : Type} (l : List α) (i : Int) : goGet l i ≠ .fuel := by
  unfold goGet
  split
  · simp
  · cases l[i.toNat]? <;> simp

theorem bind_ne_fuel {α β : Type} {x : Res α} {f : α → Res β} (hx : x ≠ .fuel) (hf : ∀ a, f a ≠ .fuel) :
    (x >>= f) ≠ .fuel := by
  cases x with
  | ok a => exact hf a
  | panic => simp
  | fuel => exact absurd rfl hx

theorem getArray_ne_fuel (s : GoString) : getArray s ≠ .fuel := by
  unfold getArray; split <;> simp

theorem getRows_ne_fuel (l : List GoString) : getRows l ≠ .fuel := by
  induction l with
  | nil => simp [getRows]
  | cons a l ih =>
    unfold getRows
    exact bind_ne_fuel (getArray_ne_fuel a) fun _ => bind_ne_fuel ih fun _ => by simp

theorem getMatrix_ne_fuel (s : GoString) : getMatrix s ≠ .fuel :=
  bind_ne_fuel (getArray_ne_fuel s) getRows_ne_fuel

/-- handlers never loop -/
theorem runHandler_ne_fuel (lex : SymbolTable) (fn : Handler) (key : GoString) : runHandler lex fn key ≠ .fuel := by
  cases fn <;> unfold runHandler
  all_goals
    repeat (refine bind_ne_fuel (by with_reducible first
      | exact goGet_ne_fuel _ _ | exact getArray_ne_fuel _ | exact getMatrix_ne_fuel _) fun _ => ?_)
  case advancedFace => simp only; split <;> [skip; split] <;> simp
  all_goals simp

/-- what a handler pushes: at most three states, whose keys are arguments of its own definition -/
theorem runHandler_pushed (lex : SymbolTable) (fn : Handler) (key : GoString) (pushed : List ParseState)
    (h : runHandler lex fn key = .ok pushed) :
    pushed.length ≤ 3 ∧ ∀ s ∈ pushed, s.key ∈ (lookup lex key).Arguments := by
  cases fn <;> simp only [runHandler, Res.bind_eq_ok, Res.pure_eq] at h
  case productDefinitionShape =>
    obtain ⟨a, ha, h⟩ := h
    cases h
    exact ⟨by simp, by simp; exact goGet_ok ha⟩
  case productDefinition =>
    obtain ⟨a, ha, b, hb, h⟩ := h
    cases h
    exact ⟨by simp, by simp; exact ⟨goGet_ok ha, goGet_ok hb⟩⟩
  case axis2Placement3D =>
    obtain ⟨a, ha, b, hb, c, hc, h⟩ := h
    cases h
    exact ⟨by simp, by simp; exact ⟨goGet_ok ha, goGet_ok hb, goGet_ok hc⟩⟩
  case cartesianPoint =>
    obtain ⟨a, ha, b, hb, h⟩ := h
    cases h
    simp
  case advancedFace =>
    obtain ⟨a, ha, h⟩ := h
    split at h
    · cases h; exact ⟨by simp, by simp; exact goGet_ok ha⟩
    · split at h
      · cases h; exact ⟨by simp, by simp; exact goGet_ok ha⟩
      · cases h; simp
  case sphericalSurface =>
    obtain ⟨a, ha, h⟩ := h
    cases h; simp
  case bSplineSurfaceWithKnots =>
    obtain ⟨_, _, _, _, _, _, _, _, _, _, _, _, _, _, _, _, _, _, _, _, _, _, _, _, _, _, _, _, _, _, _, _, _, _, h⟩ := h
    cases h; simp
  all_goals
    cases h; simp

/-! ## Termination -/

/-- how many entries of `allKeys` are not visited yet -/
def unvisited (lex : SymbolTable) (visited : List GoString) : Nat :=
  ((allKeys lex).filter fun k => decide (k ∉ visited)).length

theorem unvisited_le (lex : SymbolTable) (visited : List GoString) : unvisited lex visited ≤ (allKeys lex).length :=
  List.length_filter_le _ _

theorem unvisited_lt (lex : SymbolTable) (visited : List GoString) (k : GoString) (hk : k ∈ allKeys lex)
    (hv : k ∉ visited) : unvisited lex (k :: visited) < unvisited lex visited := by
  unfold unvisited
  have key : ∀ l : List GoString, (l.filter fun x => decide (x ∉ k :: visited)).length ≤
      (l.filter fun x => decide (x ∉ visited)).length ∧ (k ∈ l →
      (l.filter fun x => decide (x ∉ k :: visited)).length < (l.filter fun x => decide (x ∉ visited)).length) := by
    intro l
    induction l with
    | nil => simp
    | cons a l ih =>
      simp only [List.filter_cons]
      by_cases ha : a = k
      · have h1 : decide (a ∉ k :: visited) = false := by simp [ha]
        have h2 : decide (a ∉ visited) = true := by simp [ha, hv]
        rw [h1, h2]; simp only [Bool.false_eq_true, if_false, if_true, List.length_cons]; omega
      · have hm : k ∈ a :: l → k ∈ l := fun h => (List.mem_cons.mp h).resolve_left (Ne.symm ha)
        have h1 : decide (a ∉ k :: visited) = decide (a ∉ visited) := by simp [ha]
        rw [h1]
        by_cases hav : a ∈ visited
        · simp only [hav, not_true_eq_false, decide_false, Bool.false_eq_true, if_false]
          exact ⟨ih.1, fun h => ih.2 (hm h)⟩
        · simp only [hav, not_false_eq_true, decide_true, if_true, List.length_cons]
          exact ⟨by omega, fun h => by have := ih.2 (hm h); omega⟩
  exact (key _).2 hk

theorem runQueue_terminates (lex : SymbolTable) (fuel : Nat) (queue : List ParseState) (st : ParserSt)
    (hq : ∀ s ∈ queue, s.key ∈ allKeys lex) (hf : 4 * unvisited lex st.visited + queue.length ≤ fuel) :
    runQueue lex fuel queue st ≠ .fuel := by
  induction fuel generalizing queue st with
  | zero =>
    cases queue with
    | nil => simp [runQueue]
    | cons s q => simp at hf
  | succ fuel ih =>
    cases queue with
    | nil => simp [runQueue]
    | cons s q =>
      unfold runQueue
      split
      · exact ih q st (fun x hx => hq x (by simp [hx])) (by simp at hf; omega)
      · rename_i hv
        cases hr : runHandler lex s.fn s.key with
        | fuel => exact absurd hr (runHandler_ne_fuel _ _ _)
        | panic => simp
        | ok pushed =>
          rw [Res.bind_ok]
          obtain ⟨hp1, hp2⟩ := runHandler_pushed _ _ _ _ hr
          have hlt := unvisited_lt lex st.visited s.key (hq s (by simp)) hv
          apply ih
          · intro x hx
            rcases List.mem_append.mp hx with hx | hx
            · exact hq x (by simp [hx])
            · exact lookup_args _ _ _ (hp2 x hx)
          · simp only [List.length_append, List.length_cons] at hf ⊢; omega

/-- more fuel does not change a finished run -/
theorem runQueue_mono (lex : SymbolTable) (fuel k : Nat) (queue : List ParseState) (st : ParserSt)
    (h : runQueue lex fuel queue st ≠ .fuel) : runQueue lex (fuel + k) queue st = runQueue lex fuel queue st := by
  induction fuel generalizing queue st with
  | zero =>
    cases queue with
    | nil => simp [runQueue]
    | cons s q => simp [runQueue] at h
  | succ fuel ih =>
    cases queue with
    | nil => simp [runQueue]
    | cons s q =>
      rw [Nat.succ_add]
      simp only [runQueue] at h ⊢
      split
      · rename_i hv; rw [if_pos hv] at h; exact ih q st h
      · rename_i hv
        rw [if_neg hv] at h
        cases hr : runHandler lex s.fn s.key with
        | fuel => rfl
        | panic => rfl
        | ok pushed =>
          rw [hr, Res.bind_ok] at h
          rw [Res.bind_ok, Res.bind_ok]
          exact ih _ _ h

/-- fuel that always suffices -/
def enough (lex : SymbolTable) : Nat := 4 * (allKeys lex).length + 1

theorem runQueue_enough (lex : SymbolTable) (fuel : Nat) (hf : enough lex ≤ fuel) (s : ParseState) (st : ParserSt)
    (hs : s.key ∈ allKeys lex) : runQueue lex fuel [s] st ≠ .fuel := by
  apply runQueue_terminates
  · simpa using hs
  · have := unvisited_le lex st.visited
    simp [enough] at hf ⊢; omega

theorem key_mem_allKeys (lex : SymbolTable) (e : GoString × Definition) (h : e ∈ lex) : e.1 ∈ allKeys lex :=
  List.mem_flatMap.mpr ⟨e, h, by simp⟩

theorem parseLoop_enough (lex : SymbolTable) (fuel : Nat) (hf : enough lex ≤ fuel)
    (order : List (GoString × Definition)) (ho : ∀ e ∈ order, e ∈ lex) (st : ParserSt) :
    parseLoop lex fuel order st ≠ .fuel ∧ parseLoop lex fuel order st = parseLoop lex (enough lex) order st := by
  induction order generalizing st with
  | nil => simp [parseLoop]
  | cons e order ih =>
    obtain ⟨k, d⟩ := e
    have hk := key_mem_allKeys lex (k, d) (ho _ (by simp))
    have h1 := runQueue_enough lex (enough lex) (Nat.le_refl _) ⟨bridge d, k⟩ st hk
    have h2 : runQueue lex fuel [⟨bridge d, k⟩] st = runQueue lex (enough lex) [⟨bridge d, k⟩] st := by
      obtain ⟨j, rfl⟩ := Nat.exists_eq_add_of_le hf
      exact runQueue_mono lex _ j _ _ h1
    simp only [parseLoop]
    rw [h2]
    cases hr : runQueue lex (enough lex) [⟨bridge d, k⟩] st with
    | fuel => exact absurd hr h1
    | panic => simp
    | ok st' =>
      simp only [Res.bind_ok]
      exact ih (fun x hx => ho x (by simp [hx])) st'

/-- C62: `Parse` terminates on every symbol table, in every iteration order -/
theorem C62_terminates (lex : SymbolTable) (order : List (GoString × Definition)) (ho : order.Perm lex) :
    ∃ N r, r ≠ .fuel ∧ ∀ fuel, N ≤ fuel → Parse fuel lex order = r :=
  ⟨enough lex, Parse (enough lex) lex order,
    (parseLoop_enough lex _ (Nat.le_refl _) order (fun _ he => ho.subset he) _).1,
    fun fuel hf => (parseLoop_enough lex fuel hf order (fun _ he => ho.subset he) _).2⟩

/-! ## What has been done when it returns -/

/-- invariant: no key twice; `visited` is the set of handled keys -/
structure Inv (st : ParserSt) : Prop where
  nodup : (st.trace.map ParseState.key).Nodup
  keys : ∀ k, k ∈ st.visited ↔ k ∈ st.trace.map ParseState.key

/-- every state pushed by an executed handler call has a handled key -/
def Closed (lex : SymbolTable) (st : ParserSt) (queue : List ParseState) : Prop :=
  ∀ s ∈ st.trace, ∃ pushed, runHandler lex s.fn s.key = .ok pushed ∧
    ∀ p ∈ pushed, p.key ∈ st.trace.map ParseState.key ∨ p ∈ queue

theorem runQueue_inv (lex : SymbolTable) (fuel : Nat) (queue : List ParseState) (st st' : ParserSt) (hI : Inv st)
    (hC : Closed lex st queue) (h : runQueue lex fuel queue st = .ok st') :
    Inv st' ∧ Closed lex st' [] ∧ (st.trace <+: st'.trace) ∧
      (∀ s ∈ queue, s.key ∈ st'.trace.map ParseState.key) := by
  induction fuel generalizing queue st with
  | zero =>
    cases queue with
    | nil => simp only [runQueue, Res.pure_eq, Res.ok.injEq] at h; subst h; exact ⟨hI, hC, List.prefix_refl _, by simp⟩
    | cons s q => simp [runQueue] at h
  | succ fuel ih =>
    cases queue with
    | nil => simp only [runQueue, Res.pure_eq, Res.ok.injEq] at h; subst h; exact ⟨hI, hC, List.prefix_refl _, by simp⟩
    | cons s q =>
      simp only [runQueue] at h
      split at h
      · rename_i hv
        have hk := (hI.keys s.key).mp hv
        obtain ⟨h1, h2, h3, h4⟩ := ih q st hI (by
          intro x hx
          obtain ⟨pushed, hp, hq⟩ := hC x hx
          refine ⟨pushed, hp, fun p hpp => ?_⟩
          rcases hq p hpp with h' | h'
          · exact Or.inl h'
          · rcases List.mem_cons.mp h' with rfl | h'
            · exact Or.inl hk
            · exact Or.inr h') h
        refine ⟨h1, h2, h3, fun x hx => ?_⟩
        rcases List.mem_cons.mp hx with rfl | hx
        · exact (h3.map _).subset hk
        · exact h4 x hx
      · rename_i hv
        cases hr : runHandler lex s.fn s.key with
        | fuel => rw [hr] at h; simp at h
        | panic => rw [hr] at h; simp at h
        | ok pushed =>
          rw [hr, Res.bind_ok] at h
          have hk : s.key ∉ st.trace.map ParseState.key := fun hm => hv ((hI.keys _).mpr hm)
          have hI' : Inv ⟨s.key :: st.visited, st.trace ++ [s]⟩ := by
            constructor
            · simp only [List.map_append, List.map_cons, List.map_nil]
              rw [List.nodup_append]
              refine ⟨hI.nodup, by simp, ?_⟩
              intro a ha b hb
              simp at hb; subst hb
              rintro rfl
              exact hk ha
            · intro k
              simp only [List.mem_cons, List.map_append, List.mem_append, List.map_cons, List.map_nil,
                List.not_mem_nil, or_false]
              rw [hI.keys k]; tauto
          have hC' : Closed lex ⟨s.key :: st.visited, st.trace ++ [s]⟩ (q ++ pushed) := by
            intro x hx
            simp only [List.map_append, List.map_cons, List.map_nil, List.mem_append, List.mem_singleton]
            rcases List.mem_append.mp hx with hx | hx
            · obtain ⟨p1, hp1, hp2⟩ := hC x hx
              refine ⟨p1, hp1, fun p hpp => ?_⟩
              rcases hp2 p hpp with h' | h'
              · exact Or.inl (Or.inl h')
              · rcases List.mem_cons.mp h' with rfl | h'
                · exact Or.inl (Or.inr rfl)
                · exact Or.inr (Or.inl h')
            · rw [List.mem_singleton.mp hx]
              exact ⟨pushed, hr, fun p hpp => Or.inr (Or.inr hpp)⟩
          obtain ⟨h1, h2, h3, h4⟩ := ih _ _ hI' hC' h
          have hp : st.trace <+: st'.trace := (List.prefix_append _ _).trans h3
          refine ⟨h1, h2, hp, fun x hx => ?_⟩
          rcases List.mem_cons.mp hx with rfl | hx
          · exact (h3.map _).subset (by simp)
          · exact h4 x (by simp [hx])

theorem parseLoop_inv (lex : SymbolTable) (fuel : Nat) (order : List (GoString × Definition)) (st st' : ParserSt)
    (hI : Inv st) (hC : Closed lex st []) (h : parseLoop lex fuel order st = .ok st') :
    Inv st' ∧ Closed lex st' [] ∧ (st.trace <+: st'.trace) ∧ (∀ e ∈ order, e.1 ∈ st'.trace.map ParseState.key) := by
  induction order generalizing st with
  | nil => simp only [parseLoop, Res.pure_eq, Res.ok.injEq] at h; subst h; exact ⟨hI, hC, List.prefix_refl _, by simp⟩
  | cons e order ih =>
    obtain ⟨k, d⟩ := e
    simp only [parseLoop] at h
    rw [Res.bind_eq_ok] at h
    obtain ⟨st1, h1, h2⟩ := h
    obtain ⟨a1, a2, a3, a4⟩ := runQueue_inv lex fuel _ st st1 hI (by
      intro x hx; obtain ⟨p, hp, hq⟩ := hC x hx
      exact ⟨p, hp, fun y hy => Or.inl ((hq y hy).resolve_right (by simp))⟩) h1
    obtain ⟨b1, b2, b3, b4⟩ := ih st1 a1 a2 h2
    refine ⟨b1, b2, a3.trans b3, fun x hx => ?_⟩
    rcases List.mem_cons.mp hx with rfl | hx
    · exact (b3.map _).subset (a4 ⟨bridge d, k⟩ (by simp))
    · exact b4 x hx

/-- C62: when `Parse` returns, no key was handled twice, every key of the table was handled, and so was every key
referenced by an executed handler -/
theorem C62_once (lex : SymbolTable) (fuel : Nat) (order : List (GoString × Definition)) (ho : order.Perm lex)
    (st : ParserSt) (h : Parse fuel lex order = .ok st) :
    (st.trace.map ParseState.key).Nodup ∧ (∀ e ∈ lex, e.1 ∈ st.trace.map ParseState.key) ∧
    (∀ s ∈ st.trace, ∃ pushed, runHandler lex s.fn s.key = .ok pushed ∧
      ∀ p ∈ pushed, p.key ∈ st.trace.map ParseState.key) := by
  obtain ⟨h1, h2, _, h4⟩ := parseLoop_inv lex fuel order ⟨[], []⟩ st ⟨by simp, by simp⟩ (by intro s hs; simp at hs) h
  refine ⟨h1.nodup, fun e he => h4 e (ho.symm.subset he), fun s hs => ?_⟩
  obtain ⟨p, hp, hq⟩ := h2 s hs
  exact ⟨p, hp, fun x hx => (hq x hx).resolve_right (by simp)⟩

/-! ## Which handlers run -/

/-- the calls of a run are justified: each one is the dispatch of a table entry or was requested by an earlier call -/
def Justified (lex : SymbolTable) (order : List (GoString × Definition)) (trace : List ParseState) : Prop :=
  ∀ pre s post, trace = pre ++ s :: post →
    (∃ e ∈ order, s = ⟨bridge e.2, e.1⟩) ∨ ∃ t ∈ pre, ∃ pushed, runHandler lex t.fn t.key = .ok pushed ∧ s ∈ pushed

theorem runQueue_justified (lex : SymbolTable) (order : List (GoString × Definition)) (fuel : Nat)
    (queue : List ParseState) (st st' : ParserSt)
    (hJ : Justified lex order st.trace)
    (hQ : ∀ s ∈ queue, (∃ e ∈ order, s = ⟨bridge e.2, e.1⟩) ∨
      ∃ t ∈ st.trace, ∃ pushed, runHandler lex t.fn t.key = .ok pushed ∧ s ∈ pushed)
    (h : runQueue lex fuel queue st = .ok st') : Justified lex order st'.trace := by
  induction fuel generalizing queue st with
  | zero =>
    cases queue with
    | nil => simp only [runQueue, Res.pure_eq, Res.ok.injEq] at h; subst h; exact hJ
    | cons s q => simp [runQueue] at h
  | succ fuel ih =>
    cases queue with
    | nil => simp only [runQueue, Res.pure_eq, Res.ok.injEq] at h; subst h; exact hJ
    | cons s q =>
      simp only [runQueue] at h
      split at h
      · exact ih q st hJ (fun x hx => hQ x (by simp [hx])) h
      · cases hr : runHandler lex s.fn s.key with
        | fuel => rw [hr] at h; simp at h
        | panic => rw [hr] at h; simp at h
        | ok pushed =>
          rw [hr, Res.bind_ok] at h
          refine ih _ _ ?_ ?_ h
          · intro pre x post heq
            simp only at heq
            rcases List.eq_nil_or_concat post with rfl | ⟨post', z, rfl⟩
            · have := List.append_inj' heq rfl
              obtain ⟨rfl, h2⟩ := this
              cases h2
              exact hQ _ (by simp)
            · have heq' : st.trace ++ [s] = (pre ++ x :: post') ++ [z] := by simpa using heq
              obtain ⟨h1, _⟩ := List.append_inj' heq' rfl
              exact hJ pre x post' h1
          · intro x hx
            rcases List.mem_append.mp hx with hx | hx
            · rcases hQ x (by simp [hx]) with h' | ⟨t, ht, h'⟩
              · exact Or.inl h'
              · exact Or.inr ⟨t, by simp [ht], h'⟩
            · exact Or.inr ⟨s, by simp, pushed, hr, hx⟩

theorem parseLoop_justified (lex : SymbolTable) (all : List (GoString × Definition)) (fuel : Nat)
    (order : List (GoString × Definition)) (hsub : ∀ e ∈ order, e ∈ all) (st st' : ParserSt)
    (hJ : Justified lex all st.trace) (h : parseLoop lex fuel order st = .ok st') :
    Justified lex all st'.trace := by
  induction order generalizing st with
  | nil => simp only [parseLoop, Res.pure_eq, Res.ok.injEq] at h; subst h; exact hJ
  | cons e order ih =>
    obtain ⟨k, d⟩ := e
    simp only [parseLoop] at h
    rw [Res.bind_eq_ok] at h
    obtain ⟨st1, h1, h2⟩ := h
    exact ih (fun x hx => hsub x (by simp [hx])) st1
      (runQueue_justified lex all fuel _ st st1 hJ (by
        intro s hs; simp at hs; exact Or.inl ⟨(k, d), hsub _ (by simp), hs⟩) h1) h2

/-- C62: every handler call of a run is the dispatch of a table entry, or was requested by an earlier call -/
theorem C62_justified (lex : SymbolTable) (fuel : Nat) (order : List (GoString × Definition))
    (st : ParserSt) (h : Parse fuel lex order = .ok st) : Justified lex order st.trace :=
  parseLoop_justified lex order fuel order (fun _ h => h) ⟨[], []⟩ st
    (by intro pre s post heq; simp at heq) h

/-! ## C63 -/

/-- a table on which one iteration order panics and the other does not -/
def orderTable : SymbolTable :=
  [(ascii "#1".toList, ⟨ascii "AXIS_2_PLACEMENT_3D".toList, [ascii "''".toList, ascii "#2".toList]⟩),
   (ascii "#2".toList, ⟨ascii "CARTESIAN_POINT".toList, [ascii "x".toList]⟩)]

/-- a table on which both orders return but handle different sets of keys: `#9` is only reached when `#2` is handled
as the PRODUCT_DEFINITION it is, not when it is reached from `#1` -/
def danglingTable : SymbolTable :=
  [(ascii "#1".toList, ⟨ascii "PRODUCT_DEFINITION".toList, [[], [], ascii "#2".toList]⟩),
   (ascii "#2".toList, ⟨ascii "PRODUCT_DEFINITION".toList, [[], [], ascii "#9".toList]⟩)]

/-- C63 is false: whether `Parse` panics depends on the iteration order, and so does the set of handled keys -/
theorem C63_refuted :
    (∃ lex : SymbolTable, ∃ o1 o2, (lex.map Prod.fst).Nodup ∧ o1.Perm lex ∧ o2.Perm lex ∧
      ∃ N, ∀ fuel, N ≤ fuel → Parse fuel lex o1 = .panic ∧ ∃ st, Parse fuel lex o2 = .ok st) ∧
    (∃ lex : SymbolTable, ∃ o1 o2, (lex.map Prod.fst).Nodup ∧ o1.Perm lex ∧ o2.Perm lex ∧
      ∃ N, ∀ fuel, N ≤ fuel → ∃ st1 st2, Parse fuel lex o1 = .ok st1 ∧ Parse fuel lex o2 = .ok st2 ∧
        ∃ k, k ∉ st1.trace.map ParseState.key ∧ k ∈ st2.trace.map ParseState.key) := by
  have run : ∀ (lex order : SymbolTable), order.Perm lex → ∀ fuel, enough lex ≤ fuel →
      Parse fuel lex order = Parse (enough lex) lex order :=
    fun lex order ho fuel hf => (parseLoop_enough lex fuel hf order (fun _ he => ho.subset he) _).2
  constructor
  · refine ⟨orderTable, orderTable, orderTable.reverse, by decide, List.Perm.refl _, List.reverse_perm _,
      enough orderTable, fun fuel hf => ⟨?_, ?_⟩⟩
    · rw [run _ _ (List.Perm.refl _) fuel hf]; decide +kernel
    · rw [run _ _ (List.reverse_perm _) fuel hf]
      exact ⟨⟨[ascii "#1".toList, ascii "#2".toList],
        [⟨.skipUtility, ascii "#2".toList⟩, ⟨.axis2Placement3D, ascii "#1".toList⟩]⟩, by decide +kernel⟩
  · refine ⟨danglingTable, danglingTable, danglingTable.reverse, by decide, List.Perm.refl _, List.reverse_perm _,
      enough danglingTable, fun fuel hf => ?_⟩
    rw [run _ _ (List.Perm.refl _) fuel hf, run _ _ (List.reverse_perm _) fuel hf]
    exact ⟨⟨[ascii "#2".toList, ascii "#1".toList],
        [⟨.productDefinition, ascii "#1".toList⟩, ⟨.productDefinitionFormation, ascii "#2".toList⟩]⟩,
      ⟨[ascii "#1".toList, ascii "#9".toList, ascii "#2".toList],
        [⟨.productDefinition, ascii "#2".toList⟩, ⟨.productDefinitionFormation, ascii "#9".toList⟩,
          ⟨.productDefinition, ascii "#1".toList⟩]⟩,
      by decide +kernel, by decide +kernel, ascii "#9".toList, by decide, by decide⟩

/-! ## C64: well-formed tables -/

/-- reference from argument `i` of a definition to a definition satisfying `p` -/
def RefTo (lex : SymbolTable) (d : Definition) (i : Nat) (p : Definition → Prop) : Prop :=
  ∃ k d', d.Arguments[i]? = some k ∧ GoMap.get? lex k = some d' ∧ p d'

/-- argument `i` exists and is a bracketed list, at least two bytes long -/
def IsArray (d : Definition) (i : Nat) : Prop := ∃ a, d.Arguments[i]? = some a ∧ 2 ≤ a.length

/-- argument `i` exists and `getMatrix` accepts it -/
def IsMatrix (d : Definition) (i : Nat) : Prop := ∃ a m, d.Arguments[i]? = some a ∧ getMatrix a = .ok m

/-- a definition has the arguments its handler reads, and its references have the right shape -/
structure WFDef (lex : SymbolTable) (d : Definition) : Prop where
  shape : d.Typ = ascii "PRODUCT_DEFINITION_SHAPE".toList → RefTo lex d 2 fun d' => 3 ≤ d'.Arguments.length
  pd : d.Typ = ascii "PRODUCT_DEFINITION".toList → 3 ≤ d.Arguments.length
  axis : d.Typ = ascii "AXIS_2_PLACEMENT_3D".toList → RefTo lex d 1 fun d' => IsArray d' 1
  face : d.Typ = ascii "ADVENCED_FACE".toList →
    RefTo lex d 1 fun d' => trimSpace d'.Typ = ascii "SPHERICAL_SURFACE".toList → 3 ≤ d'.Arguments.length
  sphere : d.Typ = ascii "SPHERICAL_SURFACE".toList → 3 ≤ d.Arguments.length
  bspline : d.Typ = ascii "B_SPLINE_SURFACE_WITH_KNOTS".toList →
    IsMatrix d 3 ∧ IsArray d 8 ∧ IsArray d 9 ∧ IsArray d 10 ∧ IsArray d 11

/-- the whole table -/
def WFTable (lex : SymbolTable) : Prop := (lex.map Prod.fst).Nodup ∧ ∀ e ∈ lex, WFDef lex e.2

/-- a state whose handler, and all handlers it leads to, do not panic -/
inductive Safe (lex : SymbolTable) : ParseState → Prop
  | mk (s : ParseState) (pushed : List ParseState) : runHandler lex s.fn s.key = .ok pushed →
      (∀ p ∈ pushed, Safe lex p) → Safe lex s

theorem goGet_lt {α : Type} (l : List α) (i : Nat) (h : i < l.length) : goGet l (i : Int) = .ok l[i] := by
  simp [goGet, h]

theorem goGet_some {α : Type} (l : List α) (i : Nat) (a : α) (h : l[i]? = some a) : goGet l (i : Int) = .ok a := by
  simp [goGet, h]

theorem getArray_ok (s : GoString) (h : 2 ≤ s.length) : ∃ l, getArray s = .ok l := by
  unfold getArray; rw [if_neg (by omega)]; exact ⟨_, rfl⟩

theorem safe_nopush (lex : SymbolTable) (s : ParseState) (h : runHandler lex s.fn s.key = .ok []) : Safe lex s :=
  Safe.mk s [] h (by simp)

theorem safe_productDefinition (lex : SymbolTable) (k : GoString) (h : 3 ≤ (lookup lex k).Arguments.length) :
    Safe lex ⟨.productDefinition, k⟩ := by
  have e := goGet_lt (lookup lex k).Arguments 2 (by omega)
  refine Safe.mk _ [⟨.productDefinitionFormation, _⟩, ⟨.productDefinitionContext, _⟩] (by
    simp only [runHandler]
    rw [show ((2 : Int)) = ((2 : Nat) : Int) from rfl, e]; rfl) ?_
  intro p hp
  simp only [List.mem_cons, List.not_mem_nil, or_false] at hp
  rcases hp with rfl | rfl <;> exact safe_nopush _ _ rfl

theorem safe_cartesianPoint (lex : SymbolTable) (k : GoString) (h : IsArray (lookup lex k) 1) :
    Safe lex ⟨.cartesianPoint, k⟩ := by
  obtain ⟨a, ha, hl⟩ := h
  obtain ⟨l, hl⟩ := getArray_ok a hl
  apply safe_nopush
  simp only [runHandler]
  rw [show ((1 : Int)) = ((1 : Nat) : Int) from rfl, goGet_some _ _ _ ha]
  simp [hl]

theorem safe_spherical (lex : SymbolTable) (k : GoString) (h : 3 ≤ (lookup lex k).Arguments.length) :
    Safe lex ⟨.sphericalSurface, k⟩ := by
  apply safe_nopush
  simp only [runHandler]
  rw [show ((2 : Int)) = ((2 : Nat) : Int) from rfl, goGet_lt _ _ (by omega)]
  rfl

theorem lookup_of_get? (lex : SymbolTable) (k : GoString) (d : Definition) (h : GoMap.get? lex k = some d) :
    lookup lex k = d := by simp [lookup, h]

theorem safe_of_wf (lex : SymbolTable) (k : GoString) (d : Definition) (hg : GoMap.get? lex k = some d)
    (hd : WFDef lex d) : Safe lex ⟨bridge d, k⟩ := by
  have hl := lookup_of_get? lex k d hg
  unfold bridge
  by_cases h1 : d.Typ = ascii "CARTESIAN_POINT".toList
  · rw [if_pos h1]; exact safe_nopush _ _ rfl
  rw [if_neg h1]
  by_cases h2 : d.Typ = ascii "VERTEX_POINT".toList
  · rw [if_pos h2]; exact safe_nopush _ _ rfl
  rw [if_neg h2]
  by_cases h3 : d.Typ = ascii "VERTEX_LOOP".toList
  · rw [if_pos h3]; exact safe_nopush _ _ rfl
  rw [if_neg h3]
  by_cases h4 : d.Typ = ascii "AXIS_2_PLACEMENT_3D".toList
  · rw [if_pos h4]
    obtain ⟨a, d', ha, hgd, hp⟩ := hd.axis h4
    refine Safe.mk _ [⟨.cartesianPoint, a⟩, ⟨.direction, a⟩, ⟨.direction, a⟩] ?_ ?_
    · simp only [runHandler, hl]
      rw [show ((1 : Int)) = ((1 : Nat) : Int) from rfl, goGet_some _ _ _ ha]; rfl
    · intro p hp'
      simp only [List.mem_cons, List.not_mem_nil, or_false] at hp'
      rcases hp' with rfl | rfl | rfl
      · exact safe_cartesianPoint lex a (by rw [lookup_of_get? lex a d' hgd]; exact hp)
      · exact safe_nopush _ _ rfl
      · exact safe_nopush _ _ rfl
  rw [if_neg h4]
  by_cases h5 : d.Typ = ascii "FACE".toList
  · rw [if_pos h5]; exact safe_nopush _ _ rfl
  rw [if_neg h5]
  by_cases h6 : d.Typ = ascii "B_SPLINE_SURFACE_WITH_KNOTS".toList
  · rw [if_pos h6]
    obtain ⟨⟨a3, m, h3a, hm⟩, ⟨a8, h8, l8⟩, ⟨a9, h9, l9⟩, ⟨a10, h10, l10⟩, ⟨a11, h11, l11⟩⟩ := hd.bspline h6
    have hlen : 11 < d.Arguments.length := by
      have := List.getElem?_eq_some_iff.mp h11; exact this.1
    obtain ⟨m8, e8⟩ := getArray_ok a8 l8
    obtain ⟨m9, e9⟩ := getArray_ok a9 l9
    obtain ⟨m10, e10⟩ := getArray_ok a10 l10
    obtain ⟨m11, e11⟩ := getArray_ok a11 l11
    apply safe_nopush
    have g : ∀ i : Nat, i < 12 → ∃ a, goGet d.Arguments (i : Int) = .ok a := fun i hi =>
      ⟨_, goGet_lt d.Arguments i (by omega)⟩
    obtain ⟨_, g0⟩ := g 0 (by omega)
    obtain ⟨_, g1⟩ := g 1 (by omega)
    obtain ⟨_, g2⟩ := g 2 (by omega)
    obtain ⟨_, g4⟩ := g 4 (by omega)
    obtain ⟨_, g5⟩ := g 5 (by omega)
    obtain ⟨_, g6⟩ := g 6 (by omega)
    obtain ⟨_, g7⟩ := g 7 (by omega)
    have g3 := goGet_some _ _ _ h3a
    have g8 := goGet_some _ _ _ h8
    have g9 := goGet_some _ _ _ h9
    have g10 := goGet_some _ _ _ h10
    have g11 := goGet_some _ _ _ h11
    push_cast at g0 g1 g2 g3 g4 g5 g6 g7 g8 g9 g10 g11
    simp only [runHandler, hl, g0, g1, g2, g3, g4, g5, g6, g7, g8, g9, g10, g11, Res.bind_ok, hm, e8, e9, e10, e11,
      Res.pure_eq]
  rw [if_neg h6]
  by_cases h7 : d.Typ = ascii "ADVENCED_FACE".toList
  · rw [if_pos h7]
    obtain ⟨a, d', ha, hgd, hp⟩ := hd.face h7
    have hr : runHandler lex .advancedFace k =
        (if trimSpace d'.Typ = ascii "SPHERICAL_SURFACE".toList then .ok [⟨.sphericalSurface, a⟩]
        else if trimSpace d'.Typ = ascii "TOROIDAL_SURFACE".toList then .ok [⟨.toroidalSurface, a⟩] else .ok []) := by
      simp only [runHandler, hl]
      rw [show ((1 : Int)) = ((1 : Nat) : Int) from rfl, goGet_some _ _ _ ha]
      simp only [Res.bind_ok, lookup_of_get? lex a d' hgd, Res.pure_eq]
    by_cases hs : trimSpace d'.Typ = ascii "SPHERICAL_SURFACE".toList
    · rw [if_pos hs] at hr
      refine Safe.mk _ _ hr ?_
      simp only [List.mem_cons, List.not_mem_nil, or_false, forall_eq]
      exact safe_spherical lex a (by rw [lookup_of_get? lex a d' hgd]; exact hp hs)
    · rw [if_neg hs] at hr
      by_cases ht : trimSpace d'.Typ = ascii "TOROIDAL_SURFACE".toList
      · rw [if_pos ht] at hr
        refine Safe.mk _ _ hr ?_
        simp only [List.mem_cons, List.not_mem_nil, or_false, forall_eq]
        exact safe_nopush _ _ rfl
      · rw [if_neg ht] at hr; exact safe_nopush _ _ hr
  rw [if_neg h7]
  by_cases h8 : d.Typ = ascii "CLOSED_SHELL".toList
  · rw [if_pos h8]; exact safe_nopush _ _ rfl
  rw [if_neg h8]
  by_cases h9 : d.Typ = ascii "DIRECTION".toList
  · rw [if_pos h9]; exact safe_nopush _ _ rfl
  rw [if_neg h9]
  by_cases h10 : d.Typ = ascii "PRODUCT_DEFINITION".toList
  · rw [if_pos h10]; exact safe_productDefinition lex k (by rw [hl]; exact hd.pd h10)
  rw [if_neg h10]
  by_cases h11 : d.Typ = ascii "PRODUCT_DEFINITION_CONTEXT".toList
  · rw [if_pos h11]; exact safe_nopush _ _ rfl
  rw [if_neg h11]
  by_cases h12 : d.Typ = ascii "PRODUCT_DEFINITION_FORMATION".toList
  · rw [if_pos h12]; exact safe_nopush _ _ rfl
  rw [if_neg h12]
  by_cases h13 : d.Typ = ascii "PRODUCT_DEFINITION_SHAPE".toList
  · rw [if_pos h13]
    obtain ⟨a, d', ha, hgd, hp⟩ := hd.shape h13
    refine Safe.mk _ [⟨.productDefinition, a⟩] ?_ ?_
    · simp only [runHandler, hl]
      rw [show ((2 : Int)) = ((2 : Nat) : Int) from rfl, goGet_some _ _ _ ha]; rfl
    · simp only [List.mem_cons, List.not_mem_nil, or_false, forall_eq]
      exact safe_productDefinition lex a (by rw [lookup_of_get? lex a d' hgd]; exact hp)
  rw [if_neg h13]
  by_cases h14 : d.Typ = ascii "SPHERICAL_SURFACE".toList
  · rw [if_pos h14]; exact safe_spherical lex k (by rw [hl]; exact hd.sphere h14)
  rw [if_neg h14]
  by_cases h15 : d.Typ = ascii "TOROIDAL_SURFACE".toList
  · rw [if_pos h15]; exact safe_nopush _ _ rfl
  rw [if_neg h15]; exact safe_nopush _ _ rfl

theorem runQueue_safe (lex : SymbolTable) (fuel : Nat) (queue : List ParseState) (st : ParserSt)
    (hs : ∀ s ∈ queue, Safe lex s) : runQueue lex fuel queue st ≠ .panic := by
  induction fuel generalizing queue st with
  | zero =>
    cases queue with
    | nil => simp [runQueue]
    | cons s q => simp [runQueue]
  | succ fuel ih =>
    cases queue with
    | nil => simp [runQueue]
    | cons s q =>
      unfold runQueue
      split
      · exact ih q st fun x hx => hs x (by simp [hx])
      · obtain ⟨_, pushed, hr, hp⟩ := hs s (by simp)
        rw [hr, Res.bind_ok]
        apply ih
        intro x hx
        rcases List.mem_append.mp hx with hx | hx
        · exact hs x (by simp [hx])
        · exact hp x hx

/-- C64: `Parse` returns normally on every well-formed table, in every iteration order -/
theorem C64_no_panic (lex : SymbolTable) (hwf : WFTable lex) (order : List (GoString × Definition))
    (ho : order.Perm lex) : ∃ N st, ∀ fuel, N ≤ fuel → Parse fuel lex order = .ok st := by
  have hnp : ∀ (order : List (GoString × Definition)) (st : ParserSt), (∀ e ∈ order, e ∈ lex) →
      parseLoop lex (enough lex) order st ≠ .panic := by
    intro order
    induction order with
    | nil => intro st _; simp [parseLoop]
    | cons e order ih =>
      intro st he
      obtain ⟨k, d⟩ := e
      have hm := he (k, d) (by simp)
      have hs := safe_of_wf lex k d (get?_of_mem lex hwf.1 k d hm) (hwf.2 _ hm)
      have := runQueue_safe lex (enough lex) [⟨bridge d, k⟩] st (by simpa using hs)
      simp only [parseLoop]
      cases hr : runQueue lex (enough lex) [⟨bridge d, k⟩] st with
      | panic => exact absurd hr this
      | fuel => simp
      | ok st' => rw [Res.bind_ok]; exact ih st' fun x hx => he x (by simp [hx])
  have hsub : ∀ e ∈ order, e ∈ lex := fun _ he => ho.subset he
  have h1 := parseLoop_enough lex (enough lex) (Nat.le_refl _) order hsub ⟨[], []⟩
  cases hr : parseLoop lex (enough lex) order ⟨[], []⟩ with
  | panic => exact absurd hr (hnp order _ hsub)
  | fuel => exact absurd hr h1.1
  | ok st => exact ⟨enough lex, st, fun fuel hf => by
      rw [Parse, (parseLoop_enough lex fuel hf order hsub _).2, hr]⟩

/-- C63, what does hold: on well-formed tables every order returns, and all orders handle all table keys -/
theorem C63_partial (lex : SymbolTable) (hwf : WFTable lex) (o1 o2 : List (GoString × Definition))
    (h1 : o1.Perm lex) (h2 : o2.Perm lex) : ∃ N st1 st2, ∀ fuel, N ≤ fuel →
      Parse fuel lex o1 = .ok st1 ∧ Parse fuel lex o2 = .ok st2 ∧
      ∀ e ∈ lex, e.1 ∈ st1.trace.map ParseState.key ∧ e.1 ∈ st2.trace.map ParseState.key := by
  obtain ⟨N1, st1, e1⟩ := C64_no_panic lex hwf o1 h1
  obtain ⟨N2, st2, e2⟩ := C64_no_panic lex hwf o2 h2
  refine ⟨max N1 N2, st1, st2, fun fuel hf => ?_⟩
  have a1 := e1 fuel (by omega)
  have a2 := e2 fuel (by omega)
  exact ⟨a1, a2, fun e he => ⟨(C62_once lex fuel o1 h1 st1 a1).2.1 e he, (C62_once lex fuel o2 h2 st2 a2).2.1 e he⟩⟩

/-- a cyclic well-formed table -/
example : WFTable [
    (ascii "#1".toList, ⟨ascii "AXIS_2_PLACEMENT_3D".toList, [ascii "''".toList, ascii "#2".toList]⟩),
    (ascii "#2".toList, ⟨ascii "CARTESIAN_POINT".toList, [ascii "''".toList, ascii "(0.,0.)".toList]⟩),
    (ascii "#3".toList, ⟨ascii "PRODUCT_DEFINITION_SHAPE".toList, [[], [], ascii "#4".toList]⟩),
    (ascii "#4".toList, ⟨ascii "PRODUCT_DEFINITION".toList, [[], [], ascii "#3".toList]⟩)] := by
  refine ⟨by decide, ?_⟩
  simp only [List.mem_cons, List.not_mem_nil, or_false, forall_eq_or_imp, forall_eq]
  refine ⟨⟨?_, ?_, ?_, ?_, ?_, ?_⟩, ⟨?_, ?_, ?_, ?_, ?_, ?_⟩, ⟨?_, ?_, ?_, ?_, ?_, ?_⟩, ⟨?_, ?_, ?_, ?_, ?_, ?_⟩⟩
  case refine_3 => intro _; exact ⟨ascii "#2".toList, _, rfl, rfl, _, rfl, by decide⟩
  case refine_13 => intro _; exact ⟨ascii "#4".toList, _, rfl, rfl, by decide⟩
  case refine_20 => intro _; decide
  all_goals (intro h; exact absurd h (by decide))

/-! ## C65: dispatch -/

/-- the dispatch table of the code -/
def dispatch : List (String × Handler) :=
  [("CARTESIAN_POINT", .skipUtility), ("VERTEX_POINT", .skipUtility), ("VERTEX_LOOP", .vertexLoop),
   ("AXIS_2_PLACEMENT_3D", .axis2Placement3D), ("FACE", .face),
   ("B_SPLINE_SURFACE_WITH_KNOTS", .bSplineSurfaceWithKnots), ("ADVENCED_FACE", .advancedFace),
   ("CLOSED_SHELL", .closedShell), ("DIRECTION", .direction), ("PRODUCT_DEFINITION", .productDefinition),
   ("PRODUCT_DEFINITION_CONTEXT", .productDefinitionContext),
   ("PRODUCT_DEFINITION_FORMATION", .productDefinitionFormation),
   ("PRODUCT_DEFINITION_SHAPE", .productDefinitionShape), ("SPHERICAL_SURFACE", .sphericalSurface),
   ("TOROIDAL_SURFACE", .toroidalSurface)]

/-- C65: each listed type goes to its handler whatever the arguments, every other type is skipped, and skipping has
no effect (no states requested, no panic) -/
theorem C65_dispatch (d : Definition) :
    (∀ e ∈ dispatch, d.Typ = ascii e.1.toList → bridge d = e.2) ∧
    ((∀ e ∈ dispatch, d.Typ ≠ ascii e.1.toList) → bridge d = .skipUtility) ∧
    (∀ lex key, runHandler lex .skipUtility key = .ok []) := by
  refine ⟨?_, ?_, fun _ _ => rfl⟩
  · intro e he h
    simp only [dispatch, List.mem_cons, List.not_mem_nil, or_false] at he
    unfold bridge
    rcases he with rfl | rfl | rfl | rfl | rfl | rfl | rfl | rfl | rfl | rfl | rfl | rfl | rfl | rfl | rfl <;>
      (rw [h]; decide)
  · intro h
    simp only [dispatch, List.mem_cons, List.not_mem_nil, or_false, forall_eq_or_imp, forall_eq] at h
    obtain ⟨h1, h2, h3, h4, h5, h6, h7, h8, h9, h10, h11, h12, h13, h14, h15⟩ := h
    unfold bridge
    rw [if_neg h1, if_neg h2, if_neg h3, if_neg h4, if_neg h5, if_neg h6, if_neg h7, if_neg h8, if_neg h9, if_neg h10,
      if_neg h11, if_neg h12, if_neg h13, if_neg h14, if_neg h15]

/-- C65 is false for the real STEP names `ADVANCED_FACE`, `AXIS2_PLACEMENT_3D`: they are skipped. (And a
CARTESIAN_POINT is skipped when reached from the table, although it has a handler of its own.) -/
theorem C65_refuted (args : List GoString) :
    bridge ⟨ascii "ADVANCED_FACE".toList, args⟩ = .skipUtility ∧
    bridge ⟨ascii "AXIS2_PLACEMENT_3D".toList, args⟩ = .skipUtility ∧
    bridge ⟨ascii "CARTESIAN_POINT".toList, args⟩ ≠ .cartesianPoint := by
  refine ⟨(C65_dispatch _).2.1 (show ∀ e ∈ dispatch, ascii "ADVANCED_FACE".toList ≠ ascii e.1.toList by decide),
    (C65_dispatch _).2.1 (show ∀ e ∈ dispatch, ascii "AXIS2_PLACEMENT_3D".toList ≠ ascii e.1.toList by decide), ?_⟩
  rw [(C65_dispatch _).1 ("CARTESIAN_POINT", .skipUtility) (by decide) rfl]
  decide

end Verif.Props
