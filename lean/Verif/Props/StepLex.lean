import Verif.Props.StepText
import Mathlib.Data.List.Basic
/-!
# C59 - C61: the lexer
-/
namespace Verif.Props
open Verif Verif.Step

/-! ## Go maps -/

section GoMapLemmas
variable {κ α : Type} [DecidableEq κ]

theorem get?_set (m : List (κ × α)) (k k' : κ) (v : α) :
    GoMap.get? (GoMap.set m k v) k' = if k' = k then some v else GoMap.get? m k' := by
  induction m with
  | nil => simp only [GoMap.set, GoMap.get?]; split <;> simp_all [eq_comm]
  | cons e m ih =>
    obtain ⟨a, b⟩ := e
    simp only [GoMap.set]
    by_cases h : a = k
    · subst h
      simp only [if_true, GoMap.get?]
      by_cases h2 : a = k'
      · subst h2; simp
      · simp [h2, Ne.symm h2]
    · simp only [h, if_false, GoMap.get?]
      by_cases h2 : a = k'
      · subst h2; simp [h]
      · simp only [h2, if_false, ih]

theorem mem_keys_set (m : List (κ × α)) (k : κ) (v : α) (x : κ) :
    x ∈ (GoMap.set m k v).map Prod.fst ↔ x = k ∨ x ∈ m.map Prod.fst := by
  induction m with
  | nil => simp [GoMap.set]
  | cons e m ih =>
    obtain ⟨a, b⟩ := e
    simp only [GoMap.set]
    by_cases h : a = k
    · subst h; simp
    · simp only [h, if_false, List.map_cons, List.mem_cons, ih]; tauto

theorem nodup_set (m : List (κ × α)) (k : κ) (v : α) (h : (m.map Prod.fst).Nodup) :
    ((GoMap.set m k v).map Prod.fst).Nodup := by
  induction m with
  | nil => simp [GoMap.set]
  | cons e m ih =>
    obtain ⟨a, b⟩ := e
    simp only [List.map_cons, List.nodup_cons] at h
    simp only [GoMap.set]
    by_cases hk : a = k
    · subst hk; simpa using h
    · simp only [hk, if_false, List.map_cons, List.nodup_cons, mem_keys_set]
      refine ⟨?_, ih h.2⟩
      rintro (h1 | h1)
      · first | exact hk h1 | exact h1
      · exact h.1 h1

theorem get?_isSome_iff (m : List (κ × α)) (k : κ) : (GoMap.get? m k).isSome ↔ k ∈ m.map Prod.fst := by
  induction m with
  | nil => simp [GoMap.get?]
  | cons e m ih =>
    obtain ⟨a, b⟩ := e
    simp only [GoMap.get?]
    split
    · rename_i h; simp [h]
    · rename_i h; simp [ih, Ne.symm h]

end GoMapLemmas

/-! ## Lines -/

/-- a definition as written in the file: the identifier, the rest of its first line (after the `=`), and its
continuation lines -/
structure Entity where
  id : GoString
  first : GoString
  more : List GoString

/-- the lines it occupies -/
def Entity.lines (e : Entity) : List GoString := (e.id ++ 61 :: e.first) :: e.more

/-- the text after the `=`, lines joined -/
def Entity.rhs (e : Entity) : GoString := e.first ++ e.more.flatten

/-- no `=` in the identifier, and none in the continuation lines -/
def Entity.WF (e : Entity) : Prop := (61 : UInt8) ∉ e.id ∧ ∀ l ∈ e.more, (61 : UInt8) ∉ l

/-- the definition of `id`: the last one in the file -/
def lastDef (es : List Entity) (dfn : Entity → Definition) (id : GoString) : Option Definition :=
  (es.reverse.find? (fun e => decide (e.id = id))).map dfn

theorem containsEq_iff (l : GoString) : containsEq l = true ↔ (61 : UInt8) ∈ l := by
  simp [containsEq]

theorem lexLoop_more (more rest : List GoString) (h : ∀ l ∈ more, (61 : UInt8) ∉ l) (sym : GoString)
    (tbl : SymbolTable) : lexLoop (more ++ rest) sym tbl = lexLoop rest (sym ++ more.flatten) tbl := by
  induction more generalizing sym with
  | nil => simp
  | cons l more ih =>
    have hl : containsEq l = false := by
      rw [← Bool.not_eq_true, containsEq_iff]; exact h l (by simp)
    have ih' := ih (fun x hx => h x (by simp [hx]))
    simp only [List.cons_append, lexLoop, hl]
    split
    · rename_i h0
      rw [ih' sym]
      simp [List.length_eq_zero_iff.mp h0]
    · simp [ih', List.append_assoc]

/-- `add` on a definition text -/
theorem add_eq (tbl : SymbolTable) (id rhs : GoString) (h : (61 : UInt8) ∉ id) :
    add tbl (id ++ 61 :: rhs) = (do let d ← tokenize rhs; pure (GoMap.set tbl id d)) := by
  simp [add, splitN2_of_mem 61 id rhs h]

theorem add_panic (tbl : SymbolTable) (s : GoString) (h : (61 : UInt8) ∉ s) : add tbl s = .panic := by
  simp [add, splitN2_of_not_mem 61 s h]

theorem Entity.lexLoop_lines (e : Entity) (h : e.WF) (rest : List GoString) (sym : GoString) (tbl : SymbolTable) :
    lexLoop (e.lines ++ rest) sym tbl =
      (do let tbl ← if sym.length > 0 then add tbl sym else pure tbl
          lexLoop rest (e.id ++ 61 :: e.rhs) tbl) := by
  have hc : containsEq (e.id ++ 61 :: e.first) = true := by rw [containsEq_iff]; simp
  simp only [Entity.lines, List.cons_append, lexLoop, hc]
  rw [if_neg (by simp)]
  simp only [if_true]
  have : ∀ t, lexLoop (e.more ++ rest) (e.id ++ 61 :: e.first) t = lexLoop rest (e.id ++ 61 :: e.rhs) t := by
    intro t
    rw [lexLoop_more e.more rest h.2]
    simp [Entity.rhs]
  simp only [this]

/-- the table after adding all definitions -/
def tableOf (dfn : Entity → Definition) (es : List Entity) (tbl : SymbolTable) : SymbolTable :=
  es.foldl (fun t e => GoMap.set t e.id (dfn e)) tbl

theorem get?_tableOf (dfn : Entity → Definition) (es : List Entity) (tbl : SymbolTable) (id : GoString) :
    GoMap.get? (tableOf dfn es tbl) id = (lastDef es dfn id).or (GoMap.get? tbl id) := by
  induction es generalizing tbl with
  | nil => simp [tableOf, lastDef]
  | cons e es ih =>
    have : tableOf dfn (e :: es) tbl = tableOf dfn es (GoMap.set tbl e.id (dfn e)) := rfl
    rw [this, ih, get?_set]
    simp only [lastDef, List.reverse_cons, List.find?_append, List.find?_singleton]
    cases h : es.reverse.find? (fun e => decide (e.id = id)) with
    | some x => simp
    | none =>
      by_cases h2 : id = e.id
      · subst h2; simp
      · simp [h2, Ne.symm h2]

theorem nodup_tableOf (dfn : Entity → Definition) (es : List Entity) (tbl : SymbolTable)
    (h : (tbl.map Prod.fst).Nodup) : ((tableOf dfn es tbl).map Prod.fst).Nodup := by
  induction es generalizing tbl with
  | nil => exact h
  | cons e es ih => exact ih _ (nodup_set _ _ _ h)

/-- processing definitions, given that one is pending -/
theorem lexLoop_entities (dfn : Entity → Definition) (p : Entity) (es : List Entity) (hp : p.WF)
    (h : ∀ e ∈ es, e.WF) (htok : ∀ e ∈ p :: es, tokenize e.rhs = .ok (dfn e)) (tbl : SymbolTable) :
    (do let (s, t) ← lexLoop (es.flatMap Entity.lines) (p.id ++ 61 :: p.rhs) tbl
        add t s) = .ok (tableOf dfn (p :: es) tbl) := by
  induction es generalizing p tbl with
  | nil =>
    simp [lexLoop, add_eq _ _ _ hp.1, htok p (by simp), tableOf]
  | cons e es ih =>
    rw [List.flatMap_cons, e.lexLoop_lines (h e (by simp))]
    rw [if_pos (by simp; omega), add_eq _ _ _ hp.1, htok p (by simp)]
    simp only [Res.bind_ok, Res.pure_eq]
    rw [ih e (h e (by simp)) (fun x hx => h x (by simp [hx])) (fun x hx => htok x (by simp at hx ⊢; tauto))]
    rfl

theorem lexLoop_entities_panic (p : Entity) (es : List Entity) (hp : p.WF)
    (h : ∀ e ∈ es, e.WF) (htok : ∃ e ∈ p :: es, tokenize e.rhs = .panic)
    (hnf : ∀ s, tokenize s ≠ .fuel) (tbl : SymbolTable) :
    (do let (s, t) ← lexLoop (es.flatMap Entity.lines) (p.id ++ 61 :: p.rhs) tbl
        add t s) = .panic := by
  induction es generalizing p tbl with
  | nil =>
    obtain ⟨e, he, ht⟩ := htok
    simp at he; subst he
    simp [lexLoop, add_eq _ _ _ hp.1, ht]
  | cons e es ih =>
    rw [List.flatMap_cons, e.lexLoop_lines (h e (by simp))]
    rw [if_pos (by simp; omega), add_eq _ _ _ hp.1]
    cases ht : tokenize p.rhs with
    | fuel => exact absurd ht (hnf _)
    | panic => rfl
    | ok d =>
      simp only [Res.bind_ok, Res.pure_eq]
      apply ih e (h e (by simp)) (fun x hx => h x (by simp [hx]))
      obtain ⟨x, hx, hxt⟩ := htok
      rcases List.mem_cons.mp hx with rfl | hx
      · rw [ht] at hxt; cases hxt
      · exact ⟨x, hx, hxt⟩

theorem getArguments_ne_fuel (s : GoString) : getArguments s ≠ .fuel := by
  unfold getArguments; simp only; split <;> simp

theorem tokenize_ne_fuel (s : GoString) : tokenize s ≠ .fuel := by
  unfold tokenize
  simp only
  cases (splitN2 40 s).2 with
  | none => simp
  | some a =>
    simp only [Res.ofOption_some, Res.bind_ok]
    cases h : getArguments a with
    | fuel => exact absurd h (getArguments_ne_fuel a)
    | panic => simp
    | ok x => simp

/-- C59 on lines: blank lines, then definitions (each an `=` line and continuation lines, blank ones included).
`Lex` returns a table with unique keys that maps each identifier to its last definition. -/
theorem C59_lexLines (blank : List GoString) (hb : ∀ l ∈ blank, l = []) (es : List Entity) (hne : es ≠ [])
    (h : ∀ e ∈ es, e.WF) (dfn : Entity → Definition) (htok : ∀ e ∈ es, tokenize e.rhs = .ok (dfn e)) :
    ∃ tbl, lexLines (blank ++ es.flatMap Entity.lines) = .ok tbl ∧ (tbl.map Prod.fst).Nodup ∧
      ∀ id, GoMap.get? tbl id = lastDef es dfn id := by
  cases es with
  | nil => exact absurd rfl hne
  | cons e es =>
    refine ⟨tableOf dfn (e :: es) [], ?_, nodup_tableOf _ _ _ (by simp), fun id => by
      rw [get?_tableOf]; simp [GoMap.get?]⟩
    unfold lexLines
    rw [lexLoop_more blank _ (fun l hl => by rw [hb l hl]; simp), List.nil_append,
      show blank.flatten = [] from by rw [List.flatten_eq_nil_iff]; exact hb,
      List.flatMap_cons, e.lexLoop_lines (h e (by simp))]
    simp only [List.length_nil, Nat.lt_irrefl, gt_iff_lt, if_false, Res.pure_eq, Res.bind_ok]
    exact lexLoop_entities dfn e es (h e (by simp)) (fun x hx => h x (by simp [hx])) htok []

/-- C59: and it panics if one of the definitions cannot be tokenized -/
theorem C59_lexLines_panic (blank : List GoString) (hb : ∀ l ∈ blank, l = []) (es : List Entity)
    (h : ∀ e ∈ es, e.WF) (htok : ∃ e ∈ es, tokenize e.rhs = .panic) :
    lexLines (blank ++ es.flatMap Entity.lines) = .panic := by
  cases es with
  | nil => simp at htok
  | cons e es =>
    unfold lexLines
    rw [lexLoop_more blank _ (fun l hl => by rw [hb l hl]; simp), List.nil_append,
      show blank.flatten = [] from by rw [List.flatten_eq_nil_iff]; exact hb,
      List.flatMap_cons, e.lexLoop_lines (h e (by simp))]
    simp only [List.length_nil, Nat.lt_irrefl, gt_iff_lt, if_false, Res.pure_eq, Res.bind_ok]
    exact lexLoop_entities_panic e es (h e (by simp)) (fun x hx => h x (by simp [hx])) htok tokenize_ne_fuel []

/-! ## Reading lines -/

/-- drop a final CR -/
def dropCR (l : GoString) : GoString := if l.getLast? = some 13 then l.dropLast else l

/-- auxiliary for `fileLines`: `cur` is the part of the current line already read -/
def fileLinesFrom : GoString → GoString → List GoString
  | [], cur => if cur = [] then [] else [cur]
  | b :: s, cur => if b = 10 then dropCR cur :: fileLinesFrom s [] else fileLinesFrom s (cur ++ [b])

/-- the logical lines of a file: separated by LF, a CR before the LF is dropped; a final line without LF counts if
it is not empty -/
def fileLines (s : GoString) : List GoString := fileLinesFrom s []

theorem fileLinesFrom_append (l : GoString) (h : (10 : UInt8) ∉ l) (s cur : GoString) :
    fileLinesFrom (l ++ s) cur = fileLinesFrom s (cur ++ l) := by
  induction l generalizing cur with
  | nil => simp
  | cons b l ih =>
    have hb : b ≠ 10 := by intro hb; apply h; simp [hb]
    simp only [List.cons_append, fileLinesFrom, hb, if_false]
    rw [ih (fun hm => h (by simp [hm]))]; simp

theorem fileLines_last (s : GoString) (hs : s ≠ []) (h : (10 : UInt8) ∉ s) : fileLines s = [s] := by
  have := fileLinesFrom_append s h [] []
  simpa [fileLines, fileLinesFrom, hs] using this

theorem fileLines_cons (l r : GoString) (h : (10 : UInt8) ∉ l) :
    fileLines (l ++ 10 :: r) = dropCR l :: fileLines r := by
  rw [fileLines, fileLinesFrom_append l h]
  simp [fileLinesFrom, fileLines]

theorem split_at_lf (s : GoString) : (10 : UInt8) ∉ s ∨ ∃ l r, s = l ++ 10 :: r ∧ (10 : UInt8) ∉ l := by
  by_cases h : (10 : UInt8) ∈ s
  · right
    obtain ⟨l, r, h1, h2⟩ := List.eq_append_cons_of_mem h
    exact ⟨l, r, h1, h2⟩
  · exact Or.inl h

/-- a piece without LF in front of non-empty text is a prefix of the first line -/
theorem fileLines_prefix (c rest : GoString) (hc : (10 : UInt8) ∉ c) (hr : rest ≠ [])
    (hcr : c.getLast? ≠ some 13 ∨ rest.head? ≠ some 10) :
    ∃ h t, fileLines rest = h :: t ∧ fileLines (c ++ rest) = (c ++ h) :: t := by
  rcases split_at_lf rest with h | ⟨l, r, rfl, hl⟩
  · exact ⟨rest, [], fileLines_last rest hr h, fileLines_last _ (by simp [hr]) (by simp [hc, h])⟩
  · refine ⟨dropCR l, fileLines r, fileLines_cons l r hl, ?_⟩
    rw [← List.append_assoc, fileLines_cons _ _ (by simp [hc, hl])]
    congr 1
    cases l with
    | nil =>
      simp only [List.append_nil]
      have : c.getLast? ≠ some 13 := by
        rcases hcr with h | h
        · exact h
        · simp at h
      simp [dropCR, this]
    | cons b l =>
      unfold dropCR
      rw [List.getLast?_append_of_ne_nil _ (by simp)]
      split
      · rw [List.dropLast_append_of_ne_nil (by simp)]
      · rfl

/-- a continuation line without `=` can be joined to the line before it -/
theorem lexLoop_merge (c h : GoString) (t : List GoString) (hh : (61 : UInt8) ∉ h) (sym : GoString) (tbl : SymbolTable) :
    lexLoop (c :: h :: t) sym tbl = lexLoop ((c ++ h) :: t) sym tbl := by
  have hm := fun sym tbl => lexLoop_more [h] t (by simpa using hh) sym tbl
  simp only [List.singleton_append, List.flatten_cons, List.flatten_nil, List.append_nil] at hm
  by_cases hc : (61 : UInt8) ∈ c
  · have h1 := (containsEq_iff c).mpr hc
    have h2 : containsEq (c ++ h) = true := (containsEq_iff _).mpr (by simp [hc])
    have l1 : c.length ≠ 0 := by intro h0; rw [List.length_eq_zero_iff.mp h0] at hc; simp at hc
    have l2 : (c ++ h).length ≠ 0 := by rw [List.length_append]; omega
    have e1 : ∀ (c : GoString) t, c.length ≠ 0 → containsEq c = true → lexLoop (c :: t) sym tbl =
        (do let tbl ← if sym.length > 0 then add tbl sym else pure tbl
            lexLoop t c tbl) := by
      intro c t l1 h1
      simp only [lexLoop, if_neg l1, if_pos h1]
    rw [e1 c _ l1 h1, e1 (c ++ h) _ l2 h2]
    simp only [hm]
  · have hch : (61 : UInt8) ∉ c ++ h := by simp [hc, hh]
    have e1 := lexLoop_more [c] (h :: t) (by simpa using hc) sym tbl
    have e2 := lexLoop_more [c ++ h] t (by simpa using hch) sym tbl
    simp only [List.singleton_append, List.flatten_cons, List.flatten_nil, List.append_nil] at e1 e2
    rw [e1, e2, hm]; simp

/-- in every line, no `=` lies beyond the first 4095 bytes -/
def EqEarly (s : GoString) : Prop := ∀ l ∈ fileLines s, (61 : UInt8) ∉ l.drop (bufSize - 1)

theorem dropEOL_lf (l : GoString) : dropEOL (l ++ [10]) = dropCR l := by
  simp [dropEOL, dropCR]

theorem readLine_lf (l r : GoString) (hl : (10 : UInt8) ∉ l) (hlen : l.length < bufSize) :
    readLine (l ++ 10 :: r) = some (dropCR l, r) := by
  have hne : l ++ 10 :: r ≠ [] := by simp
  have hw : (l ++ 10 :: r).take bufSize = l ++ 10 :: r.take (bufSize - l.length - 1) := by
    rw [List.take_append, List.take_of_length_le (by omega)]
    congr 1
    obtain ⟨k, hk⟩ : ∃ k, bufSize - l.length = k + 1 := ⟨bufSize - l.length - 1, by omega⟩
    rw [hk]; simp
  have hi : (l ++ 10 :: r.take (bufSize - l.length - 1)).idxOf? 10 = some l.length := by
    generalize r.take _ = q
    clear hw hlen hne
    induction l with
    | nil => simp [List.idxOf?_cons]
    | cons b l ih =>
      have hb : b ≠ 10 := by intro hb; apply hl; simp [hb]
      simp [List.idxOf?_cons, hb, ih (fun hm => hl (by simp [hm]))]
  unfold readLine
  split
  · rename_i h; exact absurd h hne
  · simp only [hw, hi]
    congr 2
    · rw [← dropEOL_lf]
      congr 1
      rw [List.take_append]; simp
      exact List.take_of_length_le (by omega)
    · rw [List.drop_append]; simp

theorem lexLoop_readLines (fuel : Nat) (s : GoString) (hf : s.length < fuel) (h : EqEarly s) (sym : GoString)
    (tbl : SymbolTable) :
    lexLoop (readLinesFuel fuel s) sym tbl = lexLoop (fileLines s) sym tbl := by
  induction fuel generalizing s sym tbl with
  | zero => omega
  | succ fuel ih =>
    by_cases hs : s = []
    · subst hs; simp [readLinesFuel, readLine, fileLines, fileLinesFrom]
    by_cases hw : (10 : UInt8) ∈ s.take bufSize
    · -- a complete line is in the window
      obtain ⟨l, q, h1, hl⟩ := List.eq_append_cons_of_mem hw
      have hlen : l.length < bufSize := by
        have := congrArg List.length h1
        simp only [List.length_take, List.length_append, List.length_cons] at this
        omega
      obtain ⟨r, rfl⟩ : ∃ r, s = l ++ 10 :: r := by
        refine ⟨q ++ s.drop bufSize, ?_⟩
        conv_lhs => rw [← List.take_append_drop bufSize s, h1]
        simp
      have hfl := fileLines_cons l r hl
      have hE : EqEarly r := by
        intro x hx; apply h; rw [hfl]; simp [hx]
      rw [readLinesFuel, readLine_lf l r hl hlen, hfl]
      simp only
      have ih' := fun sym tbl => ih r (by simp at hf; omega) hE sym tbl
      simp only [lexLoop, ih']
    · -- no LF in the window
      have hidx : (s.take bufSize).idxOf? 10 = none := by
        rw [List.idxOf?_eq_none_iff]; exact hw
      have step : ∀ n, bufSize - 1 ≤ n → n ≤ bufSize → (s.take bufSize).length = bufSize →
          ((s.take n).getLast? ≠ some 13 ∨ (s.drop n).head? ≠ some 10) →
          lexLoop (s.take n :: readLinesFuel fuel (s.drop n)) sym tbl = lexLoop (fileLines s) sym tbl := by
        intro n hn1 hn2 hfull hcr
        have hb : bufSize = 4096 := rfl
        have hslen : bufSize ≤ s.length := by
          rw [List.length_take] at hfull; omega
        have hc : (10 : UInt8) ∉ s.take n := fun hm => hw ((List.take_prefix_take_left hn2).subset hm)
        have hcl : (s.take n).length = n := by rw [List.length_take]; omega
        by_cases hr : s.drop n = []
        · have hsn : s.take n = s := by
            have := List.take_append_drop n s; rw [hr, List.append_nil] at this; exact this
          rw [hr, hsn, fileLines_last s hs (hsn ▸ hc)]
          have : readLinesFuel fuel [] = [] := by cases fuel <;> simp [readLinesFuel, readLine]
          rw [this]
        · obtain ⟨hd, tl, e1, e2⟩ := fileLines_prefix (s.take n) (s.drop n) hc hr hcr
          rw [List.take_append_drop] at e2
          have hhd : (61 : UInt8) ∉ hd := by
            have := h (s.take n ++ hd) (by rw [e2]; simp)
            rw [List.drop_append, List.mem_append] at this
            intro hm
            apply this; right
            rw [show bufSize - 1 - (s.take n).length = 0 by omega]; exact hm
          have hE : EqEarly (s.drop n) := by
            intro x hx
            rw [e1] at hx
            rcases List.mem_cons.mp hx with rfl | hx
            · exact fun hm => hhd (List.mem_of_mem_drop hm)
            · apply h; rw [e2]; simp [hx]
          have ih' := fun sym tbl => ih (s.drop n) (by rw [List.length_drop]; omega) hE sym tbl
          have : lexLoop (s.take n :: readLinesFuel fuel (s.drop n)) sym tbl =
              lexLoop (s.take n :: fileLines (s.drop n)) sym tbl := by
            simp only [lexLoop, ih']
          rw [this, e1, e2, lexLoop_merge _ _ _ hhd]
      rw [readLinesFuel]
      have hrl : readLine s = (if (s.take bufSize).length = bufSize then
          if (s.take bufSize).getLast? = some 13 then some ((s.take bufSize).dropLast, s.drop (bufSize - 1))
          else some (s.take bufSize, s.drop bufSize)
        else some (s.take bufSize, [])) := by
        unfold readLine
        split
        · exact (hs rfl).elim
        · simp only [hidx]
      rw [hrl]
      ·
        by_cases hfull : (s.take bufSize).length = bufSize
        · rw [if_pos hfull]
          have hslen : bufSize ≤ s.length := by
            rw [List.length_take] at hfull; omega
          by_cases hcr : (s.take bufSize).getLast? = some 13
          · rw [if_pos hcr]
            simp only
            have hdl : (s.take bufSize).dropLast = s.take (bufSize - 1) := by
              rw [List.dropLast_eq_take, List.take_take, hfull]; congr 1
            rw [hdl]
            refine step (bufSize - 1) (Nat.le_refl _) (by omega) hfull (Or.inr ?_)
            have : (s.drop (bufSize - 1)).head? = some 13 := by
              rw [List.head?_drop]
              rw [List.getLast?_eq_getElem?, hfull, List.getElem?_take] at hcr
              have hb : bufSize = 4096 := rfl
              rw [if_pos (by omega)] at hcr
              exact hcr
            rw [this]; decide
          · rw [if_neg hcr]
            simp only
            exact step bufSize (by omega) (Nat.le_refl _) hfull (Or.inl hcr)
        · rw [if_neg hfull]
          have hst : s.take bufSize = s := by
            rw [List.take_of_length_le]
            rw [List.length_take] at hfull; omega
          rw [hst] at hw
          simp only [hst]
          rw [fileLines_last s hs hw]
          have : readLinesFuel fuel [] = [] := by cases fuel <;> simp [readLinesFuel, readLine]
          rw [this]

/-- C61, what does hold: if in every line no `=` lies beyond the first 4095 bytes, `Lex` sees the logical lines,
however long they are. -/
theorem C61_partial (s : GoString) (h : EqEarly s) : Lex s = lexLines (fileLines s) := by
  unfold Lex lexLines readLines
  rw [lexLoop_readLines _ s (by omega) h]

/-- the file content of a list of lines, each with its line end (LF or CRLF) -/
def fileOf (ls : List (GoString × Bool)) : GoString :=
  ls.flatMap fun p => p.1 ++ (if p.2 then [13, 10] else [10])

theorem fileLines_fileOf (ls : List (GoString × Bool))
    (h : ∀ p ∈ ls, (10 : UInt8) ∉ p.1 ∧ p.1.getLast? ≠ some 13) (tail : GoString) :
    fileLines (fileOf ls ++ tail) = ls.map Prod.fst ++ fileLines tail := by
  induction ls with
  | nil => simp [fileOf]
  | cons p ls ih =>
    obtain ⟨l, cr⟩ := p
    obtain ⟨h1, h2⟩ := h (l, cr) (by simp)
    have ih' := ih fun q hq => h q (by simp [hq])
    simp only at h1 h2
    cases cr with
    | false =>
      have : fileOf ((l, false) :: ls) ++ tail = l ++ 10 :: (fileOf ls ++ tail) := by simp [fileOf]
      rw [this, fileLines_cons l _ h1, ih']
      simp [dropCR, h2]
    | true =>
      have : fileOf ((l, true) :: ls) ++ tail = (l ++ [13]) ++ 10 :: (fileOf ls ++ tail) := by simp [fileOf]
      rw [this, fileLines_cons (l ++ [13]) _ (by simp [h1]), ih']
      simp [dropCR]

/-- C59 on the content of the file: definitions written on lines with LF or CRLF ends, blank lines allowed
anywhere, the last line with or without line end, no `=` beyond column 4095 (see C61) -/
theorem C59_Lex (ls : List (GoString × Bool)) (tail : GoString)
    (hl : ∀ p ∈ ls, (10 : UInt8) ∉ p.1 ∧ p.1.getLast? ≠ some 13) (ht : (10 : UInt8) ∉ tail)
    (blank : List GoString) (hb : ∀ l ∈ blank, l = []) (es : List Entity) (hne : es ≠ [])
    (hlines : ls.map Prod.fst ++ (if tail = [] then [] else [tail]) = blank ++ es.flatMap Entity.lines)
    (hwf : ∀ e ∈ es, e.WF) (hearly : ∀ e ∈ es, (61 : UInt8) ∉ (e.id ++ 61 :: e.first).drop 4095)
    (dfn : Entity → Definition) (htok : ∀ e ∈ es, tokenize e.rhs = .ok (dfn e)) :
    ∃ tbl, Lex (fileOf ls ++ tail) = .ok tbl ∧ (tbl.map Prod.fst).Nodup ∧
      ∀ id, GoMap.get? tbl id = lastDef es dfn id := by
  have hfl : fileLines (fileOf ls ++ tail) = blank ++ es.flatMap Entity.lines := by
    rw [fileLines_fileOf ls hl, ← hlines]
    congr 1
    split
    · rename_i h0; subst h0; simp [fileLines, fileLinesFrom]
    · rename_i h0; exact fileLines_last tail h0 ht
  have hE : EqEarly (fileOf ls ++ tail) := by
    intro l hm
    rw [hfl, List.mem_append] at hm
    rcases hm with hm | hm
    · rw [hb l hm]; simp
    · obtain ⟨e, he, hm⟩ := List.mem_flatMap.mp hm
      rcases List.mem_cons.mp hm with rfl | hm
      · exact hearly e he
      · exact fun h => (hwf e he).2 l hm (List.mem_of_mem_drop h)
  rw [C61_partial _ hE, hfl]
  exact C59_lexLines blank hb es hne hwf dfn htok

/-- two definitions, the first on two lines, with a blank line and a redefinition -/
example : ∃ tbl, Lex (ascii "\n#1=A('x',\n#2);\r\n\n#2= B (1);\n#1=C(3);".toList) = .ok tbl ∧
    GoMap.get? tbl (ascii "#1".toList) = some ⟨ascii "C".toList, [ascii "3".toList]⟩ ∧
    GoMap.get? tbl (ascii "#2".toList) = some ⟨ascii "B".toList, [ascii "1".toList]⟩ :=
  ⟨[(ascii "#1".toList, ⟨ascii "C".toList, [ascii "3".toList]⟩),
    (ascii "#2".toList, ⟨ascii "B".toList, [ascii "1".toList]⟩)], by decide +kernel⟩

/-- C61 is false: if the first 4096 bytes of a line hold an `=` and a later part of the line begins with another
`=`, the line is cut into two definitions; with no bracket in the second part this panics. -/
theorem C61_refuted (c w : GoString) (hc : c.length = 4096) (hceq : (61 : UInt8) ∈ c) (hc10 : (10 : UInt8) ∉ c)
    (hc13 : c.getLast? ≠ some 13) (hw : w.length < 4095) (hw10 : (10 : UInt8) ∉ w) (hw40 : (40 : UInt8) ∉ w) :
    fileLines (c ++ 61 :: w) = [c ++ 61 :: w] ∧ readLines (c ++ 61 :: w) = [c, 61 :: w] ∧
    Lex (c ++ 61 :: w) = .panic := by
  have hb : bufSize = 4096 := rfl
  have h1 : (c ++ 61 :: w).take bufSize = c := by
    rw [List.take_append, hc, hb, List.take_of_length_le (by omega)]; simp
  have r1 : readLine (c ++ 61 :: w) = some (c, 61 :: w) := by
    unfold readLine
    split
    · rename_i h; simp at h
    · simp only [h1]
      rw [(List.idxOf?_eq_none_iff).mpr hc10]
      simp only
      rw [if_pos (by rw [hc, hb]), if_neg hc13]
      rw [List.drop_append, hc, hb, List.drop_of_length_le (by omega)]; simp
  have h2 : (61 :: w).take bufSize = 61 :: w := List.take_of_length_le (by simp; omega)
  have h10 : (10 : UInt8) ∉ (61 :: w) := by simp [hw10]
  have r2 : readLine (61 :: w) = some (61 :: w, []) := by
    unfold readLine
    split
    · rename_i h; simp at h
    · simp only [h2]
      rw [(List.idxOf?_eq_none_iff).mpr h10]
      simp only
      rw [if_neg (by simp; omega)]
  have hrl : readLines (c ++ 61 :: w) = [c, 61 :: w] := by
    unfold readLines
    have : ∀ n, readLinesFuel (n + 2) (c ++ 61 :: w) = [c, 61 :: w] := by
      intro n
      rw [readLinesFuel, r1]
      simp only
      rw [readLinesFuel, r2]
      simp only
      cases n <;> simp [readLinesFuel, readLine]
    rw [show (c ++ 61 :: w).length + 1 = (c.length + w.length) + 2 by simp; omega]
    exact this _
  refine ⟨fileLines_last _ (by simp) (by simp [hc10, hw10]), hrl, ?_⟩
  unfold Lex
  rw [hrl]
  obtain ⟨x, y, rfl, hx⟩ := List.eq_append_cons_of_mem hceq
  have ht : tokenize w = .panic := (C58_tokenize w [] hw40).2.2
  have := C59_lexLines_panic [] (by simp) [⟨x, y, []⟩, ⟨[], w, []⟩] (by
      intro e he
      simp only [List.mem_cons, List.not_mem_nil, or_false] at he
      rcases he with rfl | rfl
      · exact ⟨hx, by simp⟩
      · exact ⟨by simp, by simp⟩)
    ⟨⟨[], w, []⟩, by simp, by simpa [Entity.rhs] using ht⟩
  simpa [Entity.lines] using this

/-- the hypotheses of `C61_refuted` are met by a single definition with a long quoted string -/
example : ∃ c w : GoString, c.length = 4096 ∧ (61 : UInt8) ∈ c ∧ (10 : UInt8) ∉ c ∧ c.getLast? ≠ some 13 ∧
    w.length < 4095 ∧ (10 : UInt8) ∉ w ∧ (40 : UInt8) ∉ w ∧
    c ++ 61 :: w = ascii "#1=A('".toList ++ List.replicate 4090 120 ++ ascii "=');".toList := by
  obtain ⟨n, hn⟩ : ∃ n : Nat, n = 4090 := ⟨_, rfl⟩
  rw [← hn]
  refine ⟨ascii "#1=A('".toList ++ List.replicate n 120, ascii "');".toList, ?_, ?_, ?_, ?_, ?_, ?_, ?_, ?_⟩
  · rw [List.length_append, List.length_replicate, hn]; rfl
  · rw [List.mem_append]; left; decide
  · rw [List.mem_append, List.mem_replicate]; rintro (h | h)
    · revert h; decide
    · exact absurd h.2 (by decide)
  · have h0 : n ≠ 0 := by omega
    rw [List.getLast?_append_of_ne_nil _ (by simp [h0]), List.getLast?_replicate]; simp [h0]
  · decide
  · decide
  · decide
  · rw [List.append_assoc]; rfl

/-- C60 is false: whenever the first non-blank line of the file holds no `=` (every file with a header section, such
as `ISO-10303-21;`), or there is no non-blank line at all, `Lex` panics. -/
theorem C60_refuted (s : GoString) (blank rest : List GoString) (hb : ∀ l ∈ blank, l = [])
    (h : readLines s = blank ∨ ∃ l, l ≠ [] ∧ (61 : UInt8) ∉ l ∧ readLines s = blank ++ l :: rest) :
    Lex s = .panic := by
  have hfl : blank.flatten = [] := by rw [List.flatten_eq_nil_iff]; exact hb
  have hbl : ∀ l ∈ blank, (61 : UInt8) ∉ l := fun l hl => by rw [hb l hl]; simp
  unfold Lex lexLines
  rcases h with h | ⟨l, hl, hleq, h⟩
  · rw [h]
    have := lexLoop_more blank [] hbl [] []
    rw [List.append_nil, hfl] at this
    rw [this]
    simp [lexLoop, add, splitN2]
  · rw [h, lexLoop_more blank _ hbl, hfl]
    have hm := lexLoop_more [l] rest (by simpa using hleq) [] []
    simp only [List.singleton_append, List.flatten_cons, List.flatten_nil, List.append_nil, List.nil_append] at hm ⊢
    rw [hm]
    -- from here on the pending text holds no `=` and is not empty
    have key : ∀ (rest : List GoString) (sym : GoString) (tbl : SymbolTable), sym ≠ [] → (61 : UInt8) ∉ sym →
        (do let (s, t) ← lexLoop rest sym tbl
            add t s) = .panic := by
      intro rest
      induction rest with
      | nil => intro sym tbl _ h; simp [lexLoop, add_panic _ _ h]
      | cons b rest ih =>
        intro sym tbl h0 h
        by_cases hbq : (61 : UInt8) ∈ b
        · have h1 := (containsEq_iff b).mpr hbq
          have l1 : b.length ≠ 0 := by intro h0; rw [List.length_eq_zero_iff.mp h0] at hbq; simp at hbq
          simp only [lexLoop, if_neg l1, if_pos h1]
          rw [if_pos (by have := List.length_pos_iff.mpr h0; omega), add_panic _ _ h]
          rfl
        · have := lexLoop_more [b] rest (by simpa using hbq) sym tbl
          simp only [List.singleton_append, List.flatten_cons, List.flatten_nil, List.append_nil] at this
          rw [this]
          exact ih _ _ (by simp [h0]) (by simp [h, hbq])
    exact key rest l [] hl hleq

/-- the empty file and a minimal ISO-10303-21 file -/
example : Lex [] = .panic ∧
    Lex (ascii "ISO-10303-21;\nDATA;\n#1=A(1);\nENDSEC;\nEND-ISO-10303-21;\n".toList) = .panic := by
  refine ⟨C60_refuted [] [] [] (by simp) (Or.inl (by decide)), ?_⟩
  exact C60_refuted _ [] [ascii "DATA;".toList, ascii "#1=A(1);".toList, ascii "ENDSEC;".toList,
    ascii "END-ISO-10303-21;".toList] (by simp) (Or.inr ⟨ascii "ISO-10303-21;".toList, by decide, by decide, by decide +kernel⟩)

/-- C60: the lines after the last definition (`ENDSEC;` ...) become part of its last argument -/
theorem C60_trailer_refuted (as : List (List Nat)) (last t : List Nat) (h : ∀ a ∈ as ++ [last], Arg a)
    (hv : ∀ a ∈ as ++ [last], Valid a) (hascii : ∀ r ∈ last, r < 128)
    (ht : ∀ r ∈ t, r ≠ '('.toNat ∧ r ≠ ')'.toNat ∧ r < 128) :
    getArguments (encode (joinComma (as ++ [last]) ++ [')'.toNat, ';'.toNat] ++ t)) =
      .ok (as.map encode ++ [encode ((last ++ [')'.toNat, ';'.toNat] ++ t).take (last.length + t.length))]) := by
  have hval : ∀ r ∈ joinComma (as ++ [last]) ++ [')'.toNat, ';'.toNat] ++ t, validRune r = true := by
    intro r hr
    rcases List.mem_append.mp hr with hr | hr
    · rcases List.mem_append.mp hr with hr | hr
      · exact valid_join _ hv r hr
      · simp at hr; rcases hr with rfl | rfl <;> decide
    · have := (ht r hr).2.2; rw [validRune_iff]; omega
  have ht' : ∀ (t : List Nat) (done : List GoString) (cur : List Nat),
      (∀ r ∈ t, r ≠ '('.toNat ∧ r ≠ ')'.toNat ∧ r < 128) →
      t.foldl splitStep ⟨done, -1, cur⟩ = ⟨done, -1, cur ++ t⟩ := by
    intro t
    induction t with
    | nil => intro done cur _; simp
    | cons r t ih =>
      intro done cur ht
      have h1 : r ≠ lp := (ht r (by simp)).1
      have h2 : r ≠ rp := (ht r (by simp)).2.1
      have e : splitStep ⟨done, -1, cur⟩ r = ⟨done, -1, cur ++ [r]⟩ := by
        simp [splitStep, h1, h2]
      rw [List.foldl_cons, e, ih _ _ fun q hq => ht q (by simp [hq])]; simp
  have hs : splitLoop (joinComma (as ++ [last]) ++ [')'.toNat, ';'.toNat] ++ t) =
      ⟨as.map encode, -1, last ++ [')'.toNat, ';'.toNat] ++ t⟩ := by
    rw [splitLoop, List.foldl_append, List.foldl_append, split_join as last h]
    have e : List.foldl splitStep ⟨[] ++ as.map encode, 0, last⟩ [')'.toNat, ';'.toNat] =
        ⟨as.map encode, -1, last ++ [')'.toNat, ';'.toNat]⟩ := by simp [splitStep, lp, rp, comma]
    rw [e, ht' t _ _ ht]
  have hasc : ∀ r ∈ last ++ [')'.toNat, ';'.toNat] ++ t, r < 128 := by
    intro r hr
    simp only [List.mem_append, List.mem_cons, List.not_mem_nil, or_false] at hr
    rcases hr with (hr | rfl | rfl) | hr
    · exact hascii r hr
    · decide
    · decide
    · exact (ht r hr).2.2
  unfold getArguments
  rw [runes_encode _ hval]
  simp only [hs]
  rw [if_neg (by simp; omega)]
  congr 3
  rw [show (last ++ [')'.toNat, ';'.toNat] ++ t).length - 2 = last.length + t.length by simp; omega]
  -- for ASCII text, cutting bytes is cutting characters
  have cut : ∀ (l : List Nat) (n : Nat), (∀ r ∈ l, r < 128) → (encode l).take n = encode (l.take n) := by
    intro l
    induction l with
    | nil => intro n _; simp [encode]
    | cons r l ih =>
      intro n hl
      cases n with
      | zero => simp [encode]
      | succ n =>
        rw [encode_cons, encodeRune_ascii r (hl r (by simp)), List.take_succ_cons, encode_cons,
          encodeRune_ascii r (hl r (by simp))]
        simp only [List.cons_append, List.nil_append, List.take_succ_cons]
        rw [ih n fun q hq => hl q (by simp [hq])]
  exact cut _ _ hasc

example : Lex (ascii "#1=A(1);\nENDSEC;\n".toList) =
    .ok [(ascii "#1".toList, ⟨ascii "A".toList, [ascii "1);ENDSE".toList]⟩)] := by decide +kernel

end Verif.Props
