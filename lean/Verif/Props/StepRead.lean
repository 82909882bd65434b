import Verif.Model.Bufio
import Verif.Props.StepLex
import Mathlib.Tactic.Common
/-!
# Properties of the way `Lex` reads its file (C89, C90)
-/
namespace Verif.Props
open Verif Verif.Step

/-- all the bytes that the reader has not returned yet -/
def pending (b : Reader) : GoString := b.buf ++ b.file.rest

theorem idxOf_take_append {s t : GoString} {i n : Nat} (h : s.idxOf? 10 = some i) (hn : s.length ≤ n) :
    ((s ++ t).take n).idxOf? 10 = some i := by
  rw [List.take_append, List.take_of_length_le hn]
  unfold List.idxOf? at h ⊢
  rw [List.findIdx?_append, h]; rfl

theorem idxOf_lt {s : GoString} {i : Nat} (h : s.idxOf? 10 = some i) : i < s.length := by
  unfold List.idxOf? at h
  exact (List.findIdx?_eq_some_iff_findIdx_eq.1 h).1

theorem idxOf_get {s : GoString} {i : Nat} (h : s.idxOf? 10 = some i) (hi : i < s.length) : s[i] = 10 := by
  unfold List.idxOf? at h
  have := (List.findIdx?_eq_some_iff_getElem.1 h).2.1
  simpa using this

/-- what is known inside the loop of `ReadSlice` -/
structure Mid (b : Reader) (l : IOErr) : Prop where
  len : b.buf.length ≤ bufSize
  last : b.file.last = l
  err : b.err = none ∨ (b.err = some l ∧ b.file.rest = [] ∧ b.buf.length < bufSize ∧ b.buf.idxOf? 10 = none)

theorem fill_pending (b : Reader) : pending b.fill = pending b := by
  unfold pending Reader.fill File.read
  by_cases h : b.file.rest = []
  · simp [h]
  · simp [h, List.append_assoc]

theorem fill_mid {b : Reader} {l : IOErr} (h : Mid b l) (hlt : b.buf.length < bufSize) (hi : b.buf.idxOf? 10 = none) :
    Mid b.fill l ∧ bufSize + (if b.fill.err = none then 1 else 0) + b.buf.length ≤ bufSize + b.fill.buf.length := by
  unfold Reader.fill File.read
  by_cases hr : b.file.rest = []
  · simp only [hr, if_true]
    refine ⟨⟨?_, h.last, Or.inr ⟨by rw [h.last], rfl, by simpa using hlt, by simpa using hi⟩⟩, ?_⟩
    · simpa using h.len
    · simp
  · simp only [hr, if_false]
    have hl : 0 < b.file.rest.length := List.length_pos_iff.2 hr
    refine ⟨⟨?_, h.last, Or.inl rfl⟩, ?_⟩
    · simp only [List.length_append, List.length_take]; omega
    · simp only [List.length_append, List.length_take, if_true]; omega

/-- the outcome of `ReadSlice` in terms of the pending bytes -/
def SliceSpec (l : IOErr) (s : GoString) (line : GoString) (e : Option IOErr) (b' : Reader) : Prop :=
  match (s.take bufSize).idxOf? 10 with
  | some i => line = s.take (i+1) ∧ e = none ∧ pending b' = s.drop (i+1)
  | none => if (s.take bufSize).length = bufSize then
        line = s.take bufSize ∧ e = some .bufferFull ∧ b'.buf = [] ∧ pending b' = s.drop bufSize
      else line = s ∧ e = some l ∧ pending b' = []

theorem readSlice_spec (l : IOErr) : ∀ (fuel : Nat) (b : Reader), Mid b l →
    bufSize + (if b.err = none then 1 else 0) < b.buf.length + fuel →
    ∃ line e b', b.readSlice fuel = .ok (line, e, b') ∧ b'.err = none ∧ b'.file.last = l ∧ b'.buf.length ≤ bufSize ∧
      SliceSpec l (pending b) line e b' := by
  intro fuel
  induction fuel with
  | zero =>
    intro b h hf
    have := h.len
    split at hf <;> omega
  | succ fuel ih =>
    intro b h hf
    unfold Reader.readSlice
    cases hi : b.buf.idxOf? 10 with
    | some i =>
      have hlt := idxOf_lt hi
      rcases h.err with he | ⟨he, hr, hl, hn⟩
      · refine ⟨_, _, _, rfl, he, h.last, ?_, ?_⟩
        · have := h.len
          simp only [List.length_drop]; omega
        · unfold SliceSpec
          rw [show (pending b).take bufSize = (b.buf ++ b.file.rest).take bufSize from rfl,
            idxOf_take_append hi h.len]
          refine ⟨?_, rfl, ?_⟩
          · unfold pending
            rw [List.take_append_of_le_length (by omega)]
          · unfold pending
            rw [List.drop_append_of_le_length (by omega)]
      · rw [hi] at hn; cases hn
    | none =>
      cases he : b.err with
      | some e =>
        rcases h.err with he' | ⟨he', hr, hl, -⟩
        · rw [he] at he'; cases he'
        · rw [he] at he'; cases he'
          refine ⟨_, _, _, rfl, rfl, h.last, Nat.zero_le _, ?_⟩
          have hp : pending b = b.buf := by unfold pending; rw [hr, List.append_nil]
          unfold SliceSpec
          rw [hp, List.take_of_length_le h.len, hi]
          rw [if_neg (by omega)]
          refine ⟨rfl, rfl, ?_⟩
          unfold pending; simp [hr]
      | none =>
        by_cases hb : bufSize ≤ b.buf.length
        · simp only [hb, if_true]
          refine ⟨_, _, _, rfl, rfl, h.last, Nat.zero_le _, ?_⟩
          have hlen : b.buf.length = bufSize := Nat.le_antisymm h.len hb
          have hp : (pending b).take bufSize = b.buf := by
            unfold pending
            rw [List.take_append_of_le_length hb, List.take_of_length_le h.len]
          unfold SliceSpec
          rw [hp, hi]
          rw [if_pos hlen]
          refine ⟨rfl, rfl, rfl, ?_⟩
          unfold pending
          rw [List.drop_append_of_le_length hb, List.drop_eq_nil_of_le h.len]
        · simp only [hb, if_false]
          have hlt : b.buf.length < bufSize := by omega
          obtain ⟨hm, hg⟩ := fill_mid h hlt hi
          rw [he, if_pos rfl] at hf
          obtain ⟨line, e, b', h1, h2, h3, h4, h5⟩ := ih b.fill hm (by omega)
          rw [fill_pending] at h5
          exact ⟨line, e, b', h1, h2, h3, h4, h5⟩

/-- a reader between two calls of `ReadLine` -/
structure Idle (b : Reader) (l : IOErr) : Prop where
  err : b.err = none
  last : b.file.last = l
  len : b.buf.length ≤ bufSize

/-- `ReadLine` of the buffered reader returns the line that `readLine` cuts off the pending bytes, however the file is
delivered -/
theorem readLine_reader {b : Reader} {l : IOErr} (hl : l ≠ .bufferFull) (h : Idle b l) :
    ∃ b', Idle b' l ∧
      match Step.readLine (pending b) with
      | none => b.readLine = .ok ([], some l, b') ∧ pending b' = []
      | some (line, rest) => b.readLine = .ok (line, none, b') ∧ pending b' = rest := by
  obtain ⟨line, e, b', h1, h2, h3, h4, h5⟩ := readSlice_spec l (bufSize + 2) b ⟨h.len, h.last, Or.inl h.err⟩
    (by rw [if_pos h.err]; omega)
  unfold Reader.readLine
  rw [h1, Res.bind_ok]
  generalize pending b = s at *
  unfold SliceSpec at h5
  cases s with
  | nil =>
    simp [List.idxOf?, bufSize] at h5
    obtain ⟨rfl, rfl, h6⟩ := h5
    refine ⟨b', ⟨h2, h3, h4⟩, ?_⟩
    simp only [Step.readLine]
    simp [hl, h6]
  | cons x s =>
    cases hi : ((x :: s).take bufSize).idxOf? 10 with
    | some i =>
      rw [hi] at h5
      obtain ⟨rfl, rfl, h6⟩ := h5
      refine ⟨b', ⟨h2, h3, h4⟩, ?_⟩
      have hil := idxOf_lt hi
      have hib : i < bufSize := by
        rw [List.length_take] at hil; omega
      have hlast : ((x :: s).take (i+1)).getLast? = some 10 := by
        have hg : (x :: s)[i]? = some 10 := by
          rw [← List.getElem?_take_of_lt hib, List.getElem?_eq_getElem hil]
          rw [idxOf_get hi hil]
        rw [List.getLast?_take, if_neg (by omega), Nat.add_sub_cancel, hg]; rfl
      simp only [Step.readLine, hi]
      rw [List.take_take, Nat.min_eq_left (by omega)]
      refine ⟨?_, h6⟩
      rw [if_neg (by simp), if_neg (by simp), if_pos hlast]; rfl
    | none =>
      rw [hi] at h5
      simp only at h5
      by_cases hf : ((x :: s).take bufSize).length = bufSize
      · rw [if_pos hf] at h5
        obtain ⟨rfl, rfl, h6, h7⟩ := h5
        simp only [Step.readLine, hi, hf, if_true]
        by_cases hr : ((x :: s).take bufSize).getLast? = some 13
        · simp only [hr, if_true]
          refine ⟨{ b' with buf := 13 :: b'.buf }, ⟨h2, h3, by simp [h6, bufSize]⟩, rfl, ?_⟩
          unfold pending at h7 ⊢
          rw [h6] at h7 ⊢
          simp only [List.nil_append, List.cons_append] at h7 ⊢
          rw [h7]
          have hlen : bufSize ≤ (x :: s).length := by
            rw [List.length_take] at hf; omega
          have hlt : bufSize - 1 < (x :: s).length := by simp only [bufSize] at hlen ⊢; omega
          have hg : (x :: s)[bufSize - 1]? = some 13 := by
            rw [List.getLast?_take, if_neg (by simp [bufSize]), List.getElem?_eq_getElem hlt] at hr
            rw [List.getElem?_eq_getElem hlt]
            simpa using hr
          rw [List.getElem?_eq_getElem hlt] at hg
          rw [List.drop_eq_getElem_cons hlt, Option.some.inj hg]; rfl
        · simp only [hr, if_false]
          exact ⟨b', ⟨h2, h3, h4⟩, rfl, h7⟩
      · rw [if_neg hf] at h5
        obtain ⟨rfl, rfl, h6⟩ := h5
        refine ⟨b', ⟨h2, h3, h4⟩, ?_⟩
        have hw : (x :: s).take bufSize = x :: s := List.take_of_length_le (by rw [List.length_take] at hf; omega)
        have hlast : (x :: s).getLast? ≠ some 10 := by
          intro hg
          have hm : (10 : UInt8) ∈ x :: s := List.mem_of_getLast? hg
          simp [hw, List.idxOf?] at hi hm
          rcases hm with hm | hm
          · exact hi.1 hm.symm
          · exact hi.2 _ hm rfl
        rw [hw] at hi hf
        simp only [Step.readLine, hw, hi, hf, if_false]
        refine ⟨?_, h6⟩
        rw [if_neg (by simpa using hl), if_neg (by simp), if_neg hlast]; rfl

theorem readLine_shorter {s line rest : GoString} (h : Step.readLine s = some (line, rest)) : rest.length < s.length := by
  cases s with
  | nil => simp [Step.readLine] at h
  | cons x s =>
    simp only [Step.readLine] at h
    split at h
    · cases h; simp only [List.length_drop, List.length_cons]; omega
    · split at h
      · split at h <;> cases h <;> simp only [List.length_drop, List.length_cons, bufSize] <;> omega
      · cases h; simp

theorem lexReader_eof : ∀ (fuel : Nat) (b : Reader) (sym : GoString) (tab : SymbolTable), Idle b .eof →
    (pending b).length < fuel →
    lexReader fuel b sym tab = (lexLoop (readLinesFuel fuel (pending b)) sym tab >>= fun p => add p.2 p.1) := by
  intro fuel
  induction fuel with
  | zero => intro b sym tab _ h; omega
  | succ fuel ih =>
    intro b sym tab hb hf
    obtain ⟨b', hb', h⟩ := readLine_reader (by decide) hb
    unfold lexReader readLinesFuel
    cases hr : Step.readLine (pending b) with
    | none =>
      rw [hr] at h
      rw [h.1, Res.bind_ok]
      simp [lexLoop]
    | some p =>
      obtain ⟨line, rest⟩ := p
      rw [hr] at h
      rw [h.1, Res.bind_ok]
      simp only
      have hlt : (pending b').length < fuel := by
        have := readLine_shorter hr
        rw [h.2]; omega
      rw [if_neg (by simp), ← h.2]
      unfold lexLoop
      by_cases h0 : line.length = 0
      · rw [if_pos h0, if_pos h0, ih b' sym tab hb' hlt]
      · rw [if_neg h0, if_neg h0]
        by_cases hc : containsEq line = true
        · rw [if_pos hc, if_pos hc]
          by_cases hs : sym.length > 0
          · simp only [hs, if_true]
            cases add tab sym with
            | ok t => simp only [Res.bind_ok]; rw [ih b' line t hb' hlt]
            | panic => simp only [Res.bind_panic]
            | fuel => simp only [Res.bind_fuel]
          · simp only [hs, if_false, Res.pure_eq, Res.bind_ok]
            rw [ih b' line tab hb' hlt]
        · rw [if_neg hc, if_neg hc, ih b' (sym ++ line) tab hb' hlt]

theorem readLinesFuel_enough : ∀ (n m : Nat) (s : GoString), s.length < n → s.length < m →
    readLinesFuel n s = readLinesFuel m s := by
  intro n
  induction n with
  | zero => intro m s h; omega
  | succ n ih =>
    intro m s hn hm
    cases m with
    | zero => omega
    | succ m =>
      unfold readLinesFuel
      cases hr : Step.readLine s with
      | none => rfl
      | some p =>
        obtain ⟨line, rest⟩ := p
        have := readLine_shorter hr
        simp only
        rw [ih m rest (by omega) (by omega)]

/-- C89: what `Lex` returns depends on the bytes of the file alone, not on the sizes of the pieces in which the operating
system delivers them: it is the function `Lex` of the content. -/
theorem C89_content (f : File) (hf : f.last = .eof) (fuel : Nat) (hfuel : f.rest.length < fuel) :
    LexFile fuel (some f) = Lex f.rest := by
  unfold LexFile
  simp only
  rw [lexReader_eof fuel ⟨[], none, f⟩ [] [] ⟨rfl, hf, Nat.zero_le _⟩ hfuel]
  unfold Lex lexLines readLines
  show _ = (lexLoop (readLinesFuel (f.rest.length + 1) f.rest) [] [] >>= fun p => add p.2 p.1)
  rw [readLinesFuel_enough (f.rest.length + 1) fuel f.rest (by omega) hfuel]
  rfl

/-- C89: two deliveries of the same content give the same table -/
theorem C89_chunks (f g : File) (hf : f.last = .eof) (hg : g.last = .eof) (h : f.rest = g.rest) (n m : Nat)
    (hn : f.rest.length < n) (hm : f.rest.length < m) : LexFile n (some f) = LexFile m (some g) := by
  rw [C89_content f hf n hn, C89_content g hg m (by rw [← h]; exact hm), h]

/-- one byte at a time, and all at once -/
example (s : GoString) : LexFile (s.length + 1) (some ⟨s, .eof, fun _ => 1, 0⟩) =
    LexFile (s.length + 9) (some ⟨s, .eof, fun _ => 5000, 3⟩) :=
  C89_chunks ⟨s, .eof, fun _ => 1, 0⟩ ⟨s, .eof, fun _ => 5000, 3⟩ rfl rfl rfl _ _ (Nat.lt_succ_self _)
    (Nat.lt_add_of_pos_right (by decide))

/-- three bytes at a time -/
example : LexFile 20 (some ⟨ascii ['1', '=', 'A', '(', 'x', ',', '\n', 'y', ')', ';', '\r', '\n'], .eof, fun _ => 3, 0⟩) =
    .ok [(ascii ['1'], ⟨ascii ['A'], [ascii ['x'], ascii ['y']]⟩)] := by
  decide +kernel

theorem ofOption_noFuel {α : Type} (x : Option α) : Res.ofOption x ≠ .fuel := by
  cases x <;> intro h <;> cases h

theorem getArguments_noFuel (s : GoString) : getArguments s ≠ .fuel := by
  unfold getArguments
  simp only
  split <;> intro h <;> cases h

theorem tokenize_noFuel (s : GoString) : tokenize s ≠ .fuel := by
  unfold tokenize
  simp only
  cases hs : Res.ofOption (splitN2 40 s).2 with
  | fuel => exact absurd hs (ofOption_noFuel _)
  | panic => intro h; cases h
  | ok x =>
    rw [Res.bind_ok]
    cases hg : getArguments x with
    | fuel => exact absurd hg (getArguments_noFuel x)
    | panic => intro h; cases h
    | ok y => intro h; cases h

theorem add_noFuel (tab : SymbolTable) (sym : GoString) : add tab sym ≠ .fuel := by
  unfold add
  simp only
  cases hs : Res.ofOption (splitN2 61 sym).2 with
  | fuel => exact absurd hs (ofOption_noFuel _)
  | panic => intro h; cases h
  | ok x =>
    rw [Res.bind_ok]
    cases hg : tokenize x with
    | fuel => exact absurd hg (tokenize_noFuel x)
    | panic => intro h; cases h
    | ok y => intro h; cases h

theorem lexLoop_noFuel : ∀ (ls : List GoString) (sym : GoString) (tab : SymbolTable), lexLoop ls sym tab ≠ .fuel := by
  intro ls
  induction ls with
  | nil => intro sym tab h; cases h
  | cons l ls ih =>
    intro sym tab
    unfold lexLoop
    by_cases h0 : l.length = 0
    · rw [if_pos h0]; exact ih _ _
    · rw [if_neg h0]
      by_cases hc : containsEq l = true
      · rw [if_pos hc]
        by_cases hs : sym.length > 0
        · simp only [hs, if_true]
          cases ha : add tab sym with
          | ok t => rw [Res.bind_ok]; exact ih _ _
          | panic => intro h; cases h
          | fuel => exact absurd ha (add_noFuel tab sym)
        · simp only [hs, if_false, Res.pure_eq, Res.bind_ok]
          exact ih _ _
      · rw [if_neg hc]; exact ih _ _

/-- C90, the part that is true: on a file that ends, `Lex` returns or panics -/
theorem C90_partial (f : File) (hf : f.last = .eof) : LexFile (f.rest.length + 1) (some f) ≠ .fuel := by
  rw [C89_content f hf _ (by omega)]
  unfold Lex lexLines
  cases hl : lexLoop (readLines f.rest) [] [] with
  | ok p => exact add_noFuel _ _
  | panic => intro h; cases h
  | fuel => exact absurd hl (lexLoop_noFuel _ _ _)

theorem lexReader_error : ∀ (fuel : Nat) (b : Reader) (sym : GoString) (tab t : SymbolTable), Idle b .other →
    lexReader fuel b sym tab ≠ .ok t := by
  intro fuel
  induction fuel with
  | zero => intro b sym tab t _ h; cases h
  | succ fuel ih =>
    intro b sym tab t hb
    obtain ⟨b', hb', h⟩ := readLine_reader (by decide) hb
    unfold lexReader
    cases hr : Step.readLine (pending b) with
    | none =>
      rw [hr] at h
      rw [h.1, Res.bind_ok]
      simp only
      rw [if_neg (by decide), if_pos (by rfl)]
      exact ih b' sym tab t hb'
    | some p =>
      obtain ⟨line, rest⟩ := p
      rw [hr] at h
      rw [h.1, Res.bind_ok]
      simp only
      rw [if_neg (by simp)]
      by_cases h0 : line.length = 0
      · rw [if_pos h0]; exact ih b' sym tab t hb'
      · rw [if_neg h0]
        by_cases hc : containsEq line = true
        · rw [if_pos hc]
          by_cases hs : sym.length > 0
          · rw [if_pos hs]
            cases add tab sym with
            | ok t' => rw [Res.bind_ok]; exact ih b' line t' t hb'
            | panic => intro h; cases h
            | fuel => intro h; cases h
          · rw [if_neg hs]
            simp only [Res.pure_eq, Res.bind_ok]
            exact ih b' line tab t hb'
        · rw [if_neg hc]; exact ih b' (sym ++ line) tab t hb'

theorem lexReader_endless : ∀ (fuel : Nat) (b : Reader) (sym : GoString) (tab : SymbolTable), Idle b .other →
    pending b = [] → lexReader fuel b sym tab = .fuel := by
  intro fuel
  induction fuel with
  | zero => intro b sym tab _ _; rfl
  | succ fuel ih =>
    intro b sym tab hb hp
    obtain ⟨b', hb', h⟩ := readLine_reader (by decide) hb
    unfold lexReader
    rw [hp] at h
    simp only [Step.readLine] at h
    rw [h.1, Res.bind_ok]
    simp only
    rw [if_neg (by decide), if_pos (by rfl)]
    exact ih b' sym tab hb' h.2

/-- C90 is false of the code: when reading fails with an error other than end of file, `Lex` never returns a table, for any
content read before; on a path that can be opened but not read, such as a directory, it loops forever. -/
theorem C90_refuted (f : File) (hf : f.last = .other) :
    (∀ fuel t, LexFile fuel (some f) ≠ .ok t) ∧ (f.rest = [] → ∀ fuel, LexFile fuel (some f) = .fuel) := by
  refine ⟨fun fuel t => lexReader_error fuel _ _ _ t ⟨rfl, hf, Nat.zero_le _⟩, fun h fuel => ?_⟩
  exact lexReader_endless fuel _ _ _ ⟨rfl, hf, Nat.zero_le _⟩ (by unfold pending; simpa using h)

/-- a directory -/
example (fuel : Nat) : LexFile fuel (some ⟨[], .other, fun _ => 0, 0⟩) = .fuel := (C90_refuted _ rfl).2 rfl fuel

end Verif.Props
