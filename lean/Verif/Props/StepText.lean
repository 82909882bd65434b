import Mathlib.Data.List.Induction
import Verif.Model.Step
import Verif.Proofs.Str
import Mathlib.Tactic.Tauto
/-!
# C54 - C58, C66: splitting and tokenizing STEP text

Specification: `Bal` is the language of texts with balanced brackets, `Arg` the language of bracket-balanced
texts without a comma outside brackets, both given as grammars. Texts are lists of Unicode scalar values, their
byte strings are `encode` of them.
-/
namespace Verif.Props
open Verif Verif.Step

/-- texts with balanced brackets -/
inductive Bal : List Nat → Prop
  | nil : Bal []
  | char (r : Nat) (a : List Nat) : r ≠ '('.toNat → r ≠ ')'.toNat → Bal a → Bal (r :: a)
  | paren (b a : List Nat) : Bal b → Bal a → Bal ('('.toNat :: (b ++ ')'.toNat :: a))

/-- texts with balanced brackets and no comma outside them -/
inductive Arg : List Nat → Prop
  | nil : Arg []
  | char (r : Nat) (a : List Nat) : r ≠ '('.toNat → r ≠ ')'.toNat → r ≠ ','.toNat → Arg a → Arg (r :: a)
  | paren (b a : List Nat) : Bal b → Arg a → Arg ('('.toNat :: (b ++ ')'.toNat :: a))

/-- Unicode text: all scalar values -/
def Valid (a : List Nat) : Prop := ∀ r ∈ a, validRune r = true

/-- join with commas -/
def joinComma : List (List Nat) → List Nat
  | [] => []
  | [a] => a
  | a :: b :: rest => a ++ ','.toNat :: joinComma (b :: rest)

theorem split_bal {b : List Nat} (h : Bal b) : ∀ (done : List GoString) (d : Int) (cur : List Nat), 1 ≤ d →
    b.foldl splitStep ⟨done, d, cur⟩ = ⟨done, d, cur ++ b⟩ := by
  induction h with
  | nil => intro done d cur _; simp
  | char r a h1 h2 _ ih =>
    intro done d cur hd
    have e : splitStep ⟨done, d, cur⟩ r = ⟨done, d, cur ++ [r]⟩ := by
      have h1' : r ≠ lp := h1
      have h2' : r ≠ rp := h2
      simp only [splitStep, h1', h2', if_false]
      rw [if_neg (by omega)]
    rw [List.foldl_cons, e, ih _ _ _ hd]; simp
  | paren b a _ _ ihb iha =>
    intro done d cur hd
    have e : splitStep ⟨done, d, cur⟩ '('.toNat = ⟨done, d + 1, cur ++ ['('.toNat]⟩ := by
      simp [splitStep, lp, rp, comma]
    have e2 : splitStep ⟨done, d + 1, cur ++ ['('.toNat] ++ b⟩ ')'.toNat =
        ⟨done, d, cur ++ ['('.toNat] ++ b ++ [')'.toNat]⟩ := by
      simp [splitStep, lp, rp, comma]
    rw [List.foldl_cons, e, List.foldl_append, ihb _ _ _ (by omega), List.foldl_cons, e2, iha _ _ _ hd]
    simp

theorem split_arg {a : List Nat} (h : Arg a) : ∀ (done : List GoString) (cur : List Nat),
    a.foldl splitStep ⟨done, 0, cur⟩ = ⟨done, 0, cur ++ a⟩ := by
  induction h with
  | nil => intro done cur; simp
  | char r a h1 h2 h3 _ ih =>
    intro done cur
    have e : splitStep ⟨done, 0, cur⟩ r = ⟨done, 0, cur ++ [r]⟩ := by
      have h1' : r ≠ lp := h1
      have h2' : r ≠ rp := h2
      have h3' : r ≠ comma := h3
      simp [splitStep, h1', h2', h3']
    rw [List.foldl_cons, e, ih]; simp
  | paren b a hb _ iha =>
    intro done cur
    have e : splitStep ⟨done, 0, cur⟩ '('.toNat = ⟨done, 1, cur ++ ['('.toNat]⟩ := by
      simp [splitStep, lp, rp, comma]
    have e2 : splitStep ⟨done, 1, cur ++ ['('.toNat] ++ b⟩ ')'.toNat =
        ⟨done, 0, cur ++ ['('.toNat] ++ b ++ [')'.toNat]⟩ := by
      simp [splitStep, lp, rp, comma]
    rw [List.foldl_cons, e, List.foldl_append, split_bal hb _ _ _ (by omega), List.foldl_cons, e2, iha]
    simp

theorem split_comma (done : List GoString) (cur : List Nat) :
    splitStep ⟨done, 0, cur⟩ ','.toNat = ⟨done ++ [encode cur], 0, []⟩ := by
  simp [splitStep, lp, rp, comma]

/-- the loop on `a1,...,an` -/
theorem split_join (as : List (List Nat)) (last : List Nat) (h : ∀ a ∈ as ++ [last], Arg a) (done : List GoString) :
    (joinComma (as ++ [last])).foldl splitStep ⟨done, 0, []⟩ = ⟨done ++ as.map encode, 0, last⟩ := by
  induction as generalizing done with
  | nil => simp [joinComma, split_arg (h last (by simp))]
  | cons a as ih =>
    have hj : joinComma (a :: as ++ [last]) = a ++ ','.toNat :: joinComma (as ++ [last]) := by
      cases as with
      | nil => rfl
      | cons b bs => rfl
    rw [hj, List.foldl_append, split_arg (h a (by simp)), List.foldl_cons, List.nil_append, split_comma,
      ih (fun x hx => h x (by simp at hx ⊢; tauto))]
    simp

theorem valid_join (as : List (List Nat)) (h : ∀ a ∈ as, Valid a) : Valid (joinComma as) := by
  induction as with
  | nil => simp [joinComma, Valid]
  | cons a as ih =>
    cases as with
    | nil => simpa [joinComma] using h a
    | cons b bs =>
      intro r hr
      simp only [joinComma, List.mem_append, List.mem_cons] at hr
      rcases hr with hr | rfl | hr
      · exact h a (by simp) r hr
      · decide
      · exact ih (fun x hx => h x (by simp at hx ⊢; tauto)) r hr

/-- C54, general form: the arguments `a1..an` are returned exactly, except that the last one is cut to as many
bytes as it has characters. -/
theorem getArguments_eq (as : List (List Nat)) (last : List Nat) (h : ∀ a ∈ as ++ [last], Arg a)
    (hv : ∀ a ∈ as ++ [last], Valid a) :
    getArguments (encode (joinComma (as ++ [last]) ++ [')'.toNat, ';'.toNat])) =
      .ok (as.map encode ++ [(encode last).take last.length]) := by
  have hval : Valid (joinComma (as ++ [last]) ++ [')'.toNat, ';'.toNat]) := by
    intro r hr
    rcases List.mem_append.mp hr with hr | hr
    · exact valid_join _ hv r hr
    · simp at hr; rcases hr with rfl | rfl <;> decide
  have hs : splitLoop (joinComma (as ++ [last]) ++ [')'.toNat, ';'.toNat]) =
      ⟨as.map encode, -1, last ++ [')'.toNat, ';'.toNat]⟩ := by
    rw [splitLoop, List.foldl_append, split_join as last h]
    simp [splitStep, lp, rp, comma]
  unfold getArguments
  rw [runes_encode _ hval]
  simp only [hs]
  rw [if_neg (by simp)]
  congr 2
  simp only [List.length_append, List.length_cons, List.length_nil, Nat.add_sub_cancel, encode_append]
  rw [List.take_append_of_le_length (length_le_encode last)]

/-- C54: splitting `a1,...,an);` returns `a1..an` (the last argument being ASCII, see C56) -/
theorem C54_split (as : List (List Nat)) (last : List Nat) (h : ∀ a ∈ as ++ [last], Arg a)
    (hv : ∀ a ∈ as ++ [last], Valid a) (hascii : ∀ r ∈ last, r < 128) :
    getArguments (encode (joinComma (as ++ [last]) ++ [')'.toNat, ';'.toNat])) =
      .ok ((as ++ [last]).map encode) := by
  rw [getArguments_eq as last h hv, ← encode_length_ascii last hascii, List.take_length]
  simp

/-- join byte strings with commas -/
def joinBytes : List GoString → GoString
  | [] => []
  | [a] => a
  | a :: b :: rest => a ++ (44 : UInt8) :: joinBytes (b :: rest)

theorem joinBytes_snoc_append (l : List GoString) (x y : GoString) :
    joinBytes (l ++ [x ++ y]) = joinBytes (l ++ [x]) ++ y := by
  induction l with
  | nil => simp [joinBytes]
  | cons a l ih =>
    cases l with
    | nil => simp [joinBytes]
    | cons b l => simp only [List.cons_append, joinBytes] at ih ⊢; rw [ih]; simp

theorem joinBytes_snoc_nil (l : List GoString) (x : GoString) :
    joinBytes (l ++ [x] ++ [[]]) = joinBytes (l ++ [x]) ++ [44] := by
  induction l with
  | nil => simp [joinBytes]
  | cons a l ih =>
    cases l with
    | nil => simp [joinBytes]
    | cons b l => simp only [List.cons_append, joinBytes] at ih ⊢; rw [ih]; simp

/-- invariant of the splitting loop: the pieces joined with commas are the text read so far -/
theorem split_invariant (rs : List Nat) (st : SplitSt) :
    joinBytes ((rs.foldl splitStep st).done ++ [encode (rs.foldl splitStep st).cur]) =
      joinBytes (st.done ++ [encode st.cur]) ++ encode rs ∧
    ((rs.foldl splitStep st).cur) <:+ (st.cur ++ rs) := by
  induction rs generalizing st with
  | nil => simp [encode]
  | cons r rs ih =>
    rw [List.foldl_cons]
    obtain ⟨h1, h2⟩ := ih (splitStep st r)
    rw [h1]
    have hc : (splitStep st r = ⟨st.done ++ [encode st.cur], (splitStep st r).depth, []⟩ ∧ r = comma) ∨
        (splitStep st r = ⟨st.done, (splitStep st r).depth, st.cur ++ [r]⟩) := by
      unfold splitStep
      simp only
      generalize (if r = rp then (if r = lp then st.depth + 1 else st.depth) - 1
        else if r = lp then st.depth + 1 else st.depth) = d
      by_cases h : d = 0 ∧ r = comma
      · left; rw [if_pos h]; exact ⟨rfl, h.2⟩
      · right; rw [if_neg h]
    rcases hc with ⟨hc, hr⟩ | hc
    · rw [hc] at h2 ⊢
      constructor
      · simp only [encode_nil]
        rw [joinBytes_snoc_nil, encode_cons, hr]
        simp [comma, encodeRune_ascii]
      · rw [List.nil_append] at h2
        exact h2.trans ⟨st.cur ++ [r], by simp⟩
    · rw [hc] at h2 ⊢
      constructor
      · simp only [encode_append]
        rw [joinBytes_snoc_append, encode_cons]
        simp [encode]
      · simpa using h2

/-- C54: joining the pieces of any successful split of ASCII text gives back the text without its last two
characters -/
theorem C54_join (s : GoString) (hs : Ascii s) (args : List GoString) (h : getArguments s = .ok args) :
    args ≠ [] ∧ ∃ last2, last2.length = 2 ∧ s = joinBytes args ++ last2 := by
  obtain ⟨h1, h2⟩ := split_invariant (runes s) ⟨[], 0, []⟩
  change joinBytes ((splitLoop (runes s)).done ++ [encode (splitLoop (runes s)).cur]) = _ at h1
  change (splitLoop (runes s)).cur <:+ _ at h2
  unfold getArguments at h
  simp only at h
  generalize splitLoop (runes s) = st at *
  split at h
  · cases h
  · rename_i hlen
    cases h
    have hcur : ∀ r ∈ st.cur, r < 128 := by
      intro r hr
      have := h2.subset hr
      rw [List.nil_append, runes_ascii s hs] at this
      obtain ⟨b, hb, rfl⟩ := List.mem_map.mp this
      exact hs b hb
    have hl := encode_length_ascii st.cur hcur
    refine ⟨by simp, (encode st.cur).drop (st.cur.length - 2), by simp [hl]; omega, ?_⟩
    rw [← joinBytes_snoc_append, List.take_append_drop, h1]
    simp [joinBytes, encode_nil, hs.utf8.encode_runes]

/-- opening minus closing brackets -/
def depthOf (l : List Nat) : Int := l.count '('.toNat - l.count ')'.toNat

/-- `t` is what follows the last comma outside brackets (the whole text if there is none) -/
def LastPart (l t : List Nat) : Prop :=
  (l = t ∨ ∃ p, l = p ++ ','.toNat :: t ∧ depthOf p = 0) ∧ ∀ p q, t = p ++ ','.toNat :: q → depthOf p ≠ 0

theorem depthOf_append (l l' : List Nat) : depthOf (l ++ l') = depthOf l + depthOf l' := by
  unfold depthOf; rw [List.count_append, List.count_append]; omega

theorem lastPart_snoc {l t : List Nat} (h : LastPart l t) (r : Nat) (hr : ¬ (r = ','.toNat ∧ depthOf l = 0)) : LastPart (l ++ [r]) (t ++ [r]) := by
  obtain ⟨h1, h2⟩ := h
  have hd : depthOf l = depthOf t := by
    rcases h1 with rfl | ⟨p, rfl, hp⟩
    · rfl
    · rw [depthOf_append, hp]; unfold depthOf
      rw [List.count_cons_of_ne (by decide), List.count_cons_of_ne (by decide)]; omega
  constructor
  · rcases h1 with rfl | ⟨p, rfl, hp⟩
    · exact Or.inl rfl
    · exact Or.inr ⟨p, by simp, hp⟩
  · intro p q e
    rcases List.eq_nil_or_concat q with rfl | ⟨q', x, rfl⟩
    · obtain ⟨e1, e2⟩ := List.append_inj' e rfl
      rw [← e1, ← hd]
      intro h0
      exact hr ⟨by simpa using e2, h0⟩
    · rw [List.concat_eq_append, ← List.cons_append, ← List.append_assoc] at e
      exact h2 p q' (List.append_inj' e rfl).1

theorem lastPart_comma {l : List Nat} (h : depthOf l = 0) : LastPart (l ++ [','.toNat]) [] :=
  ⟨Or.inr ⟨l, rfl, h⟩, fun p q e => by simp at e⟩

theorem splitLoop_lastPart (rs : List Nat) : LastPart rs (splitLoop rs).cur ∧ (splitLoop rs).depth = depthOf rs := by
  induction rs using List.reverseRecOn with
  | nil => exact ⟨⟨Or.inl rfl, fun p q e => by simp [splitLoop] at e⟩, rfl⟩
  | append_singleton rs r ih =>
    obtain ⟨h1, h2⟩ := ih
    have e : splitLoop (rs ++ [r]) = splitStep (splitLoop rs) r := by simp [splitLoop]
    rw [e]
    have hd : depthOf (rs ++ [r]) = depthOf rs + (if r = lp then 1 else 0) - (if r = rp then 1 else 0) := by
      rw [depthOf_append]; unfold depthOf
      rw [List.count_singleton, List.count_singleton]
      change _ + (((if r == lp then 1 else 0 : ℕ) : Int) - ((if r == rp then 1 else 0 : ℕ) : Int)) = _
      simp only [beq_iff_eq]
      split_ifs <;> omega
    by_cases hc : r = comma
    · subst hc
      have hd' : depthOf (rs ++ [comma]) = depthOf rs := by rw [hd]; simp [comma, lp, rp]
      rw [hd']
      by_cases h0 : depthOf rs = 0
      · have : splitStep (splitLoop rs) comma = ⟨(splitLoop rs).done ++ [encode (splitLoop rs).cur], (splitLoop rs).depth, []⟩ := by
          simp [splitStep, lp, rp, comma, h2, h0]
        rw [this]
        exact ⟨lastPart_comma h0, h2⟩
      · have : splitStep (splitLoop rs) comma = ⟨(splitLoop rs).done, (splitLoop rs).depth, (splitLoop rs).cur ++ [comma]⟩ := by
          simp [splitStep, lp, rp, comma, h2, h0]
        rw [this]
        exact ⟨lastPart_snoc h1 _ (by tauto), h2⟩
    · have : splitStep (splitLoop rs) r = ⟨(splitLoop rs).done, (splitLoop rs).depth + (if r = lp then 1 else 0) - (if r = rp then 1 else 0),
          (splitLoop rs).cur ++ [r]⟩ := by
        unfold splitStep
        simp only [hc, and_false, if_false, SplitSt.mk.injEq, true_and, and_true]
        split_ifs <;> omega
      rw [this, hd, h2]
      exact ⟨lastPart_snoc h1 _ fun h => hc h.1, rfl⟩

theorem lastPart_unique {l t t' : List Nat} (h : LastPart l t) (h' : LastPart l t') : t = t' := by
  have key : ∀ {t t' : List Nat} {p p'}, p.length < p'.length → (∀ p q, t = p ++ ','.toNat :: q → depthOf p ≠ 0) → p ++ ','.toNat :: t = p' ++ ','.toNat :: t' →
      depthOf p = 0 → depthOf p' = 0 → False := by
    intro t t' p p' hlt ht e d d'
    obtain ⟨q, hq⟩ : p <+: p' := List.prefix_of_prefix_length_le ⟨_, rfl⟩ ⟨_, e.symm⟩ (by omega)
    subst hq
    rw [List.append_assoc, List.append_cancel_left_eq] at e
    cases q with
    | nil => simp at hlt
    | cons a q =>
      rw [List.cons_append] at e
      injection e with e1 e2
      subst e1
      refine ht q t' e2 ?_
      rw [depthOf_append, d] at d'
      unfold depthOf at d' ⊢
      rw [List.count_cons_of_ne (by decide), List.count_cons_of_ne (by decide)] at d'
      omega
  obtain ⟨h1, h2⟩ := h
  obtain ⟨h1', h2'⟩ := h'
  rcases h1 with rfl | ⟨p, hp, d⟩ <;> rcases h1' with rfl | ⟨p', hp', d'⟩
  · rfl
  · exact absurd d' (h2 p' t' hp')
  · exact absurd d (h2' p t hp)
  · rw [hp] at hp'
    rcases Nat.lt_trichotomy p.length p'.length with hlt | heq | hlt
    · exact (key hlt h2 hp' d d').elim
    · have := (List.append_inj hp' heq).2
      injection this
    · exact (key hlt h2' hp'.symm d' d).elim

/-- C54: the call panics exactly if fewer than two characters follow the last comma outside brackets -/
theorem C54_panics (s : GoString) : getArguments s = .panic ↔ ∃ t, LastPart (runes s) t ∧ t.length < 2 := by
  have h := (splitLoop_lastPart (runes s)).1
  have e : getArguments s = .panic ↔ (splitLoop (runes s)).cur.length < 2 := by
    unfold getArguments
    simp only
    split <;> simp_all
  rw [e]
  constructor
  · intro hl; exact ⟨_, h, hl⟩
  · rintro ⟨t, ht, hl⟩
    rw [lastPart_unique h ht]; exact hl

example : LastPart ['a'.toNat, '('.toNat, ','.toNat, ')'.toNat, ','.toNat, 'b'.toNat] ['b'.toNat] := by
  have := (splitLoop_lastPart ['a'.toNat, '('.toNat, ','.toNat, ')'.toNat, ','.toNat, 'b'.toNat]).1
  exact this

/-- the hypotheses are met by e.g. `'x',(#1,#2),#3` -/
example : getArguments (ascii "'x',(#1,#2),#3);".toList) =
    .ok [ascii "'x'".toList, ascii "(#1,#2)".toList, ascii "#3".toList] := by decide +kernel

theorem encode_length_of_nonascii (rs : List Nat) (hv : Valid rs) (h : ∃ r ∈ rs, 128 ≤ r) :
    rs.length < (encode rs).length := by
  induction rs with
  | nil => simp at h
  | cons r rs ih =>
    rw [encode_cons, List.length_append, List.length_cons]
    have h0 := List.length_pos_iff.mpr (encodeRune_ne_nil r)
    by_cases hr : 128 ≤ r
    · have := length_le_encode rs
      have h2 : 2 ≤ (encodeRune r).length := by
        have hvr := hv r (by simp)
        unfold encodeRune
        simp only [hvr, if_true]
        rw [if_neg (by omega)]
        split
        · simp
        · split <;> simp
      omega
    · have := ih (fun x hx => hv x (by simp [hx])) (by
        obtain ⟨x, hx, h⟩ := h
        rcases List.mem_cons.mp hx with rfl | hx
        · exact absurd h hr
        · exact ⟨x, hx, h⟩)
      omega

/-- C56 is false: whenever the last argument has a non-ASCII character, it is returned truncated -/
theorem C56_refuted (as : List (List Nat)) (last : List Nat) (h : ∀ a ∈ as ++ [last], Arg a)
    (hv : ∀ a ∈ as ++ [last], Valid a) (hna : ∃ r ∈ last, 128 ≤ r) :
    ∃ cut, getArguments (encode (joinComma (as ++ [last]) ++ [')'.toNat, ';'.toNat])) =
      .ok (as.map encode ++ [cut]) ∧ cut <+: encode last ∧ cut.length < (encode last).length := by
  have hl := encode_length_of_nonascii last (hv last (by simp)) hna
  refine ⟨_, getArguments_eq as last h hv, List.take_prefix _ _, ?_⟩
  rw [List.length_take]; omega

/-- C56, what does hold: the arguments before the last are never corrupted, and neither is an ASCII last one -/
theorem C56_partial (as : List (List Nat)) (last : List Nat) (h : ∀ a ∈ as ++ [last], Arg a)
    (hv : ∀ a ∈ as ++ [last], Valid a) :
    ∃ cut, getArguments (encode (joinComma (as ++ [last]) ++ [')'.toNat, ';'.toNat])) =
      .ok (as.map encode ++ [cut]) ∧ cut <+: encode last ∧ ((∀ r ∈ last, r < 128) → cut = encode last) := by
  refine ⟨_, getArguments_eq as last h hv, List.take_prefix _ _, fun ha => ?_⟩
  rw [← encode_length_ascii last ha, List.take_length]

/-- the text `'é'` (39, 233, 39) meets the hypotheses -/
example : getArguments (encode [39, 233, 39, ')'.toNat, ';'.toNat]) = .ok [[39, 195, 169]] := by decide +kernel

/-- `(e1,...,en)` -/
def bracket (es : List (List Nat)) : List Nat := '('.toNat :: (joinComma es ++ [')'.toNat])

/-- C55: `getArray` of `(e1,...,en)` returns `e1..en`, for any Unicode text -/
theorem C55_array (es : List (List Nat)) (hne : es ≠ []) (h : ∀ a ∈ es, Arg a) (hv : ∀ a ∈ es, Valid a) :
    getArray (encode (bracket es)) = .ok (es.map encode) := by
  have e1 : encode (bracket es) = 40 :: (encode (joinComma es) ++ [41]) := by
    rw [bracket, encode_cons, encode_append]; rfl
  have hs : splitLoop (joinComma es) = ⟨es.dropLast.map encode, 0, es.getLast hne⟩ := by
    have := split_join es.dropLast (es.getLast hne) (by rw [List.dropLast_concat_getLast]; exact h) []
    rw [List.dropLast_concat_getLast] at this
    simpa [splitLoop] using this
  unfold getArray
  rw [e1]
  simp only [List.length_cons, List.length_append, List.length_nil, List.drop_succ_cons, List.drop_zero]
  rw [if_neg (by omega)]
  have e2 : List.take ((encode (joinComma es)).length + (0 + 1) + 1 - 2) (encode (joinComma es) ++ [41]) =
      encode (joinComma es) := by
    rw [show (encode (joinComma es)).length + (0 + 1) + 1 - 2 = (encode (joinComma es)).length by omega,
      List.take_left']
    rfl
  rw [e2, runes_encode _ (valid_join es hv), hs]
  simp only
  conv_rhs => rw [← List.dropLast_concat_getLast hne]
  simp

theorem Bal.append {a b : List Nat} (ha : Bal a) (hb : Bal b) : Bal (a ++ b) := by
  induction ha with
  | nil => exact hb
  | char r a h1 h2 _ ih => exact Bal.char r _ h1 h2 ih
  | paren c a hc _ _ ih =>
    have : '('.toNat :: (c ++ ')'.toNat :: a) ++ b = '('.toNat :: (c ++ ')'.toNat :: (a ++ b)) := by simp
    rw [this]; exact Bal.paren c _ hc ih

theorem Arg.bal {a : List Nat} (ha : Arg a) : Bal a := by
  induction ha with
  | nil => exact Bal.nil
  | char r a h1 h2 _ _ ih => exact Bal.char r _ h1 h2 ih
  | paren c a hc _ ih => exact Bal.paren c _ hc ih

theorem bal_join (es : List (List Nat)) (h : ∀ a ∈ es, Arg a) : Bal (joinComma es) := by
  induction es with
  | nil => exact Bal.nil
  | cons a es ih =>
    cases es with
    | nil => exact (h a (by simp)).bal
    | cons b bs =>
      exact (h a (by simp)).bal.append (Bal.char _ _ (by decide) (by decide)
        (ih (fun x hx => h x (by simp at hx ⊢; tauto))))

theorem bracket_arg (es : List (List Nat)) (h : ∀ a ∈ es, Arg a) : Arg (bracket es) :=
  Arg.paren _ _ (bal_join es h) Arg.nil

theorem bracket_valid (es : List (List Nat)) (h : ∀ a ∈ es, Valid a) : Valid (bracket es) := by
  intro r hr
  simp only [bracket, List.mem_cons, List.mem_append, List.not_mem_nil, or_false] at hr
  rcases hr with rfl | hr | rfl
  · decide
  · exact valid_join es h r hr
  · decide

/-- C55: `getMatrix` of `((a,b,...),(c,d,...),...)` -/
theorem C55_matrix (rows : List (List (List Nat))) (hne : rows ≠ []) (hrow : ∀ r ∈ rows, r ≠ [])
    (h : ∀ r ∈ rows, ∀ a ∈ r, Arg a) (hv : ∀ r ∈ rows, ∀ a ∈ r, Valid a) :
    getMatrix (encode (bracket (rows.map bracket))) = .ok (rows.map (List.map encode)) := by
  unfold getMatrix
  rw [C55_array _ (by simpa using hne)
    (by intro a ha; obtain ⟨r, hr, rfl⟩ := List.mem_map.mp ha; exact bracket_arg r (h r hr))
    (by intro a ha; obtain ⟨r, hr, rfl⟩ := List.mem_map.mp ha; exact bracket_valid r (hv r hr))]
  rw [Res.bind_ok]
  clear hne
  induction rows with
  | nil => rfl
  | cons r rows ih =>
    simp only [List.map_cons, getRows]
    rw [C55_array r (hrow r (by simp)) (h r (by simp)) (hv r (by simp)), Res.bind_ok,
      ih (fun x hx => hrow x (by simp [hx])) (fun x hx => h x (by simp [hx])) (fun x hx => hv x (by simp [hx]))]
    rfl

/-- C55: too short texts panic, all others do not -/
theorem C55_panics (s : GoString) : getArray s = .panic ↔ s.length < 2 := by
  unfold getArray
  split <;> simp_all

/-- C55: the pieces joined with commas are the text between the brackets (any valid UTF-8) -/
theorem C55_join (inner : GoString) (hu : Utf8 inner) (b e : UInt8) (out : List GoString)
    (h : getArray (b :: (inner ++ [e])) = .ok out) : joinBytes out = inner := by
  unfold getArray at h
  simp only [List.length_cons, List.length_append, List.length_nil, List.drop_succ_cons, List.drop_zero] at h
  rw [if_neg (by omega), show inner.length + (0 + 1) + 1 - 2 = inner.length by omega,
    List.take_left' rfl] at h
  cases h
  have h1 := (split_invariant (runes inner) ⟨[], 0, []⟩).1
  change joinBytes ((splitLoop (runes inner)).done ++ [encode (splitLoop (runes inner)).cur]) = _ at h1
  rw [h1]
  simp [joinBytes, encode_nil, hu.encode_runes]

example : getArray (ascii "(#1,(2,3),#4)".toList) =
    .ok [ascii "#1".toList, ascii "(2,3)".toList, ascii "#4".toList] := by decide +kernel

/-- an empty array is returned as one empty element -/
example : getArray (ascii "()".toList) = .ok [[]] := by decide +kernel

/-- C57 is false: a quoted string containing a comma is split at that comma. (For all texts without special
characters on both sides of the comma.) -/
theorem C57_refuted (x y : List Nat) (hx : ∀ r ∈ x, r ≠ '('.toNat ∧ r ≠ ')'.toNat ∧ r ≠ ','.toNat ∧ r < 128)
    (hy : ∀ r ∈ y, r ≠ '('.toNat ∧ r ≠ ')'.toNat ∧ r ≠ ','.toNat ∧ r < 128) :
    getArguments (encode ('\''.toNat :: x ++ ','.toNat :: y ++ ['\''.toNat, ')'.toNat, ';'.toNat])) =
      .ok [encode ('\''.toNat :: x), encode (y ++ ['\''.toNat])] := by
  have ha : ∀ z : List Nat, (∀ r ∈ z, r ≠ '('.toNat ∧ r ≠ ')'.toNat ∧ r ≠ ','.toNat ∧ r < 128) → Arg z := by
    intro z hz
    induction z with
    | nil => exact Arg.nil
    | cons r z ih =>
      obtain ⟨h1, h2, h3, _⟩ := hz r (by simp)
      exact Arg.char r z h1 h2 h3 (ih fun q hq => hz q (by simp [hq]))
  have hvl : ∀ z : List Nat, (∀ r ∈ z, r ≠ '('.toNat ∧ r ≠ ')'.toNat ∧ r ≠ ','.toNat ∧ r < 128) → Valid z := by
    intro z hz r hr
    have := (hz r hr).2.2.2
    rw [validRune_iff]; omega
  have h1 : ∀ r ∈ '\''.toNat :: x, r ≠ '('.toNat ∧ r ≠ ')'.toNat ∧ r ≠ ','.toNat ∧ r < 128 := by
    intro r hr
    rcases List.mem_cons.mp hr with rfl | hr
    · decide
    · exact hx r hr
  have h2 : ∀ r ∈ y ++ ['\''.toNat], r ≠ '('.toNat ∧ r ≠ ')'.toNat ∧ r ≠ ','.toNat ∧ r < 128 := by
    intro r hr
    rcases List.mem_append.mp hr with hr | hr
    · exact hy r hr
    · rw [List.mem_singleton.mp hr]; decide
  have := C54_split ['\''.toNat :: x] (y ++ ['\''.toNat])
    (by intro a hm; simp at hm; rcases hm with rfl | rfl
        · exact ha _ h1
        · exact ha _ h2)
    (by intro a hm; simp at hm; rcases hm with rfl | rfl
        · exact hvl _ h1
        · exact hvl _ h2)
    (fun r hr => (h2 r hr).2.2.2)
  simpa [joinComma] using this

theorem quoted_arg (x : List Nat) (hx : ∀ r ∈ x, r ≠ '('.toNat ∧ r ≠ ')'.toNat ∧ r ≠ ','.toNat) :
    Arg ('\''.toNat :: x ++ ['\''.toNat]) := by
  have : ∀ z : List Nat, (∀ r ∈ z, r ≠ '('.toNat ∧ r ≠ ')'.toNat ∧ r ≠ ','.toNat) → Arg z := by
    intro z hz
    induction z with
    | nil => exact Arg.nil
    | cons r z ih =>
      obtain ⟨h1, h2, h3⟩ := hz r (by simp)
      exact Arg.char r z h1 h2 h3 (ih fun q hq => hz q (by simp [hq]))
  apply this
  intro r hr
  simp only [List.cons_append, List.mem_cons, List.mem_append, List.not_mem_nil, or_false] at hr
  rcases hr with rfl | hr | rfl
  · decide
  · exact hx r hr
  · decide

/-- C57, what does hold: quoted strings without commas and brackets are returned whole, with their quotes, among any other arguments -/
theorem C57_partial (as bs : List (List Nat)) (x last : List Nat) (hx : ∀ r ∈ x, r ≠ '('.toNat ∧ r ≠ ')'.toNat ∧ r ≠ ','.toNat) (hvx : Valid x)
    (h : ∀ a ∈ as ++ bs ++ [last], Arg a) (hv : ∀ a ∈ as ++ bs ++ [last], Valid a) (hascii : ∀ r ∈ last, r < 128) :
    getArguments (encode (joinComma (as ++ ('\''.toNat :: x ++ ['\''.toNat]) :: bs ++ [last]) ++ [')'.toNat, ';'.toNat])) =
      .ok (as.map encode ++ encode ('\''.toNat :: x ++ ['\''.toNat]) :: bs.map encode ++ [encode last]) := by
  have hq : Valid ('\''.toNat :: x ++ ['\''.toNat]) := by
    intro r hr
    simp only [List.cons_append, List.mem_cons, List.mem_append, List.not_mem_nil, or_false] at hr
    rcases hr with rfl | hr | rfl
    · decide
    · exact hvx r hr
    · decide
  rw [C54_split _ last ?_ ?_ hascii]
  · simp
  · intro a ha
    simp only [List.mem_append, List.mem_cons, List.not_mem_nil, or_false] at ha
    rcases ha with (ha | rfl | ha) | rfl
    · exact h a (by simp [ha])
    · exact quoted_arg x hx
    · exact h a (by simp [ha])
    · exact h a (by simp)
  · intro a ha
    simp only [List.mem_append, List.mem_cons, List.not_mem_nil, or_false] at ha
    rcases ha with (ha | rfl | ha) | rfl
    · exact hv a (by simp [ha])
    · exact hq
    · exact hv a (by simp [ha])
    · exact hv a (by simp)


/-- C58: `stripWhiteSpaces` keeps exactly the characters that are not white space, in order -/
theorem C58_strip (s : GoString) : runes (stripWhiteSpaces s) = (runes s).filter (fun r => !isSpace r) ∧
    stripWhiteSpaces (stripWhiteSpaces s) = stripWhiteSpaces s ∧
    (Utf8 s → (∀ r ∈ runes s, isSpace r = false) → stripWhiteSpaces s = s) := by
  have h1 : runes (stripWhiteSpaces s) = (runes s).filter (fun r => !isSpace r) := by
    unfold stripWhiteSpaces
    exact runes_encode _ fun r hr => runes_valid s r (List.mem_filter.mp hr).1
  refine ⟨h1, ?_, ?_⟩
  · have : stripWhiteSpaces (stripWhiteSpaces s) =
        encode ((runes (stripWhiteSpaces s)).filter (fun r => !isSpace r)) := rfl
    rw [this, h1, List.filter_filter]
    simp only [Bool.and_self]
    rfl
  · intro hu hn
    unfold stripWhiteSpaces
    rw [List.filter_eq_self.mpr (by intro r hr; simp [hn r hr]), hu.encode_runes]

/-- what counts as white space: TAB, LF, VT, FF, CR, space, and the Unicode White_Space characters -/
theorem C58_isSpace (r : Nat) : isSpace r = true ↔
    r ∈ [9, 10, 11, 12, 13, 32, 0x85, 0xA0, 0x1680, 0x2000, 0x2001, 0x2002, 0x2003, 0x2004, 0x2005, 0x2006,
      0x2007, 0x2008, 0x2009, 0x200A, 0x2028, 0x2029, 0x202F, 0x205F, 0x3000] := by
  simp only [isSpace, Bool.or_eq_true, Bool.and_eq_true, decide_eq_true_eq, beq_iff_eq, List.mem_cons,
    List.not_mem_nil, or_false]
  omega

theorem splitN2_of_mem (sep : UInt8) (a b : GoString) (h : sep ∉ a) :
    splitN2 sep (a ++ sep :: b) = (a, some b) := by
  induction a with
  | nil => simp [splitN2]
  | cons c a ih =>
    have hc : c ≠ sep := by intro hc; apply h; simp [hc]
    simp only [List.cons_append, splitN2, hc, if_false]
    rw [ih (fun hm => h (by simp [hm]))]

theorem splitN2_of_not_mem (sep : UInt8) (a : GoString) (h : sep ∉ a) : splitN2 sep a = (a, none) := by
  induction a with
  | nil => simp [splitN2]
  | cons c a ih =>
    have hc : c ≠ sep := by intro hc; apply h; simp [hc]
    simp only [splitN2, hc, if_false]
    rw [ih (fun hm => h (by simp [hm]))]

/-- C58: tokenize splits at the first bracket -/
theorem C58_tokenize (typ args : GoString) (h : (40 : UInt8) ∉ typ) :
    (∀ as, getArguments args = .ok as → tokenize (typ ++ 40 :: args) = .ok ⟨stripWhiteSpaces typ, as⟩) ∧
    (getArguments args = .panic → tokenize (typ ++ 40 :: args) = .panic) ∧
    tokenize typ = .panic := by
  unfold tokenize
  rw [splitN2_of_mem 40 typ args h, splitN2_of_not_mem 40 typ h]
  refine ⟨?_, ?_, ?_⟩
  · intro as has; simp [has]
  · intro hp; simp [hp]
  · simp

/-- C58 with C54: a definition text `TYPE(a1,...,an);` -/
theorem C58_definition (typ : GoString) (h : (40 : UInt8) ∉ typ) (as : List (List Nat)) (last : List Nat)
    (ha : ∀ a ∈ as ++ [last], Arg a) (hv : ∀ a ∈ as ++ [last], Valid a) (hascii : ∀ r ∈ last, r < 128) :
    tokenize (typ ++ 40 :: encode (joinComma (as ++ [last]) ++ [')'.toNat, ';'.toNat])) =
      .ok ⟨stripWhiteSpaces typ, (as ++ [last]).map encode⟩ :=
  (C58_tokenize typ _ h).1 _ (C54_split as last ha hv hascii)

example : tokenize (ascii " CARTESIAN_POINT ( '', ( 0.,1. ) );".toList) =
    .ok ⟨ascii "CARTESIAN_POINT".toList, [ascii " ''".toList, ascii " ( 0.,1. ) ".toList]⟩ := by decide +kernel

/-- C66 -/
theorem C66_getLogical (s : GoString) : getLogical s = true ↔ s = ascii ".T.".toList := by
  unfold getLogical
  split <;> simp_all

end Verif.Props
