import Verif.Go.Str
import Mathlib.Tactic.SplitIfs
import Mathlib.Tactic.Conv
/-!
# UTF-8 lemmas: decoding inverts encoding
-/
namespace Verif

theorem u8 (n : Nat) (h : n < 256) : (UInt8.ofNat n).toNat = n := by
  simp [UInt8.toNat_ofNat', Nat.mod_eq_of_lt h]

theorem encodeRune_ne_nil (r : Nat) : encodeRune r ≠ [] := by
  unfold encodeRune
  simp only
  repeat' split
  all_goals simp

theorem validRune_iff (r : Nat) : validRune r = true ↔ r < 55296 ∨ (57344 ≤ r ∧ r < 1114112) := by
  simp [validRune]

theorem validRune_cases {r : Nat} (h : validRune r = true) :
    r < 55296 ∨ (57344 ≤ r ∧ r < 1114112) := by
  simpa [validRune] using h

theorem runes_cons (b : UInt8) (rest : GoString) :
    runes (b :: rest) = (decodeRune b rest).1 :: runes (decodeRune b rest).2 := by
  rw [runes]

theorem isCont_ofNat (m : Nat) (h : m < 64) : isCont (UInt8.ofNat (128 + m)) = true := by
  simp only [isCont, u8 (128 + m) (by omega)]
  simp; omega

theorem runes_encodeRune_append (r : Nat) (h : validRune r = true) (s : GoString) :
    runes (encodeRune r ++ s) = r :: runes s := by
  have hc := validRune_cases h
  unfold encodeRune
  simp only [h, if_true]
  split_ifs with h1 h2 h3
  · simp only [List.cons_append, List.nil_append, runes_cons, decodeRune]
    rw [u8 r (by omega)]; simp [h1]
  · simp only [List.cons_append, List.nil_append, runes_cons, decodeRune]
    rw [u8 (192 + r/64) (by omega), u8 (128 + r % 64) (by omega), isCont_ofNat _ (by omega)]
    rw [if_neg (by omega), if_neg (by omega), if_pos (by omega)]
    have e : (192 + r / 64 - 192) * 64 + (128 + r % 64 - 128) = r := by omega
    simp only [if_true, e]
  · simp only [List.cons_append, List.nil_append, runes_cons, decodeRune]
    rw [u8 (224 + r/4096) (by omega), u8 (128 + r % 64) (by omega), u8 (128 + r /64 % 64) (by omega),
      isCont_ofNat _ (by omega), isCont_ofNat _ (by omega)]
    rw [if_neg (by omega), if_neg (by omega), if_neg (by omega), if_pos (by omega), if_pos]
    · have e : (224 + r / 4096 - 224) * 4096 + (128 + r / 64 % 64 - 128) * 64 + (128 + r % 64 - 128) = r := by omega
      simp only [e]
    · simp; omega
  · simp only [List.cons_append, List.nil_append, runes_cons, decodeRune]
    rw [u8 (240 + r/262144) (by omega), u8 (128 + r % 64) (by omega), u8 (128 + r /64 % 64) (by omega),
      u8 (128 + r /4096 % 64) (by omega),
      isCont_ofNat _ (by omega), isCont_ofNat _ (by omega), isCont_ofNat _ (by omega)]
    rw [if_neg (by omega), if_neg (by omega), if_neg (by omega), if_neg (by omega), if_pos (by omega), if_pos]
    · have e : (240 + r / 262144 - 240) * 262144 + (128 + r / 4096 % 64 - 128) * 4096 +
          (128 + r / 64 % 64 - 128) * 64 + (128 + r % 64 - 128) = r := by omega
      simp only [e]
    · simp; omega

/-- every rune delivered by `range` is a scalar value -/
theorem decodeRune_valid (b : UInt8) (rest : GoString) : validRune (decodeRune b rest).1 = true := by
  rw [validRune_iff]
  unfold decodeRune
  simp only
  have hb := b.toNat_lt
  repeat' split
  all_goals simp_all [isCont]
  all_goals omega

theorem runes_valid (s : GoString) : ∀ r ∈ runes s, validRune r = true := by
  fun_induction runes s with
  | case1 => simp
  | case2 b rest ih =>
    intro r hr
    rcases List.mem_cons.mp hr with rfl | hr
    · exact decodeRune_valid b rest
    · exact ih r hr

theorem encode_nil : encode [] = [] := rfl
theorem encode_cons (r : Nat) (rs : List Rune) : encode (r :: rs) = encodeRune r ++ encode rs := by
  simp [encode]
theorem encode_append (a b : List Rune) : encode (a ++ b) = encode a ++ encode b := by
  simp [encode]

theorem runes_encode_append (rs : List Rune) (h : ∀ r ∈ rs, validRune r = true) (s : GoString) :
    runes (encode rs ++ s) = rs ++ runes s := by
  induction rs with
  | nil => simp [encode]
  | cons r rs ih =>
    rw [encode_cons, List.append_assoc, runes_encodeRune_append r (h r (by simp)),
      ih (fun x hx => h x (by simp [hx]))]
    rfl

/-- decoding inverts encoding -/
theorem runes_encode (rs : List Rune) (h : ∀ r ∈ rs, validRune r = true) : runes (encode rs) = rs := by
  have := runes_encode_append rs h []
  simpa [runes] using this

theorem runes_inj_encode (a b : List Rune) (ha : ∀ r ∈ a, validRune r = true) (hb : ∀ r ∈ b, validRune r = true)
    (h : encode a = encode b) : a = b := by
  rw [← runes_encode a ha, h, runes_encode b hb]

/-- well-formed UTF-8 -/
def Utf8 (s : GoString) : Prop := ∃ rs : List Rune, (∀ r ∈ rs, validRune r = true) ∧ s = encode rs

theorem Utf8.encode_runes {s : GoString} (h : Utf8 s) : encode (runes s) = s := by
  obtain ⟨rs, hv, rfl⟩ := h
  rw [runes_encode rs hv]

/-- plain ASCII text -/
def Ascii (s : GoString) : Prop := ∀ b ∈ s, b.toNat < 128

theorem encodeRune_ascii (r : Nat) (h : r < 128) : encodeRune r = [UInt8.ofNat r] := by
  have : validRune r = true := by rw [validRune_iff]; omega
  simp [encodeRune, this, h]

theorem encode_ascii (s : GoString) (h : Ascii s) : encode (s.map UInt8.toNat) = s := by
  induction s with
  | nil => rfl
  | cons b s ih =>
    have hb := h b (by simp)
    rw [List.map_cons, encode_cons, encodeRune_ascii _ hb, ih (fun x hx => h x (by simp [hx]))]
    simp

theorem ascii_valid (s : GoString) (h : Ascii s) : ∀ r ∈ s.map UInt8.toNat, validRune r = true := by
  intro r hr
  obtain ⟨b, hb, rfl⟩ := List.mem_map.mp hr
  have := h b hb
  rw [validRune_iff]; omega

theorem runes_ascii (s : GoString) (h : Ascii s) : runes s = s.map UInt8.toNat := by
  conv_lhs => rw [← encode_ascii s h]
  exact runes_encode _ (ascii_valid s h)

theorem Ascii.utf8 {s : GoString} (h : Ascii s) : Utf8 s :=
  ⟨_, ascii_valid s h, (encode_ascii s h).symm⟩

theorem encode_length_ascii (rs : List Nat) (h : ∀ r ∈ rs, r < 128) : (encode rs).length = rs.length := by
  induction rs with
  | nil => rfl
  | cons r rs ih =>
    rw [encode_cons, encodeRune_ascii r (h r (by simp)), List.length_append,
      ih (fun x hx => h x (by simp [hx]))]
    simp; omega

/-- an encoding has at least as many bytes as runes -/
theorem length_le_encode (rs : List Rune) : rs.length ≤ (encode rs).length := by
  induction rs with
  | nil => simp
  | cons r rs ih =>
    rw [encode_cons, List.length_append, List.length_cons]
    have := List.length_pos_iff.mpr (encodeRune_ne_nil r)
    omega

end Verif
