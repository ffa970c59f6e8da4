import Verif.Spec.Big5
import Verif.Proofs.Big5
/-!
# C93, C94, C95, C96: conversion between UTF-8 and Big5
-/

namespace Verif
open Spec

variable (T : Big5Tables)

/-- Tables with the characters of /repo/big5_test.go:30-40 (新的目錄 and ピリカラ). -/
def sampleTables : Big5Tables where
  decode i :=
    if i = pairNo 0xB7 0x73 then 0x65B0 else if i = pairNo 0xAA 0xBA then 0x7684
    else if i = pairNo 0xA5 0xD8 then 0x76EE else if i = pairNo 0xBF 0xFD then 0x9304
    else if i = pairNo 0xC7 0xD0 then 0x30D4 else if i = pairNo 0xC7 0xE6 then 0x30EA
    else if i = pairNo 0xC7 0xA7 then 0x30AB else if i = pairNo 0xC7 0xE5 then 0x30E9 else 0
  encode c :=
    if c = 0x65B0 then 0xB773 else if c = 0x7684 then 0xAABA else if c = 0x76EE then 0xA5D8
    else if c = 0x9304 then 0xBFFD else if c = 0x30D4 then 0xC7D0 else if c = 0x30EA then 0xC7E6
    else if c = 0x30AB then 0xC7A7 else if c = 0x30E9 then 0xC7E5 else 0

theorem sampleTables_encode {c : Nat} (h : sampleTables.encode c ≠ 0) :
    c ∈ [0x65B0, 0x7684, 0x76EE, 0x9304, 0x30D4, 0x30EA, 0x30AB, 0x30E9] := by
  simp only [sampleTables] at h
  repeat' split at h
  all_goals first | exact absurd rfl h | (simp only [List.mem_cons, List.not_mem_nil, or_false]; omega)

theorem sampleTables_fit : Fit sampleTables where
  wide c h := by
    have : ∀ c ∈ [0x65B0, 0x7684, 0x76EE, 0x9304, 0x30D4, 0x30EA, 0x30AB, 0x30E9], Scalar c ∧ 0x80 ≤ c := by decide
    exact this c (sampleTables_encode h)
  pair c h := by
    have : ∀ c ∈ [0x65B0, 0x7684, 0x76EE, 0x9304, 0x30D4, 0x30EA, 0x30AB, 0x30E9],
        sampleTables.encode c < 65536 ∧ IsPair (sampleTables.encode c / 256) (sampleTables.encode c % 256) := by
      decide +kernel
    exact this c (sampleTables_encode h)
  back c h := by
    have : ∀ c ∈ [0x65B0, 0x7684, 0x76EE, 0x9304, 0x30D4, 0x30EA, 0x30AB, 0x30E9],
        sampleTables.decode (pairNo (sampleTables.encode c / 256) (sampleTables.encode c % 256)) = c := by
      decide +kernel
    exact this c (sampleTables_encode h)
  single c h := by
    have : ∀ c ∈ [0x65B0, 0x7684, 0x76EE, 0x9304, 0x30D4, 0x30EA, 0x30AB, 0x30E9],
        ¬ (pairNo (sampleTables.encode c / 256) (sampleTables.encode c % 256) = 1133 ∨
          pairNo (sampleTables.encode c / 256) (sampleTables.encode c % 256) = 1135 ∨
          pairNo (sampleTables.encode c / 256) (sampleTables.encode c % 256) = 1164 ∨
          pairNo (sampleTables.encode c / 256) (sampleTables.encode c % 256) = 1166) := by
      decide +kernel
    exact this c (sampleTables_encode h)
  noError := by decide +kernel

/-! ## C93: ASCII -/

theorem enc_ascii_cons {b : UInt8} (h : b < 0x80) (s : Bytes) : T.enc (b :: s) = b :: T.enc s := by
  have hn : b.toNat < 128 := by rw [UInt8.lt_iff_toNat_lt] at h; simpa using h
  unfold Big5Tables.enc
  rw [runes_ascii_cons h]
  rw [Big5Tables.encRunes, if_pos (show (asciiRune b).val < 0x80 from hn)]
  simp [asciiRune]

theorem dec_ascii_cons {b : UInt8} (h : b < 0x80) (s : Bytes) : T.dec (b :: s) = b :: T.dec s := by
  cases s with
  | nil => simp [Big5Tables.dec, h]
  | cons c s => simp [Big5Tables.dec, h]

/-- **C93.** ASCII is converted byte by byte in both directions, whatever the tables are and whatever follows. -/
theorem C93_ascii (t s : Bytes) (h : ∀ b ∈ t, b < 0x80) :
    T.enc (t ++ s) = t ++ T.enc s ∧ T.dec (t ++ s) = t ++ T.dec s := by
  induction t with
  | nil => exact ⟨rfl, rfl⟩
  | cons b t ih =>
    have hb := h b (by simp)
    obtain ⟨i1, i2⟩ := ih (fun c hc => h c (by simp [hc]))
    rw [List.cons_append, enc_ascii_cons T hb, dec_ascii_cons T hb, i1, i2]
    exact ⟨rfl, rfl⟩

/-- **C93** for a text that is all ASCII. -/
theorem C93_ascii_text (t : Bytes) (h : ∀ b ∈ t, b < 0x80) : T.enc t = t ∧ T.dec t = t := by
  have := C93_ascii T t [] h
  simpa [Big5Tables.enc, Big5Tables.dec, Big5Tables.encRunes, runes_nil] using this

example : ∀ b ∈ ascii "[test] hello", b < 0x80 := by decide

/-! ## C94: encoding -/

theorem enc_char {c : Nat} (h : Encodable T c) (s : Bytes) : T.enc (utf8Char c ++ s) = big5Char T c ++ T.enc s := by
  unfold Big5Tables.enc big5Char
  rw [runes_utf8Char h.1]
  by_cases hc : c < 0x80
  · simp [Big5Tables.encRunes, hc]
  · have he : T.encode c ≠ 0 := h.2.resolve_left hc
    have e : UInt8.ofNat (T.encode c) = UInt8.ofNat (T.encode c % 256) := by
      apply UInt8.toNat_inj.mp
      simp only [UInt8.toNat_ofNat']
      omega
    simp only [Big5Tables.encRunes, if_neg hc, if_neg he, List.cons_append, List.nil_append, ← e]

theorem enc_chars {cs : List Nat} (h : ∀ c ∈ cs, Encodable T c) (s : Bytes) :
    T.enc (utf8Text cs ++ s) = big5Text T cs ++ T.enc s := by
  induction cs with
  | nil => rfl
  | cons c cs ih =>
    simp only [utf8Text, big5Text, List.flatMap_cons, List.append_assoc] at ih ⊢
    rw [enc_char T (h c (by simp)), ih (fun d hd => h d (by simp [hd]))]

theorem enc_stuck (hE : T.encode 0xFFFD = 0) {s : Bytes} (h : Stuck T s) : T.enc s = [] := by
  cases s with
  | nil => rfl
  | cons b s =>
    rcases rune_cases b s with ⟨n, t, hn, e⟩ | ⟨_, e⟩
    · rw [e]
      unfold Big5Tables.enc
      rw [runes_utf8Char hn]
      have h1 : ¬ Encodable T n := fun hc => h ⟨n, t, hc, e⟩
      have h2 : ¬ n < 0x80 := fun hc => h1 ⟨hn, Or.inl hc⟩
      have h3 : T.encode n = 0 := Classical.byContradiction fun hc => h1 ⟨hn, Or.inr hc⟩
      simp [Big5Tables.encRunes, h2, h3]
    · unfold Big5Tables.enc
      rw [e]
      simp [Big5Tables.encRunes, hE]

/-- Every string is a text that can be written in Big5 followed by something that cannot. -/
theorem stuck_split (s : Bytes) : ∃ cs t, (∀ c ∈ cs, Encodable T c) ∧ Stuck T t ∧ s = utf8Text cs ++ t := by
  induction hn : s.length using Nat.strongRecOn generalizing s with
  | _ n ih =>
    by_cases h : Stuck T s
    · exact ⟨[], s, by simp, h, rfl⟩
    · obtain ⟨c, t, hc, e⟩ := Classical.not_not.mp h
      have hl : t.length < n := by
        have h0 := List.length_pos_iff.mpr (utf8Char_ne_nil c)
        rw [← hn, e, List.length_append]
        omega
      obtain ⟨cs, u, h1, h2, h3⟩ := ih _ hl t rfl
      refine ⟨c :: cs, u, ?_, h2, ?_⟩
      · intro d hd
        rcases List.mem_cons.mp hd with hd | hd
        · exact hd ▸ hc
        · exact h1 d hd
      · rw [e, h3]
        simp [utf8Text]

/-- **C94, exactly**: the characters in front of the first one that Big5 lacks (or of the first byte that is not UTF-8) are
converted, and the rest of the text is dropped. Every string has exactly one such division (`C94_split`). -/
theorem C94_exact (hE : T.encode 0xFFFD = 0) (cs : List Nat) (h : ∀ c ∈ cs, Encodable T c) (rest : Bytes)
    (hs : Stuck T rest) : T.enc (utf8Text cs ++ rest) = big5Text T cs := by
  rw [enc_chars T h, enc_stuck T hE hs, List.append_nil]

theorem utf8Char_inj {c d : Nat} (hc : Scalar c) (hd : Scalar d) {s t : Bytes} (h : utf8Char c ++ s = utf8Char d ++ t) :
    c = d ∧ s = t := by
  have := runes_utf8Char hc s
  rw [h, runes_utf8Char hd t] at this
  have e : d = c := congrArg Rune.val (List.cons.inj this).1
  subst e
  exact ⟨rfl, List.append_cancel_left h⟩

/-- **C94**: the division of `C94_exact` exists and is unique. -/
theorem C94_split (s : Bytes) :
    ∃ cs rest, ((∀ c ∈ cs, Encodable T c) ∧ Stuck T rest ∧ s = utf8Text cs ++ rest) ∧
      ∀ cs' rest', (∀ c ∈ cs', Encodable T c) → Stuck T rest' → s = utf8Text cs' ++ rest' → cs' = cs ∧ rest' = rest := by
  obtain ⟨cs, rest, h1, h2, h3⟩ := stuck_split T s
  refine ⟨cs, rest, ⟨h1, h2, h3⟩, ?_⟩
  intro cs' rest' k1 k2 k3
  subst h3
  induction cs generalizing cs' with
  | nil =>
    cases cs' with
    | nil => exact ⟨rfl, k3.symm⟩
    | cons d ds =>
      refine absurd ⟨d, utf8Text ds ++ rest', k1 d (by simp), ?_⟩ h2
      simpa [utf8Text] using k3
  | cons c cs ih =>
    cases cs' with
    | nil =>
      refine absurd ⟨c, utf8Text cs ++ rest, h1 c (by simp), ?_⟩ k2
      simpa [utf8Text] using k3.symm
    | cons d ds =>
      simp only [utf8Text, List.flatMap_cons, List.append_assoc] at k3
      obtain ⟨e1, e2⟩ := utf8Char_inj (h1 c (by simp)).1 (k1 d (by simp)).1 k3
      obtain ⟨e3, e4⟩ := ih (fun x hx => h1 x (by simp [hx])) ds (fun x hx => k1 x (by simp [hx])) e2
      exact ⟨by rw [e1, e3], e4⟩

/-- The full claim of C94: a character that Big5 lacks costs nothing but that character. -/
def Spec.LosesOnlyForeign (T : Big5Tables) : Prop :=
  ∀ cs : List Nat, (∀ c ∈ cs, Scalar c) →
    T.enc (utf8Text cs) = big5Text T (cs.filter fun c => decide (Encodable T c))

/-- **C94 is false of the code** for all tables that lack some character: a letter behind such a character is lost. -/
theorem C94_loses_refuted (hE : T.encode 0xFFFD = 0) (c : Nat) (hc : Scalar c) (hn : ¬ Encodable T c) :
    ¬ Spec.LosesOnlyForeign T := by
  intro h
  have hA : Encodable T 65 := ⟨Or.inl (by omega), Or.inl (by omega)⟩
  have h1 := h [c, 65] (by
    intro d hd
    rcases List.mem_cons.mp hd with hd | hd
    · exact hd ▸ hc
    · simp only [List.mem_singleton] at hd
      exact hd ▸ hA.1)
  have h2 : T.enc (utf8Text [c, 65]) = [] := by
    refine C94_exact T hE [] (by simp) _ ?_
    rintro ⟨d, t, hd, e⟩
    have := (utf8Char_inj hc hd.1 (s := utf8Char 65 ++ []) (by simpa [utf8Text] using e)).1
    exact hn (this ▸ hd)
  rw [h2] at h1
  simp [hn, hA, big5Text, big5Char] at h1

/-- Real tables lack an emoji. -/
example : sampleTables.encode 0xFFFD = 0 ∧ Scalar 0x1F600 ∧ ¬ Encodable sampleTables 0x1F600 := by decide +kernel

/-- **C94, the part that holds**: nothing is lost from a text that can be written in Big5. (Missing for the full claim: texts
with other characters, `C94_exact`.) -/
theorem C94_loses_partial (cs : List Nat) (h : ∀ c ∈ cs, Encodable T c) : T.enc (utf8Text cs) = big5Text T cs := by
  have := enc_chars T h []
  simpa [Big5Tables.enc, runes_nil, Big5Tables.encRunes] using this

/-- 新😀的: only the first character is stored. -/
example : sampleTables.enc (utf8Text [0x65B0, 0x1F600, 0x7684]) = [0xB7, 0x73] := by decide +kernel

/-- /repo/big5_test.go:32-39. -/
example : sampleTables.enc (utf8Text [0x65B0, 0x7684, 0x76EE, 0x9304]) = [0xb7, 0x73, 0xaa, 0xba, 0xa5, 0xd8, 0xbf, 0xfd] ∧
    ∀ c ∈ [0x65B0, 0x7684, 0x76EE, 0x9304], Encodable sampleTables c := by decide +kernel

/-! ## C95: there and back -/

theorem dec_pair {a b : UInt8} (h : IsPair a.toNat b.toNat) (s : Bytes) :
    T.dec (a :: b :: s) = T.pair (pairNo a.toNat b.toNat) ++ T.dec s := by
  obtain ⟨h1, h2, h3⟩ := h
  have k1 : ¬ a < 0x80 := by rw [UInt8.lt_iff_toNat_lt]; simp only [UInt8.reduceToNat]; omega
  have k2 : 0x81 ≤ a ∧ a < 0xFF := by
    rw [UInt8.lt_iff_toNat_lt, UInt8.le_iff_toNat_le]; simp only [UInt8.reduceToNat]; omega
  rw [Big5Tables.dec, if_neg k1, if_pos k2]
  rcases h3 with h3 | h3
  · have k3 : 0x40 ≤ b ∧ b < 0x7F := by
      rw [UInt8.lt_iff_toNat_lt, UInt8.le_iff_toNat_le]; simp only [UInt8.reduceToNat]; omega
    rw [if_pos k3, pairNo, if_pos (by omega)]
  · have k3 : ¬ (0x40 ≤ b ∧ b < 0x7F) := by
      rw [UInt8.lt_iff_toNat_lt, UInt8.le_iff_toNat_le]; simp only [UInt8.reduceToNat]; omega
    have k4 : 0xA1 ≤ b ∧ b < 0xFF := by
      rw [UInt8.lt_iff_toNat_lt, UInt8.le_iff_toNat_le]; simp only [UInt8.reduceToNat]; omega
    rw [if_neg k3, if_pos k4, pairNo, if_neg (by omega)]

theorem code_bytes {T : Big5Tables} (w : Fit T) {c : Nat} (h : T.encode c ≠ 0) :
    (UInt8.ofNat (T.encode c / 256)).toNat = T.encode c / 256 ∧
    (UInt8.ofNat (T.encode c % 256)).toNat = T.encode c % 256 := by
  have := (w.pair c h).1
  constructor <;> (rw [UInt8.toNat_ofNat']; omega)

theorem dec_char {T : Big5Tables} (w : Fit T) {c : Nat} (h : Encodable T c) (s : Bytes) :
    T.dec (big5Char T c ++ s) = utf8Char c ++ T.dec s := by
  unfold big5Char
  by_cases hc : c < 0x80
  · have hb : UInt8.ofNat c < 0x80 := by
      rw [UInt8.lt_iff_toNat_lt, UInt8.toNat_ofNat']; simp only [UInt8.reduceToNat]; omega
    rw [if_pos hc, List.singleton_append, dec_ascii_cons T hb, utf8Char, if_pos hc]
    rfl
  · have he : T.encode c ≠ 0 := h.2.resolve_left hc
    obtain ⟨b1, b2⟩ := code_bytes w he
    rw [if_neg hc, List.cons_append, List.cons_append, List.nil_append, dec_pair T (by rw [b1, b2]; exact (w.pair c he).2),
      b1, b2]
    have hs := w.single c he
    have hb := w.back c he
    unfold TwoChars at hs
    have hc0 : c ≠ 0 := by omega
    rw [Big5Tables.pair, if_neg (fun x => hs (Or.inl x)), if_neg (fun x => hs (Or.inr (Or.inl x))),
      if_neg (fun x => hs (Or.inr (Or.inr (Or.inl x)))), if_neg (fun x => hs (Or.inr (Or.inr (Or.inr x)))), hb,
      if_neg hc0, encodeRune_scalar h.1]

theorem dec_chars {T : Big5Tables} (w : Fit T) {cs : List Nat} (h : ∀ c ∈ cs, Encodable T c) (s : Bytes) :
    T.dec (big5Text T cs ++ s) = utf8Text cs ++ T.dec s := by
  induction cs with
  | nil => rfl
  | cons c cs ih =>
    simp only [utf8Text, big5Text, List.flatMap_cons, List.append_assoc] at ih ⊢
    rw [dec_char w (h c (by simp)), ih (fun d hd => h d (by simp [hd]))]

/-- **C95.** A text that can be written in Big5 comes back from Big5 unchanged. -/
theorem C95_roundtrip {T : Big5Tables} (w : Fit T) (cs : List Nat) (h : ∀ c ∈ cs, Encodable T c) :
    T.dec (T.enc (utf8Text cs)) = utf8Text cs := by
  rw [C94_loses_partial T cs h]
  have := dec_chars w h []
  simpa [Big5Tables.dec] using this

example : ∀ c ∈ [0x30D4, 0x30EA, 0x30AB, 65, 0x30E9], Encodable sampleTables c := by decide +kernel

/-- What is written for a number is always a character: the number itself if it is a scalar value, else U+FFFD. -/
theorem encodeRune_eq (n : Nat) : encodeRune n = utf8Char (if Scalar n then n else 0xFFFD) := by
  by_cases h : Scalar n
  · rw [if_pos h, encodeRune_scalar h]
  · rw [if_neg h]
    unfold Scalar at h
    unfold encodeRune
    rw [if_neg (by omega), if_neg (by omega), if_pos (by omega)]
    decide

/-- Texts put together are a text. -/
theorem isText_append {s t : Bytes} (hs : ∃ cs, (∀ c ∈ cs, Scalar c) ∧ s = utf8Text cs) (ht : ∃ cs, (∀ c ∈ cs, Scalar c) ∧ t = utf8Text cs) :
    ∃ cs, (∀ c ∈ cs, Scalar c) ∧ s ++ t = utf8Text cs := by
  obtain ⟨cs, h1, h2⟩ := hs
  obtain ⟨ds, h3, h4⟩ := ht
  refine ⟨cs ++ ds, ?_, ?_⟩
  · intro c hc
    rcases List.mem_append.mp hc with h | h
    · exact h1 c h
    · exact h3 c h
  · rw [h2, h4]
    simp [utf8Text]

theorem isText_rune (n : Nat) : ∃ cs, (∀ c ∈ cs, Scalar c) ∧ encodeRune n = utf8Text cs := by
  refine ⟨[if Scalar n then n else 0xFFFD], ?_, ?_⟩
  · intro c hc
    rw [List.mem_singleton.mp hc]
    split
    · assumption
    · decide
  · rw [encodeRune_eq]; simp [utf8Text]

theorem isText_pair (i : Nat) : ∃ cs, (∀ c ∈ cs, Scalar c) ∧ T.pair i = utf8Text cs := by
  unfold Big5Tables.pair runeError
  repeat' split
  all_goals first
    | exact isText_rune _
    | exact isText_append (isText_rune _) (isText_rune _)

/-- **C95.** Whatever bytes are on disk, and whatever the tables hold, what is read is valid UTF-8. -/
theorem C95_decoded_utf8 (s : Bytes) : ∃ cs, (∀ c ∈ cs, Scalar c) ∧ T.dec s = utf8Text cs := by
  fun_induction Big5Tables.dec T s with
  | case1 => exact ⟨[], by simp, rfl⟩
  | case2 c0 h => exact ⟨[c0.toNat], by
      have : c0.toNat < 128 := by rw [UInt8.lt_iff_toNat_lt] at h; simpa using h
      intro c hc
      rw [List.mem_singleton.mp hc]
      exact Or.inl (by omega), by
      have : c0.toNat < 128 := by rw [UInt8.lt_iff_toNat_lt] at h; simpa using h
      simp [utf8Text, utf8Char, this]⟩
  | case3 c0 h => exact isText_rune _
  | case4 c0 c1 rest h ih =>
    have : c0.toNat < 128 := by rw [UInt8.lt_iff_toNat_lt] at h; simpa using h
    refine isText_append (s := [c0]) ⟨[c0.toNat], ?_, ?_⟩ ih
    · intro c hc
      rw [List.mem_singleton.mp hc]
      exact Or.inl (by omega)
    · simp [utf8Text, utf8Char, this]
  | case5 => rename_i ih; exact isText_append (isText_pair T _) ih
  | case6 => rename_i ih; exact isText_append (isText_pair T _) ih
  | case7 => rename_i ih; exact isText_append (isText_rune _) ih
  | case8 => rename_i ih; exact isText_append (isText_rune _) ih
  | case9 => rename_i ih; exact isText_append (isText_rune _) ih

/-- A table with a surrogate and a number beyond Unicode, and the bytes of these entries and of a lone lead byte. -/
example : (⟨fun i => if i = 0 then 0xDFFF else 0x110000, fun _ => 0⟩ : Big5Tables).dec [0x81, 0x40, 0x81, 0x41, 0xA4] =
    utf8Text [0xFFFD, 0xFFFD, 0xFFFD] := by decide +kernel

/-- **C95.** Four pairs stand for a letter and a combining accent, whatever the tables hold. -/
theorem C95_four_pairs (s : Bytes) :
    T.dec (0x88 :: 0x62 :: s) = utf8Text [0xCA, 0x304] ++ T.dec s ∧ T.dec (0x88 :: 0x64 :: s) = utf8Text [0xCA, 0x30C] ++ T.dec s ∧
    T.dec (0x88 :: 0xA3 :: s) = utf8Text [0xEA, 0x304] ++ T.dec s ∧ T.dec (0x88 :: 0xA5 :: s) = utf8Text [0xEA, 0x30C] ++ T.dec s := by
  have h : T.pair 1133 = utf8Text [0xCA, 0x304] ∧ T.pair 1135 = utf8Text [0xCA, 0x30C] ∧ T.pair 1164 = utf8Text [0xEA, 0x304] ∧
      T.pair 1166 = utf8Text [0xEA, 0x30C] := by
    refine ⟨?_, ?_, ?_, ?_⟩ <;> rfl
  refine ⟨?_, ?_, ?_, ?_⟩
  · rw [← h.1]; simp [Big5Tables.dec]
  · rw [← h.2.1]; simp [Big5Tables.dec]
  · rw [← h.2.2.1]; simp [Big5Tables.dec]
  · rw [← h.2.2.2]; simp [Big5Tables.dec]

/-- The full claim of C95 for bytes on disk: what was read can be written back unchanged. -/
def Spec.ResaveKeeps (T : Big5Tables) : Prop := ∀ b : Bytes, T.enc (T.dec b) = b

/-- What `enc` gives is always the Big5 form of a text. -/
theorem enc_range (hE : T.encode 0xFFFD = 0) (s : Bytes) : ∃ cs, (∀ c ∈ cs, Encodable T c) ∧ T.enc s = big5Text T cs := by
  obtain ⟨cs, t, h1, h2, h3⟩ := stuck_split T s
  exact ⟨cs, h1, by rw [h3]; exact C94_exact T hE cs h1 t h2⟩

/-- **C95, exactly**: bytes survive reading and writing back if and only if they are the Big5 form of a text. -/
theorem C95_resave_exact {T : Big5Tables} (w : Fit T) (b : Bytes) :
    T.enc (T.dec b) = b ↔ ∃ cs, (∀ c ∈ cs, Encodable T c) ∧ b = big5Text T cs := by
  constructor
  · intro h
    obtain ⟨cs, h1, h2⟩ := enc_range T w.noError (T.dec b)
    exact ⟨cs, h1, by rw [← h, h2]⟩
  · rintro ⟨cs, h1, h2⟩
    have e : T.dec (big5Text T cs) = utf8Text cs := by
      have := dec_chars w h1 []
      simpa [Big5Tables.dec] using this
    rw [h2, e, C94_loses_partial T cs h1]

/-- **C95 is false of the code** for bytes: half a character at the end is lost. -/
theorem C95_resave_refuted {T : Big5Tables} (w : Fit T) : ¬ Spec.ResaveKeeps T := by
  intro h
  have h1 := h [0x81]
  have h2 : T.dec [0x81] = utf8Char 0xFFFD := by
    have : runeError = utf8Char 0xFFFD := by decide
    rw [← this]
    rfl
  rw [h2] at h1
  have h3 : T.enc (utf8Char 0xFFFD) = [] := by
    refine enc_stuck T w.noError ?_
    rintro ⟨d, t, hd, e⟩
    have e' : utf8Char 0xFFFD ++ [] = utf8Char d ++ t := by rw [List.append_nil]; exact e
    have e'' := (utf8Char_inj (by decide) hd.1 e').1
    subst e''
    rcases hd.2 with h | h
    · omega
    · exact h w.noError
  rw [h3] at h1
  exact absurd h1 (by simp)

/-- The bytes do not start with a pair that has a meaning, nor with ASCII. -/
def Spec.Undecodable (T : Big5Tables) (b : Bytes) : Prop :=
  match b with
  | [] => False
  | [a] => 0x80 ≤ a.toNat
  | a :: c :: _ => 0x80 ≤ a.toNat ∧
      (IsPair a.toNat c.toNat → ¬ TwoChars (pairNo a.toNat c.toNat) ∧ T.decode (pairNo a.toNat c.toNat) = 0)

/-- Undecodable bytes give U+FFFD first. -/
theorem dec_undecodable {b : Bytes} (h : Undecodable T b) : ∃ t, T.dec b = utf8Char 0xFFFD ++ t := by
  have e0 : runeError = utf8Char 0xFFFD := by decide
  match b with
  | [] => exact h.elim
  | [a] =>
    have h : 0x80 ≤ a.toNat := h
    have k1 : ¬ a < 0x80 := by rw [UInt8.lt_iff_toNat_lt]; simp only [UInt8.reduceToNat]; omega
    exact ⟨[], by rw [Big5Tables.dec, if_neg k1, e0, List.append_nil]⟩
  | a :: c :: s =>
    obtain ⟨h1, h2⟩ : 0x80 ≤ a.toNat ∧
      (IsPair a.toNat c.toNat → ¬ TwoChars (pairNo a.toNat c.toNat) ∧ T.decode (pairNo a.toNat c.toNat) = 0) := h
    by_cases hp : IsPair a.toNat c.toNat
    · obtain ⟨h3, h4⟩ := h2 hp
      refine ⟨T.dec s, ?_⟩
      unfold TwoChars at h3
      rw [dec_pair T hp, Big5Tables.pair, if_neg (fun x => h3 (Or.inl x)), if_neg (fun x => h3 (Or.inr (Or.inl x))),
        if_neg (fun x => h3 (Or.inr (Or.inr (Or.inl x)))), if_neg (fun x => h3 (Or.inr (Or.inr (Or.inr x)))), if_pos h4, e0]
    · have k1 : ¬ a < 0x80 := by rw [UInt8.lt_iff_toNat_lt]; simp only [UInt8.reduceToNat]; omega
      rw [Big5Tables.dec, if_neg k1]
      split
      · rename_i k2
        have k3 : ¬ (0x40 ≤ c ∧ c < 0x7F) := by
          intro k
          apply hp
          unfold IsPair
          rw [UInt8.lt_iff_toNat_lt, UInt8.le_iff_toNat_le] at k k2
          simp only [UInt8.reduceToNat] at k k2
          omega
        have k4 : ¬ (0xA1 ≤ c ∧ c < 0xFF) := by
          intro k
          apply hp
          unfold IsPair
          rw [UInt8.lt_iff_toNat_lt, UInt8.le_iff_toNat_le] at k k2
          simp only [UInt8.reduceToNat] at k k2
          omega
        rw [if_neg k3, if_neg k4]
        split
        · exact ⟨_, by rw [e0]⟩
        · exact ⟨_, by rw [e0]⟩
      · exact ⟨_, by rw [e0]⟩

/-- **C95**: writing back drops everything from the first bytes that have no meaning. -/
theorem C95_resave_drops {T : Big5Tables} (w : Fit T) (cs : List Nat) (h : ∀ c ∈ cs, Encodable T c) (rest : Bytes)
    (hr : Undecodable T rest) : T.enc (T.dec (big5Text T cs ++ rest)) = big5Text T cs := by
  obtain ⟨t, e⟩ := dec_undecodable T hr
  rw [dec_chars w h, e]
  refine C94_exact T w.noError cs h _ ?_
  rintro ⟨d, u, hd, e1⟩
  have e2 := (utf8Char_inj (by decide) hd.1 e1).1
  subst e2
  rcases hd.2 with h | h
  · omega
  · exact h w.noError

/-- An undefined pair in the middle of 新的: the second character is lost as well. -/
example : Undecodable sampleTables ([0xFE, 0xFE, 0xAA, 0xBA] : Bytes) ∧
    sampleTables.enc (sampleTables.dec [0xB7, 0x73, 0xFE, 0xFE, 0xAA, 0xBA]) = [0xB7, 0x73] := by
  refine ⟨⟨by decide, fun _ => ⟨?_, by decide +kernel⟩⟩, by decide +kernel⟩
  unfold TwoChars
  decide

/-- **C95**: the Big5 form takes one or two bytes per character, and contains NUL only for the character NUL. -/
theorem C95_shape {T : Big5Tables} (w : Fit T) (cs : List Nat) (h : ∀ c ∈ cs, Encodable T c) :
    (big5Text T cs).length = (cs.map fun c => if c < 0x80 then 1 else 2).sum ∧
    ((0 : UInt8) ∈ big5Text T cs ↔ 0 ∈ cs) := by
  induction cs with
  | nil => exact ⟨rfl, by simp [big5Text]⟩
  | cons c cs ih =>
    obtain ⟨i1, i2⟩ := ih (fun d hd => h d (by simp [hd]))
    have hc := h c (by simp)
    have e : big5Text T (c :: cs) = big5Char T c ++ big5Text T cs := by simp [big5Text]
    constructor
    · rw [e, List.length_append, i1, List.map_cons, List.sum_cons]
      unfold big5Char
      split <;> rfl
    · rw [e, List.mem_append, i2, List.mem_cons]
      have : (0 : UInt8) ∈ big5Char T c ↔ 0 = c := by
        unfold big5Char
        split
        · rename_i hl
          simp only [List.mem_singleton, ← UInt8.toNat_inj, UInt8.toNat_ofNat', UInt8.reduceToNat]
          omega
        · rename_i hl
          have he : T.encode c ≠ 0 := hc.2.resolve_left hl
          obtain ⟨b1, b2⟩ := code_bytes w he
          have hp := (w.pair c he).2
          unfold IsPair at hp
          simp only [List.mem_cons, List.not_mem_nil, or_false, ← UInt8.toNat_inj, b1, b2, UInt8.reduceToNat]
          omega
      rw [this]

/-! ## C96: texts cut at the end of a field -/

/-- The characters of a text that fit whole into `n` bytes. -/
def Spec.fitting : Nat → List Nat → List Nat
  | _, [] => []
  | n, c :: cs =>
    if c < 0x80 then (if 1 ≤ n then c :: fitting (n - 1) cs else [])
    else if 2 ≤ n then c :: fitting (n - 2) cs else []

/-- The `n`-th byte boundary falls inside a character. -/
def Spec.splits : Nat → List Nat → Prop
  | _, [] => False
  | n, c :: cs =>
    if c < 0x80 then (if 1 ≤ n then splits (n - 1) cs else False)
    else if 2 ≤ n then splits (n - 2) cs else n = 1

instance decSplits : (n : Nat) → (cs : List Nat) → Decidable (Spec.splits n cs)
  | _, [] => isFalse id
  | n, c :: cs => by
    unfold Spec.splits
    have := decSplits (n - 1) cs
    have := decSplits (n - 2) cs
    infer_instance

/-- **C96, exactly**: of a text cut to `n` bytes the characters that fit are read, and U+FFFD if the cut falls inside a
character. -/
theorem C96_cut_exact {T : Big5Tables} (w : Fit T) (cs : List Nat) (h : ∀ c ∈ cs, Encodable T c) (n : Nat) :
    T.dec ((T.enc (utf8Text cs)).take n) = utf8Text (fitting n cs ++ if splits n cs then [0xFFFD] else []) := by
  rw [C94_loses_partial T cs h]
  induction cs generalizing n with
  | nil => simp [big5Text, fitting, splits, utf8Text, Big5Tables.dec]
  | cons c cs ih =>
    have hc := h c (by simp)
    have hcs : ∀ d ∈ cs, Encodable T d := fun d hd => h d (by simp [hd])
    have e : big5Text T (c :: cs) = big5Char T c ++ big5Text T cs := by simp [big5Text]
    have key : ∀ k, (big5Char T c).length = k → k ≤ n →
        T.dec ((big5Text T (c :: cs)).take n) =
          utf8Text (c :: (fitting (n - k) cs ++ if splits (n - k) cs then [0xFFFD] else [])) := by
      intro k hk hkn
      rw [e, List.take_append, List.take_of_length_le (by omega), hk, dec_char w hc, ih hcs]
      simp [utf8Text]
    by_cases hl : c < 0x80
    · have hk : (big5Char T c).length = 1 := by unfold big5Char; rw [if_pos hl]; rfl
      by_cases hn : 1 ≤ n
      · rw [key 1 hk hn]
        simp [fitting, splits, hl, hn]
      · have : n = 0 := by omega
        subst this
        simp [fitting, splits, hl, utf8Text, Big5Tables.dec]
    · have hk : (big5Char T c).length = 2 := by unfold big5Char; rw [if_neg hl]; rfl
      by_cases hn : 2 ≤ n
      · rw [key 2 hk hn]
        simp [fitting, splits, hl, hn]
      · have he : T.encode c ≠ 0 := hc.2.resolve_left hl
        obtain ⟨b1, _⟩ := code_bytes w he
        have hp := (w.pair c he).2.1
        by_cases h0 : n = 0
        · subst h0
          simp [fitting, splits, hl, utf8Text, Big5Tables.dec]
        · have : n = 1 := by omega
          subst this
          have e1 : (big5Text T (c :: cs)).take 1 = [UInt8.ofNat (T.encode c / 256)] := by
            rw [e]; unfold big5Char; rw [if_neg hl]; rfl
          have k1 : ¬ UInt8.ofNat (T.encode c / 256) < 0x80 := by
            rw [UInt8.lt_iff_toNat_lt, b1]; simp only [UInt8.reduceToNat]; omega
          have e0 : runeError = utf8Char 0xFFFD := by decide
          rw [e1, Big5Tables.dec, if_neg k1, e0]
          simp [fitting, splits, hl, utf8Text]

/-- The full claim of C96: a text that is too long loses whole characters only. -/
def Spec.CutsWhole (T : Big5Tables) : Prop :=
  ∀ cs n, (∀ c ∈ cs, Encodable T c) → ∃ k, T.dec ((T.enc (utf8Text cs)).take n) = utf8Text (cs.take k)

/-- **C96 is false of the code** as soon as Big5 has a double-byte character: cut after its first byte it is read as U+FFFD. -/
theorem C96_cut_refuted {T : Big5Tables} (w : Fit T) (c : Nat) (hc : T.encode c ≠ 0) : ¬ Spec.CutsWhole T := by
  intro h
  have hw := w.wide c hc
  have he : Encodable T c := ⟨hw.1, Or.inr hc⟩
  obtain ⟨k, hk⟩ := h [c] 1 (by simpa using he)
  rw [C96_cut_exact w [c] (by simpa using he)] at hk
  have hl : ¬ c < 0x80 := by omega
  have hne : c ≠ 0xFFFD := fun x => hc (x ▸ w.noError)
  cases k with
  | zero => simp [fitting, splits, hl, utf8Text, utf8Char] at hk
  | succ k =>
    simp only [fitting, splits, hl, utf8Text, List.take_succ_cons, List.take_nil] at hk
    simp only [if_false, show ¬ (2 ≤ 1) by omega, if_true, List.nil_append, List.flatMap_cons, List.flatMap_nil] at hk
    exact hne (utf8Char_inj hw.1 (by decide) hk.symm).1

/-- **C96, the part that holds**: a cut between two characters loses whole characters only. (Missing for the full claim: a cut
inside a character, which leaves U+FFFD by `C96_cut_exact`.) -/
theorem C96_cut_partial {T : Big5Tables} (w : Fit T) (cs : List Nat) (h : ∀ c ∈ cs, Encodable T c) (n : Nat)
    (hs : ¬ splits n cs) : ∃ k, T.dec ((T.enc (utf8Text cs)).take n) = utf8Text (cs.take k) := by
  have hf : ∀ cs n, ∃ k, fitting n cs = cs.take k := by
    intro cs
    induction cs with
    | nil => exact fun n => ⟨0, rfl⟩
    | cons c cs ih =>
      intro n
      unfold fitting
      split
      · split
        · obtain ⟨k, hk⟩ := ih (n - 1); exact ⟨k + 1, by rw [hk]; rfl⟩
        · exact ⟨0, rfl⟩
      · split
        · obtain ⟨k, hk⟩ := ih (n - 2); exact ⟨k + 1, by rw [hk]; rfl⟩
        · exact ⟨0, rfl⟩
  obtain ⟨k, hk⟩ := hf cs n
  exact ⟨k, by rw [C96_cut_exact w cs h, if_neg hs, List.append_nil, hk]⟩

/-- 新a的 cut to four bytes, and to three. -/
example : splits 4 [0x65B0, 65, 0x7684] ∧ ¬ splits 3 [0x65B0, 65, 0x7684] ∧
    sampleTables.dec ((sampleTables.enc (utf8Text [0x65B0, 65, 0x7684])).take 4) = utf8Text [0x65B0, 65, 0xFFFD] ∧
    sampleTables.encode 0x65B0 ≠ 0 := by decide +kernel

end Verif
