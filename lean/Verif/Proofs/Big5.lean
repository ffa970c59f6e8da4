import Verif.Spec.Unicode
import Verif.Model.Big5
/-!
# Lemmas on UTF-8 and the Big5 transformers
-/

namespace Verif
open Spec

theorem isCont_ofNat {n : Nat} (h : n < 64) : isCont (UInt8.ofNat (0x80 + n)) = true := by
  simp only [isCont, Bool.and_eq_true, decide_eq_true_eq, UInt8.le_iff_toNat_le, UInt8.toNat_ofNat', UInt8.reduceToNat]
  omega

/-- The encoding of a scalar value is read as one rune, whatever follows. -/
theorem runes_utf8Char {n : Nat} (h : Scalar n) (rest : Bytes) :
    runes (utf8Char n ++ rest) = ⟨n, utf8Char n⟩ :: runes rest := by
  unfold Scalar at h
  unfold utf8Char
  split
  · rename_i h1
    have hb : UInt8.ofNat n < 0x80 := by
      rw [UInt8.lt_iff_toNat_lt, UInt8.toNat_ofNat']; simp only [UInt8.reduceToNat]; omega
    rw [List.singleton_append, runes_ascii_cons hb]
    simp only [asciiRune, UInt8.toNat_ofNat']
    congr 2
    omega
  split
  · rename_i h1 h2
    generalize e0 : UInt8.ofNat (0xC0 + n / 64) = b0
    generalize e1 : UInt8.ofNat (0x80 + n % 64) = b1
    have n0 : b0.toNat = 0xC0 + n / 64 := by subst e0; rw [UInt8.toNat_ofNat']; omega
    have n1 : b1.toNat = 0x80 + n % 64 := by subst e1; rw [UInt8.toNat_ofNat']; omega
    have hok : ok2 b0 b1 = true := by
      simp only [ok2, isCont, Bool.and_eq_true, decide_eq_true_eq, UInt8.le_iff_toNat_le, UInt8.reduceToNat, n0, n1]
      omega
    have hw : runeWidth b0 (b1 :: rest) = 2 := by
      cases rest with
      | nil => simp [runeWidth, hok]
      | cons b2 t => cases t <;> simp [runeWidth, hok]
    have := runes_cons b0 (b1 :: rest)
    rw [hw] at this
    simp only [List.take_succ_cons, List.take_zero, List.drop_succ_cons, List.drop_zero] at this
    simp only [List.cons_append, List.nil_append]
    have hv : runeVal [b0, b1] = n := by rw [(ok2_val hok).1]; omega
    rw [this, hv]
  split
  · rename_i h1 h2 h3
    generalize e0 : UInt8.ofNat (0xE0 + n / 4096) = b0
    generalize e1 : UInt8.ofNat (0x80 + n / 64 % 64) = b1
    generalize e2 : UInt8.ofNat (0x80 + n % 64) = b2
    have n0 : b0.toNat = 0xE0 + n / 4096 := by subst e0; rw [UInt8.toNat_ofNat']; omega
    have n1 : b1.toNat = 0x80 + n / 64 % 64 := by subst e1; rw [UInt8.toNat_ofNat']; omega
    have n2 : b2.toNat = 0x80 + n % 64 := by subst e2; rw [UInt8.toNat_ofNat']; omega
    have hno : ok2 b0 b1 = false := by
      have : ¬ b0 ≤ 0xDF := by rw [UInt8.le_iff_toNat_le, n0]; simp only [UInt8.reduceToNat]; omega
      simp [ok2, this]
    have hok : ok3 b0 b1 = true := by
      simp only [ok3, isCont, Bool.and_eq_true, Bool.not_eq_true', decide_eq_true_eq, UInt8.le_iff_toNat_le,
        Bool.and_eq_false_iff, beq_eq_false_iff_ne, decide_eq_false_iff_not, UInt8.lt_iff_toNat_lt, ne_eq,
        ← UInt8.toNat_inj, UInt8.reduceToNat, n0, n1]
      omega
    have hc : isCont b2 = true := by
      simp only [isCont, Bool.and_eq_true, decide_eq_true_eq, UInt8.le_iff_toNat_le, UInt8.reduceToNat, n2]
      omega
    have hw : runeWidth b0 (b1 :: b2 :: rest) = 3 := by
      cases rest <;> simp [runeWidth, hno, hok, hc]
    have := runes_cons b0 (b1 :: b2 :: rest)
    rw [hw] at this
    simp only [List.take_succ_cons, List.take_zero, List.drop_succ_cons, List.drop_zero] at this
    simp only [List.cons_append, List.nil_append]
    have hv : runeVal [b0, b1, b2] = n := by rw [runeVal_3 b0 b1 b2]; omega
    rw [this, hv]
  · rename_i h1 h2 h3
    generalize e0 : UInt8.ofNat (0xF0 + n / 262144) = b0
    generalize e1 : UInt8.ofNat (0x80 + n / 4096 % 64) = b1
    generalize e2 : UInt8.ofNat (0x80 + n / 64 % 64) = b2
    generalize e3 : UInt8.ofNat (0x80 + n % 64) = b3
    have n0 : b0.toNat = 0xF0 + n / 262144 := by subst e0; rw [UInt8.toNat_ofNat']; omega
    have n1 : b1.toNat = 0x80 + n / 4096 % 64 := by subst e1; rw [UInt8.toNat_ofNat']; omega
    have n2 : b2.toNat = 0x80 + n / 64 % 64 := by subst e2; rw [UInt8.toNat_ofNat']; omega
    have n3 : b3.toNat = 0x80 + n % 64 := by subst e3; rw [UInt8.toNat_ofNat']; omega
    have hno : ok2 b0 b1 = false := by
      have : ¬ b0 ≤ 0xDF := by rw [UInt8.le_iff_toNat_le, n0]; simp only [UInt8.reduceToNat]; omega
      simp [ok2, this]
    have hno3 : ok3 b0 b1 = false := by
      have : ¬ b0 ≤ 0xEF := by rw [UInt8.le_iff_toNat_le, n0]; simp only [UInt8.reduceToNat]; omega
      simp [ok3, this]
    have hok : ok4 b0 b1 = true := by
      simp only [ok4, isCont, Bool.and_eq_true, Bool.not_eq_true', decide_eq_true_eq, UInt8.le_iff_toNat_le,
        Bool.and_eq_false_iff, beq_eq_false_iff_ne, decide_eq_false_iff_not, UInt8.lt_iff_toNat_lt, ne_eq,
        ← UInt8.toNat_inj, UInt8.reduceToNat, n0, n1]
      omega
    have hc : isCont b2 = true := by
      simp only [isCont, Bool.and_eq_true, decide_eq_true_eq, UInt8.le_iff_toNat_le, UInt8.reduceToNat, n2]
      omega
    have hc3 : isCont b3 = true := by
      simp only [isCont, Bool.and_eq_true, decide_eq_true_eq, UInt8.le_iff_toNat_le, UInt8.reduceToNat, n3]
      omega
    have hw : runeWidth b0 (b1 :: b2 :: b3 :: rest) = 4 := by
      simp [runeWidth, hno, hno3, hok, hc, hc3]
    have := runes_cons b0 (b1 :: b2 :: b3 :: rest)
    rw [hw] at this
    simp only [List.take_succ_cons, List.take_zero, List.drop_succ_cons, List.drop_zero] at this
    simp only [List.cons_append, List.nil_append]
    have hv : runeVal [b0, b1, b2, b3] = n := by rw [runeVal_4 b0 b1 b2 b3]; omega
    rw [this, hv]

theorem utf8Char_ne_nil (n : Nat) : utf8Char n ≠ [] := by
  unfold utf8Char
  repeat' split
  all_goals simp

theorem encodeRune_scalar {n : Nat} (h : Scalar n) : encodeRune n = utf8Char n := by
  unfold Scalar at h
  unfold encodeRune utf8Char
  by_cases h1 : n < 0x80
  · rw [if_pos (by omega), if_pos h1]
  rw [if_neg (by omega), if_neg h1]
  by_cases h2 : n < 0x800
  · rw [if_pos (by omega), if_pos h2]
  rw [if_neg (by omega), if_neg h2, if_neg (by omega)]
  by_cases h3 : n < 0x10000
  · rw [if_pos (by omega), if_pos h3]
  rw [if_neg (by omega), if_neg h3]

/-- A string starts with the encoding of a scalar value, or with a byte that is read as U+FFFD. -/
theorem rune_cases (b : UInt8) (rest : Bytes) :
    (∃ n t, Scalar n ∧ b :: rest = utf8Char n ++ t) ∨
    (0x80 ≤ b.toNat ∧ runes (b :: rest) = ⟨0xFFFD, [b]⟩ :: runes rest) := by
  by_cases hb : b < 0x80
  · left
    have hn : b.toNat < 128 := by rw [UInt8.lt_iff_toNat_lt] at hb; simpa using hb
    refine ⟨b.toNat, rest, Or.inl (by omega), ?_⟩
    rw [utf8Char, if_pos hn]
    simp
  have hn : 128 ≤ b.toNat := by rw [UInt8.lt_iff_toNat_lt] at hb; simp only [UInt8.reduceToNat] at hb; omega
  have w1 : runeWidth b rest = 1 → runes (b :: rest) = ⟨0xFFFD, [b]⟩ :: runes rest := by
    intro h
    have := runes_cons b rest
    rw [h, List.take_succ_cons, List.take_zero, List.drop_succ_cons, List.drop_zero, runeVal_1, if_neg hb] at this
    exact this
  have c2 : ∀ b1 t, rest = b1 :: t → ok2 b b1 = true → ∃ n t, Scalar n ∧ b :: rest = utf8Char n ++ t := by
    intro b1 t e h
    subst e
    simp only [ok2, isCont, Bool.and_eq_true, decide_eq_true_eq, UInt8.le_iff_toNat_le, UInt8.reduceToNat] at h
    refine ⟨(b.toNat - 0xC0) * 64 + (b1.toNat - 0x80), t, Or.inl (by omega), ?_⟩
    rw [utf8Char, if_neg (by omega), if_pos (by omega)]
    have e0 : UInt8.ofNat (0xC0 + ((b.toNat - 0xC0) * 64 + (b1.toNat - 0x80)) / 64) = b := by
      apply UInt8.toNat_inj.mp; rw [UInt8.toNat_ofNat']; omega
    have e1 : UInt8.ofNat (0x80 + ((b.toNat - 0xC0) * 64 + (b1.toNat - 0x80)) % 64) = b1 := by
      apply UInt8.toNat_inj.mp; rw [UInt8.toNat_ofNat']; omega
    rw [e0, e1]; rfl
  have c3 : ∀ b1 b2 t, rest = b1 :: b2 :: t → ok3 b b1 = true → isCont b2 = true →
      ∃ n t, Scalar n ∧ b :: rest = utf8Char n ++ t := by
    intro b1 b2 t e h h'
    subst e
    simp only [ok3, isCont, Bool.and_eq_true, Bool.not_eq_true', decide_eq_true_eq, UInt8.le_iff_toNat_le,
      Bool.and_eq_false_iff, beq_eq_false_iff_ne, decide_eq_false_iff_not, UInt8.lt_iff_toNat_lt, ne_eq,
      ← UInt8.toNat_inj, UInt8.reduceToNat] at h h'
    refine ⟨(b.toNat - 0xE0) * 4096 + (b1.toNat - 0x80) * 64 + (b2.toNat - 0x80), t, ?_, ?_⟩
    · unfold Scalar; omega
    rw [utf8Char, if_neg (by omega), if_neg (by omega), if_pos (by omega)]
    have e0 : UInt8.ofNat (0xE0 + ((b.toNat - 0xE0) * 4096 + (b1.toNat - 0x80) * 64 + (b2.toNat - 0x80)) / 4096) = b := by
      apply UInt8.toNat_inj.mp; rw [UInt8.toNat_ofNat']; omega
    have e1 : UInt8.ofNat (0x80 + ((b.toNat - 0xE0) * 4096 + (b1.toNat - 0x80) * 64 + (b2.toNat - 0x80)) / 64 % 64) = b1 := by
      apply UInt8.toNat_inj.mp; rw [UInt8.toNat_ofNat']; omega
    have e2 : UInt8.ofNat (0x80 + ((b.toNat - 0xE0) * 4096 + (b1.toNat - 0x80) * 64 + (b2.toNat - 0x80)) % 64) = b2 := by
      apply UInt8.toNat_inj.mp; rw [UInt8.toNat_ofNat']; omega
    rw [e0, e1, e2]; rfl
  have c4 : ∀ b1 b2 b3 t, rest = b1 :: b2 :: b3 :: t → ok4 b b1 = true → isCont b2 = true → isCont b3 = true →
      ∃ n t, Scalar n ∧ b :: rest = utf8Char n ++ t := by
    intro b1 b2 b3 t e h h' h''
    subst e
    simp only [ok4, isCont, Bool.and_eq_true, Bool.not_eq_true', decide_eq_true_eq, UInt8.le_iff_toNat_le,
      Bool.and_eq_false_iff, beq_eq_false_iff_ne, decide_eq_false_iff_not, UInt8.lt_iff_toNat_lt, ne_eq,
      ← UInt8.toNat_inj, UInt8.reduceToNat] at h h' h''
    refine ⟨(b.toNat - 0xF0) * 262144 + (b1.toNat - 0x80) * 4096 + (b2.toNat - 0x80) * 64 + (b3.toNat - 0x80), t, ?_, ?_⟩
    · unfold Scalar; omega
    rw [utf8Char, if_neg (by omega), if_neg (by omega), if_neg (by omega)]
    generalize hv : (b.toNat - 0xF0) * 262144 + (b1.toNat - 0x80) * 4096 + (b2.toNat - 0x80) * 64 + (b3.toNat - 0x80) = v
    have e0 : UInt8.ofNat (0xF0 + v / 262144) = b := by apply UInt8.toNat_inj.mp; rw [UInt8.toNat_ofNat']; omega
    have e1 : UInt8.ofNat (0x80 + v / 4096 % 64) = b1 := by apply UInt8.toNat_inj.mp; rw [UInt8.toNat_ofNat']; omega
    have e2 : UInt8.ofNat (0x80 + v / 64 % 64) = b2 := by apply UInt8.toNat_inj.mp; rw [UInt8.toNat_ofNat']; omega
    have e3 : UInt8.ofNat (0x80 + v % 64) = b3 := by apply UInt8.toNat_inj.mp; rw [UInt8.toNat_ofNat']; omega
    rw [e0, e1, e2, e3]; rfl
  match rest with
  | [] => exact Or.inr ⟨hn, w1 rfl⟩
  | [b1] =>
    by_cases h2 : ok2 b b1 = true
    · exact Or.inl (c2 _ _ rfl h2)
    · exact Or.inr ⟨hn, w1 (by simp [runeWidth, h2])⟩
  | [b1, b2] =>
    by_cases h2 : ok2 b b1 = true
    · exact Or.inl (c2 _ _ rfl h2)
    by_cases h3 : (ok3 b b1 && isCont b2) = true
    · rw [Bool.and_eq_true] at h3
      exact Or.inl (c3 _ _ _ rfl h3.1 h3.2)
    · exact Or.inr ⟨hn, w1 (by simp only [runeWidth, h2, h3]; rfl)⟩
  | b1 :: b2 :: b3 :: t =>
    by_cases h2 : ok2 b b1 = true
    · exact Or.inl (c2 _ _ rfl h2)
    by_cases h3 : (ok3 b b1 && isCont b2) = true
    · rw [Bool.and_eq_true] at h3
      exact Or.inl (c3 _ _ _ rfl h3.1 h3.2)
    by_cases h4 : (ok4 b b1 && isCont b2 && isCont b3) = true
    · rw [Bool.and_eq_true, Bool.and_eq_true] at h4
      exact Or.inl (c4 _ _ _ _ rfl h4.1.1 h4.1.2 h4.2)
    · exact Or.inr ⟨hn, w1 (by simp only [runeWidth, h2, h3, h4]; rfl)⟩

end Verif
