import Verif.Props.Big5
import Verif.Go.Path
import Verif.Model.Cstr
/-!
# C113: lines and terminators survive the conversion from Big5
-/

namespace Verif
open Spec

variable (T : Big5Tables)

/-- A byte below `0x40` is never part of a pair. -/
theorem dec_before_low {b : UInt8} (hb : b < 0x40) (x y : Bytes) : T.dec (x ++ b :: y) = T.dec x ++ b :: T.dec y := by
  have hb' : b < 0x80 := UInt8.lt_trans hb (by decide)
  have h1 : ¬ (0x40 ≤ b ∧ b < 0x7F) := fun h => absurd hb (UInt8.not_lt.2 h.1)
  have h2 : ¬ (0xA1 ≤ b ∧ b < 0xFF) := fun h => absurd hb' (UInt8.not_lt.2 (UInt8.le_trans (by decide) h.1))
  fun_induction Big5Tables.dec T x with
  | case1 => exact dec_ascii_cons T hb' y
  | case2 c0 h => simp [Big5Tables.dec, h, dec_ascii_cons T hb']
  | case3 c0 h =>
    simp only [List.cons_append, List.nil_append, Big5Tables.dec, h, if_false, h1, h2, hb, if_true, dec_ascii_cons T hb']
    split <;> rfl
  | case4 c0 c1 rest h ih =>
    simp only [List.cons_append] at ih ⊢
    rw [dec_ascii_cons T h, ih]
  | case5 c0 c1 rest h g k ih => simp only [List.cons_append, Big5Tables.dec, h, g, k, if_false, and_self, if_true, ih, List.append_assoc]
  | case6 c0 c1 rest h g k l ih => simp only [List.cons_append, Big5Tables.dec, h, g, k, l, if_false, and_self, if_true, ih, List.append_assoc]
  | case7 c0 c1 rest h g k l m ih =>
    simp only [List.cons_append] at ih
    simp only [List.cons_append, Big5Tables.dec, h, g, k, l, m, if_false, and_self, if_true, ih, List.append_assoc]
  | case8 c0 c1 rest h g k l m ih => simp only [List.cons_append, Big5Tables.dec, h, g, k, l, m, if_false, and_self, if_true, ih, List.append_assoc]
  | case9 c0 c1 rest h g ih =>
    simp only [List.cons_append] at ih
    simp only [List.cons_append, Big5Tables.dec, h, g, if_false, ih, List.append_assoc]

/-- **C113.** Converting to UTF-8 can be done before or after cutting at any byte below `0x40`: line ends, blanks, digits, escapes and the
terminator. -/
theorem C113_cut (b : UInt8) (hb : b < 0x40) (x y : Bytes) : T.dec (x ++ b :: y) = T.dec x ++ b :: T.dec y := dec_before_low T hb x y

example : sampleTables.dec ([0xB7, 0x73, 0xAA] ++ 0x0A :: [0xBA, 0xC6]) = sampleTables.dec [0xB7, 0x73, 0xAA] ++ 0x0A :: sampleTables.dec [0xBA, 0xC6] :=
  C113_cut _ _ (by decide) _ _

/-- A pair is never read as U+FFFD followed by one more byte of ASCII. -/
theorem pair_ne (i : Nat) (b : UInt8) : T.pair i ≠ runeError ++ [b] := by
  have hr : runeError = [0xEF, 0xBF, 0xBD] := by decide
  have key : ∀ n, encodeRune n ≠ [0xEF, 0xBF, 0xBD, b] := by
    intro n h
    unfold encodeRune at h
    split at h
    · exact absurd (congrArg List.length h) (fun e => by simp at e)
    · split at h
      · exact absurd (congrArg List.length h) (fun e => by simp at e)
      · split at h
        · exact absurd (congrArg List.length h) (fun e => by simp at e)
        · split at h
          · exact absurd (congrArg List.length h) (fun e => by simp at e)
          · next h1 h2 h3 h4 =>
            injection h with h _
            have h5 : n ≤ 0x10FFFF := by omega
            have := congrArg UInt8.toNat h
            rw [UInt8.toNat_ofNat_of_lt' (by simp [UInt8.size]; omega)] at this
            have e : (0xEF : UInt8).toNat = 239 := rfl
            rw [e] at this
            omega
  rw [hr]
  unfold Big5Tables.pair
  repeat' split
  · intro h; have : (encodeRune 0xCA ++ encodeRune 0x304).take 1 = [0xEF] := congrArg (·.take 1) h; exact absurd this (by decide)
  · intro h; have : (encodeRune 0xCA ++ encodeRune 0x30C).take 1 = [0xEF] := congrArg (·.take 1) h; exact absurd this (by decide)
  · intro h; have : (encodeRune 0xEA ++ encodeRune 0x304).take 1 = [0xEF] := congrArg (·.take 1) h; exact absurd this (by decide)
  · intro h; have : (encodeRune 0xEA ++ encodeRune 0x30C).take 1 = [0xEF] := congrArg (·.take 1) h; exact absurd this (by decide)
  · rw [hr]; intro h; exact absurd (congrArg List.length h) (fun e => by simp at e)
  · exact key _

/-- **C113, exactly**: the ASCII bytes at which texts can be cut, whatever the tables hold, are those below `0x40`. (From `0x40` on, with
all letters, `\\` and `|` among them, a byte can be swallowed by a lead byte.) -/
theorem C113_exact (b : UInt8) (hb : b < 0x80) : (∀ x y, T.dec (x ++ b :: y) = T.dec x ++ b :: T.dec y) ↔ b < 0x40 := by
  refine ⟨fun h => ?_, fun h x y => dec_before_low T h x y⟩
  refine Decidable.byContradiction fun hn => ?_
  have hn : 0x40 ≤ b := UInt8.not_lt.1 hn
  have := h [0xA4] []
  have e1 : T.dec [0xA4] = runeError := by simp [Big5Tables.dec]
  rw [e1] at this
  have e2 : T.dec [] = [] := rfl
  rw [e2] at this
  simp only [List.cons_append, List.nil_append] at this
  by_cases h7 : b < 0x7F
  · simp only [Big5Tables.dec, hn, h7, and_self, if_true, List.append_nil,
      show ¬ ((0xA4 : UInt8) < 0x80) by decide, show ((0x81 : UInt8) ≤ 0xA4 ∧ (0xA4 : UInt8) < 0xFF) by decide, if_false] at this
    exact pair_ne T _ b this
  · have hA : ¬ (0xA1 ≤ b ∧ b < 0xFF) := fun g => absurd hb (UInt8.not_lt.2 (UInt8.le_trans (by decide) g.1))
    have hL : ¬ b < 0x40 := UInt8.not_lt.2 hn
    simp only [Big5Tables.dec, hn, h7, hA, hL, and_false, List.append_nil,
      show ¬ ((0xA4 : UInt8) < 0x80) by decide, show ((0x81 : UInt8) ≤ 0xA4 ∧ (0xA4 : UInt8) < 0xFF) by decide, if_false, and_self, if_true] at this
    have := congrArg List.length this
    simp at this

example : (0x5C : UInt8) < 0x80 ∧ ¬ (0x5C : UInt8) < 0x40 := by decide

/-- The table holds no character below `0x40` (the table of the package holds none below `0x80`). -/
def Spec.NoLow (T : Big5Tables) : Prop := ∀ i, T.decode i = 0 ∨ 0x40 ≤ T.decode i

theorem high_rune {n : Nat} (h : 0x40 ≤ n) : ∀ b ∈ encodeRune n, (0x40 : UInt8) ≤ b := by
  have hi : ∀ m, 0x40 ≤ m → m < 256 → (0x40 : UInt8) ≤ UInt8.ofNat m := by
    intro m h1 h2
    rw [UInt8.le_iff_toNat_le, UInt8.toNat_ofNat_of_lt' (by simp [UInt8.size]; omega)]
    exact h1
  unfold encodeRune
  intro b hb
  split at hb
  · rw [List.mem_singleton.1 hb]; exact hi _ h (by omega)
  · split at hb
    · simp only [List.mem_cons, List.not_mem_nil, or_false] at hb
      rcases hb with rfl | rfl <;> exact hi _ (by omega) (by omega)
    · split at hb
      · simp only [List.mem_cons, List.not_mem_nil, or_false] at hb
        rcases hb with rfl | rfl | rfl <;> decide
      · split at hb
        · simp only [List.mem_cons, List.not_mem_nil, or_false] at hb
          rcases hb with rfl | rfl | rfl <;> exact hi _ (by omega) (by omega)
        · simp only [List.mem_cons, List.not_mem_nil, or_false] at hb
          rcases hb with rfl | rfl | rfl | rfl <;> exact hi _ (by omega) (by omega)

theorem high_error : ∀ b ∈ runeError, (0x40 : UInt8) ≤ b := high_rune (by decide)

theorem high_pair {T : Big5Tables} (hT : NoLow T) (i : Nat) : ∀ b ∈ T.pair i, (0x40 : UInt8) ≤ b := by
  have two : ∀ m n, 0x40 ≤ m → 0x40 ≤ n → ∀ b ∈ encodeRune m ++ encodeRune n, (0x40 : UInt8) ≤ b := by
    intro m n h1 h2 b hb
    rcases List.mem_append.1 hb with h | h
    · exact high_rune h1 b h
    · exact high_rune h2 b h
  unfold Big5Tables.pair
  repeat' split
  · exact two _ _ (by decide) (by decide)
  · exact two _ _ (by decide) (by decide)
  · exact two _ _ (by decide) (by decide)
  · exact two _ _ (by decide) (by decide)
  · exact high_error
  · next h => exact high_rune ((hT i).resolve_left h)

/-- A low byte of the result comes from the text. -/
theorem low_of_dec {T : Big5Tables} (hT : NoLow T) {b : UInt8} (hb : b < 0x40) (s : Bytes) (h : b ∈ T.dec s) : b ∈ s := by
  have no : ∀ l : Bytes, (∀ a ∈ l, (0x40 : UInt8) ≤ a) → b ∉ l := fun l hl hm => absurd hb (UInt8.not_lt.2 (hl b hm))
  fun_induction Big5Tables.dec T s with
  | case1 => exact h
  | case2 c0 _ => exact h
  | case3 c0 _ => exact absurd h (no _ high_error)
  | case4 c0 c1 rest _ ih =>
    rcases List.mem_cons.1 h with h | h
    · rw [h]; exact List.mem_cons_self
    · exact List.mem_cons_of_mem _ (ih h)
  | case5 => rename_i ih; exact List.mem_cons_of_mem _ (List.mem_cons_of_mem _ (ih ((List.mem_append.1 h).resolve_left (no _ (high_pair hT _)))))
  | case6 => rename_i ih; exact List.mem_cons_of_mem _ (List.mem_cons_of_mem _ (ih ((List.mem_append.1 h).resolve_left (no _ (high_pair hT _)))))
  | case7 => rename_i ih; exact List.mem_cons_of_mem _ (ih ((List.mem_append.1 h).resolve_left (no _ high_error)))
  | case8 => rename_i ih; exact List.mem_cons_of_mem _ (List.mem_cons_of_mem _ (ih ((List.mem_append.1 h).resolve_left (no _ high_error))))
  | case9 => rename_i ih; exact List.mem_cons_of_mem _ (ih ((List.mem_append.1 h).resolve_left (no _ high_error)))

theorem exists_split {b : UInt8} {s : Bytes} (h : b ∈ s) : ∃ x y, b ∉ x ∧ s = x ++ b :: y := by
  induction s with
  | nil => cases h
  | cons a s ih =>
    by_cases e : a = b
    · exact ⟨[], s, by simp, by rw [e]; rfl⟩
    · obtain ⟨x, y, h1, h2⟩ := ih ((List.mem_cons.1 h).resolve_left fun h => e h.symm)
      refine ⟨a :: x, y, ?_, by rw [h2]; rfl⟩
      intro hm
      rcases List.mem_cons.1 hm with h | h
      · exact e h.symm
      · exact h1 h

/-- **C113.** The lines of a converted text are the converted lines, for every byte string; so are the fields between any bytes below `0x40`. -/
theorem C113_lines {T : Big5Tables} (hT : NoLow T) (b : UInt8) (hb : b < 0x40) (s : Bytes) :
    splitByte b (T.dec s) = (splitByte b s).map T.dec := by
  match h : s.length with
  | n =>
    induction n using Nat.strongRecOn generalizing s with
    | _ n ih =>
      by_cases hm : b ∈ s
      · obtain ⟨x, y, h1, rfl⟩ := exists_split hm
        rw [dec_before_low T hb, splitByte_sep, splitByte_sep, List.map_append, splitByte_of_not_mem h1,
          splitByte_of_not_mem fun g => h1 (low_of_dec hT hb x g), ih y.length (by rw [← h]; simp; omega) y rfl]
        rfl
      · rw [splitByte_of_not_mem hm, splitByte_of_not_mem fun g => hm (low_of_dec hT hb s g)]
        rfl

/-- **C113.** The same bytes below `0x40`, in the same order: no line end is lost and none is invented. -/
theorem C113_low_bytes {T : Big5Tables} (hT : NoLow T) (s : Bytes) : (T.dec s).filter (· < 0x40) = s.filter (· < 0x40) := by
  have no : ∀ l : Bytes, (∀ a ∈ l, (0x40 : UInt8) ≤ a) → l.filter (· < 0x40) = [] := fun l hl =>
    List.filter_eq_nil_iff.2 fun a ha => by simpa using UInt8.not_lt.2 (hl a ha)
  have hi : ∀ c : UInt8, (0x40 : UInt8) ≤ c → ¬ c < 0x40 := fun c h => UInt8.not_lt.2 h
  fun_induction Big5Tables.dec T s with
  | case1 => rfl
  | case2 c0 _ => rfl
  | case3 c0 h =>
    rw [no _ high_error, List.filter_cons, if_neg (by simpa using hi c0 (UInt8.le_trans (by decide) (UInt8.not_lt.1 h)))]
    rfl
  | case4 c0 c1 rest _ ih => rw [List.filter_cons, ih, List.filter_cons (xs := c1 :: rest)]
  | case5 c0 c1 rest h g k ih =>
    rw [List.filter_append, no _ (high_pair hT _), ih, List.filter_cons, if_neg (by simpa using hi c0 (UInt8.le_trans (by decide) g.1)),
      List.filter_cons, if_neg (by simpa using hi c1 k.1)]
    rfl
  | case6 c0 c1 rest h g k l ih =>
    rw [List.filter_append, no _ (high_pair hT _), ih, List.filter_cons, if_neg (by simpa using hi c0 (UInt8.le_trans (by decide) g.1)),
      List.filter_cons, if_neg (by simpa using hi c1 (UInt8.le_trans (by decide) l.1))]
    rfl
  | case7 c0 c1 rest h g k l m ih =>
    rw [List.filter_append, no _ high_error, ih, List.filter_cons (x := c0), if_neg (by simpa using hi c0 (UInt8.le_trans (by decide) g.1))]
    rfl
  | case8 c0 c1 rest h g k l m ih =>
    rw [List.filter_append, no _ high_error, ih, List.filter_cons, if_neg (by simpa using hi c0 (UInt8.le_trans (by decide) g.1)),
      List.filter_cons, if_neg (by simpa using m)]
    rfl
  | case9 c0 c1 rest h g ih =>
    rw [List.filter_append, no _ high_error, ih, List.filter_cons (x := c0), if_neg (by simpa using hi c0 (UInt8.le_trans (by decide) (UInt8.not_lt.1 h)))]
    rfl

/-- **C113.** A field can be cut at its terminator before or after the conversion. -/
theorem C113_terminator {T : Big5Tables} (hT : NoLow T) (s : Bytes) : cstrToBytes (T.dec s) = (big5Codec T).ofCstr s := by
  change cstrToBytes (T.dec s) = T.dec (cstrToBytes s)
  have cut : ∀ x y : Bytes, 0 ∉ x → cstrToBytes (x ++ 0 :: y) = x := by
    intro x y hx
    have : indexByte (x ++ 0 :: y) 0 = some x.length := by
      unfold indexByte
      rw [List.findIdx?_append, List.findIdx?_eq_none_iff.2 (fun a ha => by simpa using fun e => hx (by rw [← e]; exact ha))]
      simp [List.findIdx?_cons]
    unfold cstrToBytes
    rw [this]
    simp
  have all : ∀ x : Bytes, 0 ∉ x → cstrToBytes x = x := by
    intro x hx
    unfold cstrToBytes indexByte
    rw [List.findIdx?_eq_none_iff.2 (fun a ha => by simpa using fun e => hx (by rw [← e]; exact ha))]
  by_cases hm : (0 : UInt8) ∈ s
  · obtain ⟨x, y, h1, rfl⟩ := exists_split hm
    rw [dec_before_low T (by decide), cut _ _ h1, cut _ _ fun g => h1 (low_of_dec hT (by decide) x g)]
  · rw [all _ hm, all _ fun g => hm (low_of_dec hT (by decide) s g)]

theorem sampleTables_noLow : NoLow sampleTables := by
  intro i
  simp only [sampleTables]
  repeat' split
  all_goals first | exact Or.inl rfl | exact Or.inr (by decide)

/-- Two lines, of which the first ends within a character. -/
example : NoLow sampleTables ∧ splitByte 0x0A [0xB7, 0x73, 0xAA, 0x0A, 0xAA, 0xBA] = [[0xB7, 0x73, 0xAA], [0xAA, 0xBA]] :=
  ⟨sampleTables_noLow, by decide⟩

end Verif
