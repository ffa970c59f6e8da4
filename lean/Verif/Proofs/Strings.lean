import Verif.Go.Strings
/-!
# Lemmas on `strings` and `bufio.Scanner`
-/

namespace Verif

/-! ## Trimming -/

theorem trimLeftAux_fuel : ∀ (g n : Nat) (s : Bytes), s.length ≤ n → s.length ≤ g → trimLeftAux n s = trimLeftAux g s := by
  intro g
  induction g with
  | zero =>
    intro n s _ h2
    have : s = [] := List.length_eq_zero_iff.mp (by omega)
    subst this
    cases n <;> rfl
  | succ g ih =>
    intro n s h1 h2
    match n, s with
    | 0, [] => rfl
    | 0, a :: s => simp at h1
    | n + 1, [] => rfl
    | n + 1, [a] => rfl
    | n + 1, [a, b] =>
      simp only [List.length_cons, List.length_nil] at h1 h2
      simp only [trimLeftAux]
      rw [ih n [b] (by simp; omega) (by simp; omega)]
    | n + 1, a :: b :: c :: t =>
      simp only [List.length_cons] at h1 h2
      simp only [trimLeftAux]
      rw [ih n (b :: c :: t) (by simp; omega) (by simp; omega), ih n (c :: t) (by simp; omega) (by simp; omega),
        ih n t (by omega) (by omega)]

theorem trimRightAux_fuel : ∀ (g n : Nat) (s : Bytes), s.length ≤ n → s.length ≤ g →
    trimRightAux n s = trimRightAux g s := by
  intro g
  induction g with
  | zero =>
    intro n s _ h2
    have : s = [] := List.length_eq_zero_iff.mp (by omega)
    subst this
    cases n <;> rfl
  | succ g ih =>
    intro n s h1 h2
    match n, s with
    | 0, [] => rfl
    | 0, a :: s => simp at h1
    | n + 1, [] => rfl
    | n + 1, [a] => rfl
    | n + 1, [a, b] =>
      simp only [List.length_cons, List.length_nil] at h1 h2
      simp only [trimRightAux]
      rw [ih n [b] (by simp; omega) (by simp; omega)]
    | n + 1, a :: b :: c :: t =>
      simp only [List.length_cons] at h1 h2
      simp only [trimRightAux]
      rw [ih n (b :: c :: t) (by simp; omega) (by simp; omega), ih n (c :: t) (by simp; omega) (by simp; omega),
        ih n t (by omega) (by omega)]

theorem trimLeft_nil : trimLeft [] = [] := rfl

theorem trimLeft_one (a : UInt8) : trimLeft [a] = if isAsciiSpace a then [] else [a] := rfl

theorem trimLeft_two (a b : UInt8) :
    trimLeft [a, b] = if isAsciiSpace a then trimLeft [b] else if isSpace2 a b then [] else [a, b] := rfl

theorem trimLeft_three (a b c : UInt8) (t : Bytes) : trimLeft (a :: b :: c :: t) =
    if isAsciiSpace a then trimLeft (b :: c :: t)
    else if isSpace2 a b then trimLeft (c :: t)
    else if isSpace3 a b c then trimLeft t
    else a :: b :: c :: t := by
  have e : trimLeft (a :: b :: c :: t) =
      if isAsciiSpace a then trimLeftAux (t.length + 2) (b :: c :: t)
      else if isSpace2 a b then trimLeftAux (t.length + 2) (c :: t)
      else if isSpace3 a b c then trimLeftAux (t.length + 2) t
      else a :: b :: c :: t := rfl
  rw [e]
  unfold trimLeft
  rw [trimLeftAux_fuel (t.length + 1) (t.length + 2) (c :: t) (by simp) (by simp),
    trimLeftAux_fuel t.length (t.length + 2) t (by omega) (by omega)]
  rfl

theorem isAsciiSpace_32 : isAsciiSpace 32 = true := by decide

theorem trimLeft_space (s : Bytes) : trimLeft (32 :: s) = trimLeft s := by
  match s with
  | [] => rfl
  | [a] => rw [trimLeft_two, isAsciiSpace_32]; rfl
  | a :: b :: t => rw [trimLeft_three, isAsciiSpace_32]; rfl

theorem trimRight_space (s : Bytes) : trimRight (s ++ [32]) = trimRight s := by
  unfold trimRight
  rw [List.reverse_append, List.length_append]
  simp only [List.reverse_cons, List.reverse_nil, List.nil_append, List.singleton_append, List.length_singleton]
  congr 1
  match h : s.reverse with
  | [] =>
    have := congrArg List.length h
    simp at this
    subst this
    rfl
  | [a] =>
    have := congrArg List.length h
    simp at this
    rw [this]; rfl
  | a :: b :: t =>
    have := congrArg List.length h
    simp at this
    rw [this]
    simp [trimRightAux, isAsciiSpace_32]

/-- A byte that is neither part of a space nor white itself stays (and so does everything before it when trimming on the
right). -/
theorem isSpace2_right {a : UInt8} {b : UInt8} (h : b < 0x80) : isSpace2 a b = false := by
  have h1 : b ≠ 0x85 := by intro e; subst e; exact absurd h (by decide)
  have h2 : b ≠ 0xA0 := by intro e; subst e; exact absurd h (by decide)
  simp [isSpace2, h1, h2]

theorem isSpace3_right {a b c : UInt8} (h : c < 0x80) : isSpace3 a b c = false := by
  have h1 : c ≠ 0x80 := by intro e; subst e; exact absurd h (by decide)
  have h2 : c ≠ 0x9F := by intro e; subst e; exact absurd h (by decide)
  have h3 : c ≠ 0xA8 := by intro e; subst e; exact absurd h (by decide)
  have h4 : c ≠ 0xA9 := by intro e; subst e; exact absurd h (by decide)
  have h5 : c ≠ 0xAF := by intro e; subst e; exact absurd h (by decide)
  have h6 : ¬ (0x80 : UInt8) ≤ c := by
    rw [UInt8.lt_iff_toNat_lt] at h
    rw [UInt8.le_iff_toNat_le]
    exact Nat.not_le.mpr h
  simp [isSpace3, isSpaceE280, h1, h2, h3, h4, h5, h6]

theorem trimLeft_snoc_space (s : Bytes) :
    trimLeft (s ++ [32]) = trimLeft s ++ [32] ∨ (trimLeft s = [] ∧ trimLeft (s ++ [32]) = []) := by
  induction h : s.length using Nat.strongRecOn generalizing s with
  | _ n ih =>
    subst h
    match s with
    | [] => right; exact ⟨rfl, rfl⟩
    | [a] =>
      have e2 : isSpace2 a 32 = false := isSpace2_right (by decide)
      by_cases ha : isAsciiSpace a = true
      · right
        exact ⟨by rw [trimLeft_one, if_pos ha], by rw [List.singleton_append, trimLeft_two, if_pos ha]; rfl⟩
      · left
        rw [List.singleton_append, trimLeft_two a 32, trimLeft_one a, if_neg ha, if_neg ha, e2]; rfl
    | [a, b] =>
      have := ih 1 (by simp) [b] rfl
      have e3 : isSpace3 a b 32 = false := isSpace3_right (by decide)
      rw [List.cons_append, List.singleton_append, trimLeft_three a b 32 [], trimLeft_two a b, e3]
      by_cases ha : isAsciiSpace a = true
      · rw [if_pos ha, if_pos ha]; exact this
      · rw [if_neg ha, if_neg ha]
        by_cases hb : isSpace2 a b = true
        · rw [if_pos hb, if_pos hb]; right; exact ⟨rfl, rfl⟩
        · rw [if_neg hb, if_neg hb]; left; rfl
    | a :: b :: c :: t =>
      have h1 := ih _ (by simp) (b :: c :: t) rfl
      have h2 := ih _ (by simp) (c :: t) rfl
      have h3 := ih _ (by simp; omega) t rfl
      rw [List.cons_append, List.cons_append, List.cons_append, trimLeft_three a b c (t ++ [32]), trimLeft_three a b c t]
      by_cases ha : isAsciiSpace a = true
      · rw [if_pos ha, if_pos ha]; exact h1
      · rw [if_neg ha, if_neg ha]
        by_cases hb : isSpace2 a b = true
        · rw [if_pos hb, if_pos hb]; exact h2
        · rw [if_neg hb, if_neg hb]
          by_cases hc : isSpace3 a b c = true
          · rw [if_pos hc, if_pos hc]; exact h3
          · rw [if_neg hc, if_neg hc]; left; rfl

/-- Blanks around a text are trimmed. -/
theorem trimSpace_padded (s : Bytes) : trimSpace (32 :: (s ++ [32])) = trimSpace s := by
  unfold trimSpace
  rw [trimLeft_space]
  rcases trimLeft_snoc_space s with h | ⟨h1, h2⟩
  · rw [h, trimRight_space]
  · rw [h1, h2]

theorem trimSpace_blanks (n : Nat) (s : Bytes) : trimSpace (s ++ List.replicate n 32) = trimSpace s := by
  induction n generalizing s with
  | zero => simp
  | succ n ih =>
    rw [List.replicate_succ', ← List.append_assoc]
    have : trimSpace ((s ++ List.replicate n 32) ++ [32]) = trimSpace (s ++ List.replicate n 32) := by
      unfold trimSpace
      rcases trimLeft_snoc_space (s ++ List.replicate n 32) with h | ⟨h1, h2⟩
      · rw [h, trimRight_space]
      · rw [h1, h2]
    rw [this, ih]

/-! ## Splitting -/

/-- If `sep` starts at no position inside `x`, the text before it is `x`. -/
theorem breakOn_eq (sep x y : Bytes) (hs : sep ≠ [])
    (h : ∀ a z, x = a ++ z → z ≠ [] → ¬ sep <+: z ++ sep ++ y) : breakOn sep (x ++ sep ++ y) = (x, some y) := by
  induction x with
  | nil =>
    cases sep with
    | nil => exact absurd rfl hs
    | cons b sep =>
      rw [List.nil_append, List.cons_append, breakOn, if_pos]
      · rw [← List.cons_append, List.drop_left]
      · rw [List.isPrefixOf_iff_prefix]
        exact ⟨y, rfl⟩
  | cons b x ih =>
    have h1 := h [] (b :: x) rfl (by simp)
    rw [List.cons_append, List.cons_append, breakOn, if_neg, ih (fun a z e hz => h (b :: a) z (by rw [e]; rfl) hz)]
    rw [List.isPrefixOf_iff_prefix]
    exact h1

end Verif
