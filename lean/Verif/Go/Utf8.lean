import Verif.Go.Basic
/-!
# UTF-8 decoding (`unicode/utf8.DecodeRuneInString`)

Go's regular expressions and `for range` read a string rune by rune; a byte that starts no valid encoding is one rune
U+FFFD of width 1. A rune is kept together with the bytes it was decoded from.
-/

namespace Verif

/-- A decoded rune and its bytes in the string. -/
structure Rune where
  val : Nat
  bytes : Bytes
  deriving DecidableEq, Repr

/-- Continuation byte. -/
def isCont (b : UInt8) : Bool := 0x80 ≤ b && b ≤ 0xBF

/-- The second byte may follow the first byte of a two-byte encoding. -/
def ok2 (b0 b1 : UInt8) : Bool := 0xC2 ≤ b0 && b0 ≤ 0xDF && isCont b1

/-- First two bytes of a three-byte encoding (no overlong forms, no surrogates). -/
def ok3 (b0 b1 : UInt8) : Bool :=
  0xE0 ≤ b0 && b0 ≤ 0xEF && isCont b1 && !(b0 == 0xE0 && b1 < 0xA0) && !(b0 == 0xED && 0x9F < b1)

/-- First two bytes of a four-byte encoding (no overlong forms, at most U+10FFFF). -/
def ok4 (b0 b1 : UInt8) : Bool :=
  0xF0 ≤ b0 && b0 ≤ 0xF4 && isCont b1 && !(b0 == 0xF0 && b1 < 0x90) && !(b0 == 0xF4 && 0x8F < b1)

/-- Width of the rune at the start of a non-empty string. -/
def runeWidth (b0 : UInt8) : Bytes → Nat
  | b1 :: b2 :: b3 :: _ =>
    if ok2 b0 b1 then 2 else if ok3 b0 b1 && isCont b2 then 3 else if ok4 b0 b1 && isCont b2 && isCont b3 then 4 else 1
  | [b1, b2] => if ok2 b0 b1 then 2 else if ok3 b0 b1 && isCont b2 then 3 else 1
  | [b1] => if ok2 b0 b1 then 2 else 1
  | [] => 1

/-- Value of an encoding of the given bytes; anything that is not one is U+FFFD. -/
def runeVal : Bytes → Nat
  | [b0] => if b0 < 0x80 then b0.toNat else 0xFFFD
  | [b0, b1] => (b0.toNat - 0xC0) * 64 + (b1.toNat - 0x80)
  | [b0, b1, b2] => (b0.toNat - 0xE0) * 4096 + (b1.toNat - 0x80) * 64 + (b2.toNat - 0x80)
  | [b0, b1, b2, b3] =>
    (b0.toNat - 0xF0) * 262144 + (b1.toNat - 0x80) * 4096 + (b2.toNat - 0x80) * 64 + (b3.toNat - 0x80)
  | _ => 0xFFFD

/-- The runes of a string; `fuel` bounds the number of bytes. -/
def runesAux : Nat → Bytes → List Rune
  | 0, _ => []
  | _, [] => []
  | fuel + 1, b0 :: rest =>
    let w := runeWidth b0 rest
    { val := runeVal ((b0 :: rest).take w), bytes := (b0 :: rest).take w } :: runesAux fuel ((b0 :: rest).drop w)

/-- The runes of a string. -/
def runes (s : Bytes) : List Rune := runesAux s.length s

/-- The bytes of a rune sequence. -/
def unrunes (rs : List Rune) : Bytes := rs.flatMap Rune.bytes

/-! ## Lemmas -/

/-- The rune of an ASCII byte. -/
def asciiRune (b : UInt8) : Rune := ⟨b.toNat, [b]⟩

theorem runeVal_1 (b0 : UInt8) : runeVal [b0] = if b0 < 0x80 then b0.toNat else 0xFFFD := rfl

theorem runeVal_3 (b0 b1 b2 : UInt8) :
    runeVal [b0, b1, b2] = (b0.toNat - 0xE0) * 4096 + (b1.toNat - 0x80) * 64 + (b2.toNat - 0x80) := rfl

theorem runeVal_4 (b0 b1 b2 b3 : UInt8) : runeVal [b0, b1, b2, b3] =
    (b0.toNat - 0xF0) * 262144 + (b1.toNat - 0x80) * 4096 + (b2.toNat - 0x80) * 64 + (b3.toNat - 0x80) := rfl

theorem runeWidth_pos (b0 : UInt8) (rest : Bytes) : 0 < runeWidth b0 rest := by
  unfold runeWidth
  split <;> (repeat' split) <;> omega

theorem runeWidth_le (b0 : UInt8) (rest : Bytes) : runeWidth b0 rest ≤ rest.length + 1 := by
  unfold runeWidth
  split <;> (repeat' split) <;> simp

theorem runesAux_fuel (f : Nat) (s : Bytes) (h : s.length ≤ f) : runesAux f s = runes s := by
  unfold runes
  suffices ∀ (g f : Nat) (s : Bytes), s.length ≤ f → s.length ≤ g → runesAux f s = runesAux g s from
    this s.length f s h (Nat.le_refl _)
  intro g
  induction g with
  | zero =>
    intro f s _ h2
    have : s = [] := List.length_eq_zero_iff.mp (by omega)
    subst this
    cases f <;> rfl
  | succ g ih =>
    intro f s h1 h2
    cases s with
    | nil => cases f <;> rfl
    | cons b rest =>
      cases f with
      | zero => simp at h1
      | succ f =>
        have hp := runeWidth_pos b rest
        simp only [runesAux]
        congr 1
        apply ih
        · simp only [List.length_drop, List.length_cons] at *; omega
        · simp only [List.length_drop, List.length_cons] at *; omega

theorem runes_nil : runes [] = [] := rfl

theorem runes_cons (b : UInt8) (rest : Bytes) : runes (b :: rest) =
    { val := runeVal ((b :: rest).take (runeWidth b rest)), bytes := (b :: rest).take (runeWidth b rest) } ::
      runes ((b :: rest).drop (runeWidth b rest)) := by
  have hp := runeWidth_pos b rest
  conv => lhs; unfold runes
  simp only [List.length_cons, runesAux]
  rw [runesAux_fuel]
  simp only [List.length_drop, List.length_cons]; omega

theorem unrunes_nil : unrunes [] = [] := rfl

theorem unrunes_cons (r : Rune) (rs : List Rune) : unrunes (r :: rs) = r.bytes ++ unrunes rs := rfl

theorem unrunes_append (a b : List Rune) : unrunes (a ++ b) = unrunes a ++ unrunes b := by
  simp [unrunes]

/-- Decoding loses nothing. -/
theorem unrunes_runes (s : Bytes) : unrunes (runes s) = s := by
  induction h : s.length using Nat.strongRecOn generalizing s with
  | _ n ih =>
    cases s with
    | nil => rfl
    | cons b rest =>
      have hp := runeWidth_pos b rest
      rw [runes_cons, unrunes_cons, ih _ ?_ _ rfl]
      · exact List.take_append_drop _ _
      · subst h; simp only [List.length_drop, List.length_cons]; omega

theorem isCont_ascii {b : UInt8} (h : b < 0x80) : isCont b = false := by
  unfold isCont
  have : ¬ (0x80 : UInt8) ≤ b := by
    rw [UInt8.lt_iff_toNat_lt] at h
    rw [UInt8.le_iff_toNat_le]
    exact Nat.not_le.mpr h
  simp [this]

theorem runeWidth_ascii {b : UInt8} (h : b < 0x80) (rest : Bytes) : runeWidth b rest = 1 := by
  have hn : b.toNat < 128 := by rw [UInt8.lt_iff_toNat_lt] at h; simpa using h
  have h2 : ∀ c, ok2 b c = false := by
    intro c
    have : ¬ (0xC2 : UInt8) ≤ b := by rw [UInt8.le_iff_toNat_le]; simp; omega
    simp [ok2, this]
  have h3 : ∀ c, ok3 b c = false := by
    intro c
    have : ¬ (0xE0 : UInt8) ≤ b := by rw [UInt8.le_iff_toNat_le]; simp; omega
    simp [ok3, this]
  have h4 : ∀ c, ok4 b c = false := by
    intro c
    have : ¬ (0xF0 : UInt8) ≤ b := by rw [UInt8.le_iff_toNat_le]; simp; omega
    simp [ok4, this]
  unfold runeWidth
  split <;> simp [h2, h3, h4]

theorem runes_ascii_cons {b : UInt8} (h : b < 0x80) (rest : Bytes) : runes (b :: rest) = asciiRune b :: runes rest := by
  have e : runeVal [b] = b.toNat := by
    unfold runeVal
    exact if_pos h
  have := runes_cons b rest
  rw [runeWidth_ascii h, List.take_succ_cons, List.take_zero, List.drop_succ_cons, List.drop_zero, e] at this
  exact this

theorem ok2_not_ascii {b0 c : UInt8} (h : c < 0x80) : ok2 b0 c = false := by simp [ok2, isCont_ascii h]
theorem ok3_not_ascii {b0 c : UInt8} (h : c < 0x80) : ok3 b0 c = false := by simp [ok3, isCont_ascii h]
theorem ok4_not_ascii {b0 c : UInt8} (h : c < 0x80) : ok4 b0 c = false := by simp [ok4, isCont_ascii h]

/-- The width of the first rune does not depend on what follows an ASCII byte. -/
theorem runeWidth_append (b0 : UInt8) (x : Bytes) (c : UInt8) (h : c < 0x80) (y : Bytes) :
    runeWidth b0 (x ++ c :: y) = runeWidth b0 x := by
  have hc := isCont_ascii h
  have h2 : ok2 b0 c = false := ok2_not_ascii h
  have h3 : ok3 b0 c = false := ok3_not_ascii h
  have h4 : ok4 b0 c = false := ok4_not_ascii h
  match x with
  | [] =>
    cases y with
    | nil => simp [runeWidth, h2]
    | cons y1 y => cases y <;> simp [runeWidth, h2, h3, h4]
  | [x1] => cases y <;> simp [runeWidth, hc]
  | [x1, x2] => simp [runeWidth, hc]
  | x1 :: x2 :: x3 :: x => simp [runeWidth]

/-- Decoding splits before every ASCII byte. -/
theorem runes_append_ascii (x : Bytes) (c : UInt8) (h : c < 0x80) (y : Bytes) :
    runes (x ++ c :: y) = runes x ++ runes (c :: y) := by
  induction hn : x.length using Nat.strongRecOn generalizing x with
  | _ n ih =>
    cases x with
    | nil => rfl
    | cons b rest =>
      have hp := runeWidth_pos b rest
      have hl := runeWidth_le b rest
      rw [List.cons_append, runes_cons, runes_cons b rest, runeWidth_append _ _ _ h, ← List.cons_append,
        List.take_append_of_le_length (by simpa using hl), List.drop_append_of_le_length (by simpa using hl),
        List.cons_append]
      congr 1
      apply ih _ ?_ _ rfl
      subst hn
      simp only [List.length_drop, List.length_cons]; omega

/-- Decoding splits after every ASCII byte (as the last byte of the first part). -/
theorem runes_ascii_append {x : Bytes} (h : ∀ b ∈ x, b < 0x80) (y : Bytes) :
    runes (x ++ y) = x.map asciiRune ++ runes y := by
  induction x with
  | nil => rfl
  | cons b x ih =>
    rw [List.cons_append, runes_ascii_cons (h b (by simp)), ih (fun c hc => h c (by simp [hc]))]
    rfl

theorem runes_ascii {x : Bytes} (h : ∀ b ∈ x, b < 0x80) : runes x = x.map asciiRune := by
  have := runes_ascii_append h []
  simpa [runes_nil] using this

theorem unrunes_ascii (x : Bytes) : unrunes (x.map asciiRune) = x := by
  induction x with
  | nil => rfl
  | cons b x ih => simp [unrunes_cons, ih, asciiRune]

/-- Every rune is an ASCII byte, a two-byte encoding, or at least U+0800 (possibly U+FFFD for an invalid byte). -/
theorem rune_shape (b : UInt8) (rest : Bytes) :
    (b < 0x80 ∧ runeWidth b rest = 1) ∨
    (∃ b1 t, rest = b1 :: t ∧ ok2 b b1 = true ∧ runeWidth b rest = 2) ∨
    0x800 ≤ runeVal ((b :: rest).take (runeWidth b rest)) := by
  by_cases hb : b < 0x80
  · exact Or.inl ⟨hb, runeWidth_ascii hb rest⟩
  right
  have w1 : ∀ t : Bytes, 0x800 ≤ runeVal ((b :: t).take 1) := by
    intro t
    rw [List.take_succ_cons, List.take_zero]
    rw [runeVal_1, if_neg hb]
    omega
  have w3 : ∀ (b1 b2 : UInt8) (t : Bytes), ok3 b b1 = true → isCont b2 = true →
      0x800 ≤ runeVal ((b :: b1 :: b2 :: t).take 3) := by
    intro b1 b2 t h3 h
    rw [List.take_succ_cons, List.take_succ_cons, List.take_succ_cons, List.take_zero, runeVal_3]
    simp only [ok3, isCont, Bool.and_eq_true, Bool.not_eq_true', decide_eq_true_eq, UInt8.le_iff_toNat_le,
      Bool.and_eq_false_iff, beq_eq_false_iff_ne, decide_eq_false_iff_not, UInt8.lt_iff_toNat_lt, ne_eq,
      ← UInt8.toNat_inj, UInt8.reduceToNat] at h3 h
    omega
  have w4 : ∀ (b1 b2 b3 : UInt8) (t : Bytes), ok4 b b1 = true → isCont b2 = true → isCont b3 = true →
      0x800 ≤ runeVal ((b :: b1 :: b2 :: b3 :: t).take 4) := by
    intro b1 b2 b3 t h3 h h'
    rw [List.take_succ_cons, List.take_succ_cons, List.take_succ_cons, List.take_succ_cons, List.take_zero, runeVal_4]
    simp only [ok4, isCont, Bool.and_eq_true, Bool.not_eq_true', decide_eq_true_eq, UInt8.le_iff_toNat_le,
      Bool.and_eq_false_iff, beq_eq_false_iff_ne, decide_eq_false_iff_not, UInt8.lt_iff_toNat_lt, ne_eq,
      ← UInt8.toNat_inj, UInt8.reduceToNat] at h3 h h'
    omega
  match rest with
  | [] => right; exact w1 _
  | [b1] =>
    by_cases h2 : ok2 b b1 = true
    · left; exact ⟨b1, [], rfl, h2, by simp [runeWidth, h2]⟩
    · right
      have : runeWidth b [b1] = 1 := by simp [runeWidth, h2]
      rw [this]; exact w1 _
  | [b1, b2] =>
    by_cases h2 : ok2 b b1 = true
    · left; exact ⟨b1, [b2], rfl, h2, by simp [runeWidth, h2]⟩
    · right
      by_cases h3 : (ok3 b b1 && isCont b2) = true
      · have : runeWidth b [b1, b2] = 3 := by simp only [runeWidth, h2, h3]; rfl
        rw [this]
        rw [Bool.and_eq_true] at h3
        exact w3 _ _ _ h3.1 h3.2
      · have : runeWidth b [b1, b2] = 1 := by simp only [runeWidth, h2, h3]; rfl
        rw [this]; exact w1 _
  | b1 :: b2 :: b3 :: t =>
    by_cases h2 : ok2 b b1 = true
    · left; exact ⟨b1, b2 :: b3 :: t, rfl, h2, by simp [runeWidth, h2]⟩
    · right
      by_cases h3 : (ok3 b b1 && isCont b2) = true
      · have : runeWidth b (b1 :: b2 :: b3 :: t) = 3 := by simp only [runeWidth, h2, h3]; rfl
        rw [this]
        rw [Bool.and_eq_true] at h3
        exact w3 _ _ _ h3.1 h3.2
      · by_cases h4 : (ok4 b b1 && isCont b2 && isCont b3) = true
        · have : runeWidth b (b1 :: b2 :: b3 :: t) = 4 := by simp only [runeWidth, h2, h3, h4]; rfl
          rw [this]
          rw [Bool.and_eq_true, Bool.and_eq_true] at h4
          exact w4 _ _ _ _ h4.1.1 h4.1.2 h4.2
        · have : runeWidth b (b1 :: b2 :: b3 :: t) = 1 := by simp only [runeWidth, h2, h3, h4]; rfl
          rw [this]; exact w1 _

/-- Value of a two-byte encoding. -/
theorem ok2_val {b0 b1 : UInt8} (h : ok2 b0 b1 = true) :
    runeVal [b0, b1] = (b0.toNat - 0xC0) * 64 + (b1.toNat - 0x80) ∧ 0xC2 ≤ b0.toNat ∧ b0.toNat ≤ 0xDF ∧
      0x80 ≤ b1.toNat ∧ b1.toNat ≤ 0xBF := by
  simp only [ok2, isCont, Bool.and_eq_true, decide_eq_true_eq, UInt8.le_iff_toNat_le, UInt8.reduceToNat] at h
  exact ⟨rfl, h.1.1, h.1.2, h.2.1, h.2.2⟩

/-- A rune below U+0080 is an ASCII byte of the string. -/
theorem rune_ascii_mem {s : Bytes} {r : Rune} (h : r ∈ runes s) (hv : r.val < 0x80) :
    ∃ b, b < 0x80 ∧ b ∈ s ∧ r = asciiRune b := by
  induction hn : s.length using Nat.strongRecOn generalizing s with
  | _ n ih =>
    cases s with
    | nil => simp [runes_nil] at h
    | cons b rest =>
      have hp := runeWidth_pos b rest
      have hr := h
      rw [runes_cons] at h
      rcases List.mem_cons.mp h with h | h
      · rcases rune_shape b rest with ⟨h1, _⟩ | ⟨b1, t, h1, h2, h3⟩ | h1
        · rw [runeWidth_ascii h1, List.take_succ_cons, List.take_zero] at h
          refine ⟨b, h1, by simp, ?_⟩
          subst h
          have e : runeVal [b] = b.toNat := by unfold runeVal; exact if_pos h1
          rw [e]; rfl
        · subst h1
          rw [h3] at h
          subst h
          obtain ⟨e, c1, c2, c3, c4⟩ := ok2_val h2
          simp only [List.take_succ_cons, List.take_zero, e] at hv
          omega
        · subst h
          simp only at hv
          omega
      · obtain ⟨c, c1, c2, c3⟩ := ih _ (by subst hn; simp only [List.length_drop, List.length_cons]; omega) h rfl
        exact ⟨c, c1, List.mem_of_mem_drop c2, c3⟩

/-- A rune between U+0080 and U+07FF is a two-byte encoding inside the string. -/
theorem rune_two_mem {s : Bytes} {r : Rune} (h : r ∈ runes s) (hv : 0x80 ≤ r.val) (hv2 : r.val < 0x800) :
    ∃ b0 b1, ok2 b0 b1 = true ∧ [b0, b1] <:+: s ∧ r = ⟨runeVal [b0, b1], [b0, b1]⟩ := by
  induction hn : s.length using Nat.strongRecOn generalizing s with
  | _ n ih =>
    cases s with
    | nil => simp [runes_nil] at h
    | cons b rest =>
      have hp := runeWidth_pos b rest
      rw [runes_cons] at h
      rcases List.mem_cons.mp h with h | h
      · rcases rune_shape b rest with ⟨h1, _⟩ | ⟨b1, t, h1, h2, h3⟩ | h1
        · rw [runeWidth_ascii h1, List.take_succ_cons, List.take_zero] at h
          have e : runeVal [b] = b.toNat := by unfold runeVal; exact if_pos h1
          subst h
          rw [UInt8.lt_iff_toNat_lt] at h1
          simp only [e] at hv
          exact absurd h1 (Nat.not_lt.mpr hv)
        · subst h1
          rw [h3] at h
          refine ⟨b, b1, h2, ⟨[], t, rfl⟩, ?_⟩
          rw [h]
          rfl
        · subst h
          simp only at hv2
          omega
      · obtain ⟨c, d, c1, c2, c3⟩ := ih _ (by subst hn; simp only [List.length_drop, List.length_cons]; omega) h rfl
        exact ⟨c, d, c1, c2.trans (List.drop_suffix _ _).isInfix, c3⟩

end Verif
