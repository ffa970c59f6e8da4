import Verif.Go.Basic
/-!
# Number formatting (`fmt.Sprintf` verbs `%d` and `%3.3X`)

Environment model, not code of `/repo`.
-/

namespace Verif

/-- Decimal digits of `n`, most significant first (`fuel > n` rounds are more than enough). -/
def decAux : Nat → Nat → Bytes
  | 0, _ => []
  | fuel + 1, n => if n < 10 then [UInt8.ofNat (48 + n)] else decAux fuel (n / 10) ++ [UInt8.ofNat (48 + n % 10)]

/-- `%d` of a non-negative number. -/
def dec (n : Nat) : Bytes := decAux (n + 1) n

/-- `%d`. -/
def decInt (n : Int) : Bytes := if n < 0 then 45 :: dec n.natAbs else dec n.natAbs

/-- Upper-case hexadecimal digit. -/
def hexDigit (n : Nat) : UInt8 := if n < 10 then UInt8.ofNat (48 + n) else UInt8.ofNat (55 + n)

/-- `%3.3X` of a number below 0x1000: three digits, zero padded. -/
def hex3 (n : Fin 4096) : Bytes := [hexDigit (n.val / 256), hexDigit (n.val / 16 % 16), hexDigit (n.val % 16)]

/-! ## Lemmas -/

theorem decAux_digits (fuel n : Nat) : ∀ b ∈ decAux fuel n, 48 ≤ b.toNat ∧ b.toNat ≤ 57 := by
  induction fuel generalizing n with
  | zero => simp [decAux]
  | succ f ih =>
    simp only [decAux]
    split
    · intro b hb
      simp only [List.mem_singleton] at hb
      subst hb
      simp only [UInt8.toNat_ofNat']
      omega
    · intro b hb
      rcases List.mem_append.mp hb with h | h
      · exact ih _ b h
      · simp only [List.mem_singleton] at h
        subst h
        simp only [UInt8.toNat_ofNat']
        omega

theorem dec_digits (n : Nat) : ∀ b ∈ dec n, 48 ≤ b.toNat ∧ b.toNat ≤ 57 := decAux_digits _ _

/-- The value written by a list of decimal digits. -/
def decVal (bs : Bytes) : Nat := bs.foldl (fun a b => 10 * a + (b.toNat - 48)) 0

theorem decVal_snoc (bs : Bytes) (b : UInt8) : decVal (bs ++ [b]) = 10 * decVal bs + (b.toNat - 48) := by
  simp [decVal, List.foldl_append]

theorem decVal_decAux (fuel n : Nat) (h : n < fuel) : decVal (decAux fuel n) = n := by
  induction fuel generalizing n with
  | zero => omega
  | succ f ih =>
    simp only [decAux]
    split
    · simp only [decVal, List.foldl_cons, List.foldl_nil, UInt8.toNat_ofNat']
      omega
    · rw [decVal_snoc, ih _ (by omega)]
      simp only [UInt8.toNat_ofNat']
      omega

/-- The decimal digits determine the number. -/
theorem decVal_dec (n : Nat) : decVal (dec n) = n := decVal_decAux _ _ (by omega)

theorem dec_injective {n m : Nat} (h : dec n = dec m) : n = m := by
  rw [← decVal_dec n, ← decVal_dec m, h]

theorem dec_ne_nil (n : Nat) : dec n ≠ [] := by
  unfold dec
  simp only [decAux]
  split <;> simp

theorem decInt_bytes (n : Int) : ∀ b ∈ decInt n, b = 45 ∨ (48 ≤ b.toNat ∧ b.toNat ≤ 57) := by
  intro b hb
  unfold decInt at hb
  split at hb
  · rcases List.mem_cons.mp hb with h | h
    · exact Or.inl h
    · exact Or.inr (dec_digits _ b h)
  · exact Or.inr (dec_digits _ b hb)

theorem decInt_injective {n m : Int} (h : decInt n = decInt m) : n = m := by
  unfold decInt at h
  have key : ∀ {a b : Nat}, 45 :: dec a = dec b → False := by
    intro a b e
    have := dec_digits b 45 (by rw [← e]; simp)
    revert this; decide
  split at h <;> split at h
  · injection h with _ h
    have := dec_injective h; omega
  · exact (key h).elim
  · exact (key h.symm).elim
  · have := dec_injective h; omega

theorem hexDigit_bytes {n : Nat} (h : n < 16) : 48 ≤ (hexDigit n).toNat ∧ (hexDigit n).toNat ≤ 70 := by
  unfold hexDigit
  split <;> simp only [UInt8.toNat_ofNat'] <;> omega

theorem hexDigit_injective {n m : Nat} (hn : n < 16) (hm : m < 16) (h : hexDigit n = hexDigit m) : n = m := by
  have := congrArg UInt8.toNat h
  unfold hexDigit at this
  split at this <;> split at this <;> simp only [UInt8.toNat_ofNat'] at this <;> omega

theorem hex3_injective {n m : Fin 4096} (h : hex3 n = hex3 m) : n = m := by
  simp only [hex3, List.cons.injEq, and_true] at h
  have := n.isLt
  have := m.isLt
  have h1 := hexDigit_injective (by omega) (by omega) h.1
  have h2 := hexDigit_injective (by omega) (by omega) h.2.1
  have h3 := hexDigit_injective (by omega) (by omega) h.2.2
  apply Fin.ext
  omega

end Verif
