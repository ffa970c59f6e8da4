import Verif.Model.Fnv
/-!
# C53: the hash
-/

namespace Verif

/-- FNV-1a as published: exclusive-or the byte in, multiply by the prime, modulo 2³². -/
def Spec.fnv1a : Nat → Bytes → Nat
  | h, [] => h
  | h, c :: cs => Spec.fnv1a ((h ^^^ c.toNat) * 16777619 % 2 ^ 32) cs

/-- Whatever the offset, the constructor starts there. -/
theorem fnvNew32aWith_eq (o : UInt32) : fnvNew32aWith o = o := by
  unfold fnvNew32aWith
  simp only [fnvMarshal, List.set_cons_succ, List.set_cons_zero]
  simp only [fnvUnmarshal, List.take_succ_cons, List.take_zero, ne_eq, not_true_eq_false, if_false, List.length_cons,
    List.length_nil, byteAt, List.getD_cons_succ, List.getD_cons_zero]
  apply UInt32.toBitVec_inj.mp
  simp only [UInt32.toBitVec_or, UInt32.toBitVec_shiftLeft, UInt32.toBitVec_shiftRight, UInt32.toBitVec_and,
    UInt8.toBitVec_toUInt32, UInt32.toBitVec_toUInt8]
  generalize o.toBitVec = w
  apply BitVec.eq_of_getLsbD_eq
  intro i hi
  simp
  have m : ∀ j, j < 8 → (255#32).getLsbD j = true := by decide
  have c : i < 8 ∨ (8 ≤ i ∧ i < 16) ∨ (16 ≤ i ∧ i < 24) ∨ (24 ≤ i ∧ i < 32) := by omega
  rcases c with c | ⟨c, d⟩ | ⟨c, d⟩ | ⟨c, d⟩
  · simp [m i c, c, hi, show i < 16 by omega, show i < 24 by omega]
  · have e : 8 + (i - 8) = i := by omega
    simp [m (i - 8) (by omega), e, hi, d, show ¬ i < 8 by omega, show i < 24 by omega, show i - 8 < 32 by omega,
      show i - 8 < 8 by omega]
  · have e : 16 + (i - 16) = i := by omega
    simp [m (i - 16) (by omega), e, hi, d, show ¬ i < 8 by omega, show ¬ i < 16 by omega, show i - 16 < 32 by omega,
      show ¬ i - 8 < 8 by omega, show i - 16 < 8 by omega]
  · have e : 24 + (i - 24) = i := by omega
    simp [m (i - 24) (by omega), e, hi, show ¬ i < 8 by omega, show ¬ i < 16 by omega, show ¬ i < 24 by omega,
      show i - 24 < 32 by omega, show ¬ i - 8 < 8 by omega, show ¬ i - 16 < 8 by omega, show i - 24 < 8 by omega]

theorem fnvWrite_toNat (h : UInt32) (d : Bytes) : (fnvWrite h d).toNat = Spec.fnv1a h.toNat d := by
  induction d generalizing h with
  | nil => rfl
  | cons c cs ih =>
    unfold fnvWrite at ih ⊢
    have e : ((h ^^^ c.toUInt32) * 16777619).toNat = (h.toNat ^^^ c.toNat) * 16777619 % 2 ^ 32 := by
      rw [UInt32.toNat_mul, UInt32.toNat_xor, UInt8.toNat_toUInt32]
      rfl
    rw [List.foldl_cons, ih, Spec.fnv1a, e]

/-- **C53.** The hash started at any offset, after any sequence of writes, is FNV-1a of all bytes written. -/
theorem C53_fnv1a (o : UInt32) (chunks : List Bytes) :
    (fnvSum32 (chunks.foldl fnvWrite (fnvNew32aWith o))).toNat = Spec.fnv1a o.toNat chunks.flatten := by
  unfold fnvSum32
  rw [fnvNew32aWith_eq]
  induction chunks generalizing o with
  | nil => rfl
  | cons d ds ih =>
    rw [List.foldl_cons, ih, fnvWrite_toNat, List.flatten_cons]
    generalize o.toNat = n
    induction d generalizing n with
    | nil => rfl
    | cons c cs ih2 => exact ih2 _

/-- **C53.** How the bytes are split does not matter. -/
theorem C53_splits (o : UInt32) (a b : List Bytes) (h : a.flatten = b.flatten) :
    fnvSum32 (a.foldl fnvWrite (fnvNew32aWith o)) = fnvSum32 (b.foldl fnvWrite (fnvNew32aWith o)) := by
  apply UInt32.toNat.inj
  rw [C53_fnv1a, C53_fnv1a, h]

/-- **C53.** The byte form of the sum is the big-endian number. -/
theorem C53_sum (h : UInt32) (pre : Bytes) : (fnvSum h pre).length = pre.length + 4 ∧ (fnvSum h pre).take pre.length = pre ∧
    ((fnvSum h pre).drop pre.length).foldl (fun n c => n * 256 + c.toNat) 0 = h.toNat := by
  refine ⟨by simp [fnvSum], by simp [fnvSum], ?_⟩
  have := h.toNat_lt
  simp [fnvSum, Nat.shiftRight_eq_div_pow]
  omega

/-- **C53.** The saved state is the four bytes behind the magic: saving and loading a state is the identity, so
`New32aWith` replaces the state and nothing else. -/
theorem C53_state (g h : UInt32) : fnvUnmarshal g (fnvMarshal h) = h ∧
    (fnvMarshal h).drop 4 = fnvSum h [] ∧ (fnvMarshal h).take 4 = ascii "fnv" ++ [2] := by
  refine ⟨?_, rfl, rfl⟩
  have := h.toNat_lt
  simp only [fnvMarshal, fnvUnmarshal, List.take_succ_cons, List.take_zero, ne_eq, not_true_eq_false, if_false, List.length_cons,
    List.length_nil, byteAt, List.getD_cons_succ, List.getD_cons_zero]
  apply UInt32.toBitVec_inj.mp
  simp only [UInt32.toBitVec_or, UInt32.toBitVec_shiftLeft, UInt32.toBitVec_shiftRight,
    UInt8.toBitVec_toUInt32, UInt32.toBitVec_toUInt8]
  generalize h.toBitVec = w
  apply BitVec.eq_of_getLsbD_eq
  intro i hi
  simp
  have c : i < 8 ∨ (8 ≤ i ∧ i < 16) ∨ (16 ≤ i ∧ i < 24) ∨ (24 ≤ i ∧ i < 32) := by omega
  rcases c with c | ⟨c, d⟩ | ⟨c, d⟩ | ⟨c, d⟩
  · simp [c, hi, show i < 16 by omega, show i < 24 by omega]
  · have e : 8 + (i - 8) = i := by omega
    simp [e, hi, d, show ¬ i < 8 by omega, show i < 24 by omega, show i - 8 < 32 by omega, show i - 8 < 8 by omega]
  · have e : 16 + (i - 16) = i := by omega
    simp [e, hi, d, show ¬ i < 8 by omega, show ¬ i < 16 by omega, show i - 16 < 32 by omega,
      show ¬ i - 8 < 8 by omega, show i - 16 < 8 by omega]
  · have e : 24 + (i - 24) = i := by omega
    simp [e, hi, show ¬ i < 8 by omega, show ¬ i < 16 by omega, show ¬ i < 24 by omega,
      show i - 24 < 32 by omega, show ¬ i - 8 < 8 by omega, show ¬ i - 16 < 8 by omega, show i - 24 < 8 by omega]

/-- The standard basis as published: the multiply-first hash, started at zero, of a signature line. -/
theorem C53_basis : fnvNew32a.toNat =
    (ascii "chongo <Landon Curt Noll> /\\../\\").foldl (fun h c => (h * 16777619 % 2 ^ 32) ^^^ c.toNat) 0 := by
  decide +kernel

/-- Different offsets stay different: each byte is absorbed by a bijection of the state. -/
theorem C53_offset_injective (o o' : UInt32) (d : Bytes)
    (h : fnvWrite (fnvNew32aWith o) d = fnvWrite (fnvNew32aWith o') d) : o = o' := by
  rw [fnvNew32aWith_eq, fnvNew32aWith_eq] at h
  induction d generalizing o o' with
  | nil => exact h
  | cons c cs ih =>
    have := ih _ _ h
    have e : ∀ x : UInt32, x * 16777619 * 899433627 = x := by
      intro x
      rw [UInt32.mul_assoc, show (16777619 : UInt32) * 899433627 = 1 from by decide, UInt32.mul_one]
    have h2 : (o ^^^ c.toUInt32) = (o' ^^^ c.toUInt32) := by
      rw [← e (o ^^^ _), ← e (o' ^^^ _)]
      exact congrArg (· * 899433627) this
    have h3 := congrArg (· ^^^ c.toUInt32) h2
    simpa [UInt32.xor_assoc] using h3

/-- The published test vector of "a", and the offset used by the original. -/
example : Spec.fnv1a 2166136261 (ascii "a") = 0xE40C292C ∧
    fnvSum32 (fnvWrite (fnvWrite (fnvNew32aWith 33554467) (ascii "SYS")) (ascii "OP")) =
      fnvWrite (fnvNew32aWith 33554467) (ascii "SYSOP") := by decide +kernel

end Verif
