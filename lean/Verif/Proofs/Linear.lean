import Verif.Model.CryptTables
/-!
# Linear maps on pairs of 32-bit words

A function that commutes with exclusive or is determined by its values on the 64 single-bit arguments.
-/

namespace Verif

/-- `f` commutes with exclusive or. -/
def Lin (f : W → W → W) : Prop := ∀ a b c d, f (a ^^^ b) (c ^^^ d) = f a c ^^^ f b d

/-- The same for a single bit. -/
def LinB (f : W → W → Bool) : Prop := ∀ a b c d, f (a ^^^ b) (c ^^^ d) = (f a c ^^ f b d)

theorem zero_bit (j : Nat) : (0 : W).getLsbD j = false := BitVec.getLsbD_zero

/-- Single bit. -/
def unit (i : Nat) : W := BitVec.twoPow 32 i

/-- The low `k` bits. -/
def lowBits (a : W) (k : Nat) : W := BitVec.ofNat 32 (a.toNat % 2 ^ k)

theorem lowBits_getLsbD (a : W) (k j : Nat) : (lowBits a k).getLsbD j = (decide (j < k) && a.getLsbD j) := by
  simp only [lowBits, BitVec.getLsbD_ofNat, Nat.testBit_mod_two_pow]
  by_cases h : j < 32
  · simp [h, BitVec.getLsbD]
  · simp [h, BitVec.getLsbD_of_ge a j (by omega)]

theorem lowBits_zero (a : W) : lowBits a 0 = 0 := by
  simp [lowBits, Nat.mod_one]

theorem lowBits_all (a : W) : lowBits a 32 = a := by
  apply BitVec.eq_of_getLsbD_eq
  intro j hj
  rw [lowBits_getLsbD]
  simp [hj]

theorem lowBits_succ (a : W) (k : Nat) (hk : k < 32) :
    lowBits a (k + 1) = lowBits a k ^^^ (if a.getLsbD k then unit k else 0) := by
  apply BitVec.eq_of_getLsbD_eq
  intro j hj
  rw [BitVec.getLsbD_xor, lowBits_getLsbD, lowBits_getLsbD]
  by_cases h : a.getLsbD k = true
  · rw [if_pos h, unit, BitVec.getLsbD_twoPow]
    by_cases hjk : j = k
    · subst hjk; simp [h, hk]
    · have e1 : (j < k + 1) = (j < k) := by apply propext; omega
      have e2 : decide (k = j) = false := by simp; omega
      simp [e1, e2]
  · rw [if_neg h]
    by_cases hjk : j = k
    · subst hjk; simp [h]
    · have e1 : (j < k + 1) = (j < k) := by apply propext; omega
      simp [e1]

theorem LinB.zero {f : W → W → Bool} (h : LinB f) : f 0 0 = false := by
  have := h 0 0 0 0
  simp at this
  exact this

theorem LinB.split {f : W → W → Bool} (h : LinB f) (a c : W) : f a c = (f a 0 ^^ f 0 c) := by
  have := h a 0 0 c
  simpa using this

/-- Two linear bits that agree on the single-bit arguments agree everywhere. -/
theorem LinB.ext {f g : W → W → Bool} (hf : LinB f) (hg : LinB g) (h1 : ∀ i, i < 32 → f (unit i) 0 = g (unit i) 0)
    (h2 : ∀ i, i < 32 → f 0 (unit i) = g 0 (unit i)) (a c : W) : f a c = g a c := by
  have k1 : ∀ k, k ≤ 32 → f (lowBits a k) 0 = g (lowBits a k) 0 := by
    intro k
    induction k with
    | zero => intro _; rw [lowBits_zero, hf.zero, hg.zero]
    | succ k ih =>
      intro hk
      have e : ∀ x, (f (lowBits a k ^^^ x) 0 = (f (lowBits a k) 0 ^^ f x 0)) ∧
          (g (lowBits a k ^^^ x) 0 = (g (lowBits a k) 0 ^^ g x 0)) := by
        intro x
        have u := hf (lowBits a k) x 0 0
        have v := hg (lowBits a k) x 0 0
        have z : (0 : W) ^^^ 0 = 0 := by decide
        rw [z] at u v
        exact ⟨u, v⟩
      rw [lowBits_succ a k (by omega), (e _).1, (e _).2, ih (by omega)]
      split
      · rw [h1 k (by omega)]
      · rw [hf.zero, hg.zero]
  have k2 : ∀ k, k ≤ 32 → f 0 (lowBits c k) = g 0 (lowBits c k) := by
    intro k
    induction k with
    | zero => intro _; rw [lowBits_zero, hf.zero, hg.zero]
    | succ k ih =>
      intro hk
      have e : ∀ x, (f 0 (lowBits c k ^^^ x) = (f 0 (lowBits c k) ^^ f 0 x)) ∧
          (g 0 (lowBits c k ^^^ x) = (g 0 (lowBits c k) ^^ g 0 x)) := by
        intro x
        have u := hf 0 0 (lowBits c k) x
        have v := hg 0 0 (lowBits c k) x
        have z : (0 : W) ^^^ 0 = 0 := by decide
        rw [z] at u v
        exact ⟨u, v⟩
      rw [lowBits_succ c k (by omega), (e _).1, (e _).2, ih (by omega)]
      split
      · rw [h2 k (by omega)]
      · rw [hf.zero, hg.zero]
  have := k1 32 (by omega)
  have := k2 32 (by omega)
  rw [lowBits_all] at *
  rw [hf.split, hg.split]
  simp_all

namespace Lin

theorem fst : Lin (fun a _ => a) := fun _ _ _ _ => rfl
theorem snd : Lin (fun _ c => c) := fun _ _ _ _ => rfl
theorem const0 : Lin (fun _ _ => 0) := fun _ _ _ _ => by simp

theorem xor {f g : W → W → W} (hf : Lin f) (hg : Lin g) : Lin (fun a c => f a c ^^^ g a c) := by
  intro a b c d
  simp only
  rw [hf, hg]
  ac_rfl

theorem and {f : W → W → W} (hf : Lin f) (m : W) : Lin (fun a c => f a c &&& m) := by
  intro a b c d
  simp only
  rw [hf]
  apply BitVec.eq_of_getLsbD_eq
  intro j hj
  simp only [BitVec.getLsbD_and, BitVec.getLsbD_xor]
  cases (f a c).getLsbD j <;> cases (f b d).getLsbD j <;> cases m.getLsbD j <;> rfl

theorem shl {f : W → W → W} (hf : Lin f) (n : Nat) : Lin (fun a c => f a c <<< n) := by
  intro a b c d
  simp only
  rw [hf, BitVec.shiftLeft_xor_distrib]

theorem shr {f : W → W → W} (hf : Lin f) (n : Nat) : Lin (fun a c => f a c >>> n) := by
  intro a b c d
  simp only
  rw [hf, BitVec.ushiftRight_xor_distrib]

theorem bit {f : W → W → W} (hf : Lin f) (j : Nat) : LinB (fun a c => (f a c).getLsbD j) := by
  intro a b c d
  simp only
  rw [hf, BitVec.getLsbD_xor]

/-- Two linear maps that agree on the single-bit arguments agree everywhere. -/
theorem ext {f g : W → W → W} (hf : Lin f) (hg : Lin g) (h1 : ∀ i, i < 32 → f (unit i) 0 = g (unit i) 0)
    (h2 : ∀ i, i < 32 → f 0 (unit i) = g 0 (unit i)) (a c : W) : f a c = g a c := by
  apply BitVec.eq_of_getLsbD_eq
  intro j _
  exact (hf.bit j).ext (hg.bit j) (fun i hi => by simp only [h1 i hi]) (fun i hi => by simp only [h2 i hi]) a c

/-- An `or` of two linear maps whose values never share a bit is linear. -/
theorem or {f g : W → W → W} (hf : Lin f) (hg : Lin g) (h : ∀ a c, f a c &&& g a c = 0) :
    Lin (fun a c => f a c ||| g a c) := by
  have e : (fun a c => f a c ||| g a c) = (fun a c => f a c ^^^ g a c) := by
    funext a c
    apply BitVec.eq_of_getLsbD_eq
    intro j _
    have := congrArg (fun w => BitVec.getLsbD w j) (h a c)
    simp only [BitVec.getLsbD_and, zero_bit] at this
    simp only [BitVec.getLsbD_or, BitVec.getLsbD_xor]
    revert this
    cases (f a c).getLsbD j <;> cases (g a c).getLsbD j <;> decide
  rw [e]
  exact hf.xor hg

/-- `or` of linear maps separated by a mask; the condition is checked on the single-bit arguments. -/
theorem or_mask {f g : W → W → W} (hf : Lin f) (hg : Lin g) (m : W)
    (h : ∀ i, i < 32 → (f (unit i) 0 &&& m = f (unit i) 0 ∧ g (unit i) 0 &&& m = 0) ∧
      (f 0 (unit i) &&& m = f 0 (unit i) ∧ g 0 (unit i) &&& m = 0)) :
    Lin (fun a c => f a c ||| g a c) := by
  apply or hf hg
  intro a c
  have h1 := (hf.and m).ext hf (fun i hi => (h i hi).1.1) (fun i hi => (h i hi).2.1) a c
  have h2 := (hg.and m).ext const0 (fun i hi => (h i hi).1.2) (fun i hi => (h i hi).2.2) a c
  rw [← h1, BitVec.and_assoc, BitVec.and_comm m, h2]
  simp

end Lin

/-- Output bit `j` of the linear map is input bit `p` (the second word follows the first). -/
theorem Lin.perm1 {f : W → W → W} (hf : Lin f) (j p : Nat)
    (h : ∀ i, i < 32 → (f (unit i) 0).getLsbD j = decide (p = i) ∧ (f 0 (unit i)).getLsbD j = decide (p = i + 32))
    (hp : p < 64) (a c : W) :
    (f a c).getLsbD j = if p < 32 then a.getLsbD p else c.getLsbD (p - 32) := by
  have hu : ∀ i, i < 32 → ∀ k, (unit i).getLsbD k = decide (i = k) := by
    intro i hi k
    rw [unit, BitVec.getLsbD_twoPow]
    by_cases e : i = k <;> simp [e, hi]
    omega
  by_cases hlt : p < 32
  · rw [if_pos hlt]
    refine (hf.bit j).ext (Lin.fst.bit p) ?_ ?_ a c
    · intro i hi
      show _ = _
      rw [(h i hi).1, hu i hi]
      exact decide_eq_decide.mpr ⟨Eq.symm, Eq.symm⟩
    · intro i hi
      show _ = _
      rw [(h i hi).2, zero_bit]
      simp; omega
  · rw [if_neg hlt]
    refine (hf.bit j).ext (Lin.snd.bit (p - 32)) ?_ ?_ a c
    · intro i hi
      show _ = _
      rw [(h i hi).1, zero_bit]
      simp; omega
    · intro i hi
      show _ = _
      rw [(h i hi).2, hu i hi]
      apply decide_eq_decide.mpr
      omega

/-- Every output bit `j` is input bit `p j`. -/
theorem Lin.perm {f : W → W → W} (hf : Lin f) (p : Nat → Nat) (n : Nat)
    (h : ∀ i, i < 32 → ∀ j, j < n → (f (unit i) 0).getLsbD j = decide (p j = i) ∧
      (f 0 (unit i)).getLsbD j = decide (p j = i + 32)) (hp : ∀ j, j < n → p j < 64) (a c : W) (j : Nat) (hj : j < n) :
    (f a c).getLsbD j = if p j < 32 then a.getLsbD (p j) else c.getLsbD (p j - 32) :=
  hf.perm1 j (p j) (fun i hi => h i hi j hj) (hp j hj) a c

end Verif
