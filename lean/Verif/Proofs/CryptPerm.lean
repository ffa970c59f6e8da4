import Verif.Model.Crypt
import Verif.Spec.Des
import Verif.Proofs.Linear
/-!
# The bit permutations of the password hash
-/

namespace Verif
open Spec.DES

theorem Lin.permOp1 {f g : W → W → W} (hf : Lin f) (hg : Lin g) (n : Nat) (m : W) :
    Lin (fun a c => (permOp (f a c) (g a c) n m).1) := hf.xor ((((hf.shr n).xor hg).and m).shl n)

theorem Lin.permOp2 {f g : W → W → W} (hf : Lin f) (hg : Lin g) (n : Nat) (m : W) :
    Lin (fun a c => (permOp (f a c) (g a c) n m).2) := hg.xor (((hf.shr n).xor hg).and m)

theorem Lin.hPermOp {f : W → W → W} (hf : Lin f) (n : Nat) (m : W) : Lin (fun a c => hPermOp (f a c) n m) :=
  (hf.xor (((hf.shl n).xor hf).and m)).xor ((((hf.shl n).xor hf).and m).shr n)

/-! ## Final permutation -/

theorem lin_finalPerm : Lin (fun l r => (finalPerm l r).1) ∧ Lin (fun l r => (finalPerm l r).2) := by
  have hr : Lin (fun l _ => (l >>> 1) ||| (l <<< 31)) :=
    Lin.or_mask (Lin.fst.shr 1) (Lin.fst.shl 31) 0x7fffffff (by decide +kernel)
  have hl : Lin (fun _ r => (r >>> 1) ||| (r <<< 31)) :=
    Lin.or_mask (Lin.snd.shr 1) (Lin.snd.shl 31) 0x7fffffff (by decide +kernel)
  have r1 := hr.permOp1 hl 1 0x55555555
  have l1 := hr.permOp2 hl 1 0x55555555
  have l2 := l1.permOp1 r1 8 0x00ff00ff
  have r2 := l1.permOp2 r1 8 0x00ff00ff
  have r3 := r2.permOp1 l2 2 0x33333333
  have l3 := r2.permOp2 l2 2 0x33333333
  have l4 := l3.permOp1 r3 16 0x0000ffff
  have r4 := l3.permOp2 r3 16 0x0000ffff
  have r5 := r4.permOp1 l4 4 0x0f0f0f0f
  have l5 := r4.permOp2 l4 4 0x0f0f0f0f
  exact ⟨l5, r5⟩

/-- Where bit `v` (from 1) of a block in the registers `l`, `r` is: bits 1–32 in `l`, the others in `r`, bit 32 of a half
at position 0. -/
def regBit (l r : W) (v : Nat) : Bool := if v ≤ 32 then l.getLsbD (v % 32) else r.getLsbD (v % 32)

/-- The same, numbered through. -/
def regPos (v : Nat) : Nat := if v ≤ 32 then v % 32 else v % 32 + 32

/-- Number (from 0) of the printed bit at position `j` of a word. -/
def printPos (j : Nat) : Nat := 8 * (j / 8) + (7 - j % 8)

theorem finalPerm_1 (l r : W) (j : Nat) (hj : j < 32) :
    (finalPerm l r).1.getLsbD j = regBit l r (FP.getD (printPos j) 0) := by
  have := lin_finalPerm.1.perm (fun j => regPos (FP.getD (printPos j) 0)) 32 (by decide +kernel) (by decide +kernel) l r j hj
  rw [this]
  unfold regPos regBit
  split <;> split <;> first | rfl | omega | (rw [Nat.add_sub_cancel])

theorem finalPerm_2 (l r : W) (j : Nat) (hj : j < 32) :
    (finalPerm l r).2.getLsbD j = regBit l r (FP.getD (32 + printPos j) 0) := by
  have := lin_finalPerm.2.perm (fun j => regPos (FP.getD (32 + printPos j) 0)) 32 (by decide +kernel) (by decide +kernel)
    l r j hj
  rw [this]
  unfold regPos regBit
  split <;> split <;> first | rfl | omega | (rw [Nat.add_sub_cancel])

/-! ## Permuted choice 1 -/

theorem lin_setKeyPC1 : Lin (fun c d => (setKeyPC1 c d).1) ∧ Lin (fun c d => (setKeyPC1 c d).2) := by
  have d1 := Lin.snd.permOp1 Lin.fst 4 0x0f0f0f0f
  have c1 := Lin.snd.permOp2 Lin.fst 4 0x0f0f0f0f
  have c2 := c1.hPermOp 18 0xcccc0000
  have d2 := d1.hPermOp 18 0xcccc0000
  have d3 := d2.permOp1 c2 1 0x55555555
  have c3 := d2.permOp2 c2 1 0x55555555
  have c4 := c3.permOp1 d3 8 0x00ff00ff
  have d4 := c3.permOp2 d3 8 0x00ff00ff
  have d5 := d4.permOp1 c4 1 0x55555555
  have c5 := d4.permOp2 c4 1 0x55555555
  have o1 := Lin.or_mask ((d5.and 0x000000ff).shl 16) (d5.and 0x0000ff00) 0x00ff0000 (by decide +kernel)
  have o2 := Lin.or_mask o1 ((d5.and 0x00ff0000).shr 16) 0x00ffff00 (by decide +kernel)
  have o3 := Lin.or_mask o2 ((c5.and 0xf0000000).shr 4) 0x00ffffff (by decide +kernel)
  exact ⟨c5.and 0x0fffffff, o3⟩

/-- Where key bit `v` (from 1; the first bit of a byte is its most significant) is in the two key words. -/
def keyPos (v : Nat) : Nat := 8 * ((v - 1) / 8) + (7 - (v - 1) % 8)

def keyWordBit (c d : W) (v : Nat) : Bool :=
  if keyPos v < 32 then c.getLsbD (keyPos v) else d.getLsbD (keyPos v - 32)

theorem setKeyPC1_1 (c d : W) (j : Nat) (hj : j < 28) :
    (setKeyPC1 c d).1.getLsbD j = keyWordBit c d (PC1.getD j 0) :=
  lin_setKeyPC1.1.perm (fun j => keyPos (PC1.getD j 0)) 28 (by decide +kernel) (by decide +kernel) c d j hj

theorem setKeyPC1_2 (c d : W) (j : Nat) (hj : j < 28) :
    (setKeyPC1 c d).2.getLsbD j = keyWordBit c d (PC1.getD (28 + j) 0) :=
  lin_setKeyPC1.2.perm (fun j => keyPos (PC1.getD (28 + j) 0)) 28 (by decide +kernel) (by decide +kernel) c d j hj

theorem setKeyPC1_high (c d : W) (j : Nat) (hj : 28 ≤ j) :
    (setKeyPC1 c d).1.getLsbD j = false ∧ (setKeyPC1 c d).2.getLsbD j = false := by
  have key : ∀ w : W, w &&& 0x0fffffff = w → w.getLsbD j = false := by
    intro w hw
    by_cases h : j < 32
    · rw [← hw, BitVec.getLsbD_and]
      have : ∀ j, j < 32 → 28 ≤ j → (0x0fffffff : W).getLsbD j = false := by decide
      rw [this j h hj, Bool.and_false]
    · exact BitVec.getLsbD_of_ge _ _ (by omega)
  constructor
  · exact key _ ((lin_setKeyPC1.1.and 0x0fffffff).ext lin_setKeyPC1.1 (by decide +kernel) (by decide +kernel) c d)
  · exact key _ ((lin_setKeyPC1.2.and 0x0fffffff).ext lin_setKeyPC1.2 (by decide +kernel) (by decide +kernel) c d)

/-! ## Rotation -/

/-- Left rotation of a key half of 28 bits, of which bit 1 is at position 0. -/
theorem rotateHalf_bit (two : Bool) (c : W) (hc : ∀ j, 28 ≤ j → c.getLsbD j = false) (j : Nat) :
    (rotateHalf two c).getLsbD j = (decide (j < 28) && c.getLsbD ((j + if two then 2 else 1) % 28)) := by
  have hm : ∀ j, (0x0fffffff : W).getLsbD j = decide (j < 28) := by
    intro j
    by_cases h : j < 32
    · have : ∀ j, j < 32 → (0x0fffffff : W).getLsbD j = decide (j < 28) := by decide
      exact this j h
    · rw [BitVec.getLsbD_of_ge _ _ (by omega)]; simp; omega
  unfold rotateHalf
  rw [BitVec.getLsbD_and, hm, Bool.and_comm]
  by_cases h : j < 28
  · simp only [h, decide_true, Bool.true_and]
    cases two
    · simp only [Bool.false_eq_true, if_false, BitVec.getLsbD_or, BitVec.getLsbD_ushiftRight, BitVec.getLsbD_shiftLeft]
      by_cases h2 : j < 27
      · rw [Nat.mod_eq_of_lt (show j + 1 < 28 by omega), Nat.add_comm 1 j]; simp [h2]
      · have : j = 27 := by omega
        subst this
        rw [hc (1 + 27) (by omega)]; simp
    · simp only [if_true, BitVec.getLsbD_or, BitVec.getLsbD_ushiftRight, BitVec.getLsbD_shiftLeft]
      by_cases h2 : j < 26
      · rw [Nat.mod_eq_of_lt (show j + 2 < 28 by omega), Nat.add_comm 2 j]; simp [h2]
      · have : j = 26 ∨ j = 27 := by omega
        rcases this with rfl | rfl
        · rw [hc (2 + 26) (by omega)]; simp
        · rw [hc (2 + 27) (by omega)]; simp
  · simp [h]

/-! ## Permuted choice 2 -/

/-- `skb[k]` as a combination of its entries for single bits. -/
def skbLin (k : Nat) (x : W) : W :=
  (if x.getLsbD 0 then skbAt k 1 else 0) ^^^ (if x.getLsbD 1 then skbAt k 2 else 0) ^^^
  (if x.getLsbD 2 then skbAt k 4 else 0) ^^^ (if x.getLsbD 3 then skbAt k 8 else 0) ^^^
  (if x.getLsbD 4 then skbAt k 16 else 0) ^^^ (if x.getLsbD 5 then skbAt k 32 else 0)

theorem skbAt_eq (k : Nat) (hk : k < 8) (x : W) (hx : x &&& 0x3f = x) : skbAt k x = skbLin k x := by
  have key : ∀ k, k < 8 → ∀ n, n < 64 → skbAt k (BitVec.ofNat 32 n) = skbLin k (BitVec.ofNat 32 n) := by decide +kernel
  have hlt : x.toNat < 64 := by
    rw [← hx, BitVec.toNat_and]
    exact Nat.lt_succ_of_le (Nat.and_le_right (m := (0x3f : W).toNat) (n := x.toNat))
  have := key k hk x.toNat hlt
  rwa [BitVec.ofNat_toNat, BitVec.setWidth_eq] at this

theorem Lin.ifBit {f : W → W → W} (hf : Lin f) (j : Nat) (v : W) : Lin (fun a c => if (f a c).getLsbD j then v else 0) := by
  intro a b c d
  simp only
  rw [hf, BitVec.getLsbD_xor]
  cases (f a c).getLsbD j <;> cases (f b d).getLsbD j <;> simp

theorem Lin.skbAt {f : W → W → W} (hf : Lin f) (k : Nat) (hk : k < 8)
    (h : ∀ i, i < 32 → (f (unit i) 0 &&& 0x3f = f (unit i) 0) ∧ (f 0 (unit i) &&& 0x3f = f 0 (unit i))) :
    Lin (fun a c => skbAt k (f a c)) := by
  have hx := (hf.and 0x3f).ext hf (fun i hi => (h i hi).1) (fun i hi => (h i hi).2)
  have e : (fun a c => Verif.skbAt k (f a c)) = fun a c => skbLin k (f a c) := by
    funext a c
    exact skbAt_eq k hk _ (hx a c)
  rw [e]
  exact (((((hf.ifBit 0 _).xor (hf.ifBit 1 _)).xor (hf.ifBit 2 _)).xor (hf.ifBit 3 _)).xor (hf.ifBit 4 _)).xor
    (hf.ifBit 5 _)

theorem lin_keyS : Lin (fun c _ => keyS c) := by
  have hc := Lin.fst
  have i0 := hc.and 0x3f
  have i1 := Lin.or_mask ((hc.shr 6).and 0x03) ((hc.shr 7).and 0x3c) 0x03 (by decide +kernel)
  have i2 := Lin.or_mask ((hc.shr 13).and 0x0f) ((hc.shr 14).and 0x30) 0x0f (by decide +kernel)
  have i3 := Lin.or_mask (Lin.or_mask ((hc.shr 20).and 0x01) ((hc.shr 21).and 0x06) 0x01 (by decide +kernel))
    ((hc.shr 22).and 0x38) 0x07 (by decide +kernel)
  have t0 := i0.skbAt 0 (by omega) (by decide +kernel)
  have t1 := i1.skbAt 1 (by omega) (by decide +kernel)
  have t2 := i2.skbAt 2 (by omega) (by decide +kernel)
  have t3 := i3.skbAt 3 (by omega) (by decide +kernel)
  exact ((t0.or_mask t1 0x20090830 (by decide +kernel)).or_mask t2 0x32292c34 (by decide +kernel)).or_mask t3 0x3b2d2e37 (by decide +kernel)

theorem lin_keyT : Lin (fun _ d => keyT d) := by
  have hd := Lin.snd
  have i4 := hd.and 0x3f
  have i5 := Lin.or_mask ((hd.shr 7).and 0x03) ((hd.shr 8).and 0x3c) 0x03 (by decide +kernel)
  have i6 := (hd.shr 15).and 0x3f
  have i7 := Lin.or_mask ((hd.shr 21).and 0x0f) ((hd.shr 22).and 0x30) 0x0f (by decide +kernel)
  have t4 := i4.skbAt 4 (by omega) (by decide +kernel)
  have t5 := i5.skbAt 5 (by omega) (by decide +kernel)
  have t6 := i6.skbAt 6 (by omega) (by decide +kernel)
  have t7 := i7.skbAt 7 (by omega) (by decide +kernel)
  exact ((t4.or_mask t5 0x30111004 (by decide +kernel)).or_mask t6 0x3a13140d (by decide +kernel)).or_mask t7 0x3b3b171d (by decide +kernel)

theorem lin_roundWords : Lin (fun c d => (roundWords c d).1) ∧ Lin (fun c d => (roundWords c d).2) := by
  have hs := lin_keyS
  have ht := lin_keyT
  have k0 := Lin.or_mask (ht.shl 16) (hs.and 0x0000ffff) 0xffff0000 (by decide +kernel)
  have s' := Lin.or_mask (hs.shr 16) (ht.and 0xffff0000) 0x0000ffff (by decide +kernel)
  have k1 := Lin.or_mask (s'.shl 4) (s'.shr 28) 0xfffffff0 (by decide +kernel)
  exact ⟨k0, k1⟩

/-- Bit `v` (from 1) of the two key halves one after the other. -/
def halvesBit (c d : W) (v : Nat) : Bool := if v ≤ 28 then c.getLsbD (v - 1) else d.getLsbD (v - 29)

def halvesPos (v : Nat) : Nat := if v ≤ 28 then v - 1 else v - 29 + 32

theorem halvesPos_eq (c d : W) (v : Nat) (hv : v ≤ 56) :
    (if halvesPos v < 32 then c.getLsbD (halvesPos v) else d.getLsbD (halvesPos v - 32)) = halvesBit c d v := by
  unfold halvesPos halvesBit
  split <;> split <;> first | rfl | omega | (rw [Nat.add_sub_cancel])

/-- The input of S-box `2m` in the first word of a round key. -/
theorem roundWords_1 (c d : W) (m b : Nat) (hm : m < 4) (hb : b < 6) :
    (roundWords c d).1.getLsbD (8 * m + b) = halvesBit c d (PC2.getD (12 * m + b) 0) := by
  rw [← halvesPos_eq]
  · revert b
    revert m
    intro m hm b hb
    have hp : ∀ m, m < 4 → ∀ b, b < 6 → halvesPos (PC2.getD (12 * m + b) 0) < 64 := by decide
    have hd : ∀ m, m < 4 → ∀ b, b < 6 → ∀ i, i < 32 →
        (roundWords (unit i) 0).1.getLsbD (8 * m + b) = decide (halvesPos (PC2.getD (12 * m + b) 0) = i) ∧
        (roundWords 0 (unit i)).1.getLsbD (8 * m + b) = decide (halvesPos (PC2.getD (12 * m + b) 0) = i + 32) := by
      decide +kernel
    exact lin_roundWords.1.perm1 (8 * m + b) _ (hd m hm b hb) (hp m hm b hb) c d
  · have : ∀ m, m < 4 → ∀ b, b < 6 → PC2.getD (12 * m + b) 0 ≤ 56 := by decide
    exact this m hm b hb

/-- The input of S-box `2m + 1` in the second word of a round key. -/
theorem roundWords_2 (c d : W) (m b : Nat) (hm : m < 4) (hb : b < 6) :
    (roundWords c d).2.getLsbD ((8 * m + b + 4) % 32) = halvesBit c d (PC2.getD (12 * m + 6 + b) 0) := by
  rw [← halvesPos_eq]
  · have hp : ∀ m, m < 4 → ∀ b, b < 6 → halvesPos (PC2.getD (12 * m + 6 + b) 0) < 64 := by decide
    have hd : ∀ m, m < 4 → ∀ b, b < 6 → ∀ i, i < 32 →
        (roundWords (unit i) 0).2.getLsbD ((8 * m + b + 4) % 32) = decide (halvesPos (PC2.getD (12 * m + 6 + b) 0) = i) ∧
        (roundWords 0 (unit i)).2.getLsbD ((8 * m + b + 4) % 32) =
          decide (halvesPos (PC2.getD (12 * m + 6 + b) 0) = i + 32) := by
      decide +kernel
    exact lin_roundWords.2.perm1 _ _ (hd m hm b hb) (hp m hm b hb) c d
  · have : ∀ m, m < 4 → ∀ b, b < 6 → PC2.getD (12 * m + 6 + b) 0 ≤ 56 := by decide
    exact this m hm b hb

end Verif
