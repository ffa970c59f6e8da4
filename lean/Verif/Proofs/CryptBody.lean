import Verif.Proofs.CryptRound
/-!
# Key schedule, iteration and printing of the code against crypt(3)
-/

namespace Verif
open Spec.DES

theorem getD_map_bit (t : List Nat) (x : Bits) (i : Nat) (h : i < t.length) :
    (permute t x).getD i false = bit x (t.getD i 0) := by
  unfold permute
  rw [List.getD_eq_getElem?_getD, List.getElem?_map, List.getElem?_eq_getElem h, List.getD_eq_getElem?_getD,
    List.getElem?_eq_getElem h]
  rfl

theorem bits_ext {x y : Bits} {n : Nat} (hx : x.length = n) (hy : y.length = n)
    (h : ∀ i, i < n → x.getD i false = y.getD i false) : x = y := by
  apply List.ext_getElem?
  intro i
  by_cases hi : i < n
  · have := h i hi
    rw [List.getD_eq_getElem?_getD, List.getD_eq_getElem?_getD, List.getElem?_eq_getElem (by omega),
      List.getElem?_eq_getElem (by omega)] at this
    rw [List.getElem?_eq_getElem (by omega), List.getElem?_eq_getElem (by omega)]
    exact congrArg some this
  · rw [List.getElem?_eq_none (by omega), List.getElem?_eq_none (by omega)]

/-! ## Key schedule -/

/-- The key half a register stands for. -/
def keyHalf (c : W) : Bits := (List.range 28).map c.getLsbD

@[simp] theorem keyHalf_length (c : W) : (keyHalf c).length = 28 := by simp [keyHalf]

theorem keyHalf_getD (c : W) (i : Nat) (h : i < 28) : (keyHalf c).getD i false = c.getLsbD i :=
  getD_map_range _ _ _ _ h

theorem keyHalf_rotate (two : Bool) (c : W) (hc : ∀ j, 28 ≤ j → c.getLsbD j = false) :
    keyHalf (rotateHalf two c) = (keyHalf c).drop (if two then 2 else 1) ++ (keyHalf c).take (if two then 2 else 1) := by
  have hn : (if two then 2 else 1) = 1 ∨ (if two then 2 else 1) = 2 := by cases two <;> simp
  generalize hg : (if two then 2 else 1) = n at hn
  apply bits_ext (n := 28) (by simp) (by simp; omega)
  intro i hi
  rw [keyHalf_getD _ _ hi, rotateHalf_bit two c hc, hg]
  simp only [hi, decide_true, Bool.true_and]
  by_cases h : i < 28 - n
  · rw [List.getD_eq_getElem?_getD, List.getElem?_append_left (by simp; omega), List.getElem?_drop,
      ← List.getD_eq_getElem?_getD, keyHalf_getD _ _ (by omega)]
    congr 1; omega
  · rw [List.getD_eq_getElem?_getD, List.getElem?_append_right (by simp; omega), List.getElem?_take,
      if_pos (by simp; omega), ← List.getD_eq_getElem?_getD, keyHalf_getD _ _ (by simp; omega)]
    congr 1; simp; omega

theorem bit_halves (c d : W) (v : Nat) (h1 : 1 ≤ v) (h2 : v ≤ 56) : bit (keyHalf c ++ keyHalf d) v = halvesBit c d v := by
  unfold bit halvesBit
  split
  · rw [List.getD_eq_getElem?_getD, List.getElem?_append_left (by simp; omega), ← List.getD_eq_getElem?_getD,
      keyHalf_getD _ _ (by omega)]
  · rw [List.getD_eq_getElem?_getD, List.getElem?_append_right (by simp; omega), ← List.getD_eq_getElem?_getD,
      keyHalf_getD _ _ (by simp; omega)]
    congr 1

theorem keyRep_roundWords (c d : W) :
    KeyRep (roundWords c d).1 (roundWords c d).2 (permute PC2 (keyHalf c ++ keyHalf d)) := by
  have hl : PC2.length = 48 := by decide
  have hv : ∀ i, i < 48 → 1 ≤ PC2.getD i 0 ∧ PC2.getD i 0 ≤ 56 := by decide
  refine ⟨by simp [permute, hl], ?_, ?_⟩
  · intro m b hm hb
    have hi : 12 * m + b < 48 := by omega
    rw [roundWords_1 c d m b hm hb, getD_map_bit _ _ _ (by omega), bit_halves _ _ _ (hv _ hi).1 (hv _ hi).2]
  · intro m b hm hb
    have hi : 12 * m + 6 + b < 48 := by omega
    rw [roundWords_2 c d m b hm hb, getD_map_bit _ _ _ (by omega), bit_halves _ _ _ (hv _ hi).1 (hv _ hi).2]

/-- The words of all rounds. -/
def KeysRep (s : List W) (Ks : List Bits) : Prop :=
  ∀ i, i < Ks.length → KeyRep (ksAt s (2 * i)) (ksAt s (2 * i + 1)) (Ks.getD i [])

theorem keysRep_loop (bs : List Bool) (c d : W) (hc : ∀ j, 28 ≤ j → c.getLsbD j = false)
    (hd : ∀ j, 28 ≤ j → d.getLsbD j = false) :
    KeysRep (keyLoop bs c d) (roundKeys.go (bs.map (fun b => if b then 2 else 1)) (keyHalf c) (keyHalf d)) ∧
    (roundKeys.go (bs.map (fun b => if b then 2 else 1)) (keyHalf c) (keyHalf d)).length = bs.length := by
  induction bs generalizing c d with
  | nil => exact ⟨fun i hi => absurd hi (by simp [roundKeys.go]), rfl⟩
  | cons b bs ih =>
    have hc' : ∀ j, 28 ≤ j → (rotateHalf b c).getLsbD j = false := by
      intro j hj
      rw [rotateHalf_bit b c hc]
      have : ¬ j < 28 := by omega
      simp [this]
    have hd' : ∀ j, 28 ≤ j → (rotateHalf b d).getLsbD j = false := by
      intro j hj
      rw [rotateHalf_bit b d hd]
      have : ¬ j < 28 := by omega
      simp [this]
    obtain ⟨ih1, ih2⟩ := ih _ _ hc' hd'
    simp only [List.map_cons, roundKeys.go, keyLoop, ← keyHalf_rotate b c hc, ← keyHalf_rotate b d hd]
    refine ⟨?_, by simp [ih2]⟩
    intro i hi
    cases i with
    | zero => exact keyRep_roundWords _ _
    | succ i => exact ih1 i (by simpa using hi)

/-! ## The key -/

theorem word_bit (b : UInt8) (j : Nat) : (word b).getLsbD j = b.toNat.testBit j := by
  unfold word
  rw [BitVec.getLsbD_setWidth]
  by_cases h : j < 32
  · simp only [h, decide_true, Bool.true_and]; rfl
  · simp only [h, decide_false, Bool.false_and]
    rw [Nat.testBit_lt_two_pow (Nat.lt_of_lt_of_le b.toNat_lt (Nat.pow_le_pow_right (by omega) (by omega : 8 ≤ j)))]

theorem byte_bit_high (b : UInt8) (j : Nat) (h : 8 ≤ j) : b.toNat.testBit j = false :=
  Nat.testBit_lt_two_pow (Nat.lt_of_lt_of_le b.toNat_lt (Nat.pow_le_pow_right (by omega) h))

theorem c2l_bit (c : Bytes) (j : Nat) (hj : j < 32) : (c2l c).getLsbD j = (byteAt c (j / 8)).toNat.testBit (j % 8) := by
  unfold c2l
  simp only [BitVec.getLsbD_or, BitVec.getLsbD_shiftLeft, word_bit]
  have : j / 8 = 0 ∨ j / 8 = 1 ∨ j / 8 = 2 ∨ j / 8 = 3 := by omega
  rcases this with h | h | h | h
  · have e : j % 8 = j := by omega
    have h1 : j < 8 := by omega
    have h2 : j < 16 := by omega
    have h3 : j < 24 := by omega
    rw [h, e]; simp [h1, h2, h3]
  · have e : j % 8 = j - 8 := by omega
    have h1 : ¬ j < 8 := by omega
    have h2 : j < 16 := by omega
    have h3 : j < 24 := by omega
    rw [h, e, byte_bit_high _ j (by omega)]; simp [hj, h1, h2, h3]
  · have e : j % 8 = j - 16 := by omega
    have h1 : ¬ j < 8 := by omega
    have h2 : ¬ j < 16 := by omega
    have h3 : j < 24 := by omega
    rw [h, e, byte_bit_high _ j (by omega), byte_bit_high _ (j - 8) (by omega)]; simp [hj, h1, h2, h3]
  · have e : j % 8 = j - 24 := by omega
    have h1 : ¬ j < 8 := by omega
    have h2 : ¬ j < 16 := by omega
    have h3 : ¬ j < 24 := by omega
    rw [h, e, byte_bit_high _ j (by omega), byte_bit_high _ (j - 8) (by omega), byte_bit_high _ (j - 16) (by omega)]
    simp [hj, h1, h2, h3]

/-- The eight characters of a key: the first eight bytes of the password up to a NUL, filled up with zeros. -/
def keyChars (p : Bytes) : Bytes :=
  (p.take 8).takeWhile (· ≠ 0) ++ List.replicate (8 - ((p.take 8).takeWhile (· ≠ 0)).length) 0

theorem keyChars_length (p : Bytes) : (keyChars p).length = 8 := by
  have : ((p.take 8).takeWhile (· ≠ 0)).length ≤ 8 :=
    Nat.le_trans (List.takeWhile_sublist _).length_le (by simp; omega)
  unfold keyChars
  simp only [List.length_append, List.length_replicate]
  omega

theorem cryptKey_eq (p : Bytes) : cryptKey p = (keyChars p).map (fun c : UInt8 => c <<< 1) := by
  unfold cryptKey keyChars
  have e : (if 8 < p.length then p.take 8 else p) = p.take 8 := by
    split
    · rfl
    · rw [List.take_of_length_le (by omega)]
  simp only [e, List.map_append, List.length_map, List.map_replicate]
  rfl

theorem keyBits_eq (p : Bytes) : keyBits p = (keyChars p).flatMap charBits := rfl

theorem list_eq_range {α : Type} (l : List α) (d : α) : l = (List.range l.length).map (fun i => l.getD i d) := by
  apply List.ext_getElem?
  intro i
  by_cases h : i < l.length
  · rw [List.getElem?_map, List.getElem?_range h]
    simp only [Option.map_some, List.getD_eq_getElem?_getD, List.getElem?_eq_getElem h, Option.getD_some]
  · rw [List.getElem?_eq_none (by omega), List.getElem?_eq_none (by simp; omega)]

theorem keyBits_getD (p : Bytes) (y x : Nat) (hy : y < 8) (hx : x < 8) :
    (keyBits p).getD (8 * y + x) false = (charBits ((keyChars p).getD y 0)).getD x false := by
  rw [keyBits_eq]
  conv => lhs; rw [list_eq_range (keyChars p) 0]
  rw [List.flatMap_map, getD_flatMap_range (fun i => charBits ((keyChars p).getD i 0)) 8 _ (fun k => by simp [charBits]) _ y x
    (by rw [keyChars_length]; exact hy) hx]

theorem shl1_bit (c : UInt8) (x : Nat) (hx : x < 8) : (c <<< 1).toNat.testBit (7 - x) = (charBits c).getD x false := by
  have key : ∀ n, n < 256 → ∀ x, x < 8 →
      ((UInt8.ofNat n) <<< 1).toNat.testBit (7 - x) = (charBits (UInt8.ofNat n)).getD x false := by decide +kernel
  have := key c.toNat c.toNat_lt x hx
  rwa [UInt8.ofNat_toNat] at this

theorem byteAt_slice (d : Bytes) (a b i : Nat) (h : a + i < b) : byteAt (slice d a b) i = byteAt d (a + i) := by
  unfold byteAt
  rw [List.getD_eq_getElem?_getD, slice_getElem?, if_pos h, List.getD_eq_getElem?_getD]

theorem keyWordBit_eq (p : Bytes) (v : Nat) (h1 : 1 ≤ v) (h2 : v ≤ 64) :
    keyWordBit (c2l (slice (cryptKey p) 0 4)) (c2l (slice (cryptKey p) 4 8)) v = bit (keyBits p) v := by
  have hv : v - 1 = 8 * ((v - 1) / 8) + (v - 1) % 8 := by omega
  have hk : ∀ y, y < 8 → byteAt (cryptKey p) y = ((keyChars p).getD y 0) <<< 1 := by
    intro y hy
    rw [cryptKey_eq]
    unfold byteAt
    rw [List.getD_eq_getElem?_getD, List.getElem?_map, List.getElem?_eq_getElem (by rw [keyChars_length]; exact hy),
      List.getD_eq_getElem?_getD, List.getElem?_eq_getElem (by rw [keyChars_length]; exact hy)]
    rfl
  unfold keyWordBit bit
  rw [hv, keyBits_getD p _ _ (by omega) (by omega), ← shl1_bit _ _ (by omega), ← hk _ (by omega)]
  unfold keyPos
  split
  · rw [c2l_bit _ _ (by omega), byteAt_slice _ _ _ _ (by omega)]
    congr 2
    · congr 1; omega
    · omega
  · rw [c2l_bit _ _ (by omega), byteAt_slice _ _ _ _ (by omega)]
    congr 2
    · congr 1; omega
    · omega

/-- **The key schedule of the code is that of DES.** -/
theorem desSetKey_rep (p : Bytes) : KeysRep (desSetKey (cryptKey p)) (roundKeys (keyBits p)) ∧
    (roundKeys (keyBits p)).length = 16 := by
  have hl : PC1.length = 56 := by decide
  have hv : ∀ i, i < 56 → 1 ≤ PC1.getD i 0 ∧ PC1.getD i 0 ≤ 64 := by decide
  have hs : shiftTable = shifts2.map (fun b => if b then 2 else 1) := by decide
  have e1 : keyHalf (setKeyPC1 (c2l (slice (cryptKey p) 0 4)) (c2l (slice (cryptKey p) 4 8))).1 =
      (permute PC1 (keyBits p)).take 28 := by
    apply bits_ext (n := 28) (by simp) (by simp [permute, hl])
    intro i hi
    rw [keyHalf_getD _ _ hi, setKeyPC1_1 _ _ _ hi, keyWordBit_eq _ _ (hv i (by omega)).1 (hv i (by omega)).2,
      List.getD_eq_getElem?_getD (l := List.take _ _), List.getElem?_take, if_pos hi, ← List.getD_eq_getElem?_getD, getD_map_bit _ _ _ (by omega)]
  have e2 : keyHalf (setKeyPC1 (c2l (slice (cryptKey p) 0 4)) (c2l (slice (cryptKey p) 4 8))).2 =
      (permute PC1 (keyBits p)).drop 28 := by
    apply bits_ext (n := 28) (by simp) (by simp [permute, hl])
    intro i hi
    rw [keyHalf_getD _ _ hi, setKeyPC1_2 _ _ _ hi, keyWordBit_eq _ _ (hv _ (by omega)).1 (hv _ (by omega)).2,
      List.getD_eq_getElem?_getD (l := List.drop _ _), List.getElem?_drop, ← List.getD_eq_getElem?_getD, getD_map_bit _ _ _ (by omega)]
  unfold roundKeys desSetKey
  rw [← e1, ← e2, hs]
  have := keysRep_loop shifts2 _ _ (fun j hj => (setKeyPC1_high (c2l (slice (cryptKey p) 0 4)) (c2l (slice (cryptKey p) 4 8)) j hj).1)
    (fun j hj => (setKeyPC1_high (c2l (slice (cryptKey p) 0 4)) (c2l (slice (cryptKey p) 4 8)) j hj).2)
  exact ⟨this.1, this.2⟩

/-! ## Sixteen rounds, twenty-five times -/

theorem drop_two (Ks : List Bits) (j : Nat) (h : j + 1 < Ks.length) :
    Ks.drop j = Ks.getD j [] :: Ks.getD (j + 1) [] :: Ks.drop (j + 2) := by
  rw [List.drop_eq_getElem_cons (by omega), List.drop_eq_getElem_cons (by omega), List.getD_eq_getElem?_getD,
    List.getElem?_eq_getElem (by omega), List.getD_eq_getElem?_getD, List.getElem?_eq_getElem (by omega)]
  rfl

theorem desLoop_eq {E0 E1 : W} {salt : Bits} (hs : SaltRep E0 E1 salt) {s : List W} {Ks : List Bits} (hk : KeysRep s Ks) :
    ∀ (n j : Nat) (l r : W), Ks.length = 2 * (j + n) →
      rounds salt (Ks.drop (2 * j)) (halfBits l, halfBits r) =
        (halfBits (desLoop s E0 E1 n (4 * j) (l, r)).1, halfBits (desLoop s E0 E1 n (4 * j) (l, r)).2) := by
  intro n
  induction n with
  | zero =>
    intro j l r h
    rw [List.drop_of_length_le (by omega)]
    rfl
  | succ n ih =>
    intro j l r h
    rw [drop_two Ks (2 * j) (by omega)]
    have k1 : KeyRep (ksAt s (4 * j)) (ksAt s (4 * j + 1)) (Ks.getD (2 * j) []) := by
      have := hk (2 * j) (by omega)
      rwa [show 2 * (2 * j) = 4 * j by omega] at this
    have k2 : KeyRep (ksAt s (4 * j + 2)) (ksAt s (4 * j + 2 + 1)) (Ks.getD (2 * j + 1) []) := by
      have := hk (2 * j + 1) (by omega)
      rwa [show 2 * (2 * j + 1) = 4 * j + 2 by omega] at this
    simp only [rounds]
    rw [← dEncrypt_eq hs l r (4 * j) s k1, ← dEncrypt_eq hs r _ (4 * j + 2) s k2]
    have := ih (j + 1) (dEncrypt l r (4 * j) E0 E1 s) (dEncrypt r (dEncrypt l r (4 * j) E0 E1 s) (4 * j + 2) E0 E1 s) (by omega)
    rw [show 2 * (j + 1) = 2 * j + 2 by omega, show 4 * (j + 1) = 4 * j + 4 by omega] at this
    exact this

theorem permute_inverse {A B : List Nat} (hA : A.length = 64) (hB : B.length = 64)
    (h : ∀ i, i < 64 → 1 ≤ A.getD i 0 ∧ A.getD i 0 ≤ 64 ∧ B.getD (A.getD i 0 - 1) 0 = i + 1) (x : Bits) (hx : x.length = 64) :
    permute A (permute B x) = x := by
  apply bits_ext (n := 64) (by simp [permute, hA]) hx
  intro i hi
  obtain ⟨h1, h2, h3⟩ := h i hi
  rw [getD_map_bit _ _ _ (by omega)]
  unfold bit
  rw [getD_map_bit _ _ _ (by omega), h3]
  rfl

theorem ip_fp (x : Bits) (hx : x.length = 64) : permute IP (permute FP x) = x :=
  permute_inverse (by decide) (by decide) (by decide) x hx

theorem fp_ip (x : Bits) (hx : x.length = 64) : permute FP (permute IP x) = x :=
  permute_inverse (by decide) (by decide) (by decide) x hx

theorem encrypt_length (salt : Bits) (Ks : List Bits) (b : Bits) : (encrypt salt Ks b).length = 64 := by
  have : FP.length = 64 := by decide
  simp [encrypt, permute, this]

theorem bodyLoop_eq {E0 E1 : W} {salt : Bits} (hs : SaltRep E0 E1 salt) {s : List W} {Ks : List Bits} (hk : KeysRep s Ks)
    (hl : Ks.length = 16) : ∀ (n : Nat) (l r : W) (b : Bits), b.length = 64 → permute IP b = halfBits l ++ halfBits r →
      (iterate n (encrypt salt Ks) b).length = 64 ∧ permute IP (iterate n (encrypt salt Ks) b) =
        halfBits (bodyLoop s E0 E1 n (l, r)).1 ++ halfBits (bodyLoop s E0 E1 n (l, r)).2 := by
  intro n
  induction n with
  | zero => exact fun l r b hb h => ⟨hb, h⟩
  | succ n ih =>
    intro l r b hb h
    have e := desLoop_eq hs hk 8 0 l r (by omega)
    simp only [Nat.mul_zero, List.drop_zero] at e
    have e2 : encrypt salt Ks b = permute FP (halfBits (desLoop s E0 E1 8 0 (l, r)).2 ++ halfBits (desLoop s E0 E1 8 0 (l, r)).1) := by
      unfold encrypt
      simp only [h]
      rw [List.take_left' (by simp), List.drop_left' (by simp), e]
    have e3 : permute IP (encrypt salt Ks b) =
        halfBits (desLoop s E0 E1 8 0 (l, r)).2 ++ halfBits (desLoop s E0 E1 8 0 (l, r)).1 := by
      rw [e2, ip_fp _ (by simp)]
    exact ih _ _ _ (encrypt_length _ _ _) e3

/-- The block after 25 encryptions, from the registers before the final permutation. -/
theorem block_eq {E0 E1 : W} {salt : Bits} (hs : SaltRep E0 E1 salt) {s : List W} {Ks : List Bits} (hk : KeysRep s Ks)
    (hl : Ks.length = 16) : iterate 25 (encrypt salt Ks) (List.replicate 64 false) =
      permute FP (halfBits (bodyLoop s E0 E1 25 (0, 0)).1 ++ halfBits (bodyLoop s E0 E1 25 (0, 0)).2) := by
  have h0 : permute IP (List.replicate 64 false) = halfBits 0 ++ halfBits 0 := by decide
  obtain ⟨h1, h2⟩ := bodyLoop_eq hs hk hl 25 0 0 (List.replicate 64 false) (by simp) h0
  rw [← h2, fp_ip _ h1]

/-! ## Printing -/

theorem lowByte_bit (w : W) (n j : Nat) (hj : j < 8) :
    (lowByte ((w >>> n) &&& 0xff)).toNat.testBit j = w.getLsbD (n + j) := by
  have hm : ∀ j, j < 8 → (0xff : W).getLsbD j = true := by decide
  have : (lowByte ((w >>> n) &&& 0xff)).toNat.testBit j = (((w >>> n) &&& 0xff).setWidth 8).getLsbD j := rfl
  rw [this, BitVec.getLsbD_setWidth, BitVec.getLsbD_and, hm j hj, BitVec.getLsbD_ushiftRight]
  simp [hj]

theorem l2c_bit (w : W) (y j : Nat) (hy : y < 4) (hj : j < 8) :
    (byteAt (l2c w) y).toNat.testBit j = w.getLsbD (8 * y + j) := by
  have : y = 0 ∨ y = 1 ∨ y = 2 ∨ y = 3 := by omega
  rcases this with rfl | rfl | rfl | rfl
  · have := lowByte_bit w 0 j hj
    rw [BitVec.ushiftRight_zero] at this
    exact this
  · exact lowByte_bit w 8 j hj
  · exact lowByte_bit w 16 j hj
  · exact lowByte_bit w 24 j hj

theorem bit_regs (l r : W) (v : Nat) (h1 : 1 ≤ v) (h2 : v ≤ 64) : bit (halfBits l ++ halfBits r) v = regBit l r v := by
  unfold regBit
  split
  · have := bit_halfBits l v h1 (by omega)
    rw [← this]
    unfold bit
    rw [List.getD_eq_getElem?_getD, List.getElem?_append_left (by simp; omega), List.getD_eq_getElem?_getD]
  · have := bit_halfBits r (v - 32) (by omega) (by omega)
    rw [show v % 32 = (v - 32) % 32 by omega, ← this]
    unfold bit
    rw [List.getD_eq_getElem?_getD, List.getElem?_append_right (by simp; omega), List.getD_eq_getElem?_getD]
    congr 2

/-- The bytes the code prints from, with the byte it appends. -/
def outBytes (l r : W) : Bytes := l2c (finalPerm l r).1 ++ l2c (finalPerm l r).2 ++ [0]

/-- Bit `n` (from 0, most significant first) of a byte string. -/
def msbBit (b : Bytes) (n : Nat) : Bool := (byteAt b (n / 8)).toNat.testBit (7 - n % 8)

theorem outBytes_bit (l r : W) (n : Nat) (hn : n < 66) :
    msbBit (outBytes l r) n = (permute FP (halfBits l ++ halfBits r) ++ [false, false]).getD n false := by
  have hF : FP.length = 64 := by decide
  have hv : ∀ i, i < 64 → 1 ≤ FP.getD i 0 ∧ FP.getD i 0 ≤ 64 := by decide
  have hpl : (permute FP (halfBits l ++ halfBits r)).length = 64 := by simp [permute, hF]
  have h4 : ∀ w, (l2c w).length = 4 := fun _ => rfl
  unfold msbBit outBytes
  by_cases h1 : n < 64
  · have rhs : (permute FP (halfBits l ++ halfBits r) ++ [false, false]).getD n false = regBit l r (FP.getD n 0) := by
      rw [List.getD_eq_getElem?_getD, List.getElem?_append_left (by omega), ← List.getD_eq_getElem?_getD,
        getD_map_bit _ _ _ (by omega), bit_regs _ _ _ (hv n h1).1 (hv n h1).2]
    rw [rhs]
    by_cases h2 : n < 32
    · have e : byteAt (l2c (finalPerm l r).1 ++ l2c (finalPerm l r).2 ++ [0]) (n / 8) = byteAt (l2c (finalPerm l r).1) (n / 8) := by
        unfold byteAt
        rw [List.append_assoc, List.getD_eq_getElem?_getD, List.getElem?_append_left (by rw [h4]; omega),
          ← List.getD_eq_getElem?_getD]
      rw [e, l2c_bit _ _ _ (by omega) (by omega), finalPerm_1 _ _ _ (by omega)]
      congr 2
      unfold printPos
      omega
    · have e : byteAt (l2c (finalPerm l r).1 ++ l2c (finalPerm l r).2 ++ [0]) (n / 8) =
          byteAt (l2c (finalPerm l r).2) (n / 8 - 4) := by
        unfold byteAt
        rw [List.append_assoc, List.getD_eq_getElem?_getD, List.getElem?_append_right (by rw [h4]; omega), h4,
          List.getElem?_append_left (by rw [h4]; omega), ← List.getD_eq_getElem?_getD]
      rw [e, l2c_bit _ _ _ (by omega) (by omega), finalPerm_2 _ _ _ (by omega)]
      congr 2
      unfold printPos
      omega
  · have e : byteAt (l2c (finalPerm l r).1 ++ l2c (finalPerm l r).2 ++ [0]) (n / 8) = 0 := by
      have : n / 8 = 8 := by omega
      rw [this]; rfl
    have : n = 64 ∨ n = 65 := by omega
    rw [e, List.getD_eq_getElem?_getD, List.getElem?_append_right (by omega), hpl]
    rcases this with rfl | rfl <;> rfl

/-- The state of the printing loops before bit `n`. -/
def printSt (n c : Nat) : PrintState := ⟨n / 8, 0x80 >>> (UInt8.ofNat (n % 8)), c⟩

theorem printBit_step (bb : Bytes) (n c : Nat) : printBit bb (printSt n c) = printSt (n + 1) (2 * c + (msbBit bb n).toNat) := by
  have t1 : ∀ m, m < 256 → ∀ x, x < 8 → (UInt8.ofNat m &&& ((0x80 : UInt8) >>> (UInt8.ofNat x)) ≠ 0 ↔
      (UInt8.ofNat m).toNat.testBit (7 - x) = true) := by decide +kernel
  have t2 : ∀ x, x < 8 → ((0x80 : UInt8) >>> (UInt8.ofNat x) >>> 1 = 0 ↔ x = 7) := by decide
  have t3 : ∀ x, x < 7 → (0x80 : UInt8) >>> (UInt8.ofNat x) >>> 1 = 0x80 >>> (UInt8.ofNat (x + 1)) := by decide
  have hx : n % 8 < 8 := Nat.mod_lt _ (by omega)
  have h1 := t1 (byteAt bb (n / 8)).toNat (byteAt bb (n / 8)).toNat_lt (n % 8) hx
  rw [UInt8.ofNat_toNat] at h1
  have hc : (if byteAt bb (n / 8) &&& (0x80 : UInt8) >>> (UInt8.ofNat (n % 8)) ≠ 0 then 2 * c ||| 1 else 2 * c) =
      2 * c + (msbBit bb n).toNat := by
    unfold msbBit
    by_cases hb : (byteAt bb (n / 8)).toNat.testBit (7 - n % 8) = true
    · rw [if_pos (h1.2 hb), hb]
      exact (Nat.two_pow_add_eq_or_of_lt (i := 1) (b := 1) (by omega) c).symm
    · rw [if_neg (fun h => hb (h1.1 h))]
      simp [hb]
  unfold printBit printSt
  simp only [hc]
  by_cases h7 : n % 8 = 7
  · rw [if_pos ((t2 _ hx).2 h7)]
    have e1 : (n + 1) / 8 = n / 8 + 1 := by omega
    have e2 : (n + 1) % 8 = 0 := by omega
    rw [e1, e2]; rfl
  · rw [if_neg (fun h => h7 ((t2 _ hx).1 h)), t3 _ (by omega)]
    have e1 : (n + 1) / 8 = n / 8 := by omega
    have e2 : (n + 1) % 8 = n % 8 + 1 := by omega
    rw [e1, e2]

theorem printChars_eq (bb : Bytes) : ∀ (n k : Nat), printChars bb n (printSt (6 * k) 0).y (printSt (6 * k) 0).u =
    (List.range' k n).map (fun i => cov2char.getD (sixBits [msbBit bb (6 * i), msbBit bb (6 * i + 1), msbBit bb (6 * i + 2),
      msbBit bb (6 * i + 3), msbBit bb (6 * i + 4), msbBit bb (6 * i + 5)]) 0) := by
  intro n
  induction n with
  | zero => intro k; rfl
  | succ n ih =>
    intro k
    have e : (⟨(printSt (6 * k) 0).y, (printSt (6 * k) 0).u, 0⟩ : PrintState) = printSt (6 * k) 0 := rfl
    simp only [printChars, List.range'_succ, List.map_cons, e, printBit_step]
    congr 1
    have := ih (k + 1)
    rw [show 6 * (k + 1) = 6 * k + 1 + 1 + 1 + 1 + 1 + 1 by omega] at this
    exact this

/-- **Printing.** -/
theorem printChars_block (l r : W) : printChars (outBytes l r) 11 0 0x80 = printBlock (permute FP (halfBits l ++ halfBits r)) := by
  have hF : FP.length = 64 := by decide
  have h := printChars_eq (outBytes l r) 11 0
  have e : (printSt (6 * 0) 0).y = 0 ∧ (printSt (6 * 0) 0).u = 0x80 := by decide
  rw [e.1, e.2] at h
  rw [h, ← List.range_eq_range']
  unfold printBlock
  apply List.map_congr_left
  intro i hi
  have hi : i < 11 := by simpa using hi
  have ha : cov2char = alphabet := by decide
  have hl : (permute FP (halfBits l ++ halfBits r) ++ [false, false]).length = 66 := by simp [permute, hF]
  rw [take6_drop _ _ (by omega), outBytes_bit _ _ _ (by omega), outBytes_bit _ _ _ (by omega), outBytes_bit _ _ _ (by omega),
    outBytes_bit _ _ _ (by omega), outBytes_bit _ _ _ (by omega), outBytes_bit _ _ _ (by omega), ha]

end Verif
