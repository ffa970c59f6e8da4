import Verif.Proofs.CryptPerm
/-!
# One round of DES in the representation of the code
-/

namespace Verif
open Spec.DES

/-- The half block a register stands for: bit `v` (from 1) is at position `v mod 32`. -/
def halfBits (w : W) : Bits := (List.range 32).map (fun i => w.getLsbD ((i + 1) % 32))

theorem getD_map_range {α : Type} (f : Nat → α) (n i : Nat) (d : α) (h : i < n) : ((List.range n).map f).getD i d = f i := by
  rw [List.getD_eq_getElem?_getD, List.getElem?_map, List.getElem?_range h]
  rfl

@[simp] theorem halfBits_length (w : W) : (halfBits w).length = 32 := by simp [halfBits]

theorem bit_halfBits (w : W) (v : Nat) (h1 : 1 ≤ v) (h2 : v ≤ 32) : bit (halfBits w) v = w.getLsbD (v % 32) := by
  unfold bit halfBits
  rw [getD_map_range _ _ _ _ (by omega)]
  congr 2
  omega

theorem getD_flatMap_range {α : Type} (g : Nat → List α) (c : Nat) (d : α) (hl : ∀ k, (g k).length = c) (n k o : Nat)
    (hk : k < n) (ho : o < c) : ((List.range n).flatMap g).getD (c * k + o) d = (g k).getD o d := by
  have hlen : ∀ n, ((List.range n).flatMap g).length = c * n := by
    intro n
    induction n with
    | zero => simp
    | succ n ih => rw [List.range_succ, List.flatMap_append, List.length_append, ih]; simp [hl, Nat.mul_succ]
  induction n with
  | zero => omega
  | succ n ih =>
    rw [List.range_succ, List.flatMap_append]
    have hb : c * k + o < c * (k + 1) := by rw [Nat.mul_succ]; omega
    by_cases h : k < n
    · have : c * (k + 1) ≤ c * n := Nat.mul_le_mul_left c h
      rw [List.getD_eq_getElem?_getD, List.getElem?_append_left (by rw [hlen]; omega), ← List.getD_eq_getElem?_getD, ih h]
    · have : k = n := by omega
      subst this
      rw [List.getD_eq_getElem?_getD, List.getElem?_append_right (by rw [hlen]; omega), hlen, Nat.add_sub_cancel_left]
      simp

/-! ## Salted expansion -/

/-- `E0`, `E1` are the masks of the twelve salt bits. -/
structure SaltRep (E0 E1 : W) (salt : Bits) : Prop where
  len : salt.length = 12
  e0 : ∀ p, E0.getLsbD p = (decide (p < 6) && salt.getD p false)
  e1 : ∀ p, E1.getLsbD p = (decide (4 ≤ p ∧ p < 10) && salt.getD (p + 2) false)

/-- The expansion in `dEncrypt`: positions `j` and `j + 16` exchanged where the mask is set. -/
def saltSwap (E R : W) : W := (((R ^^^ (R >>> 16)) &&& E) ^^^ (((R ^^^ (R >>> 16)) &&& E) <<< 16)) ^^^ R

theorem saltSwap_bit (E R : W) (hE : ∀ p, 16 ≤ p → E.getLsbD p = false) (j : Nat) (hj : j < 32) :
    (saltSwap E R).getLsbD j = if E.getLsbD (j % 16) then R.getLsbD ((j + 16) % 32) else R.getLsbD j := by
  unfold saltSwap
  simp only [BitVec.getLsbD_xor, BitVec.getLsbD_and, BitVec.getLsbD_shiftLeft, BitVec.getLsbD_ushiftRight]
  by_cases h : j < 16
  · have e1 : j % 16 = j := Nat.mod_eq_of_lt h
    have e2 : (j + 16) % 32 = 16 + j := by omega
    rw [e1, e2]
    simp only [h, decide_true, Bool.not_true, Bool.and_false, Bool.false_and, Bool.xor_false]
    cases E.getLsbD j <;> cases R.getLsbD j <;> cases R.getLsbD (16 + j) <;> rfl
  · have e1 : j % 16 = j - 16 := by omega
    have e2 : (j + 16) % 32 = j - 16 := by omega
    have e3 : 16 + (j - 16) = j := by omega
    rw [e1, e2, e3, hE j (by omega)]
    simp only [h, hj, decide_true, decide_false, Bool.not_false, Bool.and_false, Bool.true_and, Bool.false_xor]
    cases E.getLsbD (j - 16) <;> cases R.getLsbD j <;> cases R.getLsbD (j - 16) <;> rfl

theorem roundU_bit (R E k : W) (j : Nat) : (roundU R E k).getLsbD j = ((saltSwap E R).getLsbD j ^^ k.getLsbD j) := by
  unfold roundU saltSwap
  rw [BitVec.getLsbD_xor]

theorem roundT_bit (R E k : W) (j : Nat) (hj : j < 32) : (roundT R E k).getLsbD j =
    ((saltSwap E R).getLsbD ((j + 4) % 32) ^^ k.getLsbD ((j + 4) % 32)) := by
  have e : roundT R E k = ((saltSwap E R ^^^ k) >>> 4) ||| ((saltSwap E R ^^^ k) <<< 28) := rfl
  rw [e, BitVec.getLsbD_or, BitVec.getLsbD_ushiftRight, BitVec.getLsbD_shiftLeft, ← BitVec.getLsbD_xor]
  by_cases h : j < 28
  · have e2 : (j + 4) % 32 = 4 + j := by omega
    rw [e2]; simp [h]
  · have e2 : (j + 4) % 32 = j - 28 := by omega
    rw [e2, BitVec.getLsbD_of_ge _ (4 + j) (by omega)]
    simp [h, hj]

theorem expand_get (salt : Bits) (w : W) (i : Nat) (hi : i < 48) : (expand salt (halfBits w)).getD i false =
    if salt.getD (i % 24) false then w.getLsbD (E.getD ((i + 24) % 48) 0 % 32) else w.getLsbD (E.getD i 0 % 32) := by
  have hE : ∀ i, i < 48 → 1 ≤ E.getD i 0 ∧ E.getD i 0 ≤ 32 := by decide
  have hp : ∀ i, i < 48 → (permute E (halfBits w)).getD i false = w.getLsbD (E.getD i 0 % 32) := by
    intro i hi
    have : (permute E (halfBits w)).getD i false = bit (halfBits w) (E.getD i 0) := by
      unfold permute
      rw [List.getD_eq_getElem?_getD, List.getElem?_map, List.getD_eq_getElem?_getD]
      have hl : i < E.length := by
        have : E.length = 48 := by decide
        omega
      rw [List.getElem?_eq_getElem hl]
      rfl
    rw [this, bit_halfBits _ _ (hE i hi).1 (hE i hi).2]
  unfold expand
  rw [getD_map_range _ _ _ _ hi]
  simp only
  have e : (if i < 24 then i + 24 else i - 24) = (i + 24) % 48 := by split <;> omega
  rw [e, hp i hi, hp _ (Nat.mod_lt _ (by omega))]

/-- The expanded half in the places where the code looks for the input of S-box `2m`. -/
theorem saltSwap_even {E0 E1 : W} {salt : Bits} (h : SaltRep E0 E1 salt) (R : W) (m b : Nat) (hm : m < 4) (hb : b < 6) :
    (saltSwap E0 R).getLsbD (8 * m + b) = (expand salt (halfBits R)).getD (12 * m + b) false := by
  have t1 : ∀ m, m < 4 → ∀ b, b < 6 → E.getD (12 * m + b) 0 % 32 = 8 * m + b ∧
      E.getD ((12 * m + b + 24) % 48) 0 % 32 = (8 * m + b + 16) % 32 := by decide
  have hs : E0.getLsbD ((8 * m + b) % 16) = salt.getD ((12 * m + b) % 24) false := by
    rw [h.e0]
    have : m = 0 ∨ m = 1 ∨ m = 2 ∨ m = 3 := by omega
    have hmod : ((8 * m + b) % 16 < 6 ∧ (12 * m + b) % 24 = (8 * m + b) % 16) ∨
        (6 ≤ (8 * m + b) % 16 ∧ 12 ≤ (12 * m + b) % 24) := by
      rcases this with rfl | rfl | rfl | rfl <;> omega
    rcases hmod with ⟨h1, h2⟩ | ⟨h1, h2⟩
    · rw [h2]; simp [h1]
    · have : salt.getD ((12 * m + b) % 24) false = false := by
        rw [List.getD_eq_getElem?_getD, List.getElem?_eq_none (by rw [h.len]; omega)]; rfl
      rw [this]; simp; omega
  rw [saltSwap_bit E0 R (fun p hp => by rw [h.e0]; simp; omega) _ (by omega), expand_get _ _ _ (by omega), hs,
    (t1 m hm b hb).1, (t1 m hm b hb).2]

/-- The same for S-box `2m + 1`. -/
theorem saltSwap_odd {E0 E1 : W} {salt : Bits} (h : SaltRep E0 E1 salt) (R : W) (m b : Nat) (hm : m < 4) (hb : b < 6) :
    (saltSwap E1 R).getLsbD ((8 * m + b + 4) % 32) = (expand salt (halfBits R)).getD (12 * m + 6 + b) false := by
  have t1 : ∀ m, m < 4 → ∀ b, b < 6 → E.getD (12 * m + 6 + b) 0 % 32 = (8 * m + b + 4) % 32 ∧
      E.getD ((12 * m + 6 + b + 24) % 48) 0 % 32 = ((8 * m + b + 4) % 32 + 16) % 32 := by decide
  have hs : E1.getLsbD ((8 * m + b + 4) % 32 % 16) = salt.getD ((12 * m + 6 + b) % 24) false := by
    rw [h.e1]
    have : m = 0 ∨ m = 1 ∨ m = 2 ∨ m = 3 := by omega
    have hmod : (4 ≤ (8 * m + b + 4) % 32 % 16 ∧ (8 * m + b + 4) % 32 % 16 < 10 ∧
          (12 * m + 6 + b) % 24 = (8 * m + b + 4) % 32 % 16 + 2) ∨
        (¬ (4 ≤ (8 * m + b + 4) % 32 % 16 ∧ (8 * m + b + 4) % 32 % 16 < 10) ∧ 12 ≤ (12 * m + 6 + b) % 24) := by
      rcases this with rfl | rfl | rfl | rfl <;> omega
    rcases hmod with ⟨h0, h1, h2⟩ | ⟨h1, h2⟩
    · rw [h2]; simp only [h0, h1, and_self, decide_true, Bool.true_and]
    · have : salt.getD ((12 * m + 6 + b) % 24) false = false := by
        rw [List.getD_eq_getElem?_getD, List.getElem?_eq_none (by rw [h.len]; omega)]; rfl
      rw [this]; simp only [h1, decide_false, Bool.false_and]
  rw [saltSwap_bit E1 R (fun p hp => by rw [h.e1]; simp; omega) _ (by omega), expand_get _ _ _ (by omega), hs,
    (t1 m hm b hb).1, (t1 m hm b hb).2]

/-! ## S-boxes -/

/-- The round key in the places where the code looks for it. -/
structure KeyRep (k0 k1 : W) (K : Bits) : Prop where
  len : K.length = 48
  even : ∀ m b, m < 4 → b < 6 → k0.getLsbD (8 * m + b) = K.getD (12 * m + b) false
  odd : ∀ m b, m < 4 → b < 6 → k1.getLsbD ((8 * m + b + 4) % 32) = K.getD (12 * m + 6 + b) false

/-- Six bits as an index, the first one least significant. -/
def packSix (b0 b1 b2 b3 b4 b5 : Bool) : W :=
  (if b0 then 1 else 0) ||| (if b1 then 2 else 0) ||| (if b2 then 4 else 0) ||| (if b3 then 8 else 0) |||
    (if b4 then 16 else 0) ||| (if b5 then 32 else 0)

theorem packSix_eq (w : W) : w &&& 0x3f =
    packSix (w.getLsbD 0) (w.getLsbD 1) (w.getLsbD 2) (w.getLsbD 3) (w.getLsbD 4) (w.getLsbD 5) := by
  have pb : ∀ b0 b1 b2 b3 b4 b5 : Bool, ∀ j, j < 32 → (packSix b0 b1 b2 b3 b4 b5).getLsbD j =
      if j = 0 then b0 else if j = 1 then b1 else if j = 2 then b2 else if j = 3 then b3 else if j = 4 then b4
      else if j = 5 then b5 else false := by decide +kernel
  have hm : ∀ j, j < 32 → (0x3f : W).getLsbD j = decide (j < 6) := by decide
  apply BitVec.eq_of_getLsbD_eq
  intro j hj
  rw [BitVec.getLsbD_and, hm j hj, pb _ _ _ _ _ _ j hj]
  by_cases h : j < 6
  · have : j = 0 ∨ j = 1 ∨ j = 2 ∨ j = 3 ∨ j = 4 ∨ j = 5 := by omega
    rcases this with rfl | rfl | rfl | rfl | rfl | rfl <;> simp
  · have h0 : j ≠ 0 := by omega
    have h1 : j ≠ 1 := by omega
    have h2 : j ≠ 2 := by omega
    have h3 : j ≠ 3 := by omega
    have h4 : j ≠ 4 := by omega
    have h5 : j ≠ 5 := by omega
    simp only [h, h0, h1, h2, h3, h4, h5, decide_false, Bool.and_false, if_false]

/-- Where bit `q` of the result of the round function comes from: number (from 0) of the bit leaving the S-boxes. -/
def sboxPos (q : Nat) : Nat := P.getD ((q + 31) % 32) 0 - 1

/-- `spTrans[k]` is S-box `k` followed by the permutation `P`. -/
theorem sp_table : ∀ k, k < 8 → ∀ b0 b1 b2 b3 b4 b5 : Bool, ∀ q, q < 32 →
    (sp k (packSix b0 b1 b2 b3 b4 b5)).getLsbD q =
      (decide (sboxPos q / 4 = k) && (nibble (sBox k [b0, b1, b2, b3, b4, b5])).getD (sboxPos q % 4) false) := by
  decide +kernel

/-- The S-box outputs one after the other. -/
def sboxOut (x : Bits) : Bits := (List.range 8).flatMap (fun i => nibble (sBox i ((x.drop (6 * i)).take 6)))

theorem take6_drop (x : Bits) (n : Nat) (h : n + 6 ≤ x.length) : (x.drop n).take 6 =
    [x.getD n false, x.getD (n + 1) false, x.getD (n + 2) false, x.getD (n + 3) false, x.getD (n + 4) false,
      x.getD (n + 5) false] := by
  apply List.ext_getElem?
  intro i
  by_cases hi : i < 6
  · rw [List.getElem?_take, if_pos hi, List.getElem?_drop]
    have hx : x[n + i]? = some (x.getD (n + i) false) := by
      rw [List.getD_eq_getElem?_getD, List.getElem?_eq_getElem (by omega)]; rfl
    rw [hx]
    have : i = 0 ∨ i = 1 ∨ i = 2 ∨ i = 3 ∨ i = 4 ∨ i = 5 := by omega
    rcases this with rfl | rfl | rfl | rfl | rfl | rfl <;> rfl
  · rw [List.getElem?_take, if_neg hi]
    rw [List.getElem?_eq_none (by simp; omega)]

/-- A lookup in `spTrans[k]` whose index holds the six bits of S-box `k`. -/
theorem sp_lookup (x : Bits) (hx : x.length = 48) (k : Nat) (hk : k < 8) (w : W)
    (hw : ∀ b, b < 6 → w.getLsbD b = x.getD (6 * k + b) false) (q : Nat) (hq : q < 32) :
    (sp k (w &&& 0x3f)).getLsbD q = (decide (sboxPos q / 4 = k) && (sboxOut x).getD (sboxPos q) false) := by
  rw [packSix_eq, hw 0 (by omega), hw 1 (by omega), hw 2 (by omega), hw 3 (by omega), hw 4 (by omega), hw 5 (by omega),
    sp_table k hk _ _ _ _ _ _ q hq]
  by_cases h : sboxPos q / 4 = k
  · simp only [h, decide_true, Bool.true_and]
    have e : sboxPos q = 4 * k + sboxPos q % 4 := by omega
    have hl : ∀ i, (nibble (sBox i ((x.drop (6 * i)).take 6))).length = 4 := fun _ => rfl
    conv => rhs; rw [e]
    unfold sboxOut
    rw [getD_flatMap_range _ 4 _ hl 8 k _ hk (Nat.mod_lt _ (by omega)), take6_drop x (6 * k) (by omega)]
    rfl
  · simp [h]

theorem xor_getD (a b : Bits) (hl : a.length = b.length) (i : Nat) :
    (Spec.DES.xor a b).getD i false = (a.getD i false ^^ b.getD i false) := by
  unfold Spec.DES.xor
  rw [List.getD_eq_getElem?_getD, List.getElem?_zipWith, List.getD_eq_getElem?_getD, List.getD_eq_getElem?_getD]
  by_cases h : i < a.length
  · rw [List.getElem?_eq_getElem h, List.getElem?_eq_getElem (by omega)]; rfl
  · rw [List.getElem?_eq_none (by omega), List.getElem?_eq_none (by omega)]; rfl

theorem expand_length (salt r : Bits) : (expand salt r).length = 48 := by simp [expand]

/-- All lookups of a round. -/
theorem spLookup_bit {E0 E1 : W} {salt : Bits} (hs : SaltRep E0 E1 salt) {k0 k1 : W} {K : Bits} (hk : KeyRep k0 k1 K)
    (R : W) (q : Nat) (hq : q < 32) : (spLookup (roundT R E1 k1) (roundU R E0 k0)).getLsbD q =
      (sboxOut (Spec.DES.xor (expand salt (halfBits R)) K)).getD (sboxPos q) false := by
  have hl : (expand salt (halfBits R)).length = K.length := by rw [expand_length, hk.len]
  have hx : (Spec.DES.xor (expand salt (halfBits R)) K).length = 48 := by
    simp [Spec.DES.xor, expand_length, hk.len]
  have ev : ∀ m, m < 4 → ∀ b, b < 6 → (roundU R E0 k0 >>> (8 * m)).getLsbD b =
      (Spec.DES.xor (expand salt (halfBits R)) K).getD (6 * (2 * m) + b) false := by
    intro m hm b hb
    rw [BitVec.getLsbD_ushiftRight, roundU_bit, saltSwap_even hs R m b hm hb, hk.even m b hm hb, xor_getD _ _ hl]
    have : 6 * (2 * m) + b = 12 * m + b := by omega
    rw [this]
  have od : ∀ m, m < 4 → ∀ b, b < 6 → (roundT R E1 k1 >>> (8 * m)).getLsbD b =
      (Spec.DES.xor (expand salt (halfBits R)) K).getD (6 * (2 * m + 1) + b) false := by
    intro m hm b hb
    rw [BitVec.getLsbD_ushiftRight, roundT_bit _ _ _ _ (by omega), saltSwap_odd hs R m b hm hb, hk.odd m b hm hb,
      xor_getD _ _ hl]
    have : 6 * (2 * m + 1) + b = 12 * m + 6 + b := by omega
    rw [this]
  have l0 := sp_lookup _ hx 0 (by omega) _ (by simpa using ev 0 (by omega)) q hq
  have l2 := sp_lookup _ hx 2 (by omega) _ (ev 1 (by omega)) q hq
  have l4 := sp_lookup _ hx 4 (by omega) _ (ev 2 (by omega)) q hq
  have l6 := sp_lookup _ hx 6 (by omega) _ (ev 3 (by omega)) q hq
  have l1 := sp_lookup _ hx 1 (by omega) _ (by simpa using od 0 (by omega)) q hq
  have l3 := sp_lookup _ hx 3 (by omega) _ (od 1 (by omega)) q hq
  have l5 := sp_lookup _ hx 5 (by omega) _ (od 2 (by omega)) q hq
  have l7 := sp_lookup _ hx 7 (by omega) _ (od 3 (by omega)) q hq
  simp only [Nat.reduceMul] at l0 l1 l2 l3 l4 l5 l6 l7
  unfold spLookup
  simp only [BitVec.getLsbD_or]
  rw [l0, l1, l2, l3, l4, l5, l6, l7]
  have hk8 : sboxPos q / 4 < 8 := by
    have : ∀ q, q < 32 → sboxPos q / 4 < 8 := by decide
    exact this q hq
  generalize (sboxOut (Spec.DES.xor (expand salt (halfBits R)) K)).getD (sboxPos q) false = v
  generalize sboxPos q / 4 = n at hk8
  have : n = 0 ∨ n = 1 ∨ n = 2 ∨ n = 3 ∨ n = 4 ∨ n = 5 ∨ n = 6 ∨ n = 7 := by omega
  rcases this with rfl | rfl | rfl | rfl | rfl | rfl | rfl | rfl <;> cases v <;> rfl

/-- **A round of the code is a round of DES.** -/
theorem dEncrypt_eq {E0 E1 : W} {salt : Bits} (hs : SaltRep E0 E1 salt) (L R : W) (S : Nat) (s : List W) {K : Bits}
    (hk : KeyRep (ksAt s S) (ksAt s (S + 1)) K) :
    halfBits (dEncrypt L R S E0 E1 s) = Spec.DES.xor (halfBits L) (f salt (halfBits R) K) := by
  have hP : P.length = 32 := by decide
  have hfl : (f salt (halfBits R) K).length = 32 := by simp [f, permute, hP]
  apply List.ext_getElem?
  intro i
  by_cases hi : i < 32
  · have e : ∀ l : Bits, l.length = 32 → l[i]? = some (l.getD i false) := by
      intro l h
      rw [List.getD_eq_getElem?_getD, List.getElem?_eq_getElem (by omega)]; rfl
    rw [e _ (by simp), e _ (by simp [Spec.DES.xor, hfl])]
    congr 1
    rw [xor_getD _ _ (by simp [hfl])]
    unfold halfBits
    rw [getD_map_range _ _ _ _ hi, getD_map_range _ _ _ _ hi]
    unfold dEncrypt
    rw [BitVec.getLsbD_xor, spLookup_bit hs hk R _ (Nat.mod_lt _ (by omega))]
    congr 1
    have e2 : (f salt (halfBits R) K).getD i false =
        bit (sboxOut (Spec.DES.xor (expand salt (halfBits R)) K)) (P.getD i 0) := by
      have : f salt (halfBits R) K = P.map (bit (sboxOut (Spec.DES.xor (expand salt (halfBits R)) K))) := rfl
      rw [this, List.getD_eq_getElem?_getD, List.getElem?_map, List.getElem?_eq_getElem (by omega),
        List.getD_eq_getElem?_getD, List.getElem?_eq_getElem (by omega)]
      rfl
    unfold halfBits at e2
    rw [e2]
    unfold bit sboxPos
    have : ((i + 1) % 32 + 31) % 32 = i := by omega
    rw [this]
    rfl
  · rw [List.getElem?_eq_none (by simp; omega), List.getElem?_eq_none (by simp [Spec.DES.xor]; omega)]

end Verif
