import Verif.Proofs.CryptBody
import Verif.Proofs.Record
/-!
# Password hashes (C42–C46)
-/

namespace Verif
open Spec.DES

/-- A salt: at least two ASCII bytes. -/
def Spec.AsciiSalt (salt : Bytes) : Prop := ∃ s0 s1 t, salt = s0 :: s1 :: t ∧ s0.toNat < 128 ∧ s1.toNat < 128

/-- A hash in the shape of crypt(3): two salt characters and eleven characters of the alphabet. -/
def Spec.HashShape (s0 s1 : UInt8) (h : Bytes) : Prop := ∃ t : Bytes, h = s0 :: s1 :: t ∧ t.length = 11 ∧ ∀ c ∈ t, c ∈ alphabet

/-- **C42** in full. -/
def Spec.C42 : Prop := ∀ key s0 s1 t, s0.toNat < 128 → s1.toNat < 128 →
  ∃ h, fcrypt key (s0 :: s1 :: t) = .ok (h ++ [0]) ∧ Spec.HashShape s0 s1 h

/-! ## The value of `fcrypt` -/

/-- The registers after the 25 encryptions. -/
def cryptRegs (key : Bytes) (x0 x1 : UInt8) : W × W :=
  bodyLoop (desSetKey (cryptKey key)) (BitVec.ofNat 32 (conSalt.getD x0.toNat 0))
    (BitVec.ofNat 32 (conSalt.getD x1.toNat 0) <<< 4) 25 (0, 0)

theorem saltByte_lt (s : UInt8) (h : s.toNat < 128) : (saltByte s).toNat < 128 := by
  unfold saltByte
  split
  · exact h
  · decide

theorem fcrypt_ok (key : Bytes) (s0 s1 : UInt8) (t : Bytes) (h0 : s0.toNat < 128) (h1 : s1.toNat < 128) :
    fcrypt key (s0 :: s1 :: t) = .ok (saltByte s0 :: saltByte s1 ::
      printBlock (permute FP (halfBits (cryptRegs key (saltByte s0) (saltByte s1)).1 ++
        halfBits (cryptRegs key (saltByte s0) (saltByte s1)).2)) ++ [0]) := by
  rw [← printChars_block]
  unfold fcrypt cFcrypt conSaltAt
  simp only [saltByte_lt _ h0, saltByte_lt _ h1, if_true, Res.ok_bind]
  rfl

theorem fcrypt_panic (key salt : Bytes) (h : ¬ Spec.AsciiSalt salt) : fcrypt key salt = .panic := by
  unfold fcrypt cFcrypt conSaltAt
  cases salt with
  | nil => rfl
  | cons s0 t =>
    have hx : ∀ s : UInt8, ¬ s.toNat < 128 → ¬ (saltByte s).toNat < 128 := by
      intro s hs
      unfold saltByte
      split
      · exact hs
      · rename_i h0
        exact absurd (by rw [Classical.not_not.mp h0]; decide) hs
    by_cases h0 : s0.toNat < 128
    · simp only [saltByte_lt _ h0, if_true, Res.ok_bind]
      cases t with
      | nil => rfl
      | cons s1 t =>
        have h1 : ¬ s1.toNat < 128 := fun h1 => h ⟨s0, s1, t, rfl, h0, h1⟩
        simp only [hx _ h1, if_false, Res.panic_bind]
    · simp only [hx _ h0, if_false, Res.panic_bind]

theorem printBlock_shape (b : Bits) : (printBlock b).length = 11 ∧ ∀ c ∈ printBlock b, c ∈ alphabet := by
  have t : ∀ n, n < 64 → alphabet.getD n 0 ∈ alphabet := by decide +kernel
  have h6 : ∀ x : Bits, x.length ≤ 6 → sixBits x < 64 := by
    have key : ∀ (x : Bits) (n : Nat), x.foldl (fun n x => 2 * n + x.toNat) n < 2 ^ x.length * (n + 1) := by
      intro x
      induction x with
      | nil => intro n; simp
      | cons a x ih =>
        intro n
        simp only [List.foldl_cons, List.length_cons, Nat.pow_succ]
        refine Nat.lt_of_lt_of_le (ih _) ?_
        rw [Nat.mul_assoc]
        exact Nat.mul_le_mul_left _ (by have := Bool.toNat_le a; omega)
    intro x hx
    refine Nat.lt_of_lt_of_le (key x 0) ?_
    simp only [Nat.zero_add, Nat.mul_one]
    exact Nat.pow_le_pow_right (n := 2) (by omega) hx
  constructor
  · simp [printBlock]
  · intro c hc
    unfold printBlock at hc
    obtain ⟨i, _, rfl⟩ := List.mem_map.mp hc
    exact t _ (h6 _ (by simp; omega))

/-! ## C42 -/

/-- **C42**, exactly: the two salt bytes (with `A` in place of a NUL), eleven characters of the alphabet and a NUL. -/
theorem C42_exact (key : Bytes) (s0 s1 : UInt8) (t : Bytes) (h0 : s0.toNat < 128) (h1 : s1.toNat < 128) :
    ∃ h, fcrypt key (s0 :: s1 :: t) = .ok (h ++ [0]) ∧
      Spec.HashShape (if s0 = 0 then 65 else s0) (if s1 = 0 then 65 else s1) h := by
  have hs : ∀ s : UInt8, saltByte s = if s = 0 then 65 else s := by
    intro s
    unfold saltByte
    by_cases h : s = 0 <;> simp [h]
  rw [← hs, ← hs]
  exact ⟨_, fcrypt_ok key s0 s1 t h0 h1, _, rfl, (printBlock_shape _).1, (printBlock_shape _).2⟩

/-- **C42** for salts without a NUL. -/
theorem C42_shape_partial (key : Bytes) (s0 s1 : UInt8) (t : Bytes) (h0 : s0.toNat < 128) (h1 : s1.toNat < 128)
    (n0 : s0 ≠ 0) (n1 : s1 ≠ 0) : ∃ h, fcrypt key (s0 :: s1 :: t) = .ok (h ++ [0]) ∧ Spec.HashShape s0 s1 h := by
  have := C42_exact key s0 s1 t h0 h1
  rwa [if_neg n0, if_neg n1] at this

example : (80 : UInt8).toNat < 128 ∧ (47 : UInt8).toNat < 128 ∧ (80 : UInt8) ≠ 0 ∧ (47 : UInt8) ≠ 0 := by decide

/-- A NUL in the salt is replaced by `A`, so the hash does not begin with the salt. -/
theorem C42_nul_salt_refuted : ¬ Spec.C42 := by
  intro h
  obtain ⟨x, h1, y, hy, _⟩ := h [] 0 65 [] (by decide) (by decide)
  rw [fcrypt_ok [] 0 65 [] (by decide) (by decide)] at h1
  subst hy
  have := congrArg (fun l : Bytes => l.head?) (Res.ok.inj h1)
  have : saltByte 0 = 0 := Option.some.inj this
  exact absurd this (by decide)

/-- Nothing but the first two bytes of the salt counts. -/
theorem C42_salt_prefix (key : Bytes) (s0 s1 : UInt8) (t t' : Bytes) :
    fcrypt key (s0 :: s1 :: t) = fcrypt key (s0 :: s1 :: t') := by
  by_cases h : s0.toNat < 128 ∧ s1.toNat < 128
  · rw [fcrypt_ok _ _ _ _ h.1 h.2, fcrypt_ok _ _ _ _ h.1 h.2]
  · rw [fcrypt_panic _ _ (by rintro ⟨a, b, c, e, h0, h1⟩; injection e with e1 e2; injection e2 with e2 e3; subst e1 e2;
                             exact h ⟨h0, h1⟩),
      fcrypt_panic _ _ (by rintro ⟨a, b, c, e, h0, h1⟩; injection e with e1 e2; injection e2 with e2 e3; subst e1 e2;
                           exact h ⟨h0, h1⟩)]

/-! ## C43 -/

/-- What of a password counts: the low seven bits of its first eight bytes up to a NUL, filled up with zeros. -/
def Spec.passwordChars (p : Bytes) : List Nat :=
  let cs := ((p.take 8).takeWhile (· ≠ 0)).map (fun c => c.toNat % 128)
  cs ++ List.replicate (8 - cs.length) 0

/-- **C43.** -/
theorem C43_seven_bits (p q salt : Bytes) (h : Spec.passwordChars p = Spec.passwordChars q) : fcrypt p salt = fcrypt q salt := by
  have e : ∀ p, Spec.passwordChars p = (keyChars p).map (fun c => c.toNat % 128) := by
    intro p
    unfold Spec.passwordChars keyChars
    simp
  have e2 : ∀ p, cryptKey p = (Spec.passwordChars p).map (fun n => UInt8.ofNat (2 * n)) := by
    intro p
    rw [cryptKey_eq, e, List.map_map]
    apply List.map_congr_left
    intro c _
    have key : ∀ n, n < 256 → (UInt8.ofNat n) <<< 1 = UInt8.ofNat (2 * ((UInt8.ofNat n).toNat % 128)) := by decide +kernel
    have := key c.toNat c.toNat_lt
    rwa [UInt8.ofNat_toNat] at this
  have e3 : cryptKey p = cryptKey q := by rw [e2, e2, h]
  unfold fcrypt cFcrypt
  rw [e3]

/-- In particular for passwords that agree on their first eight bytes. -/
theorem C43_prefix (p q salt : Bytes) (h : p.take 8 = q.take 8) : fcrypt p salt = fcrypt q salt := by
  apply C43_seven_bits
  unfold Spec.passwordChars
  rw [h]

example : Spec.passwordChars (ascii "password1") = Spec.passwordChars (ascii "passwor" ++ [228, 50]) := by decide

/-! ## C45 -/

theorem saltRep (s0 s1 : UInt8) (h0 : s0 ∈ alphabet) (h1 : s1 ∈ alphabet) :
    SaltRep (BitVec.ofNat 32 (conSalt.getD s0.toNat 0)) (BitVec.ofNat 32 (conSalt.getD s1.toNat 0) <<< 4) (saltBits s0 s1) := by
  have hc : ∀ s ∈ alphabet, conSalt.getD s.toNat 0 = alphabet.idxOf s := by decide
  have hl : ∀ s ∈ alphabet, alphabet.idxOf s < 64 := by decide
  have hb : ∀ n, n < 64 → ∀ p, (BitVec.ofNat 32 n).getLsbD p = (decide (p < 6) && n.testBit p) := by
    intro n hn p
    rw [BitVec.getLsbD_ofNat]
    by_cases hp : p < 6
    · have : p < 32 := by omega
      simp [hp, this]
    · rw [Nat.testBit_lt_two_pow (Nat.lt_of_lt_of_le hn (Nat.pow_le_pow_right (n := 2) (by decide) (Nat.le_of_not_lt hp : 6 ≤ p)))]
      simp
  rw [hc s0 h0, hc s1 h1]
  refine ⟨by simp [saltBits], ?_, ?_⟩
  · intro p
    rw [hb _ (hl s0 h0)]
    by_cases hp : p < 6
    · simp only [hp, decide_true, Bool.true_and]
      unfold saltBits
      rw [List.getD_eq_getElem?_getD, List.getElem?_append_left (by simp; omega), ← List.getD_eq_getElem?_getD,
        getD_map_range _ _ _ _ hp]
    · simp [hp]
  · intro p
    rw [BitVec.getLsbD_shiftLeft, hb _ (hl s1 h1)]
    by_cases hp : 4 ≤ p ∧ p < 10
    · have a1 : p < 32 := by omega
      have a2 : ¬ p < 4 := by omega
      have a3 : p - 4 < 6 := by omega
      simp only [hp, a1, a2, a3, decide_true, decide_false, Bool.true_and, Bool.not_false, and_self]
      unfold saltBits
      rw [List.getD_eq_getElem?_getD, List.getElem?_append_right (by simp; omega), ← List.getD_eq_getElem?_getD,
        getD_map_range _ _ _ _ (by simp; omega)]
      congr 1
    · simp only [hp, decide_false, Bool.false_and]
      by_cases a : p < 4
      · simp [a]
      · have a3 : ¬ p - 4 < 6 := by omega
        simp [a3]

/-- **C45.** The hash function is DES crypt(3). -/
theorem C45_crypt3 (key : Bytes) (s0 s1 : UInt8) (t : Bytes) (h0 : s0 ∈ alphabet) (h1 : s1 ∈ alphabet) :
    fcrypt key (s0 :: s1 :: t) = .ok (crypt3 key s0 s1 ++ [0]) := by
  have ha : ∀ s ∈ alphabet, s.toNat < 128 ∧ saltByte s = s := by decide
  rw [fcrypt_ok key s0 s1 t (ha s0 h0).1 (ha s1 h1).1, (ha s0 h0).2, (ha s1 h1).2]
  have hk := desSetKey_rep key
  unfold crypt3 cryptRegs
  rw [block_eq (saltRep s0 s1 h0 h1) hk.1 hk.2]

example : (65 : UInt8) ∈ alphabet ∧ (46 : UInt8) ∈ alphabet := by decide

/-- A published pair: password `012345678901`, salt `AA` (from the test of /repo/crypt). -/
example : fcrypt (ascii "012345678901") (ascii "AA") = .ok (ascii "AA3QBhLWk1BWA" ++ [0]) := by decide +kernel

/-! ## C44 -/

/-- A stored hash and the candidate's hash made with the same first two bytes. -/
theorem verifyHash_eq (s0 s1 : UInt8) (t p : Bytes) (h0 : s0.toNat < 128) (h1 : s1.toNat < 128) :
    ∃ h, fcrypt p [s0, s1] = .ok (h ++ [0]) ∧ verifyHash (s0 :: s1 :: t) p =
      if h = s0 :: s1 :: t then .ok () else .err "password incorrect" := by
  obtain ⟨h, e1, y, hy, hl, hm⟩ := C42_exact p s0 s1 [] h0 h1
  refine ⟨h, e1, ?_⟩
  have hz : (0 : UInt8) ∉ h := by
    subst hy
    intro hc
    rcases List.mem_cons.mp hc with hc | hc
    · split at hc
      · exact absurd hc (by decide)
      · rename_i n; exact n hc.symm
    · rcases List.mem_cons.mp hc with hc | hc
      · split at hc
        · exact absurd hc (by decide)
        · rename_i n; exact n hc.symm
      · exact absurd (hm 0 hc) (by decide)
  unfold verifyHash
  have hlen : ¬ (s0 :: s1 :: t).length < 2 := by simp
  rw [if_neg hlen]
  have ht : (s0 :: s1 :: t).take 2 = [s0, s1] := rfl
  have htrim : trimNul (h ++ [0]) = h := trimNul_append_zeros (nulEndsFree_of_not_mem hz) 1
  rw [ht, e1, Res.ok_bind, htrim]
  by_cases h' : h = s0 :: s1 :: t <;> simp [h']

/-- **C44.** Verification succeeds iff the hash of the candidate under the first two characters of the stored hash is the
stored hash, and is rejected otherwise. -/
theorem C44_exact (stored p : Bytes) (hs : Spec.AsciiSalt stored) :
    (verifyHash stored p = .ok () ↔ fcrypt p (stored.take 2) = .ok (stored ++ [0])) ∧
    (fcrypt p (stored.take 2) ≠ .ok (stored ++ [0]) → verifyHash stored p = .err "password incorrect") := by
  obtain ⟨s0, s1, t, rfl, h0, h1⟩ := hs
  obtain ⟨h, e1, e2⟩ := verifyHash_eq s0 s1 t p h0 h1
  have ht : (s0 :: s1 :: t).take 2 = [s0, s1] := rfl
  rw [ht, e1, e2]
  have hi : (Res.ok (h ++ [0]) = .ok (s0 :: s1 :: t ++ [0])) ↔ h = s0 :: s1 :: t :=
    ⟨fun h => List.append_cancel_right (Res.ok.inj h), fun h => by rw [h]⟩
  rw [Ne, hi]
  by_cases h' : h = s0 :: s1 :: t <;> simp [h']

example : Spec.AsciiSalt (ascii "AA3QBhLWk1BWA") := ⟨65, 65, ascii "3QBhLWk1BWA", by decide, by decide, by decide⟩

/-- **C44**, in terms of crypt(3). -/
theorem C44_crypt3 (s0 s1 : UInt8) (t p : Bytes) (h0 : s0 ∈ alphabet) (h1 : s1 ∈ alphabet) :
    verifyHash (s0 :: s1 :: t) p = .ok () ↔ s0 :: s1 :: t = crypt3 p s0 s1 := by
  have ha : ∀ s ∈ alphabet, s.toNat < 128 := by decide
  rw [(C44_exact (s0 :: s1 :: t) p ⟨s0, s1, t, rfl, ha _ h0, ha _ h1⟩).1]
  show fcrypt p [s0, s1] = _ ↔ _
  rw [C45_crypt3 p s0 s1 [] h0 h1]
  exact ⟨fun h => (List.append_cancel_right (Res.ok.inj h)).symm, fun h => by rw [h]⟩

/-- **C44**, the owner: with a hash made from `p` with any salt, `p` logs in, and every candidate with another hash under
that salt is rejected. -/
theorem C44_own_password (p salt out : Bytes) (h : fcrypt p salt = .ok out) :
    verifyHash (out.take 13) p = .ok () ∧
    ∀ q, fcrypt q salt ≠ .ok out → verifyHash (out.take 13) q = .err "password incorrect" := by
  have hs : Spec.AsciiSalt salt := by
    apply Classical.byContradiction
    intro hn
    rw [fcrypt_panic _ _ hn] at h
    cases h
  obtain ⟨s0, s1, t, rfl, h0, h1⟩ := hs
  have hidem : ∀ s, saltByte (saltByte s) = saltByte s := by
    intro s
    unfold saltByte
    by_cases h : s = 0
    · subst h; decide
    · simp [h]
  rw [fcrypt_ok p s0 s1 t h0 h1] at h
  have h := (Res.ok.inj h).symm
  have hl : ∀ b, (printBlock b).length = 11 := fun b => (printBlock_shape b).1
  have e13 : out.take 13 = saltByte s0 :: saltByte s1 :: printBlock (permute FP
      (halfBits (cryptRegs p (saltByte s0) (saltByte s1)).1 ++ halfBits (cryptRegs p (saltByte s0) (saltByte s1)).2)) := by
    rw [h, List.take_left' (by simp [hl])]
  have eout : out.take 13 ++ [0] = out := by rw [e13, h]
  have key := fun q => C44_exact (out.take 13) q (by rw [e13]; exact ⟨_, _, _, rfl, saltByte_lt _ h0, saltByte_lt _ h1⟩)
  have hq : ∀ q, fcrypt q ((out.take 13).take 2) = fcrypt q (s0 :: s1 :: t) := by
    intro q
    rw [e13]
    show fcrypt q [saltByte s0, saltByte s1] = _
    rw [fcrypt_ok q (saltByte s0) (saltByte s1) [] (saltByte_lt _ h0) (saltByte_lt _ h1), hidem, hidem, fcrypt_ok q s0 s1 t h0 h1]
  constructor
  · rw [(key p).1, hq, eout, fcrypt_ok p s0 s1 t h0 h1, h]
  · intro q hne
    exact (key q).2 (by rw [hq, eout]; exact hne)

example : ∃ out, fcrypt (ascii "secret") [80, 0] = .ok out :=
  ⟨_, (C42_exact (ascii "secret") 80 0 [] (by decide) (by decide)).choose_spec.1⟩

/-- The same through the user file: a record whose password field holds a hash of `p` lets `p` in. -/
theorem C44_record (c : Codec) (p salt out data : Bytes) (h : fcrypt p salt = .ok out) (hf : slice data 61 75 = out) :
    (Userec.parse c data).verifyPassword p = .ok () := by
  have h1 := (C44_own_password p salt out h).1
  have hpw : (Userec.parse c data).password = out.take 13 := by
    show cstrToString (slice data 61 75) = _
    rw [hf]
    have hs : Spec.AsciiSalt salt := by
      apply Classical.byContradiction
      intro hn
      rw [fcrypt_panic _ _ hn] at h
      cases h
    obtain ⟨s0, s1, t, rfl, h0, h1⟩ := hs
    rw [fcrypt_ok p s0 s1 t h0 h1] at h
    have h := (Res.ok.inj h).symm
    have hb := printBlock_shape (permute FP
      (halfBits (cryptRegs p (saltByte s0) (saltByte s1)).1 ++ halfBits (cryptRegs p (saltByte s0) (saltByte s1)).2))
    have hn : ∀ s, saltByte s ≠ 0 := by
      intro s
      unfold saltByte
      split
      · assumption
      · decide
    rw [h, List.take_left' (by simp [hb.1])]
    have hz : (0 : UInt8) ∉ saltByte s0 :: saltByte s1 :: printBlock (permute FP
      (halfBits (cryptRegs p (saltByte s0) (saltByte s1)).1 ++ halfBits (cryptRegs p (saltByte s0) (saltByte s1)).2)) := by
      intro hc
      rcases List.mem_cons.mp hc with hc | hc
      · exact hn _ hc.symm
      · rcases List.mem_cons.mp hc with hc | hc
        · exact hn _ hc.symm
        · exact absurd (hb.2 0 hc) (by decide)
    have := takeWhile_ne_zero_append_zeros hz 1
    exact (cstrToBytes_eq_takeWhile _).trans this
  unfold Userec.verifyPassword
  rw [hpw]
  exact h1

/-! ## C46 -/

/-- **C46** in full. -/
def Spec.C46 : Prop := ∀ stored password, (verifyHash stored password).Returns

/-- **C46**, exactly: verification crashes iff the stored hash has fewer than two characters or one of its first two is not
ASCII. -/
theorem C46_exact (stored p : Bytes) : ¬ (verifyHash stored p).Returns ↔ ¬ Spec.AsciiSalt stored := by
  constructor
  · intro h hs
    obtain ⟨s0, s1, t, rfl, h0, h1⟩ := hs
    obtain ⟨x, _, e⟩ := verifyHash_eq s0 s1 t p h0 h1
    rw [e] at h
    split at h <;> exact h trivial
  · intro hs h
    unfold verifyHash at h
    split at h
    · exact h
    · have : ¬ Spec.AsciiSalt (stored.take 2) := by
        rintro ⟨s0, s1, t, e, h0, h1⟩
        refine hs ⟨s0, s1, t ++ stored.drop 2, ?_, h0, h1⟩
        have := List.take_append_drop 2 stored
        rw [e] at this
        exact this.symm
      rw [fcrypt_panic _ _ this, Res.panic_bind] at h
      exact h

/-- **C44** for every stored hash whatsoever: acceptance is equality of hashes. -/
theorem C44_iff (stored p : Bytes) : verifyHash stored p = .ok () ↔ fcrypt p (stored.take 2) = .ok (stored ++ [0]) := by
  by_cases hs : Spec.AsciiSalt stored
  · exact (C44_exact stored p hs).1
  · constructor
    · intro h
      exact absurd (by rw [h]; trivial) ((C46_exact stored p).2 hs)
    · intro h
      apply absurd _ hs
      apply Classical.byContradiction
      intro _
      have h2 : ¬ Spec.AsciiSalt (stored.take 2) := by
        rintro ⟨s0, s1, t, e, h0, h1⟩
        refine hs ⟨s0, s1, t ++ stored.drop 2, ?_, h0, h1⟩
        have := List.take_append_drop 2 stored
        rw [e] at this
        exact this.symm
      rw [fcrypt_panic _ _ h2] at h
      cases h

/-- **C46** for hashes that begin with two ASCII characters. -/
theorem C46_returns_partial (stored p : Bytes) (hs : Spec.AsciiSalt stored) : (verifyHash stored p).Returns :=
  Classical.byContradiction (fun h => (C46_exact stored p).1 h hs)

example : Spec.AsciiSalt (ascii "x/") := ⟨120, 47, [], by decide, by decide, by decide⟩

/-- A user without a password: any login attempt crashes. -/
theorem C46_empty_hash_refuted : ¬ Spec.C46 := by
  intro h
  exact h [] []

/-- So does a hash beginning with a byte above 127. -/
theorem C46_wide_byte_refuted : ¬ (verifyHash [65, 128, 65] []).Returns := by
  rw [C46_exact]
  rintro ⟨s0, s1, t, e, _, h1⟩
  injection e with _ e
  injection e with e _
  subst e
  exact absurd h1 (by decide)

/-- The record of a fresh entry (all zero bytes) crashes on every password. -/
theorem C46_zero_record_refuted (c : Codec) (p : Bytes) : (Userec.parse c (zeros 512)).verifyPassword p = .panic := by
  have : (Userec.parse c (zeros 512)).password = [] := by
    show cstrToString (slice (zeros 512) 61 75) = []
    rw [slice_zeros (by omega)]
    decide
  unfold Userec.verifyPassword
  rw [this]
  rfl

end Verif
