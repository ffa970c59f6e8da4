import Verif.Props.Cache
/-!
# The shared-memory cache, for every layout, user number and key text (C50–C52)
-/

namespace Verif

/-- `v` is `x` as a signed 64-bit integer: in range, and off by a multiple of 2^64. -/
def Spec.Int64 (x v : Int) : Prop := -9223372036854775808 ≤ v ∧ v ≤ 9223372036854775807 ∧ ∃ k : Int, v = x + k * 18446744073709551616

theorem i64_spec (x : Int) : Spec.Int64 x (i64 x) := by
  unfold i64
  have h1 := Int.le_bmod (x := x) (m := 2 ^ 64) (by decide)
  have h2 := Int.bmod_lt (x := x) (m := 2 ^ 64) (by decide)
  have h3 := Int.bmod_eq_self_sub_mul_bdiv x (2 ^ 64)
  refine ⟨by omega, by omega, -(x.bdiv (2 ^ 64)), ?_⟩
  omega

theorem Spec.Int64.eq {x v : Int} (h : Spec.Int64 x v) : i64 x = v := by
  obtain ⟨a1, a2, k, hk⟩ := h
  obtain ⟨b1, b2, j, hj⟩ := i64_spec x
  omega

/-- **C50**, for every layout, also one that does not fit: the code crashes exactly for alignment 0 and for a negative number of
hash bits, and every position is the end of what precedes it, as a 64-bit integer. -/
theorem C50_exact (s : Layout) :
    (s.alignment = 0 ∨ s.hashBits < 0 → caculatePos s = .panic) ∧
    (s.alignment ≠ 0 → 0 ≤ s.hashBits → ∃ p, caculatePos s = .ok p ∧ p.version = 0 ∧ p.size = 4 ∧ p.userID = 8 ∧
      (∃ e, Spec.Int64 (8 + (s.maxUsers + 1) * (s.idLen + 1)) e ∧
        (e.tmod s.alignment = 0 → p.nextInHash = e) ∧
        (e.tmod s.alignment ≠ 0 → Spec.Int64 (e + (s.alignment - e.tmod s.alignment)) p.nextInHash)) ∧
      Spec.Int64 (p.nextInHash + 4 * s.maxUsers + 4) p.money ∧
      (s.useCoolDown = true → Spec.Int64 (p.money + 4 * s.maxUsers + 4) p.cooldownTime ∧
        Spec.Int64 (p.cooldownTime + 4 * s.maxUsers + 4) p.hashHead) ∧
      (s.useCoolDown = false → p.cooldownTime = 0 ∧ Spec.Int64 (p.money + 4 * s.maxUsers + 8) p.hashHead) ∧
      Spec.Int64 (p.hashHead + 4 * 2 ^ s.hashBits.toNat + 4) p.userNumber ∧
      Spec.Int64 (p.userNumber + 4) p.userLoaded ∧ Spec.Int64 (p.userLoaded + 4) p.userInfo) := by
  constructor
  · rintro (h | h)
    · unfold caculatePos alignUp
      rw [h]
      rfl
    · have := C51_negative_bits [] s h
      unfold newCacheState at this
      cases hp : caculatePos s with
      | ok p => rw [hp] at this; cases this
      | err e => rw [hp] at this; cases this
      | panic => rfl
      | diverge => rw [hp] at this; cases this
  · intro ha hb
    have e1 : i64 (0 + 4) = 4 := by decide
    have e2 : i64 (4 + 4) = 8 := by decide
    have hexp : (s.maxUsers + 1) * (s.idLen + 1) = s.maxUsers * (s.idLen + 1) + (s.idLen + 1) := by
      rw [Int.add_mul, Int.one_mul]
    have hE : Spec.Int64 (8 + (s.maxUsers + 1) * (s.idLen + 1)) (i64 (s.idLen + 1 + 8 + s.maxUsers * (s.idLen + 1))) := by
      have := i64_spec (s.idLen + 1 + 8 + s.maxUsers * (s.idLen + 1))
      rw [hexp]
      rwa [show 8 + (s.maxUsers * (s.idLen + 1) + (s.idLen + 1)) = s.idLen + 1 + 8 + s.maxUsers * (s.idLen + 1) by omega]
    generalize hx : i64 (s.idLen + 1 + 8 + s.maxUsers * (s.idLen + 1)) = e at hE
    obtain ⟨r, hr, hr0, hr1⟩ : ∃ r, alignUp e s.alignment = .ok r ∧ (e.tmod s.alignment = 0 → r = e) ∧
        (e.tmod s.alignment ≠ 0 → Spec.Int64 (e + (s.alignment - e.tmod s.alignment)) r) := by
      unfold alignUp
      rw [if_neg ha]
      by_cases hm : e.tmod s.alignment = 0
      · rw [if_neg (by simpa using hm)]
        exact ⟨_, rfl, fun _ => rfl, fun h => absurd hm h⟩
      · rw [if_pos hm]
        exact ⟨_, rfl, fun h => absurd h hm, fun _ => i64_spec _⟩
    obtain ⟨sh, hs, k, hk⟩ : ∃ sh, oneShl s.hashBits = .ok sh ∧ ∃ k : Int, sh = 2 ^ s.hashBits.toNat + k * 18446744073709551616 := by
      unfold oneShl
      rw [if_neg (by omega)]
      exact ⟨_, rfl, (i64_spec _).2.2⟩
    unfold caculatePos
    simp only [e1, e2, hx, hr, hs, Res.ok_bind]
    refine ⟨_, rfl, rfl, rfl, rfl, ⟨e, hE, hr0, hr1⟩, ?_, ?_, ?_, ?_, i64_spec _, i64_spec _⟩
    · have := i64_spec (4 + r + s.maxUsers * 4)
      rwa [show r + 4 * s.maxUsers + 4 = 4 + r + s.maxUsers * 4 by omega]
    · intro hc
      simp only [hc, if_true]
      constructor
      · have := i64_spec (4 + i64 (4 + r + s.maxUsers * 4) + s.maxUsers * 4)
        rwa [show i64 (4 + r + s.maxUsers * 4) + 4 * s.maxUsers + 4 = 4 + i64 (4 + r + s.maxUsers * 4) + s.maxUsers * 4 by omega]
      · generalize i64 (4 + i64 (4 + r + s.maxUsers * 4) + s.maxUsers * 4) = y
        have := i64_spec (4 + y + s.maxUsers * 4)
        rwa [show y + 4 * s.maxUsers + 4 = 4 + y + s.maxUsers * 4 by omega]
    · intro hc
      simp only [hc, Bool.false_eq_true, if_false]
      refine ⟨trivial, ?_⟩
      generalize i64 (4 + r + s.maxUsers * 4) = y
      have := i64_spec (4 + 4 + y + s.maxUsers * 4)
      rwa [show y + 4 * s.maxUsers + 8 = 4 + 4 + y + s.maxUsers * 4 by omega]
    · simp only
      generalize (if s.useCoolDown = true then _ else _ : Int) = y
      obtain ⟨a1, a2, j, hj⟩ := i64_spec (4 + y + sh * 4)
      refine ⟨a1, a2, j + 4 * k, ?_⟩
      rw [hj, hk]
      generalize (2 : Int) ^ s.hashBits.toNat = z
      omega

/-- A layout far too large for the address space still gets positions, but they overlap: the money of 2^61 users would start where
the links of the first user are (4 bytes behind). -/
example : ∃ p, caculatePos ⟨1, 2 ^ 62, 0, false, 3⟩ = .ok p ∧ p.money = p.nextInHash + 4 := by
  refine ⟨_, by rfl, by decide +kernel⟩

/-! ## Reading -/

/-- **C51**, for every cache and every user number, also negative and out of range: what each read returns, and that it crashes
exactly when its bytes are not inside the segment. -/
theorem C51_exact (c : CacheState) (uid lo hi : Int) :
    (Spec.Int64 (c.pos.userID + (c.layout.idLen + 1) * uid) lo → Spec.Int64 (lo + (c.layout.idLen + 1)) hi →
      (0 ≤ lo → lo ≤ hi → hi ≤ c.bytes.length →
        c.userID uid = .ok (((c.bytes.drop lo.toNat).take (hi - lo).toNat).takeWhile (· != 0))) ∧
      (¬ (0 ≤ lo ∧ lo ≤ hi ∧ hi ≤ c.bytes.length) → c.userID uid = .panic)) ∧
    (Spec.Int64 (c.pos.money + 4 * uid) lo →
      (0 ≤ lo → lo + 4 ≤ c.bytes.length → c.bytes.length < 2 ^ 63 →
        ∀ a b d e : UInt8, c.bytes[lo.toNat]? = some a → c.bytes[lo.toNat + 1]? = some b → c.bytes[lo.toNat + 2]? = some d →
        c.bytes[lo.toNat + 3]? = some e → c.money uid = .ok (rd32 [a, b, d, e]).toInt32) ∧
      (¬ (0 ≤ lo ∧ lo + 4 ≤ c.bytes.length) → c.money uid = .panic)) := by
  constructor
  · intro hlo hhi
    have e1 := hlo.eq
    have e2 : i64 (lo + c.layout.idLen + 1) = hi := by
      have := hhi.eq
      rwa [show lo + (c.layout.idLen + 1) = lo + c.layout.idLen + 1 by omega] at this
    constructor
    · intro h0 h1 h2
      unfold CacheState.userID
      simp only [e1, e2]
      rw [goSlice_ok _ _ _ h0 h1 h2, Res.ok_bind, splitByte_head]
      unfold slice
      rw [show (hi - lo).toNat = hi.toNat - lo.toNat by omega, List.drop_take]
    · intro h
      unfold CacheState.userID goSlice
      simp only [e1, e2]
      rw [if_neg h]
      rfl
  · intro hlo
    have e1 := hlo.eq
    have hb1 := hlo.1
    have hb2 := hlo.2.1
    constructor
    · intro h0 h1 h2 a b d e ha hb hd he
      unfold CacheState.money
      simp only [e1]
      rw [i64_eq (x := lo + 4) (by omega) (by omega), goSlice_ok _ _ _ h0 (by omega) h1, Res.ok_bind]
      have : slice c.bytes lo.toNat (lo + 4).toNat = [a, b, d, e] := by
        unfold slice
        rw [List.drop_take, show (lo + 4).toNat - lo.toNat = 4 by omega]
        apply List.ext_getElem?
        intro i
        rw [List.getElem?_take, List.getElem?_drop]
        match i with
        | 0 => simpa using ha
        | 1 => simpa using hb
        | 2 => simpa using hd
        | 3 => simpa using he
        | n + 4 => rw [if_neg (by omega)]; simp
      rw [this]
    · intro h
      unfold CacheState.money goSlice
      simp only [e1]
      rw [if_neg]
      · rfl
      · obtain ⟨b1, b2, k, hk⟩ := i64_spec (lo + 4)
        omega

/-- **C51**, for the online records: with `n` bytes per record (`n` is 0 in the code) the record is cut out of the segment, and it is
decoded exactly if it is longer than 3448 bytes and 3475 bytes are left in the segment. -/
theorem C51_user_info_exact (cd : Codec) (c : CacheState) (uid lo hi : Int)
    (hlo : Spec.Int64 (c.pos.userInfo + c.lenOfUserInfo * uid) lo) (hhi : Spec.Int64 (c.pos.userInfo + c.lenOfUserInfo * uid + c.lenOfUserInfo) hi) :
    (0 ≤ lo → hi ≤ c.bytes.length → 3448 < hi - lo → lo + 3475 ≤ c.bytes.length →
      c.userInfo cd uid = .ok (UserInfo.parse cd (c.bytes.drop lo.toNat))) ∧
    (¬ (0 ≤ lo ∧ hi ≤ c.bytes.length ∧ 3448 < hi - lo ∧ lo + 3475 ≤ c.bytes.length) → c.userInfo cd uid = .panic) := by
  have e1 := hlo.eq
  have e2 := hhi.eq
  have e3 : c.pos.userInfo + c.lenOfUserInfo * (uid + 1) = c.pos.userInfo + c.lenOfUserInfo * uid + c.lenOfUserInfo := by
    rw [Int.mul_add, Int.mul_one]; omega
  unfold CacheState.userInfo
  rw [e3, e1, e2]
  unfold goReslice goSlice
  constructor
  · intro h0 h1 h2 h3
    rw [if_pos ⟨h0, by omega, h1⟩, Res.ok_bind, Res.ok_bind, UserInfo.decode_eq, if_pos]
    constructor
    · simp [slice]; omega
    · simp; omega
  · intro h
    by_cases hb : 0 ≤ lo ∧ lo ≤ hi ∧ hi ≤ c.bytes.length
    · rw [if_pos hb, Res.ok_bind, Res.ok_bind, UserInfo.decode_eq, if_neg]
      rintro ⟨g1, g2⟩
      apply h
      simp [slice] at g1 g2
      omega
    · rw [if_neg hb]
      rfl

/-- A user number below zero reads the bytes in front of the table: number −1 is the four bytes between the two tables. -/
example : ∃ c, newCacheState (zeros 14 ++ [1, 2, 3, 4] ++ zeros 40) ⟨1, 1, 0, false, 0⟩ = .ok c ∧ c.money (-1) = .ok 67305985 := by
  refine ⟨_, rfl, by decide +kernel⟩

/-! ## Key numbers -/

/-- The value of a row of decimal digits, most significant first. -/
def Spec.decimal : Bytes → Nat
  | [] => 0
  | d :: ds => (d.toNat - 48) * 10 ^ ds.length + Spec.decimal ds

/-- A row of at least one decimal digit. -/
def Spec.Digits (ds : Bytes) : Prop := ds ≠ [] ∧ ∀ d ∈ ds, 48 ≤ d.toNat ∧ d.toNat ≤ 57

/-- A decimal numeral with an optional sign, and its value. -/
inductive Spec.Numeral : Bytes → Int → Prop where
  | plain (ds : Bytes) : Spec.Digits ds → Spec.Numeral ds (Spec.decimal ds : Nat)
  | plus (ds : Bytes) : Spec.Digits ds → Spec.Numeral (43 :: ds) (Spec.decimal ds : Nat)
  | minus (ds : Bytes) : Spec.Digits ds → Spec.Numeral (45 :: ds) (-(Spec.decimal ds : Nat))

theorem decimal_fold (ds : Bytes) (h : ∀ d ∈ ds, 48 ≤ d.toNat ∧ d.toNat ≤ 57) : ∀ a : Int,
    ds.foldl (fun a b => 10 * a + ((b.toNat : Int) - 48)) a = a * 10 ^ ds.length + (Spec.decimal ds : Nat) := by
  induction ds with
  | nil => intro a; simp [Spec.decimal]
  | cons d ds ih =>
    intro a
    have hd := h d (by simp)
    rw [List.foldl_cons, ih (fun x hx => h x (by simp [hx]))]
    have : ((Spec.decimal (d :: ds) : Nat) : Int) = ((d.toNat : Int) - 48) * 10 ^ ds.length + (Spec.decimal ds : Nat) := by
      rw [Spec.decimal.eq_2]
      push_cast [hd.1]
      rfl
    rw [this, List.length_cons, Int.pow_succ]
    generalize (10 : Int) ^ ds.length = z
    generalize (Spec.decimal ds : Int) = w
    generalize (d.toNat : Int) - 48 = q
    rw [Int.add_mul, Int.mul_comm z 10, ← Int.mul_assoc, Int.mul_comm 10 a]
    omega

theorem allDigits_iff (ds : Bytes) : ds.all isDecDigit = true ↔ ∀ d ∈ ds, 48 ≤ d.toNat ∧ d.toNat ≤ 57 := by
  rw [List.all_eq_true]
  unfold isDecDigit
  simp only [Bool.and_eq_true, decide_eq_true_eq, UInt8.le_iff_toNat_le]
  exact Iff.rfl

/-- A key is accepted exactly if it is a decimal numeral (an optional sign, then digits) within 64 bits, and then with its
value. -/
theorem C52_number_exact (t : Bytes) (k : Int) :
    atoi t = some k ↔ Spec.Numeral t k ∧ -9223372036854775808 ≤ k ∧ k ≤ 9223372036854775807 := by
  have key : ∀ (ds : Bytes) (neg : Bool) (w : Int), ((if ds = [] ∨ ¬ ds.all isDecDigit = true then none
      else
        let n : Int := ds.foldl (fun a b => 10 * a + ((b.toNat : Int) - 48)) 0
        let v := if neg = true then -n else n
        if -(2 ^ 63) ≤ v ∧ v < 2 ^ 63 then some v else none) = some w) ↔
      Spec.Digits ds ∧ w = (if neg = true then -((Spec.decimal ds : Nat) : Int) else (Spec.decimal ds : Nat)) ∧
        -9223372036854775808 ≤ w ∧ w ≤ 9223372036854775807 := by
    intro ds neg w
    by_cases hd : Spec.Digits ds
    · have h1 : ¬ (ds = [] ∨ ¬ ds.all isDecDigit = true) := by
        rintro (h | h)
        · exact hd.1 h
        · exact h ((allDigits_iff ds).2 hd.2)
      rw [if_neg h1]
      simp only
      rw [decimal_fold ds hd.2, Int.zero_mul, Int.zero_add]
      generalize (if neg = true then -((Spec.decimal ds : Nat) : Int) else (Spec.decimal ds : Nat)) = v
      constructor
      · intro h
        split at h
        · cases h; exact ⟨hd, rfl, by omega, by omega⟩
        · cases h
      · rintro ⟨_, rfl, h2, h3⟩
        rw [if_pos (by omega)]
    · have h1 : ds = [] ∨ ¬ ds.all isDecDigit = true := by
        by_cases h : ds = []
        · exact Or.inl h
        · right
          intro h'
          exact hd ⟨h, (allDigits_iff ds).1 h'⟩
      rw [if_pos h1]
      constructor
      · intro h; cases h
      · rintro ⟨h, _⟩; exact absurd h hd
  have hb : ∀ (ds : Bytes), Spec.Digits ds → ds.head? ≠ some 43 ∧ ds.head? ≠ some 45 := by
    intro ds hd
    cases ds with
    | nil => exact absurd rfl hd.1
    | cons d l =>
      have := hd.2 d (by simp)
      constructor
      · intro e; cases e; exact absurd this.1 (by decide)
      · intro e; cases e; exact absurd this.1 (by decide)
  unfold atoi
  by_cases h45 : t.head? = some 45
  · obtain ⟨ds, rfl⟩ : ∃ ds, t = 45 :: ds := by
      cases t with
      | nil => cases h45
      | cons a l => simp at h45; exact ⟨l, by rw [h45]⟩
    have := key ds true k
    simp only [List.head?_cons, or_true, if_true, List.tail_cons] at this ⊢
    rw [this]
    constructor
    · rintro ⟨h1, rfl, h2⟩; exact ⟨.minus ds h1, h2⟩
    · rintro ⟨h1, h2⟩
      cases h1 with
      | plain _ h => exact absurd rfl (hb _ h).2
      | minus _ h => exact ⟨h, rfl, h2⟩
  · by_cases h43 : t.head? = some 43
    · obtain ⟨ds, rfl⟩ : ∃ ds, t = 43 :: ds := by
        cases t with
        | nil => cases h43
        | cons a l => simp at h43; exact ⟨l, by rw [h43]⟩
      have := key ds false k
      have h4 : ¬ ((some 43 : Option UInt8) = some 45) := by decide
      simp only [Bool.false_eq_true, if_false, List.head?_cons, true_or, if_true, List.tail_cons, h4] at this ⊢
      rw [this]
      constructor
      · rintro ⟨h1, rfl, h2⟩; exact ⟨.plus ds h1, h2⟩
      · rintro ⟨h1, h2⟩
        cases h1 with
        | plain _ h => exact absurd rfl (hb _ h).1
        | plus _ h => exact ⟨h, rfl, h2⟩
    · have := key t false k
      simp only [Bool.false_eq_true, if_false, h45, h43, or_self] at this ⊢
      rw [this]
      constructor
      · rintro ⟨h1, rfl, h2⟩; exact ⟨.plain t h1, h2⟩
      · rintro ⟨h1, h2⟩
        cases h1 with
        | plain _ h => exact ⟨h, rfl, h2⟩
        | plus _ h => exact absurd rfl h43
        | minus _ h => exact absurd rfl h45

/-- The whole rule for keys: the segment named by the numeral, or an error. -/
theorem C52_key_exact (t : Bytes) (ht : 58 ∉ t) :
    (∀ k, Spec.Numeral t k → -9223372036854775808 ≤ k → k ≤ 9223372036854775807 → selectBackend (ascii "shmkey:" ++ t) = .ok (.shm k)) ∧
    ((∀ k, Spec.Numeral t k → k < -9223372036854775808 ∨ 9223372036854775807 < k) →
      selectBackend (ascii "shmkey:" ++ t) = .err "atoi error") := by
  have := C52_exact (ascii "shmkey") t [] (by decide) ht (Or.inl rfl)
  rw [List.append_nil] at this
  constructor
  · intro k h h1 h2
    rw [(C52_number_exact t k).2 ⟨h, h1, h2⟩] at this
    exact this
  · intro h
    apply C52_bad_key t ht
    cases ha : atoi t with
    | none => rfl
    | some k =>
      obtain ⟨h1, h2, h3⟩ := (C52_number_exact t k).1 ha
      have := h k h1
      omega

example : Spec.Numeral (ascii "-0012") (-12) ∧ Spec.Numeral (ascii "+7") 7 :=
  ⟨.minus (ascii "0012") ⟨by decide, by decide⟩, .plus (ascii "7") ⟨by decide, by decide⟩⟩

end Verif
