import Verif.Proofs.Decode
import Verif.Model.Cache
import Verif.Go.Fmt
/-!
# The shared-memory cache (C50–C52)
-/

namespace Verif

/-! ## C50 -/

/-- A layout setting the documentation allows, describing a segment that fits the address space. -/
structure Spec.ValidLayout (s : Layout) : Prop where
  align : s.alignment = 1 ∨ s.alignment = 2 ∨ s.alignment = 4 ∨ s.alignment = 8
  users : 0 ≤ s.maxUsers
  idLen : 0 ≤ s.idLen
  bits : 0 ≤ s.hashBits
  fits : (s.maxUsers + 1) * (s.idLen + 1) + 12 * s.maxUsers + 4 * 2 ^ s.hashBits.toNat + 64 < 2 ^ 63

/-- The regions in order, each with its length; the last one (online users) is only a start. -/
def Spec.regions (s : Layout) (p : CachePos) : List (Int × Int) :=
  [(p.version, 4), (p.size, 4), (p.userID, s.maxUsers * (s.idLen + 1)), (p.nextInHash, 4 * s.maxUsers),
    (p.money, 4 * s.maxUsers)] ++ (if s.useCoolDown then [(p.cooldownTime, 4 * s.maxUsers)] else []) ++
    [(p.hashHead, 4 * 2 ^ s.hashBits.toNat), (p.userNumber, 4), (p.userLoaded, 4), (p.userInfo, 0)]

/-- The regions of 32-bit integers. -/
def Spec.intTables (s : Layout) (p : CachePos) : List Int :=
  [p.version, p.size, p.nextInHash, p.money] ++ (if s.useCoolDown then [p.cooldownTime] else []) ++
    [p.hashHead, p.userNumber, p.userLoaded]

theorem i64_eq {x : Int} (h1 : -(2 ^ 63) ≤ x) (h2 : x < 2 ^ 63) : i64 x = x := by
  unfold i64
  apply Int.bmod_eq_of_le
  · omega
  · omega

/-- Where everything is: every position is the end of what precedes it. -/
structure Spec.Positions (s : Layout) (p : CachePos) : Prop where
  version : p.version = 0
  size : p.size = 4
  userID : p.userID = 8
  nextLow : 8 + (s.maxUsers + 1) * (s.idLen + 1) ≤ p.nextInHash
  nextHigh : p.nextInHash < 8 + (s.maxUsers + 1) * (s.idLen + 1) + s.alignment
  nextAligned : p.nextInHash % s.alignment = 0
  money : p.money = p.nextInHash + 4 * s.maxUsers + 4
  cooldown : s.useCoolDown = true → p.cooldownTime = p.money + 4 * s.maxUsers + 4
  hashHead : p.hashHead = p.money + 4 * s.maxUsers + 8 + (if s.useCoolDown then 4 * s.maxUsers else 0)
  number : p.userNumber = p.hashHead + 4 * 2 ^ s.hashBits.toNat + 4
  loaded : p.userLoaded = p.userNumber + 4
  userInfo : p.userInfo = p.userLoaded + 4

theorem alignUp_eq (x a : Int) (ha : a = 1 ∨ a = 2 ∨ a = 4 ∨ a = 8) (h0 : 0 ≤ x) (h1 : x + 8 < 2 ^ 63) :
    ∃ r, alignUp x a = .ok r ∧ x ≤ r ∧ r < x + a ∧ r % a = 0 := by
  have hne : a ≠ 0 := by omega
  unfold alignUp
  rw [if_neg hne, Int.tmod_eq_emod_of_nonneg h0]
  by_cases hm : x % a = 0
  · rw [if_neg (by simpa using hm)]
    exact ⟨x, rfl, by omega, by omega, hm⟩
  · rw [if_pos hm]
    refine ⟨_, rfl, ?_⟩
    rw [i64_eq (by rcases ha with rfl | rfl | rfl | rfl <;> omega) (by rcases ha with rfl | rfl | rfl | rfl <;> omega)]
    rcases ha with rfl | rfl | rfl | rfl <;> omega

/-- `caculatePos` on a valid layout. -/
theorem caculatePos_valid (s : Layout) (h : Spec.ValidLayout s) : ∃ p, caculatePos s = .ok p ∧ Spec.Positions s p := by
  obtain ⟨ha, hu, hi, hb, hf⟩ := h
  have hU : 0 ≤ s.maxUsers * (s.idLen + 1) := Int.mul_nonneg hu (by omega)
  have hH : (0 : Int) < 2 ^ s.hashBits.toNat := Int.pow_pos (by omega)
  have hexp : (s.maxUsers + 1) * (s.idLen + 1) = s.maxUsers * (s.idLen + 1) + (s.idLen + 1) := by
    rw [Int.add_mul, Int.one_mul]
  rw [hexp] at hf
  obtain ⟨r, hr, h1, h2, h3⟩ := alignUp_eq ((s.idLen + 1) + 8 + s.maxUsers * (s.idLen + 1)) s.alignment ha (by omega) (by omega)
  have ha8 : s.alignment ≤ 8 := by omega
  unfold caculatePos
  have e1 : i64 (0 + 4) = 4 := by decide
  have e2 : i64 (4 + 4) = 8 := by decide
  have e3 : i64 (s.idLen + 1 + 8 + s.maxUsers * (s.idLen + 1)) = s.idLen + 1 + 8 + s.maxUsers * (s.idLen + 1) :=
    i64_eq (by omega) (by omega)
  have e4 : oneShl s.hashBits = .ok (2 ^ s.hashBits.toNat) := by
    unfold oneShl
    rw [if_neg (by omega), i64_eq (by omega) (by omega)]
  simp only [e1, e2, e3, hr, e4, Res.ok_bind]
  have e5 : i64 (4 + r + s.maxUsers * 4) = 4 + r + s.maxUsers * 4 := i64_eq (by omega) (by omega)
  rw [e5]
  have e6 : i64 (4 + (4 + r + s.maxUsers * 4) + s.maxUsers * 4) = 4 + (4 + r + s.maxUsers * 4) + s.maxUsers * 4 :=
    i64_eq (by omega) (by omega)
  cases hc : s.useCoolDown with
  | true =>
    simp only [if_true, e6]
    rw [i64_eq (x := 4 + (4 + (4 + r + s.maxUsers * 4) + s.maxUsers * 4) + s.maxUsers * 4) (by omega) (by omega)]
    rw [i64_eq (x := 4 + (4 + (4 + (4 + r + s.maxUsers * 4) + s.maxUsers * 4) + s.maxUsers * 4) + 2 ^ s.hashBits.toNat * 4) (by omega) (by omega)]
    rw [i64_eq (x := 4 + (4 + (4 + (4 + r + s.maxUsers * 4) + s.maxUsers * 4) + s.maxUsers * 4) + 2 ^ s.hashBits.toNat * 4 + 4) (by omega) (by omega)]
    rw [i64_eq (x := 4 + (4 + (4 + (4 + r + s.maxUsers * 4) + s.maxUsers * 4) + s.maxUsers * 4) + 2 ^ s.hashBits.toNat * 4 + 4 + 4) (by omega) (by omega)]
    refine ⟨_, rfl, ⟨rfl, rfl, rfl, ?_, ?_, h3, ?_, ?_, ?_, ?_, rfl, rfl⟩⟩
    all_goals simp only [hexp, hc, if_true]
    all_goals omega
  | false =>
    simp only [Bool.false_eq_true, if_false]
    rw [i64_eq (x := 4 + 4 + (4 + r + s.maxUsers * 4) + s.maxUsers * 4) (by omega) (by omega)]
    rw [i64_eq (x := 4 + (4 + 4 + (4 + r + s.maxUsers * 4) + s.maxUsers * 4) + 2 ^ s.hashBits.toNat * 4) (by omega) (by omega)]
    rw [i64_eq (x := 4 + (4 + 4 + (4 + r + s.maxUsers * 4) + s.maxUsers * 4) + 2 ^ s.hashBits.toNat * 4 + 4) (by omega) (by omega)]
    rw [i64_eq (x := 4 + (4 + 4 + (4 + r + s.maxUsers * 4) + s.maxUsers * 4) + 2 ^ s.hashBits.toNat * 4 + 4 + 4) (by omega) (by omega)]
    refine ⟨_, rfl, ⟨rfl, rfl, rfl, ?_, ?_, h3, ?_, ?_, ?_, ?_, rfl, rfl⟩⟩
    all_goals simp only [hexp, hc, Bool.false_eq_true, if_false, false_implies]
    all_goals omega

/-- **C50.** On a valid layout the positions exist, and the regions follow one another without overlap. -/
theorem C50_disjoint (s : Layout) (h : Spec.ValidLayout s) : ∃ p, caculatePos s = .ok p ∧
    (Spec.regions s p).Pairwise (fun a b => a.1 + a.2 ≤ b.1 ∧ a.1 < b.1) ∧ ∀ x ∈ Spec.regions s p, 0 ≤ x.1 ∧ 0 ≤ x.2 := by
  obtain ⟨p, hp, q⟩ := caculatePos_valid s h
  refine ⟨p, hp, ?_⟩
  have hu := h.users
  have hU : 0 ≤ s.maxUsers * (s.idLen + 1) := Int.mul_nonneg hu (by have := h.idLen; omega)
  have hH : (0 : Int) < 2 ^ s.hashBits.toNat := Int.pow_pos (by omega)
  have hexp : (s.maxUsers + 1) * (s.idLen + 1) = s.maxUsers * (s.idLen + 1) + (s.idLen + 1) := by
    rw [Int.add_mul, Int.one_mul]
  have hi := h.idLen
  have hn := q.nextLow
  rw [hexp] at hn
  have q1 := q.version; have q2 := q.size; have q3 := q.userID; have q4 := q.money; have q5 := q.cooldown
  have q6 := q.hashHead; have q7 := q.number; have q8 := q.loaded; have q9 := q.userInfo
  unfold Spec.regions
  cases hc : s.useCoolDown with
  | true =>
    rw [hc] at q6
    simp only [if_true] at q6
    have q5 := q5 hc
    simp only [if_true, List.cons_append, List.nil_append, List.pairwise_cons, List.mem_cons, List.not_mem_nil, or_false,
      forall_eq_or_imp, forall_eq, false_implies, implies_true, List.Pairwise.nil, and_true]
    omega
  | false =>
    rw [hc] at q6
    simp only [Bool.false_eq_true, if_false] at q6
    simp only [Bool.false_eq_true, if_false, List.append_nil, List.cons_append, List.nil_append, List.pairwise_cons, List.mem_cons,
      List.not_mem_nil, or_false, forall_eq_or_imp, forall_eq, false_implies, implies_true, List.Pairwise.nil, and_true]
    omega

/-- **C50.** The integer tables are aligned: to the setting, or to the size of an integer if the setting is larger. -/
theorem C50_aligned (s : Layout) (h : Spec.ValidLayout s) (p : CachePos) (hp : caculatePos s = .ok p) :
    ∀ x ∈ Spec.intTables s p, x % min s.alignment 4 = 0 := by
  obtain ⟨p', hp', q⟩ := caculatePos_valid s h
  rw [hp] at hp'
  cases hp'
  have q1 := q.version; have q2 := q.size; have q4 := q.money; have q5 := q.cooldown
  have q6 := q.hashHead; have q7 := q.number; have q8 := q.loaded; have q10 := q.nextAligned
  have ha := h.align
  unfold Spec.intTables
  cases hc : s.useCoolDown with
  | true =>
    rw [hc] at q6
    simp only [if_true] at q6
    have q5 := q5 hc
    simp only [if_true, List.cons_append, List.nil_append, List.mem_cons, List.not_mem_nil, or_false, forall_eq_or_imp, forall_eq]
    rcases ha with ha | ha | ha | ha <;> rw [ha] at q10 ⊢ <;>
      simp only [show min (1 : Int) 4 = 1 from by decide, show min (2 : Int) 4 = 2 from by decide,
        show min (4 : Int) 4 = 4 from by decide, show min (8 : Int) 4 = 4 from by decide] <;> omega
  | false =>
    rw [hc] at q6
    simp only [Bool.false_eq_true, if_false] at q6
    simp only [Bool.false_eq_true, if_false, List.append_nil, List.cons_append, List.nil_append, List.mem_cons, List.not_mem_nil,
      or_false, forall_eq_or_imp, forall_eq]
    rcases ha with ha | ha | ha | ha <;> rw [ha] at q10 ⊢ <;>
      simp only [show min (1 : Int) 4 = 1 from by decide, show min (2 : Int) 4 = 2 from by decide,
        show min (4 : Int) 4 = 4 from by decide, show min (8 : Int) 4 = 4 from by decide] <;> omega

/-- The padding is the least possible: the link table starts at the first multiple of the alignment behind the ids. -/
theorem C50_least_padding (s : Layout) (h : Spec.ValidLayout s) (p : CachePos) (hp : caculatePos s = .ok p) (x : Int)
    (h1 : 8 + (s.maxUsers + 1) * (s.idLen + 1) ≤ x) (h2 : x % s.alignment = 0) : p.nextInHash ≤ x := by
  obtain ⟨p', hp', q⟩ := caculatePos_valid s h
  rw [hp] at hp'
  cases hp'
  have q1 := q.nextHigh; have q2 := q.nextAligned; have q3 := q.nextLow
  rcases h.align with ha | ha | ha | ha <;> rw [ha] at h2 q1 q2 <;> omega

/-- With an alignment of 8 the later integer tables need not be multiples of 8. -/
theorem C50_align8 : ∃ s p, Spec.ValidLayout s ∧ s.alignment = 8 ∧ caculatePos s = .ok p ∧ p.money % 8 ≠ 0 := by
  refine ⟨⟨8, 50, 12, false, 16⟩, _, ⟨by decide, by decide, by decide, by decide, by decide +kernel⟩, rfl, rfl, by decide +kernel⟩

/-- **C50.** Entries of different users are disjoint and inside their table: ids, and the 4-byte tables. -/
theorem C50_entries (s : Layout) (h : Spec.ValidLayout s) (u v : Int) (hu : 0 ≤ u) (huv : u < v)
    (hv : v < s.maxUsers) :
    0 ≤ (s.idLen + 1) * u ∧ (s.idLen + 1) * u + (s.idLen + 1) ≤ (s.idLen + 1) * v ∧ (s.idLen + 1) * v + (s.idLen + 1) ≤ s.maxUsers * (s.idLen + 1) ∧
    4 * u + 4 ≤ 4 * v ∧ 4 * v + 4 ≤ 4 * s.maxUsers := by
  have hi := h.idLen
  have e : ∀ w, (s.idLen + 1) * w + (s.idLen + 1) = (s.idLen + 1) * (w + 1) := by intro w; rw [Int.mul_add, Int.mul_one]
  rw [e, e, Int.mul_comm s.maxUsers]
  refine ⟨Int.mul_nonneg (by omega) hu, Int.mul_le_mul_of_nonneg_left (by omega) (by omega), Int.mul_le_mul_of_nonneg_left (by omega) (by omega), by omega, by omega⟩

example : Spec.ValidLayout ⟨4, 5000000, 12, true, 22⟩ := ⟨by decide, by decide, by decide, by decide, by decide +kernel⟩

/-! ## C51 -/

/-- **C51** in full: with any setting the documentation allows and a segment as large as the positions say, every user in range
can be read. -/
def Spec.C51 : Prop := ∀ (cd : Codec) (s : Layout) (bytes : Bytes) (c : CacheState), Spec.ValidLayout s →
  newCacheState bytes s = .ok c → ∀ extra, c.pos.userInfo + 3475 * s.maxUsers + extra = bytes.length →
  ∀ uid, 0 ≤ uid → uid < s.maxUsers → (∃ x, c.userID uid = .ok x) ∧ (∃ x, c.money uid = .ok x) ∧
    ∃ x, c.userInfo cd uid = .ok x

theorem goSlice_ok (d : Bytes) (lo hi : Int) (h0 : 0 ≤ lo) (h1 : lo ≤ hi) (h2 : hi ≤ d.length) :
    goSlice d lo hi = .ok (slice d lo.toNat hi.toNat) := by
  unfold goSlice
  rw [if_pos ⟨h0, h1, h2⟩]

/-- The text before the first NUL. -/
theorem splitByte_head (b : UInt8) (s : Bytes) : (splitByte b s).headD [] = s.takeWhile (· != b) := by
  induction s with
  | nil => rfl
  | cons c cs ih =>
    unfold splitByte
    by_cases h : c = b
    · simp [h]
    · rw [if_neg h, List.takeWhile_cons]
      cases hs : splitByte b cs with
      | nil => exact absurd hs (splitByte_ne_nil b cs)
      | cons x xs =>
        rw [hs] at ih
        simp [h] at ih ⊢
        exact ih

/-- **C51** for the id, the money and the version: what is read is what the segment holds at the user's entry. -/
theorem C51_reads_partial (s : Layout) (h : Spec.ValidLayout s) (bytes : Bytes) (c : CacheState) (hc : newCacheState bytes s = .ok c)
    (hl : c.pos.userInfo ≤ bytes.length) (uid : Int) (h0 : 0 ≤ uid) (h1 : uid < s.maxUsers) :
    c.userID uid = .ok ((slice bytes (c.pos.userID + (s.idLen + 1) * uid).toNat
      (c.pos.userID + (s.idLen + 1) * (uid + 1)).toNat).takeWhile (· != 0)) ∧
    c.money uid = .ok (rd32 (slice bytes (c.pos.money + 4 * uid).toNat (c.pos.money + 4 * (uid + 1)).toNat)).toInt32 ∧
    c.version = .ok (rd32 (slice bytes 0 4)) := by
  obtain ⟨p, hp, q⟩ := caculatePos_valid s h
  unfold newCacheState at hc
  rw [hp, Res.ok_bind] at hc
  cases hc
  have hi := h.idLen
  have hf := h.fits
  have hH : (0 : Int) < 2 ^ s.hashBits.toNat := Int.pow_pos (by omega)
  have hexp : (s.maxUsers + 1) * (s.idLen + 1) = s.maxUsers * (s.idLen + 1) + (s.idLen + 1) := by
    rw [Int.add_mul, Int.one_mul]
  have a1 : 0 ≤ (s.idLen + 1) * uid := Int.mul_nonneg (by omega) h0
  have a2 : (s.idLen + 1) * (uid + 1) = (s.idLen + 1) * uid + (s.idLen + 1) := by rw [Int.mul_add, Int.mul_one]
  have a3 : (s.idLen + 1) * (uid + 1) ≤ s.maxUsers * (s.idLen + 1) := by
    rw [Int.mul_comm s.maxUsers]
    exact Int.mul_le_mul_of_nonneg_left (by omega) (by omega)
  have ha := h.align
  have q0 := q.nextLow; have q1 := q.nextHigh
  have q2 := q.version; have q3 := q.userID; have q4 := q.money
  have q6 := q.hashHead; have q7 := q.number; have q8 := q.loaded; have q9 := q.userInfo
  have q6' : p.hashHead ≥ p.money + 4 * s.maxUsers + 8 := by
    rw [q6]; split <;> omega
  simp only at hl
  rw [hexp] at hf q0 q1
  have hb : ∀ x : Int, x < 2 ^ 63 → x ≤ bytes.length ∨ True := fun _ _ => Or.inr trivial
  have hA : s.alignment ≤ 8 := by omega
  refine ⟨?_, ?_, ?_⟩
  · unfold CacheState.userID
    simp only
    rw [i64_eq (x := p.userID + (s.idLen + 1) * uid) (by omega) (by omega),
      i64_eq (x := p.userID + (s.idLen + 1) * uid + s.idLen + 1) (by omega) (by omega),
      goSlice_ok _ _ _ (by omega) (by omega) (by omega), Res.ok_bind, splitByte_head]
    have : p.userID + (s.idLen + 1) * uid + s.idLen + 1 = p.userID + (s.idLen + 1) * (uid + 1) := by omega
    rw [this]
  · unfold CacheState.money
    simp only
    rw [i64_eq (x := p.money + 4 * uid) (by omega) (by omega), i64_eq (x := p.money + 4 * uid + 4) (by omega) (by omega),
      goSlice_ok _ _ _ (by omega) (by omega) (by omega), Res.ok_bind]
    have : p.money + 4 * uid + 4 = p.money + 4 * (uid + 1) := by omega
    rw [this]
  · unfold CacheState.version
    simp only
    rw [q2, i64_eq (x := 0 + 4) (by omega) (by omega), goSlice_ok _ _ _ (by omega) (by omega) (by omega), Res.ok_bind]
    rfl

/-- Reading an online record crashes for every setting, segment and user: `lenOfUserInfo` is never set, so the record is cut
out with length 0. -/
theorem C51_user_info_never (cd : Codec) (s : Layout) (bytes : Bytes) (c : CacheState) (hc : newCacheState bytes s = .ok c)
    (uid : Int) : c.userInfo cd uid = .panic := by
  unfold newCacheState at hc
  cases hp : caculatePos s with
  | ok p =>
    rw [hp, Res.ok_bind] at hc
    cases hc
    unfold CacheState.userInfo
    simp only [Int.zero_mul, Int.add_zero]
    unfold goReslice goSlice
    split
    · rw [Res.ok_bind, Res.ok_bind, UserInfo.decode_eq, if_neg]
      intro h
      simp at h
      omega
    · rfl
  | err e => rw [hp] at hc; cases hc
  | panic => rw [hp] at hc; cases hc
  | diverge => rw [hp] at hc; cases hc

/-- With the length set (`n` bytes per record, at least up to the last byte the decoder indexes), a record inside the segment
is read from its own place. Only slice expressions look further than the record, up to 3475 bytes. -/
theorem C51_user_info_if_set (cd : Codec) (c : CacheState) (uid n : Nat) (hl : c.lenOfUserInfo = n) (hn : 3448 < n)
    (p : Nat) (hp : c.pos.userInfo = p) (hb : p + n * (uid + 1) ≤ c.bytes.length) (hc : p + n * uid + 3475 ≤ c.bytes.length)
    (h63 : p + n * (uid + 1) < 2 ^ 63) :
    c.userInfo cd uid = .ok (UserInfo.parse cd (c.bytes.drop (p + n * uid))) := by
  unfold CacheState.userInfo
  have e1 : (n : Int) * (uid : Int) = ((n * uid : Nat) : Int) := by simp
  have e2 : (n : Int) * ((uid : Int) + 1) = ((n * (uid + 1) : Nat) : Int) := by simp
  have e3 : n * (uid + 1) = n * uid + n := Nat.mul_succ _ _
  rw [hl, hp, e1, e2, i64_eq (by omega) (by omega), i64_eq (by omega) (by omega)]
  unfold goReslice goSlice
  rw [if_pos ⟨by omega, by omega, by omega⟩, Res.ok_bind, Res.ok_bind, UserInfo.decode_eq]
  have t : ((p : Int) + ((n * uid : Nat) : Int)).toNat = p + n * uid := by omega
  have t2 : ((p : Int) + ((n * (uid + 1) : Nat) : Int)).toNat = p + n * (uid + 1) := by omega
  rw [t, t2, if_pos]
  constructor
  · simp [slice]; omega
  · simp; omega

/-- **C51** is false because of the online records. -/
theorem C51_refuted : ¬ Spec.C51 := by
  intro h
  have hv : Spec.ValidLayout ⟨1, 1, 0, false, 0⟩ := ⟨by decide, by decide, by decide, by decide, by decide +kernel⟩
  obtain ⟨p, hp, q⟩ := caculatePos_valid _ hv
  have hc : newCacheState (zeros (p.userInfo + 3475 * 1).toNat) ⟨1, 1, 0, false, 0⟩ =
      .ok { bytes := zeros (p.userInfo + 3475 * 1).toNat, layout := ⟨1, 1, 0, false, 0⟩, pos := p } := by
    unfold newCacheState; rw [hp]; rfl
  have hpos : 0 ≤ p.userInfo := by
    have e : caculatePos ⟨1, 1, 0, false, 0⟩ = .ok ⟨0, 4, 8, 10, 18, 0, 30, 38, 42, 46⟩ := by decide +kernel
    rw [e] at hp
    cases hp
    decide
  obtain ⟨_, _, x, hx⟩ := h asciiCodec _ _ _ hv hc 0 (by simp [zeros]; omega) 0 (by decide) (by decide)
  rw [C51_user_info_never _ _ _ _ hc] at hx
  cases hx

/-- A setting without alignment (0 instead of 1) crashes when the cache is opened. -/
theorem C51_alignment_zero (bytes : Bytes) (s : Layout) (h : s.alignment = 0) : newCacheState bytes s = .panic := by
  unfold newCacheState caculatePos alignUp
  rw [h]
  rfl

/-- So does a negative number of hash bits. -/
theorem C51_negative_bits (bytes : Bytes) (s : Layout) (h : s.hashBits < 0) : newCacheState bytes s = .panic := by
  have ha : ∀ x a, alignUp x a = .panic ∨ ∃ r, alignUp x a = .ok r := by
    intro x a
    unfold alignUp
    split
    · exact Or.inl rfl
    · split
      · exact Or.inr ⟨_, rfl⟩
      · exact Or.inr ⟨_, rfl⟩
  have hs : oneShl s.hashBits = .panic := if_pos h
  have hp : caculatePos s = .panic := by
    unfold caculatePos
    rcases ha (i64 (s.idLen + 1 + i64 (i64 (0 + 4) + 4) + s.maxUsers * (s.idLen + 1))) s.alignment with e | ⟨r, e⟩
    · simp only [e, Res.panic_bind]
    · simp only [e, Res.ok_bind, hs, Res.panic_bind]
  unfold newCacheState
  rw [hp]
  rfl

example : ∃ c, newCacheState (zeros 46) ⟨1, 1, 0, false, 0⟩ = .ok c ∧ c.pos.userInfo ≤ (zeros 46).length := by
  have e : caculatePos ⟨1, 1, 0, false, 0⟩ = .ok ⟨0, 4, 8, 10, 18, 0, 30, 38, 42, 46⟩ := by decide +kernel
  unfold newCacheState
  rw [e]
  exact ⟨_, rfl, by simp [zeros]⟩

/-! ## C52 -/

/-- **C52** in full. -/
def Spec.C52 : Prop :=
  (∀ p, selectBackend (ascii "file:" ++ p) = .ok (.mmap p)) ∧
  (∀ p, 58 ∉ p → selectBackend p = .ok (.mmap p)) ∧
  (∀ n : Int, -(2 ^ 63) ≤ n → n < 2 ^ 63 → selectBackend (ascii "shmkey:" ++ decInt n) = .ok (.shm n)) ∧
  (∀ s t, 58 ∉ s → s ≠ ascii "file" → s ≠ ascii "shmkey" → ∃ e, selectBackend (s ++ 58 :: t) = .err e)

theorem atoi_decInt (n : Int) (h0 : -(2 ^ 63) ≤ n) (h1 : n < 2 ^ 63) : atoi (decInt n) = some n := by
  have hd : ∀ m, (dec m).all isDecDigit = true := by
    intro m
    rw [List.all_eq_true]
    intro b hb
    have := dec_digits m b hb
    unfold isDecDigit
    simp only [Bool.and_eq_true, decide_eq_true_eq, UInt8.le_iff_toNat_le]
    exact this
  have hv : ∀ m, ((dec m).foldl (fun (a : Int) b => 10 * a + (b.toNat - 48)) 0) = (m : Int) := by
    intro m
    have key : ∀ (l : Bytes), (∀ b ∈ l, 48 ≤ b.toNat ∧ b.toNat ≤ 57) → ∀ a : Nat,
        l.foldl (fun (a : Int) b => 10 * a + (b.toNat - 48)) (a : Int) = ((l.foldl (fun a b => 10 * a + (b.toNat - 48)) a : Nat) : Int) := by
      intro l
      induction l with
      | nil => intro _ a; rfl
      | cons b l ih =>
        intro hl a
        have hb := hl b (by simp)
        simp only [List.foldl_cons]
        rw [← ih (fun x hx => hl x (by simp [hx]))]
        congr 1
        omega
    have := key (dec m) (dec_digits m) 0
    rw [Int.natCast_zero] at this
    rw [this]
    exact congrArg _ (decVal_dec m)
  have hne : ∀ m, ∃ b l, dec m = b :: l ∧ b ≠ 43 ∧ b ≠ 45 := by
    intro m
    cases hm : dec m with
    | nil => exact absurd hm (dec_ne_nil m)
    | cons b l =>
      have := dec_digits m b (by rw [hm]; simp)
      exact ⟨b, l, rfl, by intro e; subst e; exact absurd this.1 (by decide), by intro e; subst e; exact absurd this.1 (by decide)⟩
  unfold decInt
  by_cases hn : n < 0
  · rw [if_pos hn]
    unfold atoi
    have e : ¬ (dec n.natAbs = [] ∨ ¬ (dec n.natAbs).all isDecDigit = true) := by
      simp [dec_ne_nil, hd]
    simp only [List.head?_cons, or_true, if_true, List.tail_cons]
    rw [if_neg e, hv, if_pos (by omega)]
    congr 1; omega
  · rw [if_neg hn]
    obtain ⟨b, l, hb, h43, h45⟩ := hne n.natAbs
    unfold atoi
    have e0 : ¬ ((dec n.natAbs).head? = some 43 ∨ (dec n.natAbs).head? = some 45) := by
      rw [hb]; simp [h43, h45]
    have e : ¬ (dec n.natAbs = [] ∨ ¬ (dec n.natAbs).all isDecDigit = true) := by
      simp [dec_ne_nil, hd]
    have e2 : (dec n.natAbs).head? ≠ some 45 := by rw [hb]; simpa using h45
    rw [if_neg e0]
    simp only
    rw [if_neg e, hv, if_neg e2, if_pos (by omega)]
    congr 1; omega

/-- **C52**, exactly: the text before the first colon is the scheme, the text between the first and the second colon the
argument, and everything behind a second colon is dropped. -/
theorem C52_exact (s t rest : Bytes) (hs : 58 ∉ s) (ht : 58 ∉ t) (hr : rest = [] ∨ rest.head? = some 58) :
    selectBackend (s ++ 58 :: (t ++ rest)) =
      if s = ascii "shmkey" then (match atoi t with | none => .err "atoi error" | some k => .ok (.shm k))
      else if s = ascii "file" then .ok (.mmap t) else .err "unsupport scheme" := by
  unfold selectBackend
  rw [splitByte_sep, splitByte_of_not_mem hs]
  have : ∃ l, splitByte 58 (t ++ rest) = t :: l := by
    rcases hr with rfl | hr
    · exact ⟨[], by rw [List.append_nil, splitByte_of_not_mem ht]⟩
    · cases rest with
      | nil => simp at hr
      | cons c r =>
        simp at hr
        subst hr
        exact ⟨splitByte 58 r, by rw [splitByte_sep, splitByte_of_not_mem ht]; rfl⟩
  obtain ⟨l, hl⟩ := this
  rw [hl]
  rfl

theorem C52_file_partial (p : Bytes) (h : 58 ∉ p) : selectBackend (ascii "file:" ++ p) = .ok (.mmap p) := by
  have := C52_exact (ascii "file") p [] (by decide) h (Or.inl rfl)
  rw [List.append_nil] at this
  exact this

theorem C52_plain (p : Bytes) (h : 58 ∉ p) : selectBackend p = .ok (.mmap p) := by
  unfold selectBackend
  rw [splitByte_of_not_mem h]

theorem C52_key (n : Int) (h0 : -(2 ^ 63) ≤ n) (h1 : n < 2 ^ 63) : selectBackend (ascii "shmkey:" ++ decInt n) = .ok (.shm n) := by
  have hc : (58 : UInt8) ∉ decInt n := by
    intro h
    rcases decInt_bytes n 58 h with h | h
    · exact absurd h (by decide)
    · exact absurd h (by decide)
  have := C52_exact (ascii "shmkey") (decInt n) [] (by decide) hc (Or.inl rfl)
  rw [List.append_nil, atoi_decInt n h0 h1] at this
  exact this

theorem C52_other (s t : Bytes) (hs : 58 ∉ s) (h1 : s ≠ ascii "file") (h2 : s ≠ ascii "shmkey") :
    selectBackend (s ++ 58 :: t) = .err "unsupport scheme" := by
  unfold selectBackend
  rw [splitByte_sep, splitByte_of_not_mem hs]
  cases ht : splitByte 58 t with
  | nil => exact absurd ht (splitByte_ne_nil _ _)
  | cons x xs =>
    show (if s = ascii "shmkey" then _ else if s = ascii "file" then _ else _) = _
    rw [if_neg h2, if_neg h1]

/-- A key that is not a number is an error. -/
theorem C52_bad_key (t : Bytes) (ht : 58 ∉ t) (h : atoi t = none) : selectBackend (ascii "shmkey:" ++ t) = .err "atoi error" := by
  have := C52_exact (ascii "shmkey") t [] (by decide) ht (Or.inl rfl)
  rw [List.append_nil, h] at this
  exact this

/-- A file name containing a colon is cut off: another file is opened. -/
theorem C52_colon_refuted : ¬ Spec.C52 := by
  intro h
  have := h.1 (ascii "a:b")
  exact absurd this (by decide)

example : (58 : UInt8) ∉ ascii "/tmp/bbs.shm" ∧ ascii "http" ≠ ascii "file" ∧ atoi (ascii "12x") = none := by decide

end Verif
