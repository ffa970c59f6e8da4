import Verif.Model.Settings
/-!
# Board attributes, user settings, moderators (C47–C49)
-/

namespace Verif

theorem attrTest_bit (w mask : UInt32) (k : Nat) (hm : mask.toNat = 2 ^ k) : attrTest w mask = w.toNat.testBit k := by
  have h : (w &&& mask).toNat = (w.toNat.testBit k).toNat * 2 ^ k := by
    rw [UInt32.toNat_and, hm]
    apply Nat.eq_of_testBit_eq
    intro j
    rw [Nat.testBit_and, Nat.testBit_two_pow]
    by_cases hj : k = j
    · subst hj
      cases w.toNat.testBit k <;> simp
    · cases w.toNat.testBit k <;> simp [hj]
  unfold attrTest
  cases hb : w.toNat.testBit k with
  | true =>
    rw [hb] at h
    have : w &&& mask ≠ 0 := by
      intro e
      rw [e] at h
      have hz : (0 : UInt32).toNat = 0 := rfl
      have := Nat.two_pow_pos k
      simp only [hz, Bool.toNat_true, Nat.one_mul] at h
      omega
    simpa using this
  | false =>
    rw [hb] at h
    have : w &&& mask = 0 := UInt32.toNat_inj.mp (by simpa using h)
    simp [this]

/-- The attribute or flag word with bit `k` inverted. -/
def Spec.flipBit (w : UInt32) (k : Nat) : UInt32 := w ^^^ UInt32.ofNat (2 ^ k)

theorem testBit_flipBit (w : UInt32) (k j : Nat) (hk : k < 32) :
    (Spec.flipBit w k).toNat.testBit j = (w.toNat.testBit j ^^ decide (k = j)) := by
  unfold Spec.flipBit
  have : (UInt32.ofNat (2 ^ k)).toNat = 2 ^ k := by
    rw [UInt32.toNat_ofNat']
    exact Nat.mod_eq_of_lt (Nat.pow_lt_pow_right (by omega) hk)
  rw [UInt32.toNat_xor, Nat.testBit_xor, this, Nat.testBit_two_pow]

/-! ## C47 -/

/-- The board queries with the number of the attribute bit that pttbbs documents for each (pttstruct.h, `BRD_…`). -/
def Spec.boardQueries : List ((BoardHeader → Bool) × Nat) := [
  (BoardHeader.isNoCount, 1), (BoardHeader.isGroupBoard, 3), (BoardHeader.isHide, 4), (BoardHeader.isPostMask, 5),
  (BoardHeader.isAnonymous, 6), (BoardHeader.isDefaultAnonymous, 7), (BoardHeader.isNoCredit, 8),
  (BoardHeader.isVoteBoard, 9), (BoardHeader.isWarnEL, 10), (BoardHeader.isTop, 11), (BoardHeader.isNoRecommend, 12),
  (BoardHeader.isAngelAnonymous, 13), (BoardHeader.isBMCount, 14), (BoardHeader.isSymbolic, 15), (BoardHeader.isNoBoo, 16),
  (BoardHeader.isRestrictedPost, 18), (BoardHeader.isGuestPost, 19), (BoardHeader.isCooldown, 20),
  (BoardHeader.isCPLog, 21), (BoardHeader.isNoFastRecommend, 22), (BoardHeader.isIPLogRecommend, 23),
  (BoardHeader.isOver18, 24), (BoardHeader.isNoReply, 25), (BoardHeader.isAlignedComment, 26),
  (BoardHeader.isNoSelfDeletePost, 27), (BoardHeader.isBMMaskContent, 28)]

/-- **C47.** Every query reads its own bit of the attribute word and nothing else of the board. -/
theorem C47_own_bit : ∀ q ∈ Spec.boardQueries, ∀ b : BoardHeader, q.1 b = b.brdattr.toNat.testBit q.2 := by
  simp only [Spec.boardQueries, List.forall_mem_cons, List.not_mem_nil, false_implies, implies_true, and_true]
  refine ⟨?_, ?_, ?_, ?_, ?_, ?_, ?_, ?_, ?_, ?_, ?_, ?_, ?_, ?_, ?_, ?_, ?_, ?_, ?_, ?_, ?_, ?_, ?_, ?_, ?_, ?_⟩ <;>
    exact fun b => attrTest_bit _ _ _ (by decide)

/-- No two queries share a bit. -/
theorem C47_distinct : (Spec.boardQueries.map (·.2)).Nodup ∧ (∀ q ∈ Spec.boardQueries, q.2 < 32) ∧
    Spec.boardQueries.length = 26 := by decide

/-- **C47.** Inverting the bit of a query inverts its answer and no other answer. -/
theorem C47_flip : ∀ q ∈ Spec.boardQueries, ∀ b : BoardHeader,
    q.1 { b with brdattr := Spec.flipBit b.brdattr q.2 } = !q.1 b ∧
    ∀ p ∈ Spec.boardQueries, p.2 ≠ q.2 → p.1 { b with brdattr := Spec.flipBit b.brdattr q.2 } = p.1 b := by
  intro q hq b
  have hk := C47_distinct.2.1 q hq
  constructor
  · rw [C47_own_bit q hq, C47_own_bit q hq, testBit_flipBit _ _ _ hk]
    simp
  · intro p hp hne
    rw [C47_own_bit p hp, C47_own_bit p hp, testBit_flipBit _ _ _ hk]
    simp [Ne.symm hne]

/-- A board is a class iff it is a group board. -/
theorem C47_class (b : BoardHeader) : b.isClass = b.brdattr.toNat.testBit 3 := attrTest_bit _ _ _ (by decide)

example : (BoardHeader.isOver18, 24) ∈ Spec.boardQueries ∧ (BoardHeader.isHide, 4) ∈ Spec.boardQueries := by
  simp [Spec.boardQueries]

/-! ## C48 -/

/-- `u` is the first record of the list with this id. -/
def Spec.FirstWithID (recs : List Userec) (userid : Bytes) (u : Userec) : Prop :=
  ∃ pre post, recs = pre ++ u :: post ∧ u.userID = userid ∧ ∀ x ∈ pre, x.userID ≠ userid

theorem findUserecByID_ok (recs : List Userec) (userid : Bytes) (u : Userec) :
    findUserecByID recs userid = .ok u ↔ Spec.FirstWithID recs userid u := by
  induction recs with
  | nil =>
    constructor
    · intro h; cases h
    · rintro ⟨pre, post, h, _⟩; simp at h
  | cons x xs ih =>
    unfold findUserecByID
    by_cases hx : userid = x.userID
    · rw [if_pos hx]
      constructor
      · intro h; cases h; exact ⟨[], xs, rfl, hx.symm, by simp⟩
      · rintro ⟨pre, post, h, hu, hp⟩
        cases pre with
        | nil => simp at h; rw [h.1]
        | cons y ys =>
          simp at h
          exact absurd (h.1 ▸ hx.symm) (hp y (by simp))
    · rw [if_neg hx, ih]
      constructor
      · rintro ⟨pre, post, rfl, hu, hp⟩
        refine ⟨x :: pre, post, rfl, hu, ?_⟩
        intro y hy
        rcases List.mem_cons.mp hy with rfl | hy
        · exact Ne.symm hx
        · exact hp y hy
      · rintro ⟨pre, post, h, hu, hp⟩
        cases pre with
        | nil => simp at h; exact absurd (h.1 ▸ hu.symm) hx
        | cons y ys =>
          simp at h
          exact ⟨ys, post, h.2, hu, fun z hz => hp z (by simp [hz])⟩

theorem findUserecByID_err (recs : List Userec) (userid : Bytes) :
    findUserecByID recs userid = .err "user record not found" ↔ ∀ x ∈ recs, x.userID ≠ userid := by
  induction recs with
  | nil => simp [findUserecByID]
  | cons x xs ih =>
    unfold findUserecByID
    by_cases hx : userid = x.userID
    · rw [if_pos hx]
      constructor
      · intro h; cases h
      · intro h; exact absurd hx.symm (h x (by simp))
    · rw [if_neg hx, ih]
      simp [Ne.symm hx]

theorem findUserecByID_cases (recs : List Userec) (userid : Bytes) :
    (∃ u, findUserecByID recs userid = .ok u) ∨ findUserecByID recs userid = .err "user record not found" := by
  induction recs with
  | nil => right; rfl
  | cons x xs ih =>
    unfold findUserecByID
    split
    · left; exact ⟨x, rfl⟩
    · exact ih

/-- The fifteen settings with the bit that pttbbs documents for each (uflags.h, `UF_…`). -/
def Spec.userFlags : List ((UFlags → Bool) × Nat) := [
  (UFlags.favNohilight, 0), (UFlags.favAddnew, 1), (UFlags.dbanner, 6), (UFlags.dbannerUsong, 7), (UFlags.dbcsAware, 9),
  (UFlags.dbcsNointresc, 10), (UFlags.dbcsDropRepeat, 11), (UFlags.noModmark, 12), (UFlags.coloredModmark, 13),
  (UFlags.defBackup, 16), (UFlags.newAngelPager, 17), (UFlags.rejOuttamail, 18), (UFlags.secureLogin, 19),
  (UFlags.menuLightbar, 24), (UFlags.cursorASCII, 25)]

theorem C48_own_bit : ∀ q ∈ Spec.userFlags, ∀ u : Userec, q.1 u.flags = u.userFlag.toNat.testBit q.2 := by
  simp only [Spec.userFlags, List.forall_mem_cons, List.not_mem_nil, false_implies, implies_true, and_true]
  refine ⟨?_, ?_, ?_, ?_, ?_, ?_, ?_, ?_, ?_, ?_, ?_, ?_, ?_, ?_, ?_⟩ <;> exact fun u => attrTest_bit _ _ _ (by decide)

theorem C48_distinct : (Spec.userFlags.map (·.2)).Nodup ∧ (∀ q ∈ Spec.userFlags, q.2 < 32) ∧ Spec.userFlags.length = 15 := by
  decide

/-- **C48.** The settings of a user id are those of the first record with that id, every setting being its own bit. -/
theorem C48_settings (recs : List Userec) (userid : Bytes) (f : UFlags) :
    getUserFlagAllByID recs userid = .ok f ↔
      ∃ u, Spec.FirstWithID recs userid u ∧ ∀ q ∈ Spec.userFlags, q.1 f = u.userFlag.toNat.testBit q.2 := by
  have hext : ∀ f g : UFlags, (∀ q ∈ Spec.userFlags, q.1 f = q.1 g) → f = g := by
    intro f g h
    simp only [Spec.userFlags, List.forall_mem_cons, List.not_mem_nil, false_implies, implies_true, and_true] at h
    cases f; cases g
    simp_all
  unfold getUserFlagAllByID
  constructor
  · intro h
    cases hf : findUserecByID recs userid with
    | ok u =>
      rw [hf] at h
      cases h
      exact ⟨u, (findUserecByID_ok _ _ _).1 hf, fun q hq => C48_own_bit q hq u⟩
    | err e => rw [hf] at h; cases h
    | panic => rw [hf] at h; cases h
    | diverge => rw [hf] at h; cases h
  · rintro ⟨u, hu, hq⟩
    rw [(findUserecByID_ok _ _ _).2 hu]
    have : u.flags = f := hext _ _ (fun q h => by rw [C48_own_bit q h u, hq q h])
    show Res.ok u.flags = _
    rw [this]

/-- **C48.** The lookup fails iff no record has the id. -/
theorem C48_error (recs : List Userec) (userid : Bytes) :
    (∃ e, getUserFlagAllByID recs userid = .err e) ↔ ∀ x ∈ recs, x.userID ≠ userid := by
  rw [← findUserecByID_err]
  unfold getUserFlagAllByID
  rcases findUserecByID_cases recs userid with ⟨u, h⟩ | h
  · rw [h]; simp
  · rw [h]; simp

/-- The lookup always returns. -/
theorem C48_returns (recs : List Userec) (userid : Bytes) : (getUserFlagAllByID recs userid).Returns := by
  unfold getUserFlagAllByID
  rcases findUserecByID_cases recs userid with ⟨u, h⟩ | h <;> rw [h] <;> trivial

example : Spec.FirstWithID [{ Userec.zero with userID := ascii "a" }, { Userec.zero with userID := ascii "b", userFlag := 64 },
    { Userec.zero with userID := ascii "b" }] (ascii "b") { Userec.zero with userID := ascii "b", userFlag := 64 } :=
  ⟨[{ Userec.zero with userID := ascii "a" }], [{ Userec.zero with userID := ascii "b" }], rfl, rfl,
    by simp [ascii]⟩

/-! ## C49 -/

theorem splitByte_join (b : UInt8) (s : Bytes) : [b].intercalate (splitByte b s) = s := by
  induction s with
  | nil => simp [splitByte, List.intercalate]
  | cons c cs ih =>
    simp only [splitByte]
    split
    · rename_i h
      subst h
      cases hs : splitByte c cs with
      | nil => exact absurd hs (splitByte_ne_nil c cs)
      | cons x xs =>
        rw [hs] at ih
        simpa [List.intercalate, List.intersperse] using ih
    · cases hs : splitByte b cs with
      | nil => exact absurd hs (splitByte_ne_nil b cs)
      | cons x xs =>
        rw [hs] at ih
        cases xs with
        | nil => simpa [List.intercalate, List.intersperse] using ih
        | cons y ys => simpa [List.intercalate, List.intersperse] using ih

/-- **C49.** The moderators joined by `/` are the stored string, no name contains `/`, and nobody moderates a board whose
string is empty. -/
theorem C49_moderators (b : BoardHeader) : [slash].intercalate b.moderators = b.bm ∧ (∀ n ∈ b.moderators, slash ∉ n) ∧
    (b.bm = [] ↔ b.moderators = []) := by
  unfold BoardHeader.moderators
  by_cases h : b.bm = []
  · simp [h, List.intercalate]
  · simp only [h, if_false]
    exact ⟨splitByte_join _ _, splitByte_not_mem _ _, by simp [splitByte_ne_nil]⟩

/-- The list is determined by the string: a different list of names without `/` is a different string. -/
theorem C49_unique (b : BoardHeader) (l : List Bytes) (hl : ∀ n ∈ l, slash ∉ n) (hne : l ≠ []) (hbm : b.bm ≠ [])
    (h : [slash].intercalate l = b.bm) : b.moderators = l := by
  have key : ∀ l : List Bytes, (∀ n ∈ l, slash ∉ n) → l ≠ [] → splitByte slash ([slash].intercalate l) = l := by
    intro l
    induction l with
    | nil => intro _ h; exact absurd rfl h
    | cons x xs ih =>
      intro hl _
      cases xs with
      | nil => simpa [List.intercalate, List.intersperse] using splitByte_of_not_mem (hl x (by simp))
      | cons y ys =>
        have e : [slash].intercalate (x :: y :: ys) = x ++ slash :: [slash].intercalate (y :: ys) := by
          simp [List.intercalate, List.intersperse]
        rw [e, splitByte_sep, splitByte_of_not_mem (hl x (by simp)), ih (fun n hn => hl n (by simp [hn])) (by simp)]
        rfl
  unfold BoardHeader.moderators
  rw [if_neg hbm, ← h, key l hl hne]

example : (∀ n ∈ [ascii "SYSOP", ascii "pichu"], slash ∉ n) ∧
    [slash].intercalate [ascii "SYSOP", ascii "pichu"] = ascii "SYSOP/pichu" := by decide

end Verif
