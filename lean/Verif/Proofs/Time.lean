import Verif.Go.Time
/-!
# `time.Parse` reads back what `Time.Format` wrote
-/

namespace Verif

theorem toNat_ofNat_small {n : Nat} (h : n < 256) : (UInt8.ofNat n).toNat = n := by
  rw [UInt8.toNat_ofNat']; omega

theorem isDigit_iff (b : UInt8) : isDigit b = true ↔ 48 ≤ b.toNat ∧ b.toNat ≤ 57 := by
  simp [isDigit, UInt8.le_iff_toNat_le]

theorem dec2_digits (n : Nat) : ∀ b ∈ dec2 n, 48 ≤ b.toNat ∧ b.toNat ≤ 57 := by
  intro b hb
  simp only [dec2, List.mem_cons, List.not_mem_nil, or_false] at hb
  rcases hb with h | h <;> subst h <;> rw [toNat_ofNat_small (by omega)] <;> omega

theorem getnum_dec2 (fixed : Bool) {n : Nat} (h : n < 100) (v : Bytes) : getnum fixed (dec2 n ++ v) = .ok (n, v) := by
  have h1 : isDigit (UInt8.ofNat (48 + n / 10 % 10)) = true := by
    rw [isDigit_iff, toNat_ofNat_small (by omega)]; omega
  have h2 : isDigit (UInt8.ofNat (48 + n % 10)) = true := by
    rw [isDigit_iff, toNat_ofNat_small (by omega)]; omega
  have e : digitVal (UInt8.ofNat (48 + n / 10 % 10)) * 10 + digitVal (UInt8.ofNat (48 + n % 10)) = n := by
    simp only [digitVal]
    rw [toNat_ofNat_small (by omega), toNat_ofNat_small (by omega)]; omega
  simp only [dec2, List.cons_append, List.nil_append, getnum, h1, h2, Bool.not_true, Bool.false_eq_true, if_false, if_true,
    e]

namespace Chunk

theorem parse_lit (t : Civil) (c : UInt8) (v : Bytes) : Chunk.parse t (c :: v) (.lit c) = .ok (t, v) := by
  simp [Chunk.parse]

theorem parse_space (t : Civil) (v : Bytes) (h : v.head? ≠ some 32) : Chunk.parse t (32 :: v) .space = .ok (t, v) := by
  have : List.dropWhile (fun x : UInt8 => x == 32) v = v := by
    cases v with
    | nil => rfl
    | cons b v =>
      have : b ≠ 32 := by simpa using h
      simp [this]
  simp [Chunk.parse, this]

theorem parse_month (t : Civil) {n : Nat} (h1 : 1 ≤ n) (h2 : n ≤ 12) (v : Bytes) :
    Chunk.parse t (dec2 n ++ v) .month = .ok ({ t with month := n }, v) := by
  simp only [Chunk.parse, getnum_dec2 true (show n < 100 by omega), Res.ok_bind]
  rw [if_neg (by omega)]

theorem parse_day (t : Civil) {n : Nat} (h2 : n < 100) (v : Bytes) :
    Chunk.parse t (dec2 n ++ v) .day = .ok ({ t with day := n }, v) := by
  simp only [Chunk.parse, getnum_dec2 true h2, Res.ok_bind]

theorem parse_hour (t : Civil) {n : Nat} (h2 : n ≤ 23) (v : Bytes) :
    Chunk.parse t (dec2 n ++ v) .hour = .ok ({ t with hour := n }, v) := by
  simp only [Chunk.parse, getnum_dec2 false (show n < 100 by omega), Res.ok_bind]
  rw [if_neg (by omega)]

theorem parse_minute (t : Civil) {n : Nat} (h2 : n ≤ 59) (v : Bytes) :
    Chunk.parse t (dec2 n ++ v) .minute = .ok ({ t with min := n }, v) := by
  simp only [Chunk.parse, getnum_dec2 true (show n < 100 by omega), Res.ok_bind]
  rw [if_neg (by omega)]

theorem skipFraction_of {v : Bytes} (h : v.head? ≠ some 46) : skipFraction v = .ok v := by
  unfold skipFraction
  split
  · simp at h
  · rfl

theorem parse_second (t : Civil) {n : Nat} (h2 : n ≤ 59) (v : Bytes) (hv : v.head? ≠ some 46) :
    Chunk.parse t (dec2 n ++ v) .second = .ok ({ t with sec := n }, v) := by
  simp only [Chunk.parse, getnum_dec2 true (show n < 100 by omega), Res.ok_bind]
  rw [if_neg (by omega), skipFraction_of hv]
  rfl

theorem parse_year (t : Civil) {n : Nat} (h2 : n ≤ 9999) (v : Bytes) :
    Chunk.parse t (dec4 n ++ v) .year = .ok ({ t with year := n }, v) := by
  have hd : ∀ k, isDigit (UInt8.ofNat (48 + k % 10)) = true := by
    intro k
    rw [isDigit_iff, toNat_ofNat_small (by omega)]; omega
  have e : decVal [UInt8.ofNat (48 + n / 100 / 10 % 10), UInt8.ofNat (48 + n / 100 % 10),
      UInt8.ofNat (48 + n % 100 / 10 % 10), UInt8.ofNat (48 + n % 100 % 10)] = n := by
    simp only [decVal, List.foldl_cons, List.foldl_nil]
    rw [toNat_ofNat_small (by omega), toNat_ofNat_small (by omega), toNat_ofNat_small (by omega),
      toNat_ofNat_small (by omega)]
    omega
  simp only [Chunk.parse, dec4, dec2, List.cons_append, List.nil_append, hd, e, Bool.and_self, if_true]

theorem parse_weekday (t u : Civil) (v : Bytes) :
    Chunk.parse t (dayNames.getD (Verif.weekday u) [] ++ v) .weekday = .ok (t, v) := by
  have h : Verif.weekday u < 7 := Nat.mod_lt _ (by omega)
  have key : ∀ k : Fin 7, ∃ a b c, dayNames.getD k.val [] = [a, b, c] ∧
      dayNames.any (fun d => (List.zip [a, b, c] d).all (fun p => eqFold p.1 p.2)) = true := by
    intro k
    have : ∀ k : Fin 7, dayNames.getD k.val [] = [(dayNames.getD k.val []).getD 0 0, (dayNames.getD k.val []).getD 1 0,
      (dayNames.getD k.val []).getD 2 0] ∧ dayNames.any (fun d => (List.zip [(dayNames.getD k.val []).getD 0 0,
        (dayNames.getD k.val []).getD 1 0, (dayNames.getD k.val []).getD 2 0] d).all (fun p => eqFold p.1 p.2)) = true := by
      decide +kernel
    exact ⟨_, _, _, this k⟩
  obtain ⟨a, b, c, h1, h2⟩ := key ⟨Verif.weekday u, h⟩
  simp only at h1
  have hl : ∀ d ∈ dayNames, d.length = 3 := by decide
  have h3 : dayNames.any (fun d => decide (d.length ≤ (a :: b :: c :: v).length) &&
      (List.zip (a :: b :: c :: v) d).all (fun p => eqFold p.1 p.2)) = true := by
    rw [List.any_eq_true] at h2 ⊢
    obtain ⟨d, hd, h4⟩ := h2
    refine ⟨d, hd, ?_⟩
    have := hl d hd
    match d, this with
    | [x, y, z], _ => simpa using h4
  simp only [Chunk.parse, h1, List.cons_append, List.nil_append, lookupDay, h3, if_true, Res.ok_bind]
  rfl

end Chunk

theorem daysIn_le (m y : Nat) : daysIn m y ≤ 31 := by
  unfold daysIn
  repeat' split
  all_goals omega

theorem dec2_head {n : Nat} (v : Bytes) {c : UInt8} (hc : c.toNat < 48) : (dec2 n ++ v).head? ≠ some c := by
  simp only [dec2, List.cons_append, List.head?_cons, ne_eq, Option.some.injEq]
  intro e
  have := congrArg UInt8.toNat e
  rw [toNat_ofNat_small (by omega)] at this
  omega

/-- The comment layout keeps month, day, hour and minute. -/
theorem parse_format_comment (t : Civil) (h : t.Valid) (hy : t.year = 0) (hs : t.sec = 0) :
    timeParse layoutComment (timeFormat layoutComment t) = .ok t := by
  obtain ⟨_, h1, h2, h3, h4, h5, h6, h7⟩ := h
  have h8 := daysIn_le t.month t.year
  have e : timeFormat layoutComment t =
      dec2 t.month ++ (47 :: (dec2 t.day ++ (32 :: (dec2 t.hour ++ (58 :: (dec2 t.min ++ [])))))) := by
    simp [timeFormat, layoutComment, Chunk.format]
  rw [e]
  unfold timeParse layoutComment
  simp only [parseChunks, Chunk.parse_month _ h1 h2, Chunk.parse_lit, Res.ok_bind,
    Chunk.parse_day _ (show t.day < 100 by omega), Chunk.parse_space _ _ (dec2_head _ (show (32 : UInt8).toNat < 48 by decide)),
    Chunk.parse_hour _ h5, Chunk.parse_minute _ h6]
  rw [if_neg (by simp)]
  simp only [hy] at h4
  rw [if_neg (by omega)]
  cases t
  simp_all

/-- The log layout keeps everything. -/
theorem parse_format_bad (t : Civil) (h : t.Valid) : timeParse layoutBad (timeFormat layoutBad t) = .ok t := by
  obtain ⟨h0, h1, h2, h3, h4, h5, h6, h7⟩ := h
  have h8 := daysIn_le t.month t.year
  have e : timeFormat layoutBad t =
      91 :: (dec2 t.month ++ (47 :: (dec2 t.day ++ (47 :: (dec4 t.year ++ (32 :: (dec2 t.hour ++ (58 ::
        (dec2 t.min ++ (58 :: (dec2 t.sec ++ (32 :: (dayNames.getD (weekday t) [] ++ [93]))))))))))))) := by
    simp [timeFormat, layoutBad, layoutRecent, Chunk.format]
  have hw : (dayNames.getD (weekday t) [] ++ [(93 : UInt8)]).head? ≠ some 32 := by
    have h : weekday t < 7 := Nat.mod_lt _ (by omega)
    have key : ∀ k : Fin 7, (dayNames.getD k.val [] ++ [(93 : UInt8)]).head? ≠ some 32 := by decide +kernel
    exact key ⟨weekday t, h⟩
  rw [e]
  unfold timeParse layoutBad layoutRecent
  simp only [List.cons_append, List.nil_append, parseChunks, Chunk.parse_month _ h1 h2, Chunk.parse_lit, Res.ok_bind,
    Chunk.parse_day _ (show t.day < 100 by omega), Chunk.parse_year _ h0,
    Chunk.parse_space _ _ (dec2_head _ (show (32 : UInt8).toNat < 48 by decide)), Chunk.parse_hour _ h5,
    Chunk.parse_minute _ h6, Chunk.parse_second _ h7 _ (show (32 :: (dayNames.getD (weekday t) [] ++ [93])).head? ≠ some 46 by simp),
    Chunk.parse_space _ _ hw, Chunk.parse_weekday]
  rw [if_neg (by simp), if_neg (by omega)]

/-- So does the layout of recent logins. -/
theorem parse_format_recent (t : Civil) (h : t.Valid) : timeParse layoutRecent (timeFormat layoutRecent t) = .ok t := by
  obtain ⟨h0, h1, h2, h3, h4, h5, h6, h7⟩ := h
  have h8 := daysIn_le t.month t.year
  have e : timeFormat layoutRecent t =
      dec2 t.month ++ (47 :: (dec2 t.day ++ (47 :: (dec4 t.year ++ (32 :: (dec2 t.hour ++ (58 ::
        (dec2 t.min ++ (58 :: (dec2 t.sec ++ [])))))))))) := by
    simp [timeFormat, layoutRecent, Chunk.format]
  rw [e]
  unfold timeParse layoutRecent
  simp only [List.cons_append, List.nil_append, parseChunks, Chunk.parse_month _ h1 h2, Chunk.parse_lit, Res.ok_bind,
    Chunk.parse_day _ (show t.day < 100 by omega), Chunk.parse_year _ h0,
    Chunk.parse_space _ _ (dec2_head _ (show (32 : UInt8).toNat < 48 by decide)), Chunk.parse_hour _ h5,
    Chunk.parse_minute _ h6, Chunk.parse_second _ h7 _ (show ([] : Bytes).head? ≠ some 46 by simp)]
  rw [if_neg (by simp), if_neg (by omega)]

end Verif
