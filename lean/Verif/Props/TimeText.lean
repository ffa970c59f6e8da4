import Verif.Props.Logins
/-!
# C85: the texts accepted as times

What `time.Parse` accepts for the three layouts of the code, for every text.
-/

namespace Verif
open Spec

/-! ## Numbers -/

theorem digit_eq {a : UInt8} (h : isDigit a = true) : a = UInt8.ofNat (48 + digitVal a) ∧ digitVal a ≤ 9 := by
  have h := (isDigit_iff a).1 h
  unfold digitVal
  refine ⟨?_, by omega⟩
  apply UInt8.toNat.inj
  rw [toNat_ofNat_small (by omega)]
  omega

theorem digitVal_ofNat {k : Nat} (h : k ≤ 9) : digitVal (UInt8.ofNat (48 + k)) = k ∧ isDigit (UInt8.ofNat (48 + k)) = true := by
  have e : (UInt8.ofNat (48 + k)).toNat = 48 + k := toNat_ofNat_small (by omega)
  refine ⟨by unfold digitVal; omega, (isDigit_iff _).2 (by omega)⟩

/-- Two digits are required, and are taken. -/
theorem getnum_fixed_iff (v w : Bytes) (n : Nat) : getnum true v = .ok (n, w) ↔ n < 100 ∧ v = dec2 n ++ w := by
  constructor
  · intro h
    match v with
    | [] => exact nomatch h
    | [a] =>
      simp only [getnum, Bool.not_true, Bool.and_false, Bool.false_eq_true, if_false] at h
      exact nomatch h
    | a :: b :: t =>
      simp only [getnum] at h
      by_cases ha : isDigit a = true
      · by_cases hb : isDigit b = true
        · rw [ha, hb] at h
          simp only [Bool.not_true, Bool.false_eq_true, if_false, if_true] at h
          have h := Res.ok.inj h
          have e1 : digitVal a * 10 + digitVal b = n := congrArg Prod.fst h
          have e2 : t = w := congrArg Prod.snd h
          have ⟨ea, la⟩ := digit_eq ha
          have ⟨eb, lb⟩ := digit_eq hb
          subst e1 e2
          refine ⟨by omega, ?_⟩
          have x1 : (digitVal a * 10 + digitVal b) / 10 % 10 = digitVal a := by omega
          have x2 : (digitVal a * 10 + digitVal b) % 10 = digitVal b := by omega
          unfold dec2
          rw [x1, x2, ← ea, ← eb]
          rfl
        · simp only [ha, hb, Bool.not_true, Bool.false_eq_true, if_false, if_true] at h
          exact nomatch h
      · simp only [ha, Bool.not_false, if_true] at h
        exact nomatch h
  · rintro ⟨h, rfl⟩
    exact getnum_dec2 true h w

/-- One digit is enough when no other follows. -/
theorem getnum_loose_iff (v w : Bytes) (n : Nat) : getnum false v = .ok (n, w) ↔
    (n < 100 ∧ v = dec2 n ++ w) ∨
      (n < 10 ∧ v = UInt8.ofNat (48 + n) :: w ∧ ∀ b, w.head? = some b → isDigit b = false) := by
  constructor
  · intro h
    match v with
    | [] => exact nomatch h
    | [a] =>
      by_cases ha : isDigit a = true
      · simp only [getnum, ha, Bool.not_false, Bool.and_true, if_true] at h
        have h := Res.ok.inj h
        have e1 : digitVal a = n := congrArg Prod.fst h
        have e2 : [] = w := congrArg Prod.snd h
        have ⟨ea, la⟩ := digit_eq ha
        subst e1 e2
        refine Or.inr ⟨by omega, by rw [← ea], fun b h => nomatch h⟩
      · simp only [getnum, ha, Bool.false_and, Bool.false_eq_true, if_false] at h
        exact nomatch h
    | a :: b :: t =>
      by_cases ha : isDigit a = true
      · by_cases hb : isDigit b = true
        · have e : getnum false (a :: b :: t) = getnum true (a :: b :: t) := by
            simp only [getnum, ha, hb, Bool.not_true, Bool.false_eq_true, if_false, if_true]
          rw [e] at h
          exact Or.inl ((getnum_fixed_iff _ _ _).1 h)
        · simp only [getnum, ha, hb, Bool.not_true, Bool.false_eq_true, if_false] at h
          have h := Res.ok.inj h
          have e1 : digitVal a = n := congrArg Prod.fst h
          have e2 : b :: t = w := congrArg Prod.snd h
          have ⟨ea, la⟩ := digit_eq ha
          subst e1 e2
          refine Or.inr ⟨by omega, by rw [← ea], ?_⟩
          intro c hc
          have : b = c := Option.some.inj hc
          subst this
          simpa using hb
      · simp only [getnum, ha, Bool.not_false, if_true] at h
        exact nomatch h
  · rintro (⟨h, rfl⟩ | ⟨h, rfl, hw⟩)
    · exact getnum_dec2 false h w
    · have ⟨e1, e2⟩ := digitVal_ofNat (Nat.le_of_lt_succ h)
      cases w with
      | nil => simp only [getnum, e2, e1, Bool.not_false, Bool.and_true, if_true]
      | cons b t =>
        have hb := hw b rfl
        simp only [getnum, e2, e1, hb, Bool.not_true, Bool.false_eq_true, if_false]

/-! ## Elements -/

theorem parse_lit_iff (t u : Civil) (c : UInt8) (v w : Bytes) :
    Chunk.parse t v (.lit c) = .ok (u, w) ↔ u = t ∧ v = c :: w := by
  cases v with
  | nil => exact ⟨fun h => (nomatch h), fun h => (nomatch h.2)⟩
  | cons a v =>
    simp only [Chunk.parse]
    by_cases h : a = c
    · rw [if_pos h]
      constructor
      · intro e
        have e := Res.ok.inj e
        exact ⟨(congrArg Prod.fst e).symm, by rw [h, show v = w from congrArg Prod.snd e]⟩
      · rintro ⟨rfl, e⟩
        rw [(List.cons.inj e).2]
    · rw [if_neg h]
      exact ⟨fun e => (nomatch e), fun e => absurd (List.cons.inj e.2).1 h⟩

theorem parse_month_iff (t u : Civil) (v w : Bytes) : Chunk.parse t v .month = .ok (u, w) ↔
    ∃ n, 1 ≤ n ∧ n ≤ 12 ∧ v = dec2 n ++ w ∧ u = { t with month := n } := by
  constructor
  · intro h
    obtain ⟨⟨n, x⟩, h0, h1⟩ := Res.bind_eq_ok.1 h
    have h0 := (getnum_fixed_iff _ _ _).1 h0
    simp only at h1
    split at h1
    · exact nomatch h1
    · have h1 := Res.ok.inj h1
      have e : x = w := congrArg Prod.snd h1
      subst e
      exact ⟨n, by omega, by omega, h0.2, (congrArg Prod.fst h1).symm⟩
  · rintro ⟨n, h1, h2, rfl, rfl⟩
    exact Chunk.parse_month t h1 h2 w

theorem parse_day_iff (t u : Civil) (v w : Bytes) : Chunk.parse t v .day = .ok (u, w) ↔
    ∃ n, n < 100 ∧ v = dec2 n ++ w ∧ u = { t with day := n } := by
  constructor
  · intro h
    obtain ⟨⟨n, x⟩, h0, h1⟩ := Res.bind_eq_ok.1 h
    have h0 := (getnum_fixed_iff _ _ _).1 h0
    have h1 := Res.ok.inj h1
    have e : x = w := congrArg Prod.snd h1
    subst e
    exact ⟨n, h0.1, h0.2, (congrArg Prod.fst h1).symm⟩
  · rintro ⟨n, h1, rfl, rfl⟩
    exact Chunk.parse_day t h1 w

theorem parse_minute_iff (t u : Civil) (v w : Bytes) : Chunk.parse t v .minute = .ok (u, w) ↔
    ∃ n, n ≤ 59 ∧ v = dec2 n ++ w ∧ u = { t with min := n } := by
  constructor
  · intro h
    obtain ⟨⟨n, x⟩, h0, h1⟩ := Res.bind_eq_ok.1 h
    have h0 := (getnum_fixed_iff _ _ _).1 h0
    simp only at h1
    split at h1
    · exact nomatch h1
    · have h1 := Res.ok.inj h1
      have e : x = w := congrArg Prod.snd h1
      subst e
      exact ⟨n, by omega, h0.2, (congrArg Prod.fst h1).symm⟩
  · rintro ⟨n, h2, rfl, rfl⟩
    exact Chunk.parse_minute t h2 w

/-- An hour is one or two digits. -/
def Spec.HourText (n : Nat) (v : Bytes) : Prop := v = dec2 n ∨ (n < 10 ∧ v = [UInt8.ofNat (48 + n)])

/-- The hour, followed by a colon. -/
theorem parse_hour_iff (t u : Civil) (v w : Bytes) : Chunk.parse t v .hour = .ok (u, 58 :: w) ↔
    ∃ n h, n ≤ 23 ∧ HourText n h ∧ v = h ++ 58 :: w ∧ u = { t with hour := n } := by
  constructor
  · intro h
    obtain ⟨⟨n, x⟩, h0, h1⟩ := Res.bind_eq_ok.1 h
    have h0 := (getnum_loose_iff _ _ _).1 h0
    simp only at h1
    split at h1
    · exact nomatch h1
    · have h1 := Res.ok.inj h1
      have e : x = 58 :: w := congrArg Prod.snd h1
      have e' := (congrArg Prod.fst h1).symm
      subst e
      rcases h0 with ⟨_, h0⟩ | ⟨h3, h0, _⟩
      · exact ⟨n, _, by omega, Or.inl rfl, h0, e'⟩
      · exact ⟨n, _, by omega, Or.inr ⟨h3, rfl⟩, h0, e'⟩
  · rintro ⟨n, h, h2, hh, rfl, rfl⟩
    have key : getnum false (h ++ 58 :: w) = .ok (n, 58 :: w) := by
      rw [getnum_loose_iff]
      rcases hh with rfl | ⟨h3, rfl⟩
      · exact Or.inl ⟨by omega, rfl⟩
      · refine Or.inr ⟨h3, rfl, ?_⟩
        intro b hb
        rw [← Option.some.inj hb]
        decide
    simp only [Chunk.parse, key, Res.ok_bind]
    rw [if_neg (by omega)]

theorem parse_year_iff (t u : Civil) (v w : Bytes) : Chunk.parse t v .year = .ok (u, w) ↔
    ∃ n, n ≤ 9999 ∧ v = dec4 n ++ w ∧ u = { t with year := n } := by
  constructor
  · intro h
    match v with
    | [] => exact nomatch h
    | [_] => exact nomatch h
    | [_, _] => exact nomatch h
    | [_, _, _] => exact nomatch h
    | a :: b :: c :: d :: x =>
      simp only [Chunk.parse] at h
      split at h
      · rename_i hd
        simp only [Bool.and_eq_true] at hd
        have h := Res.ok.inj h
        have e : x = w := congrArg Prod.snd h
        have ⟨ea, la⟩ := digit_eq hd.1.1.1
        have ⟨eb, lb⟩ := digit_eq hd.1.1.2
        have ⟨ec, lc⟩ := digit_eq hd.1.2
        have ⟨ed, ld⟩ := digit_eq hd.2
        have hv : decVal [a, b, c, d] = 1000 * digitVal a + 100 * digitVal b + 10 * digitVal c + digitVal d := by
          simp only [decVal, List.foldl, digitVal]
          omega
        subst e
        refine ⟨_, ?_, ?_, (congrArg Prod.fst h).symm⟩
        · rw [hv]; omega
        · rw [hv]
          generalize digitVal a = p at *
          generalize digitVal b = q at *
          generalize digitVal c = r at *
          generalize digitVal d = s at *
          have x1 : (1000 * p + 100 * q + 10 * r + s) / 100 / 10 % 10 = p := by omega
          have x2 : (1000 * p + 100 * q + 10 * r + s) / 100 % 10 = q := by omega
          have x3 : (1000 * p + 100 * q + 10 * r + s) % 100 / 10 % 10 = r := by omega
          have x4 : (1000 * p + 100 * q + 10 * r + s) % 100 % 10 = s := by omega
          unfold dec4 dec2
          rw [x1, x2, x3, x4, ea, eb, ec, ed]
          rfl
      · exact nomatch h
  · rintro ⟨n, h2, rfl, rfl⟩
    exact Chunk.parse_year t h2 w

/-- A run of one or more spaces, before something that is neither empty nor a space. -/
theorem parse_space_iff (t u : Civil) (v w : Bytes) (hw : w ≠ []) : Chunk.parse t v .space = .ok (u, w) ↔
    u = t ∧ w.head? ≠ some 32 ∧ ∃ k, v = List.replicate (k + 1) 32 ++ w := by
  cases v with
  | nil =>
    simp only [Chunk.parse]
    constructor
    · intro h
      exact absurd (congrArg Prod.snd (Res.ok.inj h)).symm hw
    · rintro ⟨_, _, k, h⟩
      exact absurd h (by simp [List.replicate_succ])
  | cons a v =>
    simp only [Chunk.parse]
    by_cases ha : a = 32
    · subst ha
      rw [if_neg (by simp)]
      constructor
      · intro h
        have h := Res.ok.inj h
        have e : (32 :: v).dropWhile (· == 32) = w := congrArg Prod.snd h
        have hh : w.head? ≠ some 32 := by
          intro h1
          have := List.head?_dropWhile_not (· == (32 : UInt8)) (32 :: v)
          rw [e, h1] at this
          exact absurd this (by simp)
        refine ⟨(congrArg Prod.fst h).symm, hh, ((v.takeWhile (· == 32)).length), ?_⟩
        rw [← e]
        simp only [List.dropWhile_cons, beq_self_eq_true, if_true, List.replicate_succ, List.cons_append]
        congr 1
        have : List.replicate (v.takeWhile (· == (32 : UInt8))).length 32 = v.takeWhile (· == (32 : UInt8)) := by
          refine (List.eq_replicate_iff.2 ⟨rfl, ?_⟩).symm
          intro b hb
          have := List.all_takeWhile (l := v) (p := (· == (32 : UInt8)))
          rw [List.all_eq_true] at this
          exact eq_of_beq (this b hb)
        rw [this, List.takeWhile_append_dropWhile]
      · rintro ⟨rfl, h1, k, h2⟩
        rw [h2]
        have : ∀ k, (List.replicate k (32 : UInt8) ++ w).dropWhile (· == 32) = w := by
          intro k
          induction k with
          | zero =>
            cases w with
            | nil => rfl
            | cons b w =>
              have : (b == 32) = false := by
                cases hb : b == 32 with
                | false => rfl
                | true => exact absurd (by rw [eq_of_beq hb]; rfl) h1
              simp [this]
          | succ k ih => simp [List.replicate_succ, ih]
        rw [this]
    · rw [if_pos ha]
      constructor
      · intro h; exact nomatch h
      · rintro ⟨_, _, k, h⟩
        rw [List.replicate_succ, List.cons_append] at h
        exact absurd (List.cons.inj h).1 ha

/-- A fraction of a second: a full stop and digits, fewer than a billion; or nothing. -/
def Spec.Fraction (f : Bytes) : Prop :=
  f = [] ∨ ∃ ds, ds ≠ [] ∧ (∀ b ∈ ds, 48 ≤ b.toNat ∧ b.toNat ≤ 57) ∧ decVal ds < 10 ^ 9 ∧ f = 46 :: ds

/-- The fraction is dropped, when the text behind it starts with neither a digit nor a full stop. -/
theorem skipFraction_iff (v w : Bytes) (hw : ∀ b, w.head? = some b → isDigit b = false ∧ b ≠ 46) :
    skipFraction v = .ok w ↔ ∃ f, Fraction f ∧ v = f ++ w := by
  have hpow : (10 : Nat) ^ 9 = 1000000000 := by decide
  constructor
  · intro h
    unfold skipFraction at h
    split at h
    · rename_i d t
      split at h
      · rename_i hd
        split at h
        · rename_i hlt
          have e := Res.ok.inj h
          refine ⟨46 :: (d :: t).takeWhile isDigit, Or.inr ⟨_, ?_, ?_, ?_, rfl⟩, ?_⟩
          · simp [hd]
          · intro b hb
            have := List.all_takeWhile (l := d :: t) (p := isDigit)
            rw [List.all_eq_true] at this
            exact (isDigit_iff b).1 (this b hb)
          · omega
          · rw [← e, List.cons_append, List.takeWhile_append_dropWhile]
        · exact nomatch h
      · have e := Res.ok.inj h
        exact absurd rfl (hw 46 (by rw [← e]; rfl)).2
    · have e := Res.ok.inj h
      exact ⟨[], Or.inl rfl, by rw [e]; rfl⟩
  · rintro ⟨f, hf, rfl⟩
    have hend : w.head? ≠ some 46 := fun h => absurd rfl (hw 46 h).2
    rcases hf with rfl | ⟨ds, hne, hd, hlt, rfl⟩
    · exact Chunk.skipFraction_of hend
    · have hall : ∀ b ∈ ds, isDigit b = true := fun b hb => (isDigit_iff b).2 (hd b hb)
      have hstop : w.takeWhile isDigit = [] ∧ w.dropWhile isDigit = w := by
        cases w with
        | nil => exact ⟨rfl, rfl⟩
        | cons b w =>
          have := (hw b rfl).1
          simp [this]
      have h1 : (ds ++ w).takeWhile isDigit = ds := by
        rw [List.takeWhile_append_of_pos hall, hstop.1, List.append_nil]
      have h2 : (ds ++ w).dropWhile isDigit = w := by
        rw [List.dropWhile_append_of_pos hall, hstop.2]
      cases ds with
      | nil => exact absurd rfl hne
      | cons d t =>
        rw [List.cons_append] at h1 h2
        simp only [List.cons_append, skipFraction, h1, h2, hall d (List.mem_cons_self ..), if_true]
        rw [if_pos (by omega)]

theorem parse_second_iff (t u : Civil) (v w : Bytes) (hw : ∀ b, w.head? = some b → isDigit b = false ∧ b ≠ 46) :
    Chunk.parse t v .second = .ok (u, w) ↔
      ∃ n f, n ≤ 59 ∧ Fraction f ∧ v = dec2 n ++ f ++ w ∧ u = { t with sec := n } := by
  constructor
  · intro h
    obtain ⟨⟨n, x⟩, h0, h1⟩ := Res.bind_eq_ok.1 h
    have h0 := (getnum_fixed_iff _ _ _).1 h0
    simp only at h1
    split at h1
    · exact nomatch h1
    · obtain ⟨y, h2, h3⟩ := Res.bind_eq_ok.1 h1
      have h3 := Res.ok.inj h3
      have e : y = w := congrArg Prod.snd h3
      subst e
      obtain ⟨f, hf, rfl⟩ := (skipFraction_iff _ _ hw).1 h2
      exact ⟨n, f, by omega, hf, by rw [h0.2, List.append_assoc], (congrArg Prod.fst h3).symm⟩
  · rintro ⟨n, f, h2, hf, rfl, rfl⟩
    have h1 : getnum true (dec2 n ++ f ++ w) = .ok (n, f ++ w) := by
      rw [List.append_assoc]; exact getnum_dec2 true (by omega) _
    have h3 := (skipFraction_iff (f ++ w) w hw).2 ⟨f, hf, rfl⟩
    simp only [Chunk.parse, h1, Res.ok_bind, h3]
    rw [if_neg (by omega)]

/-- The name of a day, in any mixture of capitals and small letters. -/
def Spec.DayText (v : Bytes) : Prop :=
  ∃ d ∈ [ascii "sun", ascii "mon", ascii "tue", ascii "wed", ascii "thu", ascii "fri", ascii "sat"],
    v.map (fun b => if 65 ≤ b ∧ b ≤ 90 then b + 32 else b) = d

theorem eqFold_iff (a b : UInt8) (hb : (65 ≤ b ∧ b ≤ 90) ∨ (97 ≤ b ∧ b ≤ 122)) :
    eqFold a b = true ↔
      (if 65 ≤ a ∧ a ≤ 90 then a + 32 else a) = (if 65 ≤ b ∧ b ≤ 90 then b + 32 else b) := by
  have key : ∀ a b : Fin 256, ((65 ≤ UInt8.ofNat b.val ∧ UInt8.ofNat b.val ≤ 90) ∨
      (97 ≤ UInt8.ofNat b.val ∧ UInt8.ofNat b.val ≤ 122)) →
      (eqFold (UInt8.ofNat a.val) (UInt8.ofNat b.val) = true ↔
      (if 65 ≤ UInt8.ofNat a.val ∧ UInt8.ofNat a.val ≤ 90 then UInt8.ofNat a.val + 32 else UInt8.ofNat a.val) =
      (if 65 ≤ UInt8.ofNat b.val ∧ UInt8.ofNat b.val ≤ 90 then UInt8.ofNat b.val + 32 else UInt8.ofNat b.val)) := by
    decide +kernel
  have := key ⟨a.toNat, a.toNat_lt⟩ ⟨b.toNat, b.toNat_lt⟩
  simp only [UInt8.ofNat_toNat] at this
  exact this hb

theorem dayNames_lower (d : Bytes) : d ∈ dayNames →
    (∀ b ∈ d, (65 ≤ b ∧ b ≤ 90) ∨ (97 ≤ b ∧ b ≤ 122)) ∧ d.length = 3 ∧
      d.map (fun b => if 65 ≤ b ∧ b ≤ 90 then b + 32 else b) ∈
        [ascii "sun", ascii "mon", ascii "tue", ascii "wed", ascii "thu", ascii "fri", ascii "sat"] := by
  revert d; decide +kernel

theorem zip_eqFold : ∀ (d v : Bytes), (∀ b ∈ d, (65 ≤ b ∧ b ≤ 90) ∨ (97 ≤ b ∧ b ≤ 122)) → d.length ≤ v.length →
    ((List.zip v d).all (fun p => eqFold p.1 p.2) = true ↔
      (v.take d.length).map (fun b => if 65 ≤ b ∧ b ≤ 90 then b + 32 else b) =
        d.map (fun b => if 65 ≤ b ∧ b ≤ 90 then b + 32 else b))
  | [], v, _, _ => by simp
  | b :: d, [], _, h => by simp at h
  | b :: d, a :: v, hb, h => by
    have ih := zip_eqFold d v (fun c hc => hb c (List.mem_cons_of_mem _ hc)) (by simpa using h)
    rw [List.zip_cons_cons, List.all_cons, Bool.and_eq_true, ih, eqFold_iff a b (hb b (List.mem_cons_self ..))]
    simp only [List.length_cons, List.take_succ_cons, List.map_cons, List.cons.injEq]

theorem parse_weekday_iff (t u : Civil) (v w : Bytes) : Chunk.parse t v .weekday = .ok (u, w) ↔
    u = t ∧ ∃ d, DayText d ∧ v = d ++ w := by
  have hiff : dayNames.any (fun d => d.length ≤ v.length && (List.zip v d).all (fun p => eqFold p.1 p.2)) = true ↔
      3 ≤ v.length ∧ DayText (v.take 3) := by
    rw [List.any_eq_true]
    constructor
    · rintro ⟨d, hd, h⟩
      have ⟨h1, h2, h3⟩ := dayNames_lower d hd
      rw [Bool.and_eq_true, decide_eq_true_eq] at h
      have h4 := (zip_eqFold d v h1 h.1).1 h.2
      rw [h2] at h4 h
      exact ⟨h.1, _, h3, h4⟩
    · rintro ⟨h, d, hd, e⟩
      have back : ∀ d ∈ [ascii "sun", ascii "mon", ascii "tue", ascii "wed", ascii "thu", ascii "fri", ascii "sat"],
          ∃ x ∈ dayNames, x.map (fun b => if 65 ≤ b ∧ b ≤ 90 then b + 32 else b) = d := by decide +kernel
      obtain ⟨x, hx, ex⟩ := back d hd
      have ⟨h1, h2, _⟩ := dayNames_lower x hx
      refine ⟨x, hx, ?_⟩
      rw [Bool.and_eq_true, decide_eq_true_eq]
      refine ⟨by omega, (zip_eqFold x v h1 (by omega)).2 ?_⟩
      rw [h2, ex, e]
  constructor
  · intro h
    obtain ⟨x, h0, h1⟩ := Res.bind_eq_ok.1 h
    unfold lookupDay at h0
    split at h0
    · rename_i hc
      have hc := hiff.1 hc
      have h1 := Res.ok.inj h1
      have e : x = w := congrArg Prod.snd h1
      refine ⟨(congrArg Prod.fst h1).symm, v.take 3, hc.2, ?_⟩
      rw [← e, ← Res.ok.inj h0, List.take_append_drop]
    · exact nomatch h0
  · rintro ⟨rfl, d, hd, rfl⟩
    have hl : d.length = 3 := by
      obtain ⟨x, hx, e⟩ := hd
      have hx3 : ∀ x ∈ [ascii "sun", ascii "mon", ascii "tue", ascii "wed", ascii "thu", ascii "fri", ascii "sat"],
        x.length = 3 := by decide +kernel
      have := hx3 x hx
      rw [← e, List.length_map] at this
      exact this
    have ht : (d ++ w).take 3 = d := by rw [← hl, List.take_left]
    have hdr : (d ++ w).drop 3 = w := by rw [← hl, List.drop_left]
    have hc := hiff.2 ⟨by rw [List.length_append]; omega, by rw [ht]; exact hd⟩
    have : lookupDay (d ++ w) = .ok w := by
      unfold lookupDay
      rw [if_pos hc, hdr]
    simp only [Chunk.parse, this, Res.ok_bind]

/-! ## Whole texts -/

theorem parseChunks_cons {c : Chunk} {cs : List Chunk} {t : Civil} {v : Bytes} {r : Civil × Bytes} :
    parseChunks (c :: cs) t v = .ok r ↔ ∃ u w, c.parse t v = .ok (u, w) ∧ parseChunks cs u w = .ok r := by
  constructor
  · intro h
    obtain ⟨⟨u, w⟩, h0, h1⟩ := Res.bind_eq_ok.1 h
    exact ⟨u, w, h0, h1⟩
  · rintro ⟨u, w, h0, h1⟩
    exact Res.bind_eq_ok.2 ⟨(u, w), h0, h1⟩

/-- The texts for a date and a time of day. Between them there may be any number of spaces, the hour may have one digit,
and the seconds may have a fraction. -/
def Spec.RecentText (t : Civil) (v : Bytes) : Prop :=
  ∃ k h f, HourText t.hour h ∧ Fraction f ∧
    v = dec2 t.month ++ [47] ++ dec2 t.day ++ [47] ++ dec4 t.year ++ List.replicate (k + 1) 32 ++ h ++ [58] ++ dec2 t.min ++
      [58] ++ dec2 t.sec ++ f

/-- The texts with brackets and the name of a day. -/
def Spec.BadText (t : Civil) (v : Bytes) : Prop :=
  ∃ w k d, RecentText t w ∧ DayText d ∧ v = [91] ++ w ++ List.replicate (k + 1) 32 ++ d ++ [93]

/-- The texts for a comment's time. -/
def Spec.CommentText (t : Civil) (v : Bytes) : Prop :=
  ∃ k h, HourText t.hour h ∧
    v = dec2 t.month ++ [47] ++ dec2 t.day ++ List.replicate (k + 1) 32 ++ h ++ [58] ++ dec2 t.min

/-- Fields in the ranges the parser checks while reading. -/
def Civil.Ranged (t : Civil) : Prop :=
  t.year ≤ 9999 ∧ 1 ≤ t.month ∧ t.month ≤ 12 ∧ t.day < 100 ∧ t.hour ≤ 23 ∧ t.min ≤ 59 ∧ t.sec ≤ 59

theorem Spec.HourText.head {n : Nat} {h w : Bytes} (hh : HourText n h) (hn : n ≤ 23) :
    h ++ w ≠ [] ∧ (h ++ w).head? ≠ some 32 := by
  rcases hh with rfl | ⟨h3, rfl⟩
  · exact ⟨by simp [dec2], dec2_head w (by decide)⟩
  · refine ⟨by simp, ?_⟩
    intro e
    have := congrArg UInt8.toNat (Option.some.inj e)
    rw [toNat_ofNat_small (by omega)] at this
    simp at this
    omega

theorem parseChunks_recent (v w : Bytes) (t u : Civil)
    (hw : ∀ b, w.head? = some b → isDigit b = false ∧ b ≠ 46) :
    parseChunks layoutRecent t v = .ok (u, w) ↔ u.Ranged ∧ ∃ x, RecentText u x ∧ v = x ++ w := by
  unfold layoutRecent
  constructor
  · intro h
    obtain ⟨t1, v1, p1, g0⟩ := parseChunks_cons.1 h
    obtain ⟨m, m1, m2, rfl, rfl⟩ := (parse_month_iff ..).1 p1
    obtain ⟨t2, v2, p2, g1⟩ := parseChunks_cons.1 g0
    obtain ⟨rfl, rfl⟩ := (parse_lit_iff ..).1 p2
    obtain ⟨t3, v3, p3, g2⟩ := parseChunks_cons.1 g1
    obtain ⟨d, d1, rfl, rfl⟩ := (parse_day_iff ..).1 p3
    obtain ⟨t4, v4, p4, g3⟩ := parseChunks_cons.1 g2
    obtain ⟨rfl, rfl⟩ := (parse_lit_iff ..).1 p4
    obtain ⟨t5, v5, p5, g4⟩ := parseChunks_cons.1 g3
    obtain ⟨y, y1, rfl, rfl⟩ := (parse_year_iff ..).1 p5
    obtain ⟨t6, v6, p6, g5⟩ := parseChunks_cons.1 g4
    obtain ⟨t7, v7, p7, g6⟩ := parseChunks_cons.1 g5
    obtain ⟨t8, v8, p8, g7⟩ := parseChunks_cons.1 g6
    obtain ⟨rfl, rfl⟩ := (parse_lit_iff ..).1 p8
    obtain ⟨hr, ht, r1, r2, rfl, rfl⟩ := (parse_hour_iff ..).1 p7
    obtain ⟨rfl, _, k, rfl⟩ := (parse_space_iff _ _ _ _ (r2.head r1).1).1 p6
    obtain ⟨t9, v9, p9, g8⟩ := parseChunks_cons.1 g7
    obtain ⟨n, n1, rfl, rfl⟩ := (parse_minute_iff ..).1 p9
    obtain ⟨t10, v10, p10, g9⟩ := parseChunks_cons.1 g8
    obtain ⟨rfl, rfl⟩ := (parse_lit_iff ..).1 p10
    obtain ⟨t11, v11, p11, g10⟩ := parseChunks_cons.1 g9
    have e := Res.ok.inj g10
    have e1 : t11 = u := congrArg Prod.fst e
    have e2 : v11 = w := congrArg Prod.snd e
    subst e1 e2
    obtain ⟨s, f, s1, hf, rfl, rfl⟩ := (parse_second_iff _ _ _ _ hw).1 p11
    exact ⟨⟨y1, m1, m2, d1, r1, n1, s1⟩, _, ⟨k, ht, f, r2, hf, rfl⟩, by simp⟩
  · rintro ⟨⟨y1, m1, m2, d1, r1, n1, s1⟩, x, ⟨k, h, f, r2, hf, rfl⟩, rfl⟩
    simp only [List.append_assoc, List.cons_append, List.nil_append]
    refine parseChunks_cons.2 ⟨_, _, (parse_month_iff ..).2 ⟨u.month, m1, m2, rfl, rfl⟩, ?_⟩
    refine parseChunks_cons.2 ⟨_, _, (parse_lit_iff ..).2 ⟨rfl, rfl⟩, ?_⟩
    refine parseChunks_cons.2 ⟨_, _, (parse_day_iff ..).2 ⟨u.day, d1, rfl, rfl⟩, ?_⟩
    refine parseChunks_cons.2 ⟨_, _, (parse_lit_iff ..).2 ⟨rfl, rfl⟩, ?_⟩
    refine parseChunks_cons.2 ⟨_, _, (parse_year_iff ..).2 ⟨u.year, y1, rfl, rfl⟩, ?_⟩
    refine parseChunks_cons.2 ⟨_, _, (parse_space_iff _ _ _ _ (r2.head r1).1).2 ⟨rfl, (r2.head r1).2, k, rfl⟩, ?_⟩
    refine parseChunks_cons.2 ⟨_, _, (parse_hour_iff ..).2 ⟨u.hour, h, r1, r2, rfl, rfl⟩, ?_⟩
    refine parseChunks_cons.2 ⟨_, _, (parse_lit_iff ..).2 ⟨rfl, rfl⟩, ?_⟩
    refine parseChunks_cons.2 ⟨_, _, (parse_minute_iff ..).2 ⟨u.min, n1, rfl, rfl⟩, ?_⟩
    refine parseChunks_cons.2 ⟨_, _, (parse_lit_iff ..).2 ⟨rfl, rfl⟩, ?_⟩
    refine parseChunks_cons.2 ⟨_, _, (parse_second_iff _ _ _ _ hw).2 ⟨u.sec, f, s1, hf, by simp, rfl⟩, ?_⟩
    rfl

/-- The rest must be empty and the day must exist. -/
theorem timeParse_iff (layout : List Chunk) (v : Bytes) (t : Civil) : timeParse layout v = .ok t ↔
    parseChunks layout ⟨0, 1, 1, 0, 0, 0⟩ v = .ok (t, []) ∧ 1 ≤ t.day ∧ t.day ≤ daysIn t.month t.year := by
  constructor
  · intro h
    obtain ⟨⟨u, w⟩, h0, h1⟩ := Res.bind_eq_ok.1 h
    simp only at h1
    split at h1
    · exact nomatch h1
    · rename_i hw
      split at h1
      · exact nomatch h1
      · rename_i hd
        have e := Res.ok.inj h1
        subst e
        have hw : w = [] := Decidable.byContradiction hw
        subst hw
        exact ⟨h0, by omega, by omega⟩
  · rintro ⟨h0, h1, h2⟩
    unfold timeParse
    rw [h0, Res.ok_bind]
    simp only
    rw [if_neg (by simp), if_neg (by omega)]

theorem Civil.Ranged.valid {t : Civil} (h : t.Ranged) (h1 : 1 ≤ t.day) (h2 : t.day ≤ daysIn t.month t.year) : t.Valid :=
  ⟨h.1, h.2.1, h.2.2.1, h1, h2, h.2.2.2.2⟩

theorem Civil.Valid.ranged {t : Civil} (h : t.Valid) : t.Ranged :=
  ⟨h.1, h.2.1, h.2.2.1, by have := daysIn_le t.month t.year; have := h.2.2.2.2.1; omega, h.2.2.2.2.2⟩

/-! ## C85 -/

/-- **C85**: exactly these texts are times of the recent-logins file, and each gives the time it spells. -/
theorem C85_recent_exact (v : Bytes) (t : Civil) : timeParse layoutRecent v = .ok t ↔ t.Valid ∧ RecentText t v := by
  rw [timeParse_iff, parseChunks_recent v [] _ t (fun b h => (nomatch h))]
  constructor
  · rintro ⟨⟨h1, x, h2, rfl⟩, h3, h4⟩
    rw [List.append_nil]
    exact ⟨h1.valid h3 h4, h2⟩
  · rintro ⟨h1, h2⟩
    exact ⟨⟨h1.ranged, v, h2, (List.append_nil v).symm⟩, h1.2.2.2.1, h1.2.2.2.2.1⟩

/-- **C85**: exactly these texts are times of the failed-logins file. -/
theorem C85_bad_exact (v : Bytes) (t : Civil) : timeParse layoutBad v = .ok t ↔ t.Valid ∧ BadText t v := by
  have append : ∀ (cs ds : List Chunk) (t : Civil) (v : Bytes) (r : Civil × Bytes),
      parseChunks (cs ++ ds) t v = .ok r ↔ ∃ u w, parseChunks cs t v = .ok (u, w) ∧ parseChunks ds u w = .ok r := by
    intro cs ds
    induction cs with
    | nil =>
      intro t v r
      constructor
      · exact fun h => ⟨t, v, rfl, h⟩
      · rintro ⟨u, w, h, h'⟩
        have e := Res.ok.inj h
        rw [show t = u from congrArg Prod.fst e, show v = w from congrArg Prod.snd e]
        exact h'
    | cons c cs ih =>
      intro t v r
      rw [List.cons_append, parseChunks_cons]
      constructor
      · rintro ⟨u, w, h, h'⟩
        obtain ⟨u', w', h1, h2⟩ := (ih _ _ _).1 h'
        exact ⟨u', w', parseChunks_cons.2 ⟨u, w, h, h1⟩, h2⟩
      · rintro ⟨u, w, h, h'⟩
        obtain ⟨u', w', h1, h2⟩ := parseChunks_cons.1 h
        exact ⟨u', w', h1, (ih _ _ _).2 ⟨u, w, h2, h'⟩⟩
  have dayHead : ∀ d : Bytes, DayText d → d ++ [93] ≠ [] ∧ (d ++ [93]).head? ≠ some 32 := by
    rintro d ⟨x, hx, e⟩
    refine ⟨by simp, ?_⟩
    intro h
    cases d with
    | nil => exact absurd h (by decide)
    | cons a d =>
      have ha : a = 32 := Option.some.inj h
      subst ha
      have : ∀ x ∈ [ascii "sun", ascii "mon", ascii "tue", ascii "wed", ascii "thu", ascii "fri", ascii "sat"],
        x.head? ≠ some 32 := by decide +kernel
      exact this x hx (by rw [← e]; rfl)
  rw [timeParse_iff]
  unfold layoutBad
  constructor
  · rintro ⟨h, h3, h4⟩
    obtain ⟨u1, w1, q, g⟩ := (append ([.lit 91] ++ layoutRecent) _ _ _ _).1 h
    obtain ⟨u2, w2, p0, q⟩ := (append _ _ _ _ _).1 q
    obtain ⟨t1, v1, p1, p0⟩ := parseChunks_cons.1 p0
    obtain ⟨rfl, rfl⟩ := (parse_lit_iff ..).1 p1
    have e := Res.ok.inj p0
    have e1 := congrArg Prod.fst e
    have e2 := congrArg Prod.snd e
    simp only at e1 e2
    subst e1 e2
    obtain ⟨t2, v2, p2, g11⟩ := parseChunks_cons.1 g
    obtain ⟨t3, v3, p3, g12⟩ := parseChunks_cons.1 g11
    obtain ⟨t4, v4, p4, g13⟩ := parseChunks_cons.1 g12
    have e := Res.ok.inj g13
    have e1 : t4 = t := congrArg Prod.fst e
    have e2 : v4 = [] := congrArg Prod.snd e
    subst e1 e2
    obtain ⟨rfl, rfl⟩ := (parse_lit_iff ..).1 p4
    obtain ⟨rfl, d, hd, rfl⟩ := (parse_weekday_iff ..).1 p3
    obtain ⟨rfl, _, k, rfl⟩ := (parse_space_iff _ _ _ _ (dayHead d hd).1).1 p2
    have hw : ∀ b, (List.replicate (k + 1) 32 ++ (d ++ [93])).head? = some b → isDigit b = false ∧ b ≠ 46 := by
      intro b h
      rw [← Option.some.inj h]
      decide
    obtain ⟨hr, x, hx, rfl⟩ := (parseChunks_recent _ _ _ _ hw).1 q
    exact ⟨hr.valid h3 h4, x, k, d, hx, hd, by simp⟩
  · rintro ⟨h1, x, k, d, hx, hd, rfl⟩
    refine ⟨?_, h1.2.2.2.1, h1.2.2.2.2.1⟩
    have hw : ∀ b, (List.replicate (k + 1) 32 ++ (d ++ [93])).head? = some b → isDigit b = false ∧ b ≠ 46 := by
      intro b h
      rw [← Option.some.inj h]
      decide
    refine (append _ _ _ _ _).2 ⟨t, List.replicate (k + 1) 32 ++ (d ++ [93]), ?_, ?_⟩
    · refine (append _ _ _ _ _).2 ⟨⟨0, 1, 1, 0, 0, 0⟩, x ++ (List.replicate (k + 1) 32 ++ (d ++ [93])), ?_, ?_⟩
      · exact parseChunks_cons.2 ⟨_, _, (parse_lit_iff ..).2 ⟨rfl, by simp⟩, rfl⟩
      · exact (parseChunks_recent _ _ _ _ hw).2 ⟨h1.ranged, x, hx, rfl⟩
    · refine parseChunks_cons.2 ⟨_, _, (parse_space_iff _ _ _ _ (dayHead d hd).1).2 ⟨rfl, (dayHead d hd).2, k, rfl⟩, ?_⟩
      refine parseChunks_cons.2 ⟨_, _, (parse_weekday_iff ..).2 ⟨rfl, d, hd, rfl⟩, ?_⟩
      refine parseChunks_cons.2 ⟨_, _, (parse_lit_iff ..).2 ⟨rfl, rfl⟩, ?_⟩
      rfl

/-- **C85**: exactly these texts are times of a comment; the year is 0. -/
theorem C85_comment_exact (v : Bytes) (t : Civil) : timeParse layoutComment v = .ok t ↔
    t.Valid ∧ t.year = 0 ∧ t.sec = 0 ∧ CommentText t v := by
  rw [timeParse_iff]
  unfold layoutComment
  constructor
  · rintro ⟨h, h3, h4⟩
    obtain ⟨t1, v1, p1, g14⟩ := parseChunks_cons.1 h
    obtain ⟨m, m1, m2, rfl, rfl⟩ := (parse_month_iff ..).1 p1
    obtain ⟨t2, v2, p2, g15⟩ := parseChunks_cons.1 g14
    obtain ⟨rfl, rfl⟩ := (parse_lit_iff ..).1 p2
    obtain ⟨t3, v3, p3, g16⟩ := parseChunks_cons.1 g15
    obtain ⟨d, d1, rfl, rfl⟩ := (parse_day_iff ..).1 p3
    obtain ⟨t6, v6, p6, g17⟩ := parseChunks_cons.1 g16
    obtain ⟨t7, v7, p7, g18⟩ := parseChunks_cons.1 g17
    obtain ⟨t8, v8, p8, g19⟩ := parseChunks_cons.1 g18
    obtain ⟨rfl, rfl⟩ := (parse_lit_iff ..).1 p8
    obtain ⟨hr, ht, r1, r2, rfl, rfl⟩ := (parse_hour_iff ..).1 p7
    obtain ⟨rfl, _, k, rfl⟩ := (parse_space_iff _ _ _ _ (r2.head r1).1).1 p6
    obtain ⟨t9, v9, p9, g20⟩ := parseChunks_cons.1 g19
    have e := Res.ok.inj g20
    have e1 : t9 = t := congrArg Prod.fst e
    have e2 : v9 = [] := congrArg Prod.snd e
    subst e1 e2
    obtain ⟨n, n1, rfl, rfl⟩ := (parse_minute_iff ..).1 p9
    exact ⟨⟨Nat.zero_le _, m1, m2, h3, h4, r1, n1, Nat.zero_le _⟩, rfl, rfl, k, ht, r2, by simp⟩
  · rintro ⟨⟨y1, m1, m2, d1, d2, r1, n1, s1⟩, y0, s0, k, h, r2, rfl⟩
    refine ⟨?_, d1, d2⟩
    have dl := daysIn_le t.month t.year
    simp only [List.append_assoc, List.cons_append, List.nil_append]
    refine parseChunks_cons.2 ⟨_, _, (parse_month_iff ..).2 ⟨t.month, m1, m2, rfl, rfl⟩, ?_⟩
    refine parseChunks_cons.2 ⟨_, _, (parse_lit_iff ..).2 ⟨rfl, rfl⟩, ?_⟩
    refine parseChunks_cons.2 ⟨_, _, (parse_day_iff ..).2 ⟨t.day, by omega, rfl, rfl⟩, ?_⟩
    refine parseChunks_cons.2 ⟨_, _, (parse_space_iff _ _ _ _ (r2.head r1).1).2 ⟨rfl, (r2.head r1).2, k, rfl⟩, ?_⟩
    refine parseChunks_cons.2 ⟨_, _, (parse_hour_iff ..).2 ⟨t.hour, h, r1, r2, rfl, rfl⟩, ?_⟩
    refine parseChunks_cons.2 ⟨_, _, (parse_lit_iff ..).2 ⟨rfl, rfl⟩, ?_⟩
    refine parseChunks_cons.2 ⟨_, [], (parse_minute_iff ..).2 ⟨t.min, n1, (List.append_nil _).symm, rfl⟩, ?_⟩
    cases t
    simp only at y0 s0
    subst y0 s0
    rfl

/-- The claim: a text that is accepted is the one the formatter writes for the time it gives. -/
def Spec.OneTextPerTime : Prop := ∀ v t, timeParse layoutBad v = .ok t → v = timeFormat layoutBad t

/-- **C85** fails: `[01/02/2021  3:04:05 MON]` is accepted, although 2 January 2021 was a Saturday. -/
theorem C85_one_text_refuted : ¬ Spec.OneTextPerTime := by
  intro h
  have h1 : timeParse layoutBad (ascii "[01/02/2021  3:04:05 MON]") = .ok ⟨2021, 1, 2, 3, 4, 5⟩ := by decide +kernel
  have h2 := h _ _ h1
  exact absurd h2 (by decide +kernel)

/-- **C85**: the day of the week is not checked against the date: with any other day of the week the same time is read. -/
theorem C85_weekday_ignored (t : Civil) (w d e : Bytes) (k : Nat) (he : DayText e)
    (h : timeParse layoutBad ([91] ++ w ++ List.replicate (k + 1) 32 ++ d ++ [93]) = .ok t) (hw : RecentText t w) :
    timeParse layoutBad ([91] ++ w ++ List.replicate (k + 1) 32 ++ e ++ [93]) = .ok t :=
  (C85_bad_exact _ _).2 ⟨((C85_bad_exact _ _).1 h).1, w, k, e, hw, he, rfl⟩

example : RecentText ⟨2021, 1, 2, 3, 4, 5⟩ (ascii "01/02/2021  3:04:05.25") :=
  ⟨1, ascii "3", ascii ".25", Or.inr ⟨by decide, by decide⟩,
    Or.inr ⟨ascii "25", by decide, by decide, by decide, by decide⟩, by decide⟩

example : DayText (ascii "mOn") := ⟨ascii "mon", by decide, by decide⟩

example : timeParse layoutComment (ascii "02/29 23:59") = .ok ⟨0, 2, 29, 23, 59, 0⟩ := by decide +kernel

example : timeParse layoutRecent (ascii "01/02/2021 03:04:05.1000000000") = .err "out of range" := by decide +kernel

end Verif
