import Verif.Go.Calendar
/-!
# Calendar arithmetic
-/

namespace Verif

/-- Days from January 1 of year 0 to January 1 of year `y`. -/
def Spec.daysToYear : Nat → Nat
  | 0 => 0
  | y + 1 => Spec.daysToYear y + (if isLeap y then 366 else 365)

/-- The instant of a date and time of day in UTC, in seconds since 1970-01-01T00:00:00Z. -/
def Spec.instant (t : Civil) : Int :=
  ((Spec.daysToYear t.year + daysBefore t.year t.month + t.day : Nat) - 1 - (Spec.daysToYear 1970 : Nat) : Int) * 86400 +
    t.hour * 3600 + t.min * 60 + t.sec

theorem isLeap_iff (y : Nat) : isLeap y = true ↔ y % 4 = 0 ∧ (y % 100 ≠ 0 ∨ y % 400 = 0) := by
  unfold isLeap; simp

theorem daysToYear_eq (y : Nat) : Spec.daysToYear y = 365 * y + (y + 3) / 4 - (y + 99) / 100 + (y + 399) / 400 := by
  induction y with
  | zero => rfl
  | succ y ih =>
    simp only [Spec.daysToYear, ih]
    have h := isLeap_iff y
    split
    · rename_i hl
      have := h.mp hl
      omega
    · rename_i hl
      have : ¬ _ := fun e => hl (h.mpr e)
      omega

theorem daysToYear_1970 : Spec.daysToYear 1970 = 719528 := by rw [daysToYear_eq]

/-- Length of a month, given whether the year is a leap year. -/
def monthLen (leap : Bool) (m : Nat) : Nat :=
  if m = 2 then (if leap then 29 else 28) else if m = 4 ∨ m = 6 ∨ m = 9 ∨ m = 11 then 30 else 31

def monthsBefore (leap : Bool) : Nat → Nat
  | 0 => 0
  | m + 1 => monthsBefore leap m + (if m = 0 then 0 else monthLen leap m)

theorem daysIn_eq (m y : Nat) : daysIn m y = monthLen (isLeap y) m := rfl

theorem daysBefore_eq (y m : Nat) : daysBefore y m = monthsBefore (isLeap y) m := by
  induction m with
  | zero => rfl
  | succ m ih => simp only [daysBefore, monthsBefore, ih, daysIn_eq]

theorem monthDay_table : ∀ (b : Bool) (n : Fin 366), (b = true ∨ n.val < 365) →
    1 ≤ (monthDay b n.val).1 ∧ (monthDay b n.val).1 ≤ 12 ∧ 1 ≤ (monthDay b n.val).2 ∧
    (monthDay b n.val).2 ≤ monthLen b (monthDay b n.val).1 ∧
    monthsBefore b (monthDay b n.val).1 + (monthDay b n.val).2 = n.val + 1 := by decide +kernel

theorem yearDay_spec (d y n : Nat) (h : yearDay d = (y, n)) :
    d + y / 100 = 365 * y + y / 4 + y / 400 + n ∧ n < (if isLeap (y + 1) then 366 else 365) := by
  have hl := isLeap_iff (y + 1)
  simp only [yearDay, Prod.mk.injEq] at h
  obtain ⟨hy, hn⟩ := h
  obtain ⟨a, ha⟩ : ∃ a, a = d / 146097 := ⟨_, rfl⟩
  obtain ⟨d1, hd1⟩ : ∃ x, x = d - 146097 * (d / 146097) := ⟨_, rfl⟩
  rw [← hd1] at hy hn
  obtain ⟨b, hb⟩ : ∃ x, x = d1 / 36524 - d1 / 36524 / 4 := ⟨_, rfl⟩
  rw [← hb] at hy hn
  obtain ⟨d2, hd2⟩ : ∃ x, x = d1 - 36524 * b := ⟨_, rfl⟩
  rw [← hd2] at hy hn
  obtain ⟨c, hc⟩ : ∃ x, x = d2 / 1461 := ⟨_, rfl⟩
  rw [← hc] at hy hn
  obtain ⟨d3, hd3⟩ : ∃ x, x = d2 - 1461 * c := ⟨_, rfl⟩
  rw [← hd3] at hy hn
  obtain ⟨e, he⟩ : ∃ x, x = d3 / 365 - d3 / 365 / 4 := ⟨_, rfl⟩
  rw [← he] at hy hn
  rw [← ha] at hy
  have b1 : b ≤ 3 ∧ 36524 * b ≤ d1 ∧ (b = 3 ∨ d1 < 36524 * (b + 1)) ∧ d1 < 146097 := by omega
  have c1 : c ≤ 24 ∧ 1461 * c ≤ d2 ∧ d2 < 1461 * (c + 1) := by omega
  have e1 : e ≤ 3 ∧ 365 * e ≤ d3 ∧ (e = 3 ∨ d3 < 365 * (e + 1)) ∧ d3 < 1461 := by omega
  have hda : d = 146097 * a + d1 := by omega
  have y4 : y / 4 = 100 * a + 25 * b + c := by omega
  have y100 : y / 100 = 4 * a + b := by omega
  have y400 : y / 400 = a := by omega
  refine ⟨by omega, ?_⟩
  split
  · omega
  · rename_i hh
    have hh : ¬ _ := fun x => hh (hl.mpr x)
    by_cases e3 : e = 3
    · have : (y + 1) % 4 = 0 := by omega
      have : (y + 1) % 100 = 0 ∧ (y + 1) % 400 ≠ 0 := by omega
      have : c = 24 := by omega
      omega
    · omega

/-- Days before year `y + 1`, counted from year 1. -/
def daysFromOne (y : Nat) : Nat := 365 * y + y / 4 + y / 400 - y / 100

theorem daysFromOne_succ (y : Nat) : daysFromOne (y + 1) = daysFromOne y + (if isLeap (y + 1) then 366 else 365) := by
  have h := isLeap_iff (y + 1)
  have a4 : (y + 1) / 4 = y / 4 + (if (y + 1) % 4 = 0 then 1 else 0) := by split <;> omega
  have a100 : (y + 1) / 100 = y / 100 + (if (y + 1) % 100 = 0 then 1 else 0) := by split <;> omega
  have a400 : (y + 1) / 400 = y / 400 + (if (y + 1) % 400 = 0 then 1 else 0) := by split <;> omega
  unfold daysFromOne
  rw [a4, a100, a400]
  clear a4 a100 a400
  have hle : y / 100 ≤ y := Nat.div_le_self _ _
  generalize y / 100 = q1 at hle ⊢
  generalize y / 4 = q2
  generalize y / 400 = q3
  by_cases h4 : (y + 1) % 4 = 0
  · by_cases h100 : (y + 1) % 100 = 0
    · by_cases h400 : (y + 1) % 400 = 0
      · rw [if_pos h4, if_pos h100, if_pos h400, if_pos (h.mpr ⟨h4, Or.inr h400⟩)]; omega
      · rw [if_pos h4, if_pos h100, if_neg h400, if_neg (fun e => by have := h.mp e; omega)]; omega
    · rw [if_pos h4, if_neg h100, if_neg (by omega), if_pos (h.mpr ⟨h4, Or.inl h100⟩)]; omega
  · rw [if_neg h4, if_neg (by omega), if_neg (by omega), if_neg (fun e => h4 (h.mp e).1)]; omega

theorem daysFromOne_mono {a b : Nat} (h : a ≤ b) : daysFromOne a ≤ daysFromOne b := by
  induction h with
  | refl => exact Nat.le_refl _
  | step h ih => rw [daysFromOne_succ]; omega

theorem daysFromOne_shift (q y k : Nat) (h : k + 1 = 400 * q) : daysFromOne (y + k) = daysFromOne k + Spec.daysToYear y := by
  rw [daysToYear_eq]
  unfold daysFromOne
  omega

theorem isLeap_shift (q y k : Nat) (h : k + 1 = 400 * q) : isLeap (y + k + 1) = isLeap y := by
  rw [Bool.eq_iff_iff, isLeap_iff, isLeap_iff]
  omega

theorem daysFromOne_zero (k : Nat) (h : k = 292277022399) : daysFromOne k = 106751990353566 := by unfold daysFromOne; omega

theorem civilOf_def (sec : Int) (a k y n : Nat) (ha : absSeconds sec = a) (hk : k = 292277022399) (h : yearDay (a / 86400) = (y + k, n)) :
    civilOf sec = ⟨y, (monthDay (isLeap y) n).1, (monthDay (isLeap y) n).2, a % 86400 / 3600, a % 86400 % 3600 / 60, a % 86400 % 60⟩ := by
  have e : ((y + k : Nat) - (292277022399 : Int)).toNat = y := by omega
  unfold civilOf
  rw [ha]
  dsimp only
  rw [h]
  dsimp only
  rw [e]

/-- Dates from year 0 to year 9999 are computed correctly. -/
theorem civilOf_spec (sec : Int) (h0 : -62167219200 ≤ sec) (h1 : sec < 253402300800) :
    (civilOf sec).Valid ∧ Spec.instant (civilOf sec) = sec := by
  have habs : (absSeconds sec : Int) = sec + 9223372028715321600 := by unfold absSeconds; omega
  obtain ⟨A, hA⟩ : ∃ A, absSeconds sec = A := ⟨_, rfl⟩
  rw [hA] at habs
  obtain ⟨k, hk⟩ : ∃ k, k = 292277022399 := ⟨_, rfl⟩
  have hq : k + 1 = 400 * 730692556 := by omega
  have f0 := daysFromOne_zero k hk
  obtain ⟨y, n, hyn⟩ : ∃ y n, yearDay (A / 86400) = (y, n) := ⟨_, _, rfl⟩
  obtain ⟨e1, e2⟩ := yearDay_spec _ _ _ hyn
  have e1 : A / 86400 = daysFromOne y + n := by unfold daysFromOne; omega
  have e3 : A / 86400 < daysFromOne (y + 1) := by rw [daysFromOne_succ]; omega
  have f1 : daysFromOne (10000 + k) = 106751990353566 + 3652425 := by rw [daysFromOne_shift _ _ _ hq, f0, daysToYear_eq]
  have hy0 : k ≤ y := by
    apply Nat.le_of_not_lt
    intro hlt
    have := daysFromOne_mono hlt
    rw [Nat.succ_eq_add_one] at this
    omega
  obtain ⟨Y, hY⟩ : ∃ Y, y = Y + k := ⟨y - k, by omega⟩
  subst hY
  have hY9 : Y ≤ 9999 := by
    apply Nat.le_of_not_lt
    intro hlt
    have := daysFromOne_mono (show 10000 + k ≤ Y + k by omega)
    omega
  rw [isLeap_shift _ _ _ hq] at e2
  rw [daysFromOne_shift _ _ _ hq] at e1
  have hlen : n < 366 := by split at e2 <;> omega
  obtain ⟨m1, m2, d1, d2, hs⟩ := monthDay_table (isLeap Y) ⟨n, hlen⟩ (by
    cases hb : isLeap Y with
    | true => exact Or.inl rfl
    | false => rw [hb] at e2; exact Or.inr e2)
  rw [civilOf_def sec A k Y n hA hk hyn]
  refine ⟨⟨hY9, m1, m2, d1, d2, ?_, ?_, ?_⟩, ?_⟩
  · show A % 86400 / 3600 ≤ 23; omega
  · show A % 86400 % 3600 / 60 ≤ 59; omega
  · show A % 86400 % 60 ≤ 59; omega
  · unfold Spec.instant
    rw [daysToYear_1970]
    dsimp only at hs ⊢
    rw [daysBefore_eq]
    omega

end Verif
