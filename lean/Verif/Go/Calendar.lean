import Verif.Go.Time
/-!
# Unix seconds to calendar dates (`time.Unix`, `Time.date`, `Time.Clock`) and the RFC 3339 layout

Go standard library 1.14, `time/time.go` and `time/format.go`. The time zone (`time.Local`) is a parameter: the number of
seconds east of UTC in force at an instant.
-/

namespace Verif

/-- `daysBefore` of a year without a leap day. -/
def daysBeforeTable : List Nat := [0, 31, 59, 90, 120, 151, 181, 212, 243, 273, 304, 334, 365]

/-- Month and day from the day of the year (from 0), second half of `absDate`. -/
def monthDay (leap : Bool) (yday : Nat) : Nat × Nat :=
  if leap ∧ yday = 59 then (2, 29)
  else
    let day := if leap ∧ 59 < yday then yday - 1 else yday
    let m := day / 31
    let e := daysBeforeTable.getD (m + 1) 0
    if e ≤ day then (m + 2, day - e + 1) else (m + 1, day - daysBeforeTable.getD m 0 + 1)

/-- Year (counted from a year that is 1 modulo 400) and day of the year, first half of `absDate`. -/
def yearDay (d : Nat) : Nat × Nat :=
  let n400 := d / 146097
  let d := d - 146097 * n400
  let n100 := d / 36524 - d / 36524 / 4
  let d := d - 36524 * n100
  let n4 := d / 1461
  let d := d - 1461 * n4
  let n := d / 365 - d / 365 / 4
  (400 * n400 + 100 * n100 + 4 * n4 + n, d - 365 * n)

/-- `Time.abs`: seconds since January 1 of the year -292277022399, as a 64-bit number. -/
def absSeconds (sec : Int) : Nat := ((sec + 9223372028715321600) % 18446744073709551616).toNat

/-- `Time.date`, `Time.Clock` of an instant whose seconds are already shifted by the zone. -/
def civilOf (sec : Int) : Civil :=
  let abs := absSeconds sec
  let (y, yday) := yearDay (abs / 86400)
  let year := ((y : Int) - 292277022399).toNat
  let (m, d) := monthDay (isLeap year) yday
  let s := abs % 86400
  ⟨year, m, d, s / 3600, s % 3600 / 60, s % 60⟩

/-- Layout `2006-01-02T15:04:05`. -/
def layoutDateTime : List Chunk :=
  [.year, .lit 45, .month, .lit 45, .day, .lit 84, .hour, .lit 58, .minute, .lit 58, .second]

/-- The zone element `Z07:00`: whole minutes, rounded towards zero. -/
def formatZone (offset : Int) : Bytes :=
  if offset = 0 then [90]
  else
    let z := offset.tdiv 60
    let a := z.natAbs
    (if z < 0 then 45 else 43) :: dec2 (a / 60) ++ 58 :: dec2 (a % 60)

/-- `time.Unix(sec, 0).Format(time.RFC3339)` in the zone `zone`. -/
def formatRFC3339 (zone : Int → Int) (sec : Int) : Bytes :=
  timeFormat layoutDateTime (civilOf (sec + zone sec)) ++ formatZone (zone sec)

end Verif
