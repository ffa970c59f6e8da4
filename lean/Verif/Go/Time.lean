import Verif.Go.Fmt
/-!
# `time.Parse` and `Time.Format` for the layouts of the code

A `time.Time` in UTC is represented by its calendar fields, to the second. The relation between calendar fields and Unix
seconds is the business of Go's library and is not modelled here, except for the day of the week, which `Format` prints.
-/

namespace Verif

/-- Calendar date and time of day, UTC. -/
structure Civil where
  year : Nat
  month : Nat
  day : Nat
  hour : Nat
  min : Nat
  sec : Nat
  deriving DecidableEq, Repr

def isLeap (y : Nat) : Bool := y % 4 == 0 && (y % 100 != 0 || y % 400 == 0)

/-- `daysIn`. -/
def daysIn (m y : Nat) : Nat :=
  if m = 2 then (if isLeap y then 29 else 28) else if m = 4 ∨ m = 6 ∨ m = 9 ∨ m = 11 then 30 else 31

/-- Days before the first of month `m`. -/
def daysBefore (y : Nat) : Nat → Nat
  | 0 => 0
  | m + 1 => daysBefore y m + (if m = 0 then 0 else daysIn m y)

/-- Days since January 1 of year 0. -/
def dayNumber (t : Civil) : Nat :=
  365 * t.year + (t.year + 3) / 4 - (t.year + 99) / 100 + (t.year + 399) / 400 + daysBefore t.year t.month + t.day - 1

/-- Sunday is 0 (January 1 of year 0 was a Saturday). -/
def weekday (t : Civil) : Nat := (dayNumber t + 6) % 7

def dayNames : List Bytes :=
  [ascii "Sun", ascii "Mon", ascii "Tue", ascii "Wed", ascii "Thu", ascii "Fri", ascii "Sat"]

/-- A date that exists, with a four-digit year. -/
def Civil.Valid (t : Civil) : Prop :=
  t.year ≤ 9999 ∧ 1 ≤ t.month ∧ t.month ≤ 12 ∧ 1 ≤ t.day ∧ t.day ≤ daysIn t.month t.year ∧ t.hour ≤ 23 ∧ t.min ≤ 59 ∧
    t.sec ≤ 59

instance Civil.decValid (t : Civil) : Decidable t.Valid := by unfold Civil.Valid; infer_instance

/-- Elements of a layout. -/
inductive Chunk where
  | lit (c : UInt8)      -- any character but a space
  | space                -- a run of spaces
  | month | day | year | hour | minute | second | weekday
  deriving DecidableEq, Repr

/-- `n` as two decimal digits. -/
def dec2 (n : Nat) : Bytes := [UInt8.ofNat (48 + n / 10 % 10), UInt8.ofNat (48 + n % 10)]

/-- `n` as four decimal digits. -/
def dec4 (n : Nat) : Bytes := dec2 (n / 100) ++ dec2 (n % 100)

/-- `Format` of one element. -/
def Chunk.format (t : Civil) : Chunk → Bytes
  | .lit c => [c]
  | .space => [32]
  | .month => dec2 t.month
  | .day => dec2 t.day
  | .year => dec4 t.year
  | .hour => dec2 t.hour
  | .minute => dec2 t.min
  | .second => dec2 t.sec
  | .weekday => dayNames.getD (Verif.weekday t) []

/-- `Time.Format`. -/
def timeFormat (layout : List Chunk) (t : Civil) : Bytes := layout.flatMap (Chunk.format t)

/-! ## Parsing -/

def isDigit (b : UInt8) : Bool := 48 ≤ b && b ≤ 57

def digitVal (b : UInt8) : Nat := b.toNat - 48

/-- `getnum` (with `fixed`, two digits are required). -/
def getnum (fixed : Bool) : Bytes → Res (Nat × Bytes)
  | a :: b :: t =>
    if !isDigit a then .err "bad"
    else if isDigit b then .ok (digitVal a * 10 + digitVal b, t)
    else if fixed then .err "bad"
    else .ok (digitVal a, b :: t)
  | [a] => if isDigit a && !fixed then .ok (digitVal a, []) else .err "bad"
  | [] => .err "bad"

/-- ASCII lower case, as `c | 0x20`. -/
def lower (c : UInt8) : UInt8 := c ||| 0x20

/-- `match` of one character, ignoring case. -/
def eqFold (a b : UInt8) : Bool := a == b || (lower a == lower b && 97 ≤ lower a && lower a ≤ 122)

/-- `lookup(shortDayNames, …)`. -/
def lookupDay (v : Bytes) : Res Bytes :=
  if dayNames.any (fun d => d.length ≤ v.length && (List.zip v d).all (fun p => eqFold p.1 p.2)) then .ok (v.drop 3)
  else .err "bad"

/-- A fraction after the seconds is read although the layout has none (an error if it is a billion or more). -/
def skipFraction (v : Bytes) : Res Bytes :=
  match v with
  | 46 :: d :: t =>
    if isDigit d then
      if decVal ((d :: t).takeWhile isDigit) < 1000000000 then .ok ((d :: t).dropWhile isDigit) else .err "out of range"
    else .ok v
  | _ => .ok v

/-- `Parse` of one element: the fields read so far and what is left of the value. -/
def Chunk.parse (t : Civil) (v : Bytes) : Chunk → Res (Civil × Bytes)
  | .lit c =>
    match v with
    | [] => .err "bad"
    | a :: v' => if a = c then .ok (t, v') else .err "bad"
  | .space =>
    match v with
    | [] => .ok (t, [])
    | a :: _ => if a ≠ 32 then .err "bad" else .ok (t, v.dropWhile (· == 32))
  | .month => do
    let (n, v') ← getnum true v
    if n = 0 ∨ 12 < n then .err "month out of range" else .ok ({ t with month := n }, v')
  | .day => do
    let (n, v') ← getnum true v
    .ok ({ t with day := n }, v')
  | .year =>
    match v with
    | a :: b :: c :: d :: v' =>
      if isDigit a && isDigit b && isDigit c && isDigit d then .ok ({ t with year := decVal [a, b, c, d] }, v')
      else .err "bad"
    | _ => .err "bad"
  | .hour => do
    let (n, v') ← getnum false v
    if 24 ≤ n then .err "hour out of range" else .ok ({ t with hour := n }, v')
  | .minute => do
    let (n, v') ← getnum true v
    if 60 ≤ n then .err "minute out of range" else .ok ({ t with min := n }, v')
  | .second => do
    let (n, v') ← getnum true v
    if 60 ≤ n then .err "second out of range"
    else do
      let v'' ← skipFraction v'
      .ok ({ t with sec := n }, v'')
  | .weekday => do
    let v' ← lookupDay v
    .ok (t, v')

/-- The elements in order. -/
def parseChunks : List Chunk → Civil → Bytes → Res (Civil × Bytes)
  | [], t, v => .ok (t, v)
  | c :: cs, t, v => do
    let (t', v') ← c.parse t v
    parseChunks cs t' v'

/-- `time.Parse`: all of the value must be used and the day must exist. Fields absent from the layout are January 1 of
year 0, 00:00:00. -/
def timeParse (layout : List Chunk) (v : Bytes) : Res Civil := do
  let (t, rest) ← parseChunks layout ⟨0, 1, 1, 0, 0, 0⟩ v
  if rest ≠ [] then .err "extra text"
  else if t.day < 1 ∨ daysIn t.month t.year < t.day then .err "day out of range"
  else .ok t

/-- Layout `01/02 15:04`. -/
def layoutComment : List Chunk := [.month, .lit 47, .day, .space, .hour, .lit 58, .minute]

/-- Layout `01/02/2006 15:04:05`. -/
def layoutRecent : List Chunk :=
  [.month, .lit 47, .day, .lit 47, .year, .space, .hour, .lit 58, .minute, .lit 58, .second]

/-- Layout `[01/02/2006 15:04:05 Mon]`. -/
def layoutBad : List Chunk :=
  [.lit 91] ++ layoutRecent ++ [.space, .weekday, .lit 93]

end Verif
