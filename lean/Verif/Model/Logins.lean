import Verif.Go.Buf
import Verif.Go.Strings
import Verif.Go.Time
import Verif.Go.Utf8
/-!
# Login logs

/repo/pttbbs/bad_logins.go and /repo/pttbbs/login_recent.go. Files are given by their content.
-/

namespace Verif

/-- `str[i:j]`. -/
def substr (s : Bytes) (i j : Nat) : Res Bytes :=
  if i ≤ j ∧ j ≤ s.length then .ok ((s.take j).drop i) else .panic

/-- `LoginAttempt` — /repo/pttbbs/bad_logins.go:76-81. -/
structure LoginAttempt where
  success : Bool
  userID : Bytes
  time : Civil
  host : Bytes
  deriving DecidableEq, Repr

/-- `UserIDLength` — /repo/pttbbs/bad_logins.go:64. -/
def userIDLength : Nat := 12

/-- `len(loginStartTimeFormatString)` — /repo/pttbbs/bad_logins.go:67. -/
def loginTimeLength : Nat := 25

/-- `fromHostPrefix` — /repo/pttbbs/bad_logins.go:66. -/
def fromHostPrefix : Bytes := ascii "?@"

/-- `IsUnderBbsHome` — /repo/pttbbs/bad_logins.go:177-179. -/
def LoginAttempt.underHome (l : LoginAttempt) : Bool := 1 < l.userID.length

/-- `%-*s` with the given width, which counts runes. -/
def padRight (w : Nat) (s : Bytes) : Bytes := s ++ List.replicate (w - (runes s).length) 32

/-- `MarshalText` — /repo/pttbbs/bad_logins.go:148-172. It never returns an error. -/
def LoginAttempt.marshal (l : LoginAttempt) : Bytes :=
  (if l.underHome then (if l.success then [32] else [45]) ++ padRight userIDLength l.userID else []) ++
    timeFormat layoutBad l.time ++ [32] ++ (if l.underHome then fromHostPrefix else []) ++ l.host

/-- The part of `UnmarshalText` after the user id — /repo/pttbbs/bad_logins.go:131-144. -/
def unmarshalRest (str : Bytes) (success : Bool) (id : Bytes) (idx : Nat) : Res LoginAttempt := do
  let id := trimSpace id
  let v ← substr str idx (idx + loginTimeLength)
  let t ← timeParse layoutBad v
  let idx := idx + loginTimeLength
  let h ← substr str (idx + 1) str.length
  .ok ⟨success, id, t, trimLeftSet fromHostPrefix h⟩

/-- `UnmarshalText` on a fresh `LoginAttempt` — /repo/pttbbs/bad_logins.go:109-145. -/
def unmarshalAttempt (str : Bytes) : Res LoginAttempt :=
  match str.head? with
  | none => .panic
  | some c =>
    if c = 32 then do
      let id ← substr str 1 (1 + userIDLength)
      unmarshalRest str true id (1 + userIDLength)
    else if c = 45 then do
      let id ← substr str 1 (1 + userIDLength)
      unmarshalRest str false id (1 + userIDLength)
    else if c = 91 then unmarshalRest str false [] 0
    else .err "Invalid logins.bad line format"

/-- Parse every line; the first failure stops. -/
def mapLines {α : Type} (f : Bytes → Res α) : List Bytes → Res (List α)
  | [] => .ok []
  | l :: ls => do
    let a ← f l
    let rest ← mapLines f ls
    .ok (a :: rest)

/-- `OpenBadLoginFile` on the file's content — /repo/pttbbs/bad_logins.go:86-106. `scanner.Err()` is not checked. -/
def readBadLogins (content : Bytes) : Res (List LoginAttempt) := mapLines unmarshalAttempt (scanLines content).1

/-- `LoginRecentRecord` — /repo/pttbbs/login_recent.go:27-30. -/
structure LoginRecent where
  time : Civil
  host : Bytes
  deriving DecidableEq, Repr

/-- `NewLoginRecentRecord` — /repo/pttbbs/login_recent.go:61-74. -/
def newLoginRecent (line : Bytes) : Res LoginRecent :=
  match splitByte 32 line with
  | s0 :: s1 :: s2 :: _ => do
    let t ← timeParse layoutRecent (s0 ++ [32] ++ s1)
    .ok ⟨t, s2⟩
  | _ => .err "format for login recent incorrect"

/-- `OpenLoginRecentFile` on the file's content — /repo/pttbbs/login_recent.go:32-59. `log.Fatal` (lines 53-55), which
ends the process, is a panic here. -/
def readRecentLogins (content : Bytes) : Res (List LoginRecent) := do
  let rs ← mapLines newLoginRecent (scanLines content).1
  if (scanLines content).2 then .panic else .ok rs

end Verif
