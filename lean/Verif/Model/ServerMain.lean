import Verif.Model.Lists
import Verif.Model.Server
/-!
# Starting the service — /repo/serverlet/main.go
-/

namespace Verif

namespace DB

/-- `OpenUserecFile` on a path — /repo/pttbbs/passwd.go:203-231. A directory opens, and every read fails. -/
def openUserList (db : DB) (c : Codec) (fs : FS) (p : Bytes) : Res (List Userec) := do
  let l ← fs.lookup db.cwd p
  match fs.get l with
  | none => .err "no such file or directory"
  | some .dir => .diverge
  | some (.file d) => openUserecFile c (some d)

/-- `ReadUserRecords` — /repo/bbs.go:296-311, /repo/pttbbs/pttbbs.go:35-45. -/
def readUserRecords (db : DB) (c : Codec) (fs : FS) : Res (List Userec) := do
  let p ← getPasswdsPath db.home
  db.openUserList c fs p

end DB

/-- What an assignment `x, err = f()` leaves in a slice variable when the error is only logged —
/repo/serverlet/main.go:40-58: `ReadUserRecords` and `ReadBoardRecords` return nil with an error. -/
def loaded {α : Type} : Res (List α) → Res (List α)
  | .err _ => .ok []
  | r => r

/-- `main` until it listens — /repo/serverlet/main.go:19-30, with `loadPasswdsFile` and `loadBoardFile` (lines 40-58). Opening the
registered driver `pttbbs` never fails (/repo/pttbbs/pttbbs.go:23-33); the home directory is `../home/bbs`. -/
def startServer (c : Codec) (cwd : Path) (fs : FS) : Res ServerState := do
  let db : DB := ⟨ascii "../home/bbs", cwd⟩
  let us ← loaded (db.readUserRecords c fs)
  let bs ← loaded (db.readBoardRecords c fs)
  .ok ⟨us, bs⟩

/-- One event in the life of the service: another program changes the disk, or a request comes in. -/
inductive ServerEvent where
  | disk (fs : FS)
  | request (r : Request)

/-- The answers of the running service. No handler touches the disk or the two globals. -/
def answers (sign : Claims → Bytes) (st : ServerState) : List ServerEvent → List (Res Response)
  | [] => []
  | .disk _ :: es => answers sign st es
  | .request r :: es => serve sign st r :: answers sign st es

/-- `getClass` — /repo/serverlet/main.go:68-100, of which only the class id read from the path is kept: `len(seg) > 2` guards index 3.
The handler is not registered. -/
def getClassID (path : Bytes) : Res Bytes :=
  let seg := splitByte slash path
  if seg.length > 2 then
    match seg[3]? with
    | some s => .ok s
    | none => .panic
  else .ok (ascii "0")

end Verif
