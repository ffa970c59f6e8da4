import Verif.Go.FS
import Verif.Go.Fmt
import Verif.Model.Path
import Verif.Model.RecordFile
/-!
# Database operations on the file system

The `bbs.DB` operations of /repo/bbs.go on drafts, articles and article lists, over the pttbbs connector
(/repo/pttbbs/draft.go, pttbbs.go, pttbbs_write_article_connector.go, pttbss_append_new_line.go). A failed operation
leaves the file system as it was. Errors keep the errno text and not the wrapping added by the callers.
-/

namespace Verif

/-- A database: the connector's BBS home and the working directory of the process. -/
structure DB where
  home : Bytes
  cwd : Path
  deriving DecidableEq, Repr

namespace DB

/-! ## Drafts -/

/-- `GetUserDrafts` — /repo/bbs.go:700-715 with `ReadUserDraft` — /repo/pttbbs/draft.go:8-13. -/
def getUserDraft (db : DB) (fs : FS) (u d : Bytes) : Res Bytes := do
  let p ← getUserDraftPath db.home u d
  if fs.statOk db.cwd p then fs.readFile db.cwd p else .ok []

/-- `DeleteUserDraft` — /repo/bbs.go:717-727, /repo/pttbbs/draft.go:15-17. -/
def deleteUserDraft (db : DB) (fs : FS) (u d : Bytes) : Res FS := do
  let p ← getUserDraftPath db.home u d
  fs.remove db.cwd p

/-- `WriteUserDraft` — /repo/bbs.go:729-738, /repo/pttbbs/draft.go:19-21. -/
def writeUserDraft (db : DB) (fs : FS) (u d content : Bytes) : Res FS := do
  let p ← getUserDraftPath db.home u d
  fs.writeFile db.cwd p content

/-! ## Article files -/

/-- `ReadBoardArticleFile` — /repo/bbs.go:388-403, /repo/pttbbs/pttbbs.go:141-152. -/
def readBoardArticleFile (db : DB) (fs : FS) (board file : Bytes) : Res Bytes := do
  let p ← getBoardArticleFilePath db.home board file
  fs.readFile db.cwd p

/-- `WriteBoardArticleFile` — /repo/bbs.go:483-503, /repo/pttbbs/pttbbs_write_article_connector.go:51-71: the file
is opened with `O_WRONLY|O_CREATE`, not truncated, and written from its start. -/
def writeBoardArticleFile (db : DB) (fs : FS) (board file content : Bytes) : Res FS := do
  let p ← getBoardArticleFilePath db.home board file
  fs.overwrite db.cwd p content

/-- `AppendBoardArticleFile` — /repo/bbs.go:505-516, /repo/pttbbs/pttbss_append_new_line.go:10-25. -/
def appendBoardArticleFile (db : DB) (fs : FS) (board file content : Bytes) : Res FS := do
  let p ← getBoardArticleFilePath db.home board file
  fs.append db.cwd p content

/-! ## Creating an article -/

/-- The name tried in one round — /repo/pttbbs/pttbbs_write_article_connector.go:19-21. -/
def articleName (clock : Int) (rand : Fin 4096) : Bytes := ascii "M." ++ decInt clock ++ ascii ".A." ++ hex3 rand

/-- `CreateBoardArticleFilename` — /repo/pttbbs/pttbbs_write_article_connector.go:16-39. Round `k` reads the clock and
the random generator (`draw k`); any error of the exclusive create starts another round. `fuel` bounds the number of
rounds; a run that needs more is `diverge`. -/
def createFilename (db : DB) (fs : FS) (board : Bytes) (draw : Nat → Int × Fin 4096) : Nat → Nat → Res (Bytes × FS)
  | 0, _ => .diverge
  | fuel + 1, k => do
    let filename := articleName (draw k).1 (draw k).2
    let p ← getBoardArticleFilePath db.home board filename
    match fs.createExcl db.cwd p with
    | .ok fs' => .ok (filename, fs')
    | _ => createFilename db fs board draw fuel (k + 1)

/-- `NewArticleRecord` — /repo/pttbbs/pttbbs_write_article_connector.go:41-49. -/
def newArticleRecord (filename owner date title : Bytes) : FileHeader :=
  { FileHeader.zero with filename := filename, owner := owner, date := date, title := title }

/-- `CreateArticleRecord` — /repo/bbs.go:461-467. -/
def createArticleRecord (db : DB) (fs : FS) (board owner date title : Bytes) (draw : Nat → Int × Fin 4096)
    (fuel : Nat) : Res (FileHeader × FS) := do
  let (filename, fs') ← createFilename db fs board draw fuel 0
  .ok (newArticleRecord filename owner date title, fs')

/-! ## Article lists -/

/-- `AddArticleRecordFileRecord` — /repo/bbs.go:470-480, pttbbs_write_article_connector.go:138-144, file.go:135-163. -/
def addArticleRecord (db : DB) (c : Codec) (fs : FS) (board : Bytes) (r : FileHeader) : Res FS := do
  let p ← getBoardArticlesDirectoryPath db.home board
  fs.appendCreate db.cwd p (r.marshal c)

/-- `OpenFileHeaderFile` on a path — /repo/pttbbs/file.go:104-133. A directory opens, and every read fails. -/
def openArticleList (db : DB) (c : Codec) (fs : FS) (p : Bytes) : Res (List FileHeader) := do
  let l ← fs.lookup db.cwd p
  match fs.get l with
  | none => .err "no such file or directory"
  | some .dir => .diverge
  | some (.file d) => openFileHeaderFile c (some d)

/-- `ReadBoardArticleRecordsFile` — /repo/bbs.go:350-369: a missing list is empty. Simplification: the error text Go
searches also contains the path; the reader that searches the whole text is `readArticleRecordsText` (`Model/ErrText`, C126). -/
def readArticleRecords (db : DB) (c : Codec) (fs : FS) (board : Bytes) : Res (List FileHeader) := do
  let p ← getBoardArticlesDirectoryPath db.home board
  match db.openArticleList c fs p with
  | .err e => if e = "no such file or directory" then .ok [] else .err e
  | r => r

end DB

end Verif
