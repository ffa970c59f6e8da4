import Verif.Model.DB
/-!
# Model of posting with the tool, when the process dies on the way
-/

namespace Verif

/-- How far posting has come when the process dies: after the file was created, when the first `k` bytes of the record are in the list, or
when the first `k` bytes of the text are in the file. -/
inductive PostPoint where
  | created
  | recorded (k : Nat)
  | written (k : Nat)
  deriving DecidableEq, Repr

/-- The calls of `addBoardArticle` up to a point — /repo/cmd/bbstool/articles.go:82-98: `CreateArticleRecord`, `AddArticleRecordFileRecord`,
`WriteBoardArticleFile`. `text` is the text as encoded. A `Write` may store only a beginning of its bytes before the process dies. The name
of the file is returned too. -/
def DB.postUntil (db : DB) (c : Codec) (fs : FS) (board owner date title : Bytes) (draw : Nat → Int × Fin 4096) (fuel : Nat) (text : Bytes)
    (pt : PostPoint) : Res (Bytes × FS) := do
  let (record, fs1) ← db.createArticleRecord fs board owner date title draw fuel
  match pt with
  | .created => .ok (record.filename, fs1)
  | .recorded k => do
    let p ← getBoardArticlesDirectoryPath db.home board
    let fs2 ← fs1.appendCreate db.cwd p ((record.marshal c).take k)
    .ok (record.filename, fs2)
  | .written k => do
    let fs2 ← db.addArticleRecord c fs1 board record
    let fs3 ← db.writeBoardArticleFile fs2 board record.filename (text.take k)
    .ok (record.filename, fs3)

end Verif
