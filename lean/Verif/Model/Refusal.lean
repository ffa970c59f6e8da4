import Verif.Model.Alone
/-!
# The calls of `bbs.DB` when the system refuses a system call

A file may not be accessible, too many files may be open, a disk may not be readable for a moment: `EACCES`, `EMFILE`, `EIO` and so on.
-/

namespace Verif

namespace Job

/-- One system call. `refusal`: the text of the error with which the system refuses it. `ReadUserDraft` (/repo/pttbbs/draft.go:8-13) and
`ReadUserFavoriteRecordsFile` (pttbbs.go:56-59) take any error of `os.Stat` for a file that is not there; the readers of lists (file.go:115-126,
board.go:181-192, passwd.go:213-224) look for `io.EOF` only, and take the buffer for a record after any other error;
`CreateBoardArticleFilename` (pttbbs_write_article_connector.go:16-39) goes on to the next name after any error. All others return the error:
file.go:105-109, board.go:172-176, passwd.go:204-208, pttbbs.go:143-152, fav.go:195-199, file.go:137-157, board.go:203-222,
pttbbs_write_article_connector.go:53-68, pttbss_append_new_line.go:13-22, draft.go:12, 16, 20. Simplification: a `write` that is refused
stores nothing (`Job.stepIn` of `Verif.Model.FullDisk` has a part of it stored). -/
def stepUnder (cwd : Path) (fs : FS) (n : Nat) (refusal : Option String) (j : Job) : FS × Job :=
  match refusal with
  | none => j.step cwd fs n
  | some e => match j with
    | .done r => (fs, .done r)
    | .stat _ k => (fs, k false)
    | .openRead _ k => (fs, k (.err e))
    | .openWrite _ k => (fs, k (.err e))
    | .openMake _ k => (fs, k (.err e))
    | .openTrunc _ k => (fs, k (.err e))
    | .openExcl _ k => (fs, k false)
    | .read l size got pos k => (fs, if size = 0 then k (.err e) else .read l size (got ++ [[]]) pos k)
    | .append _ _ _ => (fs, .done (.err e))
    | .put _ _ _ => (fs, .done (.err e))
    | .unlink _ k => (fs, k (.err e))

/-- The system calls of one client. -/
def playUnder (cwd : Path) : List (Nat × Option String) → FS → Job → FS × Job
  | [], fs, j => (fs, j)
  | (n, refusal) :: rs, fs, j => playUnder cwd rs (j.stepUnder cwd fs n refusal).1 (j.stepUnder cwd fs n refusal).2

end Job

/-- A call under these refusals: what is on the disk, and the answer if there is one by then. -/
def Call.under (db : DB) (c : Codec) (fs : FS) (op : Call) (rs : List (Nat × Option String)) : FS × Option (Res Answer) :=
  let (fs', j) := Job.playUnder db.cwd rs fs (Job.start db c op)
  (fs', match j with
    | .done r => some r
    | _ => none)

end Verif
