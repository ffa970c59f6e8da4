import Verif.Model.Alone
/-!
# The calls of `bbs.DB` on a disk that may be full

The system refuses to make a file, or stores only the first bytes of a `write`, with the error `ENOSPC`.
-/

namespace Verif

namespace Job

/-- The text of `ENOSPC`. -/
def noSpace : String := "no space left on device"

/-- One system call. `room`: `none` if there is enough of it; otherwise no file can be made, and a `write` stores at most so many bytes. Every
caller of `Write` returns its error: /repo/pttbbs/file.go:154-156, board.go:220-222, pttbbs_write_article_connector.go:65-67,
pttbss_append_new_line.go:19-21, draft.go:20 (`ioutil.WriteFile`). `CreateBoardArticleFilename`
(pttbbs_write_article_connector.go:16-39) goes on to the next name after any error. -/
def stepIn (cwd : Path) (fs : FS) (n : Nat) (room : Option Nat) (j : Job) : FS × Job :=
  match room with
  | none => j.step cwd fs n
  | some r => match j with
    | .openMake p k => match fs.openCreate cwd p with
      | .ok (l, _) => if (fs.get l).isNone then (fs, k (.err noSpace)) else (fs, k (.ok l))
      | _ => step cwd fs n (.openMake p k)
    | .openTrunc p k => match fs.openCreate cwd p with
      | .ok (l, _) => if (fs.get l).isNone then (fs, k (.err noSpace)) else step cwd fs n (.openTrunc p k)
      | _ => step cwd fs n (.openTrunc p k)
    | .openExcl _ k => (fs, k false)
    | .append l bs k => if r < bs.length then (halt fs r (.append l bs k), .done (.err noSpace)) else step cwd fs n (.append l bs k)
    | .put l bs k => if r < bs.length then (halt fs r (.put l bs k), .done (.err noSpace)) else step cwd fs n (.put l bs k)
    | j => j.step cwd fs n

/-- The system calls of one client on such a disk. -/
def playIn (cwd : Path) : List (Nat × Option Nat) → FS → Job → FS × Job
  | [], fs, j => (fs, j)
  | (n, room) :: rs, fs, j => playIn cwd rs (j.stepIn cwd fs n room).1 (j.stepIn cwd fs n room).2

end Job

/-- A call on such a disk: what is on the disk, and the answer if there is one by then. -/
def Call.inRoom (db : DB) (c : Codec) (fs : FS) (op : Call) (rs : List (Nat × Option Nat)) : FS × Option (Res Answer) :=
  let (fs', j) := Job.playIn db.cwd rs fs (Job.start db c op)
  (fs', match j with
    | .done r => some r
    | _ => none)

end Verif
