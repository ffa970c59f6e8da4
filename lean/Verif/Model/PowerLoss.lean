import Verif.Model.Outage
/-!
# The power fails while several clients use the disk

No function of the package asks for anything to be stored: there is no `Sync` in /repo (what is written is written at
/repo/pttbbs/board.go:203-220, /repo/pttbbs/file.go:137-155, /repo/pttbbs/draft.go:20, /repo/pttbbs/pttbbs_write_article_connector.go:27, 53-68 and
/repo/pttbbs/pttbss_append_new_line.go:13-25). The operating system stores each file when it likes.
-/

namespace Verif

/-- The disk `D` can be found when the power has failed during the run `sched`, the disk of `s` having been stored. Whatever the order in which files are
stored: every file, and every name in a directory, is as it was at some moment of the run, or as a write under way at this moment leaves it.
Simplification: a file is not a mixture of what it was at several moments. -/
def House.PowerLoss (db : DB) (c : Codec) (s : House) (sched : List (Nat × Nat)) (D : FS) : Prop :=
  ∀ l, ∃ n cuts, D.get l = ((s.run db c (sched.take n)).1.outage cuts).get l

/-- The same for one client and the calls `ops`, one after the other. -/
def Call.PowerLoss (db : DB) (c : Codec) (fs : FS) (ops : List Call) (D : FS) : Prop :=
  ∀ l, ∃ pre op post ns k, ops = pre ++ op :: post ∧ D.get l = (op.stopped db c (Call.execAll db c fs pre).1 ns k).get l

end Verif
