import Verif.Model.PowerLoss
import Verif.Model.Alone
/-!
# The power fails, and files were stored in parts

As in Model/PowerLoss.lean, without its simplification: the system stores the parts of a file when it likes, and its length apart from them (no function of
/repo calls `Sync`; records are added at /repo/pttbbs/board.go:203-220 and /repo/pttbbs/file.go:137-155, comments at
/repo/pttbbs/pttbss_append_new_line.go:13-25).
-/

namespace Verif

/-- A moment of the calls `ops`, made one after the other on the disk `fs`, with a write that is under way at this moment. -/
def Call.Moment (db : DB) (c : Codec) (fs : FS) (ops : List Call) (M : FS) : Prop :=
  ∃ pre op post ns k, ops = pre ++ op :: post ∧ M = op.stopped db c (Call.execAll db c fs pre).1 ns k

/-- The disk `D` can be found when the power has failed during the calls `ops`, the disk `fs` having been stored: what is at a place is what was there at
some moment; or a file has the length of one moment, and each of its bytes is that of some moment, or NUL where nothing had been stored. -/
def Call.PartLoss (db : DB) (c : Codec) (fs : FS) (ops : List Call) (D : FS) : Prop :=
  ∀ l, (∃ M, Call.Moment db c fs ops M ∧ D.get l = M.get l) ∨
    ∃ x x0 M, D.get l = some (.file x) ∧ Call.Moment db c fs ops M ∧ M.get l = some (.file x0) ∧ x.length = x0.length ∧
      ∀ i b, x[i]? = some b → (b = 0 ∧ ∀ d, fs.get l = some (.file d) → d.length ≤ i) ∨
        ∃ M' x1, Call.Moment db c fs ops M' ∧ M'.get l = some (.file x1) ∧ x1[i]? = some b

/-- The disk on which the power may fail during the run `sched`. -/
def House.Moment (db : DB) (c : Codec) (s : House) (sched : List (Nat × Nat)) (M : FS) : Prop :=
  ∃ n cuts, M = (s.run db c (sched.take n)).1.outage cuts

/-- `Call.PartLoss` for several clients. -/
def House.PartLoss (db : DB) (c : Codec) (s : House) (sched : List (Nat × Nat)) (D : FS) : Prop :=
  ∀ l, (∃ M, s.Moment db c sched M ∧ D.get l = M.get l) ∨
    ∃ x x0 M, D.get l = some (.file x) ∧ s.Moment db c sched M ∧ M.get l = some (.file x0) ∧ x.length = x0.length ∧
      ∀ i b, x[i]? = some b → (b = 0 ∧ ∀ d, s.fs.get l = some (.file d) → d.length ≤ i) ∨
        ∃ M' x1, s.Moment db c sched M' ∧ M'.get l = some (.file x1) ∧ x1[i]? = some b

end Verif
