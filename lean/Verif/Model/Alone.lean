import Verif.Model.Concurrent
/-!
# One call with the disk to itself, and a machine that stops in the middle of it
-/

namespace Verif

namespace Job

/-- The system calls of one client, nobody else moving. `ns`: how much each `read` of any size asks for. -/
def play (cwd : Path) : List Nat → FS → Job → FS × Job
  | [], fs, j => (fs, j)
  | n :: ns, fs, j => play cwd ns (j.step cwd fs n).1 (j.step cwd fs n).2

/-- The disk if the machine stops now: of a `write` that has begun, the first `k` bytes are stored. Simplification: what was written by earlier
system calls is on the disk. -/
def halt (fs : FS) (k : Nat) : Job → FS
  | .append l bs _ => match fs.get l with
    | some (.file d) => fs.set l (.file (d ++ bs.take k))
    | _ => fs
  | .put l bs _ => match fs.get l with
    | some (.file d) => fs.set l (.file (writeAt d 0 (bs.take k)))
    | _ => fs
  | _ => fs

end Job

/-- The disk if the machine stops after the system calls `ns` of a call, and `k` bytes into the next one. -/
def Call.stopped (db : DB) (c : Codec) (fs : FS) (op : Call) (ns : List Nat) (k : Nat) : FS :=
  Job.halt (Job.play db.cwd ns fs (Job.start db c op)).1 k (Job.play db.cwd ns fs (Job.start db c op)).2

end Verif
