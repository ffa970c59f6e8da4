import Verif.Model.Script
import Verif.Model.Alone
/-!
# A machine that stops while several clients use the disk
-/

namespace Verif

/-- The machine stops. `cuts`: the clients whose `write` has begun, in the order in which the disk gets to it, and how many bytes of it are stored.
Simplification: as in `Job.halt`, what was written by earlier system calls is on the disk. -/
def House.outage (s : House) (cuts : List (Nat × Nat)) : FS :=
  cuts.foldl (fun fs x => match s.sessions x.1 with
    | .busy j _ => j.halt fs x.2
    | .idle _ => fs) s.fs

end Verif
