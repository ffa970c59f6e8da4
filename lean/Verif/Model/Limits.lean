import Verif.Model.Refusal
/-!
# The limits of the system on names

A component of a path has at most 255 bytes (`NAME_MAX`), a path less than 4096 (`PATH_MAX`, with the NUL at its end). Environment model, like
`Verif.Go.FS`, which has no limits; the calls are those of `Verif.Model.Concurrent`.
-/

namespace Verif

/-- Does the walk come to a component of more than 255 bytes? A component before it that is missing or no directory ends the walk. -/
def FS.reachesLong (fs : FS) (cur : Path) : List Bytes → Bool
  | [] => false
  | c :: cs => match fs.get cur with
    | some .dir => decide (255 < c.length) || reachesLong fs (cur.enter c) cs
    | _ => false

/-- Is a path refused with `ENAMETOOLONG`? Go refuses a path with a NUL before the system sees it. -/
def FS.tooLong (fs : FS) (cwd : Path) (p : Bytes) : Bool :=
  decide (0 ∉ p) && (decide (4096 ≤ p.length) || fs.reachesLong (pathStart cwd p) (splitByte slash p))

namespace Job

/-- The path that the next system call is given. -/
def path? : Job → Option Bytes
  | .stat p _ => some p
  | .openRead p _ => some p
  | .openWrite p _ => some p
  | .openMake p _ => some p
  | .openTrunc p _ => some p
  | .openExcl p _ => some p
  | .unlink p _ => some p
  | _ => none

/-- The error of the next system call because of the limits. -/
def limit (cwd : Path) (fs : FS) (j : Job) : Option String :=
  match j.path? with
  | some p => if fs.tooLong cwd p then some "file name too long" else none
  | none => none

/-- One system call on a system with limits. -/
def stepLimited (cwd : Path) (fs : FS) (n : Nat) (j : Job) : FS × Job := j.stepUnder cwd fs n (j.limit cwd fs)

/-- The system calls of one client, nobody else moving. -/
def playLimited (cwd : Path) : List Nat → FS → Job → FS × Job
  | [], fs, j => (fs, j)
  | n :: ns, fs, j => playLimited cwd ns (j.stepLimited cwd fs n).1 (j.stepLimited cwd fs n).2

end Job

/-- `Site.step` on a system with limits. -/
def Site.stepLimited (db : DB) (c : Codec) (s : Site) (p n : Nat) : Site × List Event :=
  match s.clients p with
  | ⟨[], none⟩ => (s, [])
  | ⟨op :: rest, none⟩ => (s.setClient s.fs p ⟨rest, some (Job.start db c op)⟩, [.call p op])
  | ⟨todo, some (.done r)⟩ => (s.setClient s.fs p ⟨todo, none⟩, [.ret p r])
  | ⟨todo, some j⟩ =>
    let (fs', j') := j.stepLimited db.cwd s.fs n
    (s.setClient fs' p ⟨todo, some j'⟩, [])

/-- Several clients on a system with limits. -/
def Site.runLimited (db : DB) (c : Codec) (s : Site) : List (Nat × Nat) → Site × List Event
  | [] => (s, [])
  | (p, n) :: sched =>
    let (s', es) := s.stepLimited db c p n
    let (s'', es') := s'.runLimited db c sched
    (s'', es ++ es')

end Verif
