import Verif.Model.Script
/-!
# Files that are removed while they are open

In `Verif.Model.Concurrent` an open file is known by its place. Here it is known by its number, as in the kernel: removing a name
(`DeleteUserDraft`, /repo/pttbbs/draft.go:15-17, is the only call that does it) leaves the file to those who have it open, and a file made
later under the same name is another file. Environment model (POSIX file systems without links), not code of `/repo`.
-/

namespace Verif

/-- Names (newest first; `none` is a directory) and the contents of files by number. -/
structure Disk where
  names : List (Path × Option Nat)
  content : Nat → Bytes
  next : Nat

namespace Disk

/-- What the names show. -/
def shown (d : Disk) : FS := ⟨d.names.map fun e => (e.1, match e.2 with
  | none => .dir
  | some i => .file (d.content i))⟩

/-- The number of the file at a place. -/
def number (d : Disk) (l : Path) : Option Nat := match d.names.lookup l with
  | some (some i) => some i
  | _ => none

/-- A new, empty file at a place. -/
def create (d : Disk) (l : Path) : Disk :=
  { names := (l, some d.next) :: d.names, content := fun i => if i = d.next then [] else d.content i, next := d.next + 1 }

/-- File number `i` holds `x`. -/
def write (d : Disk) (i : Nat) (x : Bytes) : Disk := { d with content := fun j => if j = i then x else d.content j }

/-- A name goes away; the file stays. -/
def unname (d : Disk) (l : Path) : Disk := { d with names := d.names.filter (fun e => e.1 ≠ l) }

/-- One system call. `fd` is the number of the file that the job opened last (`none`: a directory); every `read` and `write` goes there. -/
def step (cwd : Path) (d : Disk) (n : Nat) (fd : Option Nat) : Job → Disk × Option Nat × Job
  | .done r => (d, fd, .done r)
  | .stat p k => (d, fd, k (d.shown.statOk cwd p))
  | .openRead p k => match Job.opened d.shown cwd p false with
    | .ok l => (d, d.number l, k (.ok l))
    | r => (d, fd, k r)
  | .openWrite p k => match Job.opened d.shown cwd p true with
    | .ok l => (d, d.number l, k (.ok l))
    | r => (d, fd, k r)
  | .openMake p k => match d.shown.openCreate cwd p with
    | .ok (l, _) => match d.number l with
      | some i => (d, some i, k (.ok l))
      | none => (d.create l, some d.next, k (.ok l))
    | .err e => (d, fd, k (.err e))
    | .panic => (d, fd, k .panic)
    | .diverge => (d, fd, k .diverge)
  | .openTrunc p k => match d.shown.openCreate cwd p with
    | .ok (l, _) => match d.number l with
      | some i => (d.write i [], some i, k (.ok l))
      | none => (d.create l, some d.next, k (.ok l))
    | .err e => (d, fd, k (.err e))
    | .panic => (d, fd, k .panic)
    | .diverge => (d, fd, k .diverge)
  | .openExcl p k => match d.shown.lookup cwd p with
    | .ok l => if (d.shown.get l).isNone then (d.create l, some d.next, k true) else (d, fd, k false)
    | _ => (d, fd, k false)
  | .read l size got pos k => match fd with
    | some i =>
      if pos < (d.content i).length then
        let bs := slice (d.content i) pos (pos + if size = 0 then n + 1 else size)
        (d, fd, .read l size (got ++ [bs]) (pos + bs.length) k)
      else (d, fd, k (.ok got))
    | none => if size = 0 then (d, fd, k (.err "is a directory")) else (d, fd, .read l size (got ++ [[]]) pos k)
  | .append _ bs k => match fd with
    | some i => (d.write i (d.content i ++ bs), fd, k)
    | none => (d, fd, k)
  | .put _ bs k => match fd with
    | some i => (d.write i (writeAt (d.content i) 0 bs), fd, k)
    | none => (d, fd, k)
  | .unlink p k => match d.shown.remove cwd p, d.shown.lookup cwd p with
    | .ok _, .ok l => (d.unname l, fd, k (.ok ()))
    | .err e, _ => (d, fd, k (.err e))
    | .panic, _ => (d, fd, k .panic)
    | _, _ => (d, fd, k .diverge)

end Disk

/-- The disk, the clients, and the file each client opened last. -/
structure Shop where
  disk : Disk
  sessions : Nat → Session
  fds : Nat → Option Nat

/-- Client `p` becomes `x`, its open file is `fd`. -/
def Shop.setSession (s : Shop) (d : Disk) (p : Nat) (x : Session) (fd : Option Nat) : Shop :=
  ⟨d, fun q => if q = p then x else s.sessions q, fun q => if q = p then fd else s.fds q⟩

/-- Client `p` takes its next step; as `House.step`. -/
def Shop.step (db : DB) (c : Codec) (s : Shop) (p n : Nat) : Shop × List Event :=
  match s.sessions p with
  | .idle .stop => (s, [])
  | .idle (.make op next) => (s.setSession s.disk p (.busy (Job.start db c op) next) (s.fds p), [.call p op])
  | .busy (.done r) next => (s.setSession s.disk p (.idle (next r)) (s.fds p), [.ret p r])
  | .busy j next =>
    let (d', fd', j') := s.disk.step db.cwd n (s.fds p) j
    (s.setSession d' p (.busy j' next) fd', [])

/-- A schedule, as in `House.run`. -/
def Shop.run (db : DB) (c : Codec) (s : Shop) : List (Nat × Nat) → Shop × List Event
  | [] => (s, [])
  | (p, n) :: sched =>
    let (s', es) := s.step db c p n
    let (s'', es') := s'.run db c sched
    (s'', es ++ es')

end Verif
