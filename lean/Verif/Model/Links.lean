import Verif.Model.Concurrent
/-!
# Symbolic links

Environment model, like `Verif.Go.FS`, which has no links; the calls are those of `Verif.Model.Concurrent`. Each client has a name of its own
for the home directory (the driver's global, /repo/pttbbs/pttbbs.go:22-33, is one per process).
-/

namespace Verif

/-- A disk with symbolic links: what is at the places that are no links, and the links with the texts they contain. -/
structure LinkDisk where
  fs : FS
  links : List (Path × Bytes)

namespace LinkDisk

/-- The system's walk (Linux, `path_resolution(7)`): the place, and how many more links may be followed. A link in the middle of a path is always
followed; one at the end of it unless `last` is false. -/
def follow (d : LinkDisk) (last : Bool) : Nat → Path → List Bytes → Res (Path × Nat)
  | left, cur, [] => .ok (cur, left)
  | left, cur, c :: cs => match d.fs.get cur with
    | none => .err "no such file or directory"
    | some (.file _) => .err "not a directory"
    | some .dir => match (if cs = [] ∧ last = false then none else d.links.lookup (cur.enter c)), left with
      | none, left => follow d last left (cur.enter c) cs
      | some _, 0 => .err "too many levels of symbolic links"
      | some t, left + 1 => follow d last left (pathStart cur t) (splitByte slash t ++ cs)
termination_by left _ cs => (left, cs.length)

/-- The system's lookup of a path string; 40 links may be followed. -/
def lookup (d : LinkDisk) (cwd : Path) (last : Bool) (p : Bytes) : Res Path :=
  if p = [] then .err "no such file or directory"
  else if 0 ∈ p then .err "invalid argument"
  else do .ok (← d.follow last 40 (pathStart cwd p) (splitByte slash p)).1

/-- Is there a link below the directory `p`? -/
def linkBelow (d : LinkDisk) (p : Path) : Bool :=
  d.links.any (fun e => decide (p.length < e.1.length) && decide (e.1.take p.length = p))

end LinkDisk

namespace Job

/-- `Job.step` for a system call whose path has been looked up. -/
def stepAt (fs : FS) (r : Res Path) : Job → FS × Job
  | .stat _ k => (fs, k (match r with
    | .ok l => (fs.get l).isSome
    | _ => false))
  | .openRead _ k => (fs, k (r >>= fun l => match fs.get l with
    | none => .err "no such file or directory"
    | some _ => .ok l))
  | .openWrite _ k => (fs, k (r >>= fun l => match fs.get l with
    | none => .err "no such file or directory"
    | some .dir => .err "is a directory"
    | some (.file _) => .ok l))
  | .openMake _ k => match r with
    | .ok l => match fs.get l with
      | none => (fs.set l (.file []), k (.ok l))
      | some .dir => (fs, k (.err "is a directory"))
      | some (.file _) => (fs, k (.ok l))
    | r => (fs, k r)
  | .openTrunc _ k => match r with
    | .ok l => match fs.get l with
      | some .dir => (fs, k (.err "is a directory"))
      | _ => (fs.set l (.file []), k (.ok l))
    | r => (fs, k r)
  | .openExcl _ k => match r with
    | .ok l => match fs.get l with
      | none => (fs.set l (.file []), k true)
      | some _ => (fs, k false)
    | _ => (fs, k false)
  | .unlink _ k => match r with
    | .ok l => match fs.get l with
      | none => (fs, k (.err "no such file or directory"))
      | some (.file _) => (fs.del l, k (.ok ()))
      | some .dir => if l = [] then (fs, k (.err "device or resource busy"))
                     else if fs.hasChild l then (fs, k (.err "directory not empty")) else (fs.del l, k (.ok ()))
    | .err e => (fs, k (.err e))
    | .panic => (fs, k .panic)
    | .diverge => (fs, k .diverge)
  | j => j.step [] fs 0

end Job

/-- One system call on a disk with links: `open` with `O_EXCL` does not go through a link at the end of the path, `unlink` removes it. -/
def LinkDisk.step (cwd : Path) (d : LinkDisk) (n : Nat) (j : Job) : LinkDisk × Job :=
  let on (x : FS × Job) : LinkDisk × Job := (⟨x.1, d.links⟩, x.2)
  match j with
  | .stat p _ | .openRead p _ | .openWrite p _ | .openMake p _ | .openTrunc p _ => on (j.stepAt d.fs (d.lookup cwd true p))
  | .openExcl p k => match d.lookup cwd false p with
    | .ok l => if (d.links.lookup l).isSome then (d, k false) else on (j.stepAt d.fs (.ok l))
    | r => on (j.stepAt d.fs r)
  | .unlink p k => match d.lookup cwd false p with
    | .ok l =>
      if (d.links.lookup l).isSome then (⟨d.fs, d.links.filter (fun e => e.1 ≠ l)⟩, k (.ok ()))
      else if d.fs.get l = some .dir ∧ d.linkBelow l then (d, k (.err "directory not empty"))
      else on (j.stepAt d.fs (.ok l))
    | r => on (j.stepAt d.fs r)
  | j => on (j.step cwd d.fs n)

/-- A disk with links and the clients. -/
structure LinkSite where
  disk : LinkDisk
  clients : Nat → Client

/-- Client `p` becomes `x`. -/
def LinkSite.setClient (s : LinkSite) (d : LinkDisk) (p : Nat) (x : Client) : LinkSite := ⟨d, fun q => if q = p then x else s.clients q⟩

/-- `Site.step` on a disk with links; client `p` has the database `dbs p`. -/
def LinkSite.step (dbs : Nat → DB) (c : Codec) (s : LinkSite) (p n : Nat) : LinkSite × List Event :=
  match s.clients p with
  | ⟨[], none⟩ => (s, [])
  | ⟨op :: rest, none⟩ => (s.setClient s.disk p ⟨rest, some (Job.start (dbs p) c op)⟩, [.call p op])
  | ⟨todo, some (.done r)⟩ => (s.setClient s.disk p ⟨todo, none⟩, [.ret p r])
  | ⟨todo, some j⟩ =>
    let (d', j') := s.disk.step (dbs p).cwd n j
    (s.setClient d' p ⟨todo, some j'⟩, [])

/-- Several clients on a disk with links. -/
def LinkSite.run (dbs : Nat → DB) (c : Codec) (s : LinkSite) : List (Nat × Nat) → LinkSite × List Event
  | [] => (s, [])
  | (p, n) :: sched =>
    let (s', es) := s.step dbs c p n
    let (s'', es') := s'.run dbs c sched
    (s'', es ++ es')

end Verif
