import Verif.Model.RefusedClients
/-!
# Clients that run under accounts of the machine: who may open what, and the mode of what they make

Simplifications: the account 0 may do everything; nobody changes the mode, the owner or the group
of a file; there are no access control lists.
-/

namespace Verif

/-- The owner, the group and the permission bits of a file or a directory. -/
structure Perm where
  owner : Nat
  group : Nat
  mode : UInt32
  deriving DecidableEq

/-- An account with its group and the other groups it is in, and the bits that the process takes away from the mode of what it makes. -/
structure Account where
  uid : Nat
  gid : Nat
  groups : List Nat
  umask : UInt32

def Account.isIn (a : Account) (g : Nat) : Bool := a.gid == g || a.groups.contains g

namespace Perm

/-- The bit that counts for the account: that for the owner, that for the group, or that for others. -/
def bitFor (f : Perm) (a : Account) (own grp other : UInt32) : UInt32 :=
  if a.uid = f.owner then own else if a.isIn f.group = true then grp else other

/-- May the account do it? Only one of the three bits counts. -/
def allows (f : Perm) (a : Account) (own grp other : UInt32) : Bool := a.uid == 0 || f.mode &&& f.bitFor a own grp other != 0

def mayRead (f : Perm) (a : Account) : Bool := f.allows a 0o400 0o040 0o004

def mayWrite (f : Perm) (a : Account) : Bool := f.allows a 0o200 0o020 0o002

def maySearch (f : Perm) (a : Account) : Bool := f.allows a 0o100 0o010 0o001

/-- What `open` with `O_CREATE` gives to a file that it makes in a directory: the group is that of the directory if that has the bit 2000, else
that of the account. -/
def made (a : Account) (dir : Perm) (mode : UInt32) : Perm :=
  ⟨a.uid, if dir.mode &&& 0o2000 != 0 then dir.group else a.gid, mode &&& ~~~ a.umask⟩

end Perm

namespace Job

/-- The mode that `open` is asked for: the list of boards and lists of articles with `O_CREATE` (/repo/pttbbs/board.go:203, file.go:137), articles
with `O_CREATE` (pttbbs_write_article_connector.go:53) and with `O_EXCL` too (:27), drafts with `O_TRUNC` (`ioutil.WriteFile`, draft.go:20). -/
def askedMode : Job → UInt32
  | .openMake _ _ => 0o644
  | .openTrunc _ _ => 0o644
  | .openExcl _ _ => 0o644
  | _ => 0

/-- `EACCES`. -/
def denyUnless (b : Bool) : Option String := if b then none else some "permission denied"

/-- The file that a system call names. -/
def named : Job → Option Bytes
  | .stat p _ | .openRead p _ | .openWrite p _ | .openMake p _ | .openTrunc p _ | .openExcl p _ | .unlink p _ => some p
  | _ => none

/-- Is there a directory on the way that the account may not search? The way ends where there is no directory. -/
def barredFrom (a : Account) (fs : FS) (perm : Path → Perm) (cur : Path) : List Bytes → Bool
  | [] => false
  | c :: cs => match fs.get cur with
    | some .dir => if c = [] then barredFrom a fs perm cur cs else !(perm cur).maySearch a || barredFrom a fs perm (cur.enter c) cs
    | _ => false

def barred (a : Account) (cwd : Path) (fs : FS) (perm : Path → Perm) (p : Bytes) : Bool :=
  p ≠ [] && !p.contains 0 && barredFrom a fs perm (pathStart cwd p) (splitByte slash p)

/-- Does the system refuse it to an account that gets there? Reading and writing are not looked at again once a file is open; making and removing a file is
writing to its directory. -/
def deniedThere (a : Account) (cwd : Path) (fs : FS) (perm : Path → Perm) (j : Job) : Option String :=
  match j with
  | .openRead p _ => match opened fs cwd p false with
    | .ok l => denyUnless ((perm l).mayRead a)
    | _ => none
  | .openWrite p _ => match opened fs cwd p true with
    | .ok l => denyUnless ((perm l).mayWrite a)
    | _ => none
  | .openMake p _ | .openTrunc p _ => match fs.openCreate cwd p with
    | .ok (l, _) => denyUnless (if (fs.get l).isSome then (perm l).mayWrite a else (perm l.dropLast).mayWrite a)
    | _ => none
  | .openExcl p _ => match fs.createExcl cwd p with
    | .ok _ => denyUnless ((perm (resolve cwd p).dropLast).mayWrite a)
    | _ => none
  | .unlink p _ => match fs.remove cwd p with
    | .ok _ => denyUnless ((perm (resolve cwd p).dropLast).mayWrite a)
    | _ => none
  | _ => none

/-- Does the system refuse it to the account? -/
def denied (a : Account) (cwd : Path) (fs : FS) (perm : Path → Perm) (j : Job) : Option String :=
  match j.named with
  | none => none
  | some p => if barred a cwd fs perm p = true then some "permission denied" else j.deniedThere a cwd fs perm

/-- The owners and modes after a system call that made `fs'` of `fs`. -/
def permAfter (a : Account) (fs fs' : FS) (perm : Path → Perm) (j : Job) (l : Path) : Perm :=
  if (fs.get l).isNone ∧ (fs'.get l).isSome then .made a (perm l.dropLast) j.askedMode else perm l

end Job

/-- Several clients, each under an account. -/
def Site.stepAs (db : DB) (c : Codec) (who : Nat → Account) (s : Site) (perm : Path → Perm) (p n : Nat) : Site × (Path → Perm) × List Event :=
  match (s.clients p).now with
  | none => ((s.stepUnder db c p n none).1, perm, (s.stepUnder db c p n none).2)
  | some j =>
    let r := s.stepUnder db c p n (j.denied (who p) db.cwd s.fs perm)
    (r.1, j.permAfter (who p) s.fs r.1.fs perm, r.2)

def Site.runAs (db : DB) (c : Codec) (who : Nat → Account) (s : Site) (perm : Path → Perm) : List (Nat × Nat) → Site × (Path → Perm) × List Event
  | [] => (s, perm, [])
  | (p, n) :: sched =>
    let (s', perm', es) := s.stepAs db c who perm p n
    let (s'', perm'', es') := s'.runAs db c who perm' sched
    (s'', perm'', es ++ es')

/-- One call, with the disk to itself. -/
def Job.playAs (a : Account) (cwd : Path) (perm : Path → Perm) : List Nat → FS → Job → FS × (Path → Perm) × Job
  | [], fs, j => (fs, perm, j)
  | n :: ns, fs, j =>
    let (fs', j') := j.stepUnder cwd fs n (j.denied a cwd fs perm)
    Job.playAs a cwd (j.permAfter a fs fs' perm) ns fs' j'

/-- The file that `CreateMmap` makes — /repo/cache/mmap.go:15-20: `os.Create` asks for the mode 0666. -/
def createMmapPerm (a : Account) (dir : Perm) : Perm := .made a dir 0o666

/-- The segment that `CreateKey` makes — /repo/cache/systemvshm.go:44-50: `shmget` with 0600; no bits are taken away. -/
def createKeyPerm (a : Account) : Perm := ⟨a.uid, a.gid, 0o600⟩

end Verif
