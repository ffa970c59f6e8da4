import Verif.Model.Cache
import Verif.Go.File
/-!
# The back-ends of the cache

/repo/cache/systemvshm.go, systemvshm_unix.go, mmap.go, mmap_unix.go (Linux), and the opening of a cache in
/repo/cache/cache.go and /repo/pttbbs/cache.go. The system calls are an environment model (Linux `ipc/shm.c`, `mm/mmap.c`):
one user, no permissions, every call of the package is one step. Addresses are abstract: `a` names the range the kernel
picks for a new mapping, which must be free. An access to a range that is not mapped is a `panic` (in Go a fatal error).
-/

namespace Verif

/-- Change a partial function in one place. -/
def setAt {α : Type} (f : Nat → Option α) (i : Nat) (x : Option α) : Nat → Option α := fun j => if j = i then x else f j

/-! ## System V shared memory -/

/-- A segment in the kernel: `shmid_kernel`. -/
structure Seg where
  key : UInt32
  bytes : Bytes
  /-- The addresses at which it is attached; the kernel keeps their number. -/
  att : List Nat
  /-- Marked to be destroyed with the last detach. -/
  dest : Bool
  deriving DecidableEq, Repr

/-- The kernel's tables: segments by id, ids below `next` have been given out; attached segments by address; the largest
segment the system grants. -/
structure Ipc where
  seg : Nat → Option Seg
  next : Nat
  map : Nat → Option Nat
  limit : Nat

/-- `key_t` is 32 bits wide: the system call drops the rest of a Go `int`. -/
def shmKey (key : Int) : UInt32 := UInt32.ofNat (key % 2 ^ 32).toNat

/-- `size_t` of a Go `int`. -/
def sizeT (size : Int) : Nat := (size % 2 ^ 64).toNat

/-- The segment with a key. -/
def Ipc.find (s : Ipc) (k : UInt32) : Option Nat :=
  (List.range s.next).find? fun i => match s.seg i with
    | some g => g.key == k
    | none => false

/-- `newseg` in the kernel: zero bytes; an empty or too large segment is refused. -/
def Ipc.newseg (s : Ipc) (k : UInt32) (n : Nat) : Res (Nat × Ipc) :=
  if n = 0 ∨ s.limit < n then .err "invalid argument"
  else .ok (s.next, { s with seg := setAt s.seg s.next (some ⟨k, zeros n, [], false⟩), next := s.next + 1 })

/-- `shmget` — /repo/cache/systemvshm_unix.go:11-17; key 0 is `IPC_PRIVATE`. -/
def Ipc.shmget (s : Ipc) (key size : Int) (create : Bool) : Res (Nat × Ipc) :=
  if shmKey key = 0 then s.newseg 0 (sizeT size)
  else match s.find (shmKey key) with
    | some i => match s.seg i with
      | some g => if g.bytes.length < sizeT size then .err "invalid argument" else .ok (i, s)
      | none => .err "no such file or directory"
    | none => if create then s.newseg (shmKey key) (sizeT size) else .err "no such file or directory"

/-- `shmctl(IPC_STAT)`: the member `ShmSegsz`. -/
def Ipc.shmStat (s : Ipc) (i : Nat) : Res Nat := match s.seg i with
  | some g => .ok g.bytes.length
  | none => .err "invalid argument"

/-- `shmat` at the free address `a` — /repo/cache/systemvshm_unix.go:19-27. -/
def Ipc.shmat (s : Ipc) (i a : Nat) : Res Ipc := match s.seg i with
  | some g => .ok { s with seg := setAt s.seg i (some { g with att := a :: g.att }), map := setAt s.map a (some i) }
  | none => .err "invalid argument"

/-- `shmdt` — /repo/cache/systemvshm_unix.go:29-37. -/
def Ipc.shmdt (s : Ipc) (a : Nat) : Res Ipc := match s.map a with
  | none => .err "invalid argument"
  | some i => match s.seg i with
    | none => .ok { s with map := setAt s.map a none }
    | some g =>
      .ok { s with
        map := setAt s.map a none
        seg := setAt s.seg i (if g.dest ∧ g.att.erase a = [] then none else some { g with att := g.att.erase a }) }

/-- `shmctl(IPC_RMID)`: destroyed at once, or later when it is attached; its key is free at once. -/
def Ipc.shmRmid (s : Ipc) (i : Nat) : Res Ipc := match s.seg i with
  | none => .err "invalid argument"
  | some g => .ok { s with seg := setAt s.seg i (if g.att = [] then none else some { g with key := 0, dest := true }) }

/-- An open cache: address and length of its buffer (`SHM.buf`, `Mmap.buf`). -/
structure View where
  addr : Nat
  len : Nat
  deriving DecidableEq, Repr

/-- `CreateKey` — /repo/cache/systemvshm.go:43-88. The buffer has the length asked for, or the length of the segment when
the length asked for is 0. -/
def createKey (s : Ipc) (key size : Int) (a : Nat) : Res (View × Ipc) := do
  let (i, s1) ← s.shmget key size (size != 0)
  let n ← (if size = 0 then s1.shmStat i else .ok size.toNat)
  let s2 ← s1.shmat i a
  .ok (⟨a, n⟩, s2)

/-- `OpenKey` — /repo/cache/systemvshm.go:91-93. -/
def openKey (s : Ipc) (key : Int) (a : Nat) : Res (View × Ipc) := createKey s key 0 a

/-- `RemoveKey` — /repo/cache/systemvshm.go:94-106. -/
def removeKey (s : Ipc) (key : Int) : Res Ipc := do
  let (i, s1) ← s.shmget key 0 false
  s1.shmRmid i

/-- `Close` — /repo/cache/systemvshm.go:112-123. -/
def closeShm (s : Ipc) (v : View) : Res Ipc := s.shmdt v.addr

/-- What the buffer shows: `Bytes` — /repo/cache/systemvshm.go:108-110. -/
def Ipc.view (s : Ipc) (v : View) : Res Bytes := match s.map v.addr with
  | none => .panic
  | some i => match s.seg i with
    | none => .panic
    | some g => if g.bytes.length < v.len then .panic else .ok (g.bytes.take v.len)

/-- Store bytes through the buffer: an index beyond its length panics. -/
def Ipc.store (s : Ipc) (v : View) (off : Nat) (b : Bytes) : Res Ipc :=
  if v.len < off + b.length then .panic
  else match s.map v.addr with
    | none => .panic
    | some i => match s.seg i with
      | none => .panic
      | some g => if g.bytes.length < v.len then .panic
        else .ok { s with seg := setAt s.seg i (some { g with bytes := writeAt g.bytes off b }) }

/-! ## Mapped files -/

/-- Files: names (one directory), contents by inode, mappings by address with the inode and the length. -/
structure MFS where
  names : Bytes → Option Nat
  inode : Nat → Bytes
  next : Nat
  map : Nat → Option (Nat × Nat)

/-- `openFile` with `openMmap` — /repo/cache/mmap.go:40-68, mmap_unix.go:11-18: an empty file cannot be mapped. -/
def MFS.mapFile (s : MFS) (i a : Nat) : Res View × MFS :=
  if (s.inode i).length = 0 then (.err "mmap error", s)
  else (.ok ⟨a, (s.inode i).length⟩, { s with map := setAt s.map a (some (i, (s.inode i).length)) })

/-- `OpenMmap` — /repo/cache/mmap.go:30-38. -/
def openMmap (s : MFS) (path : Bytes) (a : Nat) : Res View × MFS := match s.names path with
  | none => (.err "open error", s)
  | some i => s.mapFile i a

/-- `CreateMmap` — /repo/cache/mmap.go:15-28: `os.Create` empties a file that exists; a negative size is an error only after
that. -/
def createMmap (s : MFS) (path : Bytes) (size : Int) (a : Nat) : Res View × MFS :=
  let (i, s1) := match s.names path with
    | some i => (i, { s with inode := fun j => if j = i then [] else s.inode j })
    | none => (s.next, { s with
        names := fun p => if p = path then some s.next else s.names p
        inode := fun j => if j = s.next then [] else s.inode j
        next := s.next + 1 })
  if size < 0 then (.err "truncate error", s1)
  else MFS.mapFile { s1 with inode := fun j => if j = i then zeros size.toNat else s1.inode j } i a

/-- `RemoveMmap` — /repo/cache/mmap.go:85-87. The mappings keep the file. -/
def removeMmap (s : MFS) (path : Bytes) : Res MFS := match s.names path with
  | none => .err "no such file or directory"
  | some _ => .ok { s with names := fun p => if p = path then none else s.names p }

/-- `Close` — /repo/cache/mmap.go:74-83: `Munmap` knows a mapping by its address and length. -/
def closeMmap (s : MFS) (v : View) : Res MFS := match s.map v.addr with
  | none => .err "invalid argument"
  | some (_, n) => if n = v.len then .ok { s with map := setAt s.map v.addr none } else .err "invalid argument"

/-- The length of a file in whole pages of 4096 bytes. -/
def pages (n : Nat) : Nat := (n + 4095) / 4096 * 4096

/-- What the buffer shows: the file, and zeros up to the end of its last page. A page beyond it is a bus error. -/
def MFS.view (s : MFS) (v : View) : Res Bytes := match s.map v.addr with
  | none => .panic
  | some (i, _) => if pages (s.inode i).length < v.len then .panic
    else .ok ((s.inode i ++ zeros v.len).take v.len)

/-- Store bytes through the buffer; only stores that stay inside the file are modelled (others are a `panic` here). -/
def MFS.store (s : MFS) (v : View) (off : Nat) (b : Bytes) : Res MFS :=
  if v.len < off + b.length then .panic
  else match s.map v.addr with
    | none => .panic
    | some (i, _) => if (s.inode i).length < off + b.length then .panic
      else .ok { s with inode := fun j => if j = i then writeAt (s.inode i) off b else s.inode j }

/-! ## Opening a cache -/

/-- Both kinds of memory. -/
structure Mem where
  ipc : Ipc
  mfs : MFS

/-- An open cache of the package `cache`. -/
inductive Buf where
  | shm (v : View)
  | mmap (v : View)
  deriving DecidableEq, Repr

/-- `cache.NewCache` — /repo/cache/cache.go:16-36. -/
def newBuf (m : Mem) (conn : Bytes) (a : Nat) : Res (Buf × Mem) := do
  match ← selectBackend conn with
  | .shm key =>
    let (v, s) ← openKey m.ipc key a
    .ok (.shm v, { m with ipc := s })
  | .mmap path =>
    let r := openMmap m.mfs path a
    let v ← r.1
    .ok (.mmap v, { m with mfs := r.2 })

/-- What an open cache shows. -/
def Mem.view (m : Mem) : Buf → Res Bytes
  | .shm v => m.ipc.view v
  | .mmap v => m.mfs.view v

/-- `pttbbs.NewCache` — /repo/pttbbs/cache.go:293-306: the buffer and the positions. -/
def newCache (m : Mem) (conn : Bytes) (s : Layout) (a : Nat) : Res (Buf × CachePos × Mem) := do
  let (b, m1) ← newBuf m conn a
  let p ← caculatePos s
  .ok (b, p, m1)

/-- The cache as it is now: every method reads the buffer anew. -/
def Mem.cache (m : Mem) (b : Buf) (s : Layout) (p : CachePos) : Res CacheState := do
  let d ← m.view b
  .ok { bytes := d, layout := s, pos := p }

/-- The sample program — /repo/pttbbs/cmd/main.go: lines printed after `new cache err:` are not reached; otherwise version,
user id and money of user 0. -/
def sampleMain (m : Mem) (a : Nat) : Res (UInt32 × Bytes × Int32) := do
  let s : Layout := ⟨0, 50, 12, false, 0⟩
  let (b, p, m1) ← newCache m (ascii "file://../../dump.shm") s a
  let c ← m1.cache b s p
  let v ← c.version
  let u ← c.userID 0
  let mo ← c.money 0
  .ok (v, u, mo)

/-! ## A reader beside a writer -/

/-- `UserID` while another process writes — /repo/pttbbs/cache.go:317-321. The slice shares memory with the segment:
`bytes.Split` looks for the first NUL, byte `k` at time `k`; `string` copies that many bytes afterwards, byte `k` at time
`len + k`. `mem` is the content of the segment over time. -/
def userIDLive (mem : Nat → Bytes) (start len : Nat) : Bytes :=
  let n := (((List.range len).map fun k => (mem k).getD (start + k) 0).takeWhile (· != 0)).length
  (List.range n).map fun k => (mem (len + k)).getD (start + k) 0

end Verif
