import Verif.Model.SharedMem
/-!
# Open caches and the garbage collector

`runtime.SetFinalizer` in /repo/cache/systemvshm.go:83-84, 117-118 and /repo/cache/mmap.go:64-66, 79-80: a cache that the program no longer refers
to is closed by the runtime. The slice that `Bytes` returns points to memory outside the Go heap, so it does not keep the cache reachable. A
variable counts as a reference until its last use (Go compiler), not until the end of its scope.
-/

namespace Verif

/-- `Close` of either kind — /repo/cache/systemvshm.go:112-123, /repo/cache/mmap.go:74-83. -/
def Mem.close (m : Mem) : Buf → Res Mem
  | .shm v => do
    let s ← closeShm m.ipc v
    .ok { m with ipc := s }
  | .mmap v => do
    let s ← closeMmap m.mfs v
    .ok { m with mfs := s }

/-- A `*SHM` or `*Mmap` on the heap: its buffer, whether its finalizer is set, and whether the program still refers to it. -/
structure Handle where
  buf : Buf
  finalizer : Bool
  live : Bool
  deriving DecidableEq, Repr

/-- A process with the caches it has opened, oldest first. -/
structure Proc where
  mem : Mem
  handles : List Handle

/-- `cache.NewCache` — /repo/cache/cache.go:16-36, with systemvshm.go:79-85 and mmap.go:59-67: the finalizer is set. -/
def Proc.open (p : Proc) (conn : Bytes) (a : Nat) : Res Proc := do
  let (b, m) ← newBuf p.mem conn a
  .ok ⟨m, p.handles ++ [⟨b, true, true⟩]⟩

/-- `Close` on the `h`-th cache: the finalizer is cleared whether or not the system call fails. -/
def Proc.close (p : Proc) (h : Nat) : Res Unit × Proc := match p.handles[h]? with
  | none => (.panic, p)
  | some x =>
    let hs := p.handles.set h { x with finalizer := false }
    match p.mem.close x.buf with
    | .ok m => (.ok (), ⟨m, hs⟩)
    | .err e => (.err e, { p with handles := hs })
    | .panic => (.panic, p)
    | .diverge => (.diverge, p)

/-- The last use of the last variable that refers to the `h`-th cache. -/
def Proc.drop (p : Proc) (h : Nat) : Proc := match p.handles[h]? with
  | none => p
  | some x => { p with handles := p.handles.set h { x with live := false } }

/-- The garbage collector finds the `h`-th cache unreachable and runs its finalizer, if it is set: `Close`. -/
def Proc.collect (p : Proc) (h : Nat) : Proc := match p.handles[h]? with
  | none => p
  | some x => if x.live = false ∧ x.finalizer = true then (p.close h).2 else p

/-- What is behind a buffer: the segment, or the file (its inode). -/
def Mem.behind (m : Mem) : Buf → Option Nat
  | .shm v => m.ipc.map v.addr
  | .mmap v => (m.mfs.map v.addr).map (·.1)

/-- `Money` on an open cache — /repo/pttbbs/cache.go:324-328: `c.Bytes()` is the last use of `c`, the bytes are read after it. `m` is the memory
when they are read. -/
def moneyThrough (m : Mem) (b : Buf) (s : Layout) (pos : CachePos) (uid : Int) : Res Int32 := do
  let c ← m.cache b s pos
  c.money uid

end Verif
