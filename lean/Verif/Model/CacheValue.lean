import Verif.Model.Collector
/-!
# The value that opening a cache returns

A Go value of an interface type is nil only if it has no type: the nil pointer of a type `*SHM` or `*Mmap` makes one that is not nil. The
functions of /repo/cache/mmap_windows.go and systemvshm_windows.go are here too.
-/

namespace Verif

/-- The system that the library was built for. -/
inductive System where
  | unix
  | windows
  deriving DecidableEq, Repr

/-- A value of the interface `cache.Cache` — /repo/cache/cache.go:9-12: nil, or a pointer of one of two types, which may be nil. -/
inductive CacheValue where
  | nil
  | shm (p : Option View)
  | mmap (p : Option View)
  deriving DecidableEq, Repr

/-- `OpenKey` — /repo/cache/systemvshm.go:91-93; on Windows `shmget` fails (/repo/cache/systemvshm_windows.go:15-17). -/
def openKeyOn : System → Ipc → Int → Nat → Res (View × Ipc)
  | .unix, s, key, a => openKey s key a
  | .windows, _, _, _ => .err "windows do not implement shmget"

/-- `OpenMmap` — /repo/cache/mmap.go:30-68; on Windows the file is opened, but not mapped (/repo/cache/mmap_windows.go:9-12). -/
def openMmapOn : System → MFS → Bytes → Nat → Res View × MFS
  | .unix, s, path, a => openMmap s path a
  | .windows, s, path, _ => match s.names path with
    | none => (.err "open error", s)
    | some _ => (.err "mmap error", s)

/-- `cache.NewCache` — /repo/cache/cache.go:16-36: the value, the error, the memory after it. The `return`s on lines 20, 28 and 30 convert a
pointer to the interface, nil or not. -/
def newCacheValue (sys : System) (m : Mem) (conn : Bytes) (a : Nat) : Res (CacheValue × Option String × Mem) :=
  match selectBackend conn with
  | .err e => .ok (.nil, some e, m)
  | .panic => .panic
  | .diverge => .diverge
  | .ok (.shm key) => match openKeyOn sys m.ipc key a with
    | .ok (v, s) => .ok (.shm (some v), none, { m with ipc := s })
    | .err e => .ok (.shm none, some e, m)
    | .panic => .panic
    | .diverge => .diverge
  | .ok (.mmap path) => match openMmapOn sys m.mfs path a with
    | (.ok v, s) => .ok (.mmap (some v), none, { m with mfs := s })
    | (.err e, s) => .ok (.mmap none, some e, { m with mfs := s })
    | (.panic, _) => .panic
    | (.diverge, _) => .diverge

/-- `Bytes()` — /repo/cache/systemvshm.go:108-110, mmap.go:70-72: a method of a nil interface, or one that follows a nil pointer, panics. -/
def CacheValue.bytes (m : Mem) : CacheValue → Res Bytes
  | .nil => .panic
  | .shm none => .panic
  | .mmap none => .panic
  | .shm (some v) => m.view (.shm v)
  | .mmap (some v) => m.view (.mmap v)

/-- `Close()` — /repo/cache/systemvshm.go:112-123, mmap.go:74-83; on Windows both fail (systemvshm_windows.go:23-25, mmap_windows.go:14-16). -/
def CacheValue.close (sys : System) (m : Mem) : CacheValue → Res Mem
  | .nil => .panic
  | .shm none => .panic
  | .mmap none => .panic
  | .shm (some v) => match sys with
    | .unix => m.close (.shm v)
    | .windows => .err "windows do not implement shmdt"
  | .mmap (some v) => match sys with
    | .unix => m.close (.mmap v)
    | .windows => .err "TODO: implement close mmap"

/-- `pttbbs.NewCache` — /repo/pttbbs/cache.go:293-306: the pointer that it returns is nil after an error. -/
def pttNewCache (sys : System) (m : Mem) (conn : Bytes) (s : Layout) (a : Nat) : Res (Option (CacheValue × CachePos) × Option String × Mem) := do
  let (v, e, m1) ← newCacheValue sys m conn a
  match e with
  | some e => .ok (none, some e, m1)
  | none =>
    let p ← caculatePos s
    .ok (some (v, p), none, m1)

end Verif
