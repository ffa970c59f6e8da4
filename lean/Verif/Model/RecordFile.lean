import Verif.Go.File
import Verif.Model.FileHeader
import Verif.Model.Board
import Verif.Model.Userec
/-!
# Models of the record-file operations

Readers of /repo/pttbbs/file.go, board.go, passwd.go; append and update of file.go, board.go; in-place removal of
board.go.
-/

namespace Verif

/-! ## Reading -/

/-- The read loop shared by `OpenFileHeaderFile` (/repo/pttbbs/file.go:112-131), `OpenBoardHeaderFile`
(board.go:177-196), `OpenUserecFile` (passwd.go:209-229) and `OpenFormosaBBSFileHeaderFile`
(/repo/formosabbs/file.go:49-67). Each round allocates a zero buffer of `size` bytes and reads into it; the loop
leaves only on `io.EOF` (any other read error is overwritten by the next `:=`) or on a parse error. -/
def readLoop {α : Type} (size : Nat) (parse : Bytes → Res α) (src : Nat → ReadRes) : Nat → Nat → Res (List α)
  | 0, _ => .diverge
  | fuel + 1, k =>
    match src k with
    | .eof => .ok []
    | .fail => do
      let r ← parse (zeros size)
      let rest ← readLoop size parse src fuel (k + 1)
      .ok (r :: rest)
    | .data bs => do
      let r ← parse (padTo size bs)
      let rest ← readLoop size parse src fuel (k + 1)
      .ok (r :: rest)

/-- Open and read a whole regular file (`none` = it does not exist: `os.Open` fails). The number of rounds is
proved sufficient for every content (`readFile_fuel`). -/
def readFile {α : Type} (size : Nat) (parse : Bytes → Res α) : Option Bytes → Res (List α)
  | none => .err "no such file or directory"
  | some d => readLoop size parse (fileSrc size d) (d.length + 1) 0

/-- `OpenFileHeaderFile` — /repo/pttbbs/file.go:104-133. -/
def openFileHeaderFile (c : Codec) (f : Option Bytes) : Res (List FileHeader) := readFile 128 (FileHeader.unmarshal c) f

/-- `OpenBoardHeaderFile` — /repo/pttbbs/board.go:171-199. -/
def openBoardHeaderFile (c : Codec) (f : Option Bytes) : Res (List BoardHeader) :=
  readFile 256 (BoardHeader.unmarshal c) f

/-- `OpenUserecFile` — /repo/pttbbs/passwd.go:203-231. -/
def openUserecFile (c : Codec) (f : Option Bytes) : Res (List Userec) := readFile 512 (Userec.unmarshal c) f

/-! ## Appending and updating -/

/-- `AppendFileHeaderFileRecord` — /repo/pttbbs/file.go:135-163 (the write succeeds; the lock is a no-op,
/repo/filelock/filelock.go:5-7). -/
def appendFileHeader (c : Codec) (f : Option Bytes) (r : FileHeader) : Option Bytes := appendFile f (r.marshal c)

/-- `AppendBoardHeaderFileRecord` — /repo/pttbbs/board.go:200-226. -/
def appendBoardHeader (c : Codec) (f : Option Bytes) (r : BoardHeader) : Option Bytes := appendFile f (r.marshal c)

/-- The offset `int64(index)*128` of file.go:184: `uint` (64-bit) converted to `int64`, then a wrapping product. -/
def updateOffset (index : UInt64) : Int64 := index.toInt64 * 128

/-- `UpdateFileHeaderFileRecord` on the file content, with the marshalled record — /repo/pttbbs/file.go:165-197.
Seeking to a negative offset fails (EINVAL). Simplification: the kernel's maximum file size is not modelled. -/
def updateRecord (f : Option Bytes) (index : UInt64) (rec : Bytes) : Res Bytes :=
  match f with
  | none => .err "no such file or directory"
  | some d =>
    let off := updateOffset index
    if off < 0 then .err "invalid argument" else .ok (writeAt d off.toInt.toNat rec)

/-- `UpdateFileHeaderFileRecord` — /repo/pttbbs/file.go:165-197. -/
def updateFileHeader (c : Codec) (f : Option Bytes) (index : UInt64) (r : FileHeader) : Res Bytes :=
  updateRecord f index (r.marshal c)

/-! ## In-place removal: a machine of system calls -/

/-- Progress of `RemoveBoardHeaderFileRecord`. -/
inductive RmPhase where
  | copying | sawEOF | done
  deriving DecidableEq, Repr

/-- State during `RemoveBoardHeaderFileRecord` (/repo/pttbbs/board.go:228-268): content of the file, position `r`
of `fi`, position `w` of `fo`, and the bytes read but not yet written. -/
structure RmState where
  file : Bytes
  r : Nat
  w : Nat
  buf : Bytes
  phase : RmPhase
  deriving DecidableEq, Repr

/-- System calls that change the state. `read k` reads `k ≥ 1` bytes (any chunk size: `io.CopyBuffer` may use its
256-byte buffer or `(*os.File).ReadFrom`); `put` stores one byte (a write is split into its bytes, so that every
crash point is a state); `eof` is the read that returns 0; `trunc` is `fo.Truncate(size)`; `append` is the write of
a whole record by another process (`AppendBoardHeaderFileRecord`, `O_APPEND`). -/
inductive RmAct where
  | read (k : Nat) | put | eof | trunc | append (bs : Bytes)
  deriving DecidableEq, Repr

/-- One system call; `none` if it cannot happen in this state. -/
def RmState.step (s : RmState) : RmAct → Option RmState
  | .read k =>
    if s.phase = .copying ∧ s.buf = [] ∧ 0 < k ∧ s.r + k ≤ s.file.length then
      some { s with buf := slice s.file s.r (s.r + k), r := s.r + k }
    else none
  | .put =>
    match s.phase, s.buf with
    | .copying, b :: bs => some { s with file := writeAt s.file s.w [b], w := s.w + 1, buf := bs }
    | _, _ => none
  | .eof =>
    if s.phase = .copying ∧ s.buf = [] ∧ s.file.length ≤ s.r then some { s with phase := .sawEOF } else none
  | .trunc =>
    if s.phase = .sawEOF then some { s with file := truncateTo s.file s.w, phase := .done } else none
  | .append bs => some { s with file := s.file ++ bs }

/-- A run of system calls. -/
def RmState.run (s : RmState) : List RmAct → Option RmState
  | [] => some s
  | a :: as => match s.step a with
    | none => none
    | some s' => s'.run as

/-- Start of `RemoveBoardHeaderFileRecord` — /repo/pttbbs/board.go:228-254: both opens succeed, then the two seeks
(`int` arithmetic wraps; a negative offset is EINVAL and the function returns before touching the file). -/
def removeStart (f : Option Bytes) (index : Int64) : Res RmState :=
  match f with
  | none => .err "no such file or directory"
  | some d =>
    let ri := (index + 1) * 256
    let wo := index * 256
    if ri < 0 then .err "fi.Seek error: invalid argument"
    else if wo < 0 then .err "fo.Seek error: invalid argument"
    else .ok { file := d, r := ri.toInt.toNat, w := wo.toInt.toNat, buf := [], phase := .copying }

end Verif

namespace Verif

/-! ## Concurrent appenders -/

/-- Appenders running `AppendFileHeaderFileRecord` / `AppendBoardHeaderFileRecord` on one file: `pc i` counts the
system calls done by process `i` (0 nothing, 1 opened with `O_APPEND|O_CREATE`, 2 record written, 3 closed);
`order` is the order in which the kernel performed the writes. -/
structure ApState where
  file : Option Bytes
  pc : Nat → Nat
  order : List Nat

/-- The next system call of process `i`, whose marshalled record is `data i` — /repo/pttbbs/file.go:135-163,
board.go:200-226. `filelock.Lock/Unlock` (/repo/filelock/filelock.go) do nothing and are not steps. One `O_APPEND`
write is atomic. -/
def ApState.step (data : Nat → Bytes) (s : ApState) (i : Nat) : ApState :=
  if s.pc i = 0 then { s with file := some (s.file.getD []), pc := fun j => if j = i then 1 else s.pc j }
  else if s.pc i = 1 then
    { file := appendFile s.file (data i), pc := fun j => if j = i then 2 else s.pc j, order := s.order ++ [i] }
  else if s.pc i = 2 then { s with pc := fun j => if j = i then 3 else s.pc j }
  else s

/-- A schedule: which process makes the next system call. -/
def ApState.run (data : Nat → Bytes) (s : ApState) (sched : List Nat) : ApState := sched.foldl (ApState.step data) s

/-- Nobody has started. -/
def ApState.start (f : Option Bytes) : ApState := ⟨f, fun _ => 0, []⟩

end Verif
