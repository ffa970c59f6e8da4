import Verif.Go.Buf
/-!
# Contents of one regular file: reads, positioned writes, append, truncate

Environment model (kernel and `os.File`), not code of `/repo`; see DESIGN.md section 1.
-/

namespace Verif

/-- Result of one `file.Read(buf)`: some bytes (at least one), end of file, or another error (with no bytes). -/
inductive ReadRes where
  | data (bs : Bytes)
  | eof
  | fail
  deriving DecidableEq, Repr

/-- The results of successive `Read`s of up to `size` bytes on a regular file with content `d`: read number `k`
starts at offset `size * k` (only the last read can be short). -/
def fileSrc (size : Nat) (d : Bytes) (k : Nat) : ReadRes :=
  if size * k < d.length then .data (slice d (size * k) (size * k + size)) else .eof

/-- `lseek(off)` then `write(bs)` (non-empty `bs`): a gap beyond the end is filled with zero bytes. -/
def writeAt (d : Bytes) (off : Nat) (bs : Bytes) : Bytes :=
  (d ++ zeros (off - d.length)).take off ++ bs ++ d.drop (off + bs.length)

/-- `ftruncate(size)`: cuts, or extends with zero bytes. -/
def truncateTo (d : Bytes) (size : Nat) : Bytes := d.take size ++ zeros (size - d.length)

/-- Open with `O_APPEND|O_CREATE` and write: a missing file (`none`) is created. -/
def appendFile (f : Option Bytes) (bs : Bytes) : Option Bytes := some (f.getD [] ++ bs)

end Verif
