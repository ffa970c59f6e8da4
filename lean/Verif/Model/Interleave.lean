import Verif.Model.RecordFile
/-!
# System calls of several processes on one file

The bodies are those of /repo/pttbbs/file.go, board.go, draft.go; `filelock.Lock` and `Unlock`
(/repo/filelock/filelock.go:5-20) do nothing and are no steps. One `read` or `write` call is atomic.
-/

namespace Verif

/-! ## Callers that change the recommendation count of an article -/

/-- A call made by caller `p`, or the append of a record by anyone. -/
inductive RecAct where
  | read (p : Nat) | write (p : Nat) | append (bs : Bytes)
  deriving DecidableEq, Repr

/-- The article list, and the record each caller last read. -/
structure RecState where
  file : Bytes
  seen : Nat → Option FileHeader

/-- One call. Caller `p` works on record number `ix p` and adds `u p` to its count.
* `read`: the part of `OpenFileHeaderFile` (/repo/pttbbs/file.go:104-133) that reads record `ix p`; a list that is too short gives nothing.
* `write`: `AddRecommend` (file.go:85), then `UpdateArticleRecordFileRecord` (/repo/pttbbs/pttbss_append_new_line.go:26-32) and
  `UpdateFileHeaderFileRecord` (file.go:165-197); on an error the list stays as it is.
* `append`: `AppendFileHeaderFileRecord` (file.go:135-163). -/
def RecState.step (c : Codec) (ix : Nat → UInt64) (u : Nat → Int8) (s : RecState) : RecAct → RecState
  | .read p =>
    match openFileHeaderFile c (some s.file) with
    | .ok l => { s with seen := fun q => if q = p then l[(ix p).toNat]? else s.seen q }
    | _ => s
  | .write p =>
    match s.seen p with
    | none => s
    | some h =>
      match updateFileHeader c (some s.file) (ix p) (h.addRecommend (u p)) with
      | .ok d => { s with file := d }
      | _ => s
  | .append bs => { s with file := s.file ++ bs }

/-- A schedule of calls. -/
def RecState.run (c : Codec) (ix : Nat → UInt64) (u : Nat → Int8) (s : RecState) (acts : List RecAct) : RecState :=
  acts.foldl (RecState.step c ix u) s

/-! ## A reader beside writers -/

/-- Where read number `k` starts, when the file holds `hist i` at the time of read number `i`: each read advances the position by the
number of bytes it got, at most `size`. -/
def readPos (size : Nat) (hist : Nat → Bytes) : Nat → Nat
  | 0 => 0
  | k + 1 => readPos size hist k + min size ((hist k).length - readPos size hist k)

/-- The results of the successive reads of a file that changes meanwhile. -/
def histSrc (size : Nat) (hist : Nat → Bytes) (k : Nat) : ReadRes :=
  if readPos size hist k < (hist k).length then
    .data (slice (hist k) (readPos size hist k) (readPos size hist k + size))
  else .eof

/-- `OpenFileHeaderFile` (/repo/pttbbs/file.go:104-133) on a file that changes meanwhile. -/
def openFileHeaderWhile (c : Codec) (hist : Nat → Bytes) (fuel : Nat) : Res (List FileHeader) :=
  readLoop 128 (FileHeader.unmarshal c) (histSrc 128 hist) fuel 0

/-- `OpenBoardHeaderFile` (/repo/pttbbs/board.go:171-199) on a file that changes meanwhile. -/
def openBoardHeaderWhile (c : Codec) (hist : Nat → Bytes) (fuel : Nat) : Res (List BoardHeader) :=
  readLoop 256 (BoardHeader.unmarshal c) (histSrc 256 hist) fuel 0

/-! ## Writers of one draft -/

/-- A call of process `p` inside `ioutil.WriteFile` (/repo/pttbbs/draft.go:19-21): `open` with `O_CREATE|O_TRUNC`, or a `write` that
stores the next `k` bytes of its text. -/
inductive PutAct where
  | trunc (p : Nat) | put (p k : Nat)
  deriving DecidableEq, Repr

/-- The draft file (`none` = missing) and how many bytes each process has written since it opened the file (`none` = not open). -/
structure PutState where
  file : Option Bytes
  pos : Nat → Option Nat

/-- One call; process `p` saves the text `data p`. A `write` stores at least one byte and at most what is left. -/
def PutState.step (data : Nat → Bytes) (s : PutState) : PutAct → Option PutState
  | .trunc p => some { file := some [], pos := fun q => if q = p then some 0 else s.pos q }
  | .put p k =>
    match s.pos p with
    | none => none
    | some a =>
      if 0 < k ∧ a + k ≤ (data p).length then
        some { file := some (writeAt (s.file.getD []) a (slice (data p) a (a + k))),
               pos := fun q => if q = p then some (a + k) else s.pos q }
      else none

/-- A run of calls. -/
def PutState.run (data : Nat → Bytes) (s : PutState) : List PutAct → Option PutState
  | [] => some s
  | a :: as => match s.step data a with
    | none => none
    | some s' => s'.run data as

end Verif
