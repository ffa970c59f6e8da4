import Verif.Model.RecordFile
/-!
# Several calls of `RemoveBoardHeaderFileRecord` on one file

The lock that each call takes (`filelock.Lock`, /repo/filelock/filelock.go:5-7) does nothing, so any number of calls may
be under way, and `AppendBoardHeaderFileRecord` calls between them.
-/

namespace Verif

/-- What one call of `RemoveBoardHeaderFileRecord` (/repo/pttbbs/board.go:228-268) holds: the position `r` of `fi`, the
position `w` of `fo`, what it has read and not yet written, and how far it is. -/
structure Remover where
  r : Nat
  w : Nat
  buf : Bytes
  phase : RmPhase

/-- The board list and the calls that have begun (the number of a call is any name for it). -/
structure Removers where
  file : Bytes
  calls : Nat → Option Remover

/-- System calls, each with the number of the call that makes it. `start p i` is board.go:230-254 with index `i`;
`read p n` reads up to `n` bytes into the copy buffer, `write p` writes what was read (`io.CopyBuffer`, board.go:255;
one `write` is one step); `trunc p` is `fo.Truncate` (board.go:261-266); `append bs` is the write of
`AppendBoardHeaderFileRecord` (board.go:220). -/
inductive RvAct where
  | start (p : Nat) (index : Int64) | read (p : Nat) (n : Nat) | write (p : Nat) | trunc (p : Nat) | append (bs : Bytes)

/-- Replace what call `p` holds. -/
def Removers.put (s : Removers) (p : Nat) (q : Remover) : Removers :=
  { s with calls := fun k => if k = p then some q else s.calls k }

/-- One system call — /repo/pttbbs/board.go:228-268, 220. A system call that its process does not make in this state
changes nothing. A read that returns no bytes is the end of the file, and ends the copy. -/
def Removers.step (s : Removers) : RvAct → Removers
  | .start p index =>
    match s.calls p with
    | some _ => s
    | none =>
      match removeStart (some s.file) index with
      | .ok m => s.put p ⟨m.r, m.w, m.buf, m.phase⟩
      | _ => s
  | .read p n =>
    match s.calls p with
    | some q =>
      if q.phase = .copying ∧ q.buf = [] ∧ 0 < n then
        let got := slice s.file q.r (q.r + n)
        if got = [] then s.put p { q with phase := .sawEOF }
        else s.put p { q with buf := got, r := q.r + got.length }
      else s
    | none => s
  | .write p =>
    match s.calls p with
    | some q =>
      if q.phase = .copying ∧ q.buf ≠ [] then
        Removers.put { s with file := writeAt s.file q.w q.buf } p { q with buf := [], w := q.w + q.buf.length }
      else s
    | none => s
  | .trunc p =>
    match s.calls p with
    | some q =>
      if q.phase = .sawEOF then Removers.put { s with file := truncateTo s.file q.w } p { q with phase := .done } else s
    | none => s
  | .append bs => { s with file := s.file ++ bs }

/-- A run. -/
def Removers.run (s : Removers) (acts : List RvAct) : Removers := acts.foldl Removers.step s

/-- The board list before any call has begun. -/
def Removers.init (d : Bytes) : Removers := ⟨d, fun _ => none⟩

end Verif
