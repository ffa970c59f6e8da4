import Verif.Model.Inodes
import Verif.Spec.Script
/-!
# When it does not matter that files are known by number
-/

namespace Verif.Spec
open Verif

/-- The place of the open file that the next system call of a job reads or writes. -/
def uses : Job → Option Path
  | .read l _ _ _ _ => some l
  | .append l _ _ => some l
  | .put l _ _ => some l
  | _ => none

/-- The next system call of a job removes what is at `l`. -/
def Pulls (cwd : Path) (fs : FS) (j : Job) (l : Path) : Prop :=
  ∃ q k fs', j = .unlink q k ∧ fs.remove cwd q = .ok fs' ∧ fs.lookup cwd q = .ok l

/-- In this run nobody removes what another client has open. -/
def NothingPulled (db : DB) (c : Codec) : House → List (Nat × Nat) → Prop
  | _, [] => True
  | s, (p, n) :: sched =>
    (∀ j next l, s.sessions p = .busy j next → Pulls db.cwd s.fs j l → ∀ q j' next', q ≠ p → s.sessions q = .busy j' next' → uses j' ≠ some l) ∧
    NothingPulled db c (s.step db c p n).1 sched

/-- Every file has one name and a number that was given out, and no file is the root directory. -/
structure Numbered (d : Disk) : Prop where
  low : ∀ l i, d.number l = some i → i < d.next
  one : ∀ l l' i, d.number l = some i → d.number l' = some i → l = l'
  root : d.names.lookup [] = none

/-- The same at every place. -/
def Alike (a b : FS) : Prop := ∀ q, a.get q = b.get q

/-- All the clients before they have done anything. -/
def openingAt (d : Disk) (script : Nat → Script) : Shop := ⟨d, fun p => .idle (script p), fun _ => none⟩

/-- A disk that shows the given things. -/
def diskOf : List (Path × Node) → Disk
  | [] => ⟨[], fun _ => [], 0⟩
  | (l, .dir) :: es => if l = [] then diskOf es else { diskOf es with names := (l, none) :: (diskOf es).names }
  | (l, .file x) :: es => if l = [] then diskOf es else ((diskOf es).create l).write (diskOf es).next x

/-- The file with number `i` has lost its name. -/
def Unnamed (d : Disk) (i : Nat) : Prop := i < d.next ∧ ∀ l, d.number l ≠ some i

/-- The job is reading. -/
def Reads (j : Job) : Prop := ∃ l size got pos k, j = .read l size got pos k

/-- Whoever has the file with number `i` open reads it. -/
def OnlyRead (t : Shop) (i : Nat) : Prop := ∀ q j next, t.sessions q = .busy j next → t.fds q = some i → Reads j ∨ uses j = none

end Verif.Spec
