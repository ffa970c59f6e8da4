import Verif.Model.Handles
/-!
# A process that makes calls, and the garbage collector

`Verif.Model.Handles` leaves out that Go closes a file that nothing refers to any more when the collector finds it. Here the collector runs between
calls: it closes whatever calls that have returned have left open. None of the functions that leave a file open hands it to its caller
(/repo/pttbbs/board.go:171-199, passwd.go:203-231, userinfo.go:140-166, login_recent.go:32-58, bad_logins.go:86-107, formosabbs/file.go:43-71), so
nothing refers to it once they have returned. Simplification: a collection in the middle of a call is the collection before it.
-/

namespace Verif

/-- The files that are open after these events, last one first. -/
def openFiles (t : List Ev) : List Nat :=
  t.foldl (fun fs e => match e.op with
    | .open => if e.out = .ok then e.handle :: fs else fs
    | .close => fs.erase e.handle
    | _ => fs) []

/-- The collector closes the files that are open and were opened since the event `start`. What was opened before belongs to the program. -/
def Sys.collect (start : Nat) : Sys Unit := fun _ t =>
  (some (), t ++ ((openFiles t).filter fun h => decide (start ≤ h)).map fun h => ⟨.close, h, .ok⟩)

/-- What a process does next. -/
inductive Turn where
  | call (m : Sys Bool)
  | collect

/-- One after the other; a call that does not return is the last. -/
def Turn.play (start : Nat) : List Turn → Sys Unit
  | [] => pure ()
  | .call m :: ts => do
    let _ ← m
    play start ts
  | .collect :: ts => do
    Sys.collect start
    play start ts

end Verif
