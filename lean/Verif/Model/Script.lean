import Verif.Model.Concurrent
/-!
# Clients that decide what to call next from the answers they get

The calls are those of `Verif.Model.Concurrent`. Programs built on the package make them one after the other, and so do the searches of
/repo/bbs.go:519-660.
-/

namespace Verif

/-- What a client will do: stop, or make a call and go on according to its answer. -/
inductive Script where
  | stop
  | make (op : Call) (next : Res Answer → Script)

/-- A client: between two calls, or in the middle of one. -/
inductive Session where
  | idle (s : Script)
  | busy (j : Job) (next : Res Answer → Script)

/-- The disk and the clients. -/
structure House where
  fs : FS
  sessions : Nat → Session

/-- Client `p` becomes `x`. -/
def House.setSession (s : House) (fs : FS) (p : Nat) (x : Session) : House := ⟨fs, fun q => if q = p then x else s.sessions q⟩

/-- Client `p` takes its next step: it begins a call, makes a system call, or gets its answer. -/
def House.step (db : DB) (c : Codec) (s : House) (p n : Nat) : House × List Event :=
  match s.sessions p with
  | .idle .stop => (s, [])
  | .idle (.make op next) => (s.setSession s.fs p (.busy (Job.start db c op) next), [.call p op])
  | .busy (.done r) next => (s.setSession s.fs p (.idle (next r)), [.ret p r])
  | .busy j next =>
    let (fs', j') := j.step db.cwd s.fs n
    (s.setSession fs' p (.busy j' next), [])

/-- A schedule: who moves, and how much a `read` of any size asks for. -/
def House.run (db : DB) (c : Codec) (s : House) : List (Nat × Nat) → House × List Event
  | [] => (s, [])
  | (p, n) :: sched =>
    let (s', es) := s.step db c p n
    let (s'', es') := s'.run db c sched
    (s'', es ++ es')

end Verif
