import Verif.Model.FullDisk
/-!
# Several clients on a disk that may be full

`Site.step` and `Site.run` of `Verif.Model.Concurrent` with `Job.stepIn` of `Verif.Model.FullDisk`.
-/

namespace Verif

/-- Client `p` takes its next step; `room` is what there is for its system call, if it makes one. -/
def Site.stepIn (db : DB) (c : Codec) (s : Site) (p n : Nat) (room : Option Nat) : Site × List Event :=
  match s.clients p with
  | ⟨[], none⟩ => (s, [])
  | ⟨op :: rest, none⟩ => (s.setClient s.fs p ⟨rest, some (Job.start db c op)⟩, [.call p op])
  | ⟨todo, some (.done r)⟩ => (s.setClient s.fs p ⟨todo, none⟩, [.ret p r])
  | ⟨todo, some j⟩ =>
    let (fs', j') := j.stepIn db.cwd s.fs n room
    (s.setClient fs' p ⟨todo, some j'⟩, [])

/-- Who moves, how much a `read` of any size asks for, and the room there is. -/
def Site.runIn (db : DB) (c : Codec) (s : Site) : List (Nat × Nat × Option Nat) → Site × List Event
  | [] => (s, [])
  | (p, n, room) :: sched =>
    let (s', es) := s.stepIn db c p n room
    let (s'', es') := s'.runIn db c sched
    (s'', es ++ es')

end Verif
