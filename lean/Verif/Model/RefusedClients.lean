import Verif.Model.Refusal
/-!
# Several clients when the system refuses system calls

`Site.step` and `Site.run` of `Verif.Model.Concurrent` with `Job.stepUnder` of `Verif.Model.Refusal`.
-/

namespace Verif

/-- Client `p` takes its next step; `refusal` is the error with which its system call is refused, if it makes one. -/
def Site.stepUnder (db : DB) (c : Codec) (s : Site) (p n : Nat) (refusal : Option String) : Site × List Event :=
  match s.clients p with
  | ⟨[], none⟩ => (s, [])
  | ⟨op :: rest, none⟩ => (s.setClient s.fs p ⟨rest, some (Job.start db c op)⟩, [.call p op])
  | ⟨todo, some (.done r)⟩ => (s.setClient s.fs p ⟨todo, none⟩, [.ret p r])
  | ⟨todo, some j⟩ =>
    let (fs', j') := j.stepUnder db.cwd s.fs n refusal
    (s.setClient fs' p ⟨todo, some j'⟩, [])

/-- Who moves, how much a `read` of any size asks for, and the refusal. -/
def Site.runUnder (db : DB) (c : Codec) (s : Site) : List (Nat × Nat × Option String) → Site × List Event
  | [] => (s, [])
  | (p, n, refusal) :: sched =>
    let (s', es) := s.stepUnder db c p n refusal
    let (s'', es') := s'.runUnder db c sched
    (s'', es ++ es')

end Verif
