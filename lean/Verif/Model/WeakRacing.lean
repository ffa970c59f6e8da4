import Verif.Model.Racing
/-!
# The same on a machine whose goroutines see one another's stores late

Goroutines that do not synchronise may load a word that was stored long ago (the Go memory model asks only that a word that is loaded was stored there by
somebody, and not later). Nothing in /repo synchronises: no lock, no channel, no atomic operation. Simplifications: the map of the drivers is seen by all at
once, as in `Verif.Model.Racing`; a goroutine may miss its own stores too, which no machine does.
-/

namespace Verif

/-- The strings that the connectors have now, and those that they had before, the last one first. -/
structure WeakState where
  now : RaceState
  past : Nat → List GoString

/-- One word of the string that a connector had `age` stores ago. -/
def WeakState.word (s : WeakState) (conn : Nat) (addr : Bool) (age : Nat) : Nat :=
  let h := (s.now.homes conn :: s.past conn).getD age (s.now.homes conn)
  if addr then h.addr else h.len

/-- One step of goroutine `g`; a word that it loads is `age` stores old. The string of the connector is stored by `Connector.Open`
(/repo/pttbbs/pttbbs.go:23-33) and loaded by its methods (pttbbs.go:35-37, 48-54, 100-102, 113-115, 131-141). -/
def WeakState.step (mem : Nat → UInt8) (s : WeakState) (g : Nat) (first : Bool) (age : Nat) : WeakState × List RaceEvent :=
  if s.now.dead then (s, []) else
  match s.now.pc g with
  | .load k => ({ s with now := s.now.goto g (.loadLast k first (s.word k first age)) }, [])
  | .loadLast k addr w =>
    ({ s with now := s.now.goto g .idle }, [.got g k (if addr then ⟨w, s.word k false age⟩ else ⟨s.word k true age, w⟩)])
  | _ =>
    let r := s.now.step mem g first
    (⟨r.1, fun k => if r.1.homes k = s.now.homes k then s.past k else s.now.homes k :: s.past k⟩, r.2)

def WeakState.run (mem : Nat → UInt8) (s : WeakState) : List (Nat × Bool × Nat) → WeakState × List RaceEvent
  | [] => (s, [])
  | (g, first, age) :: sched =>
    let (s', es) := s.step mem g first age
    let (s'', es') := s'.run mem sched
    (s'', es ++ es')

end Verif
