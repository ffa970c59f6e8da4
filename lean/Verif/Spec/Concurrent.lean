import Verif.Model.Concurrent
import Verif.Props.Api
/-!
# Calls of several clients, one at a time
-/

namespace Verif.Spec
open Verif

/-- How far a client has got: nothing to wait for, waiting, or answered by the ideal database but not yet told. -/
inductive Status where
  | idle
  | called (op : Call)
  | decided (r : Res Answer)

/-- What happens in a run of the ideal database: the events that can be seen, and the moments at which it carries out a call. -/
inductive Mark where
  | event (e : Event)
  | point (p : Nat)

/-- The events among the marks. -/
def Mark.seen : Mark → Option Event
  | .event e => some e
  | .point _ => none

/-- The ideal database: what each object holds (C103), and how far the clients have got. -/
structure Ideal where
  hold : Holding
  status : Nat → Status

/-- Client `p` gets to `x`. -/
def Ideal.setStatus (s : Ideal) (m : Holding) (p : Nat) (x : Status) : Ideal := ⟨m, fun q => if q = p then x else s.status q⟩

/-- The ideal database carries out each call at one moment between the call and its answer. -/
inductive Ideal.Move (c : Codec) : Ideal → Mark → Ideal → Prop where
  | call {s : Ideal} {p : Nat} {op : Call} (h : s.status p = .idle) : Move c s (.event (.call p op)) (s.setStatus s.hold p (.called op))
  | point {s : Ideal} {p : Nat} {op : Call} (h : s.status p = .called op) :
    Move c s (.point p) (s.setStatus (intended c s.hold op).1 p (.decided (intended c s.hold op).2))
  | ret {s : Ideal} {p : Nat} {r : Res Answer} (h : s.status p = .decided r) : Move c s (.event (.ret p r)) (s.setStatus s.hold p .idle)

/-- A run of the ideal database. -/
inductive Ideal.Run (c : Codec) : Ideal → List Mark → Ideal → Prop where
  | nil {s : Ideal} : Run c s [] s
  | cons {s t u : Ideal} {x : Mark} {xs : List Mark} (h : Move c s x t) (hs : Run c t xs u) : Run c s (x :: xs) u

/-- The history `h` is one of the ideal database, which held `m` and holds `m'` in the end: each call takes effect at one moment between its
start and its answer. -/
def Linearizable (c : Codec) (m : Holding) (h : List Event) (m' : Holding) : Prop :=
  ∃ marks t, Ideal.Run c ⟨m, fun _ => .idle⟩ marks t ∧ marks.filterMap Mark.seen = h ∧ t.hold = m'

/-- Objects that several clients may add to: articles, lists of articles made of whole records, and a list of boards made of whole records that
is there already. -/
def Shared : Obj → Option Bytes → Prop
  | .article _ _, _ => True
  | .articleIndex _, none => True
  | .articleIndex _, some d => 128 ∣ d.length
  | .boardList, some d => 256 ∣ d.length
  | _, _ => False

/-- All the clients before they have done anything. -/
def fresh (fs : FS) (todo : Nat → List Call) : Site := ⟨fs, fun p => ⟨todo p, none⟩⟩

/-- What the objects hold at first. -/
def holdings (db : DB) (fs : FS) : Holding := fun o => fileAt fs (at_ db o)

/-- Whatever a client changes and another one touches is only added to, and may be shared. -/
def OnlyAdded (db : DB) (fs : FS) (todo : Nat → List Call) : Prop :=
  ∀ p q, p ≠ q → ∀ op ∈ todo p, ∀ op' ∈ todo q, ∀ o, changes op o → touches op' o →
    Shared o (holdings db fs o) ∧ ∀ b f x, op ≠ .writeArticle b f x

/-- Every history of clients making calls of the kind `K` is one of the ideal database. -/
def Linearizes (K : Call → Prop) : Prop :=
  ∀ (db : DB) (c : Codec) (fs : FS) (todo : Nat → List Call) (sched : List (Nat × Nat)),
    (∀ p, ∀ op ∈ todo p, K op ∧ ∀ o, touches op o → Placed db fs o) →
    ∃ m, Linearizable c (holdings db fs) ((fresh fs todo).run db c sched).2 m

end Verif.Spec
