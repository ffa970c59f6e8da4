import Verif.Model.Script
import Verif.Spec.Concurrent
/-!
# Races between the calls of clients, judged one call at a time
-/

namespace Verif.Spec
open Verif

/-- How far a client of the ideal database has got: it will go on with a script, it waits for a call, or it has been answered but not told. -/
inductive Turn where
  | idle (s : Script)
  | called (op : Call) (next : Res Answer → Script)
  | decided (r : Res Answer) (next : Res Answer → Script)

/-- The ideal database (C103) and its clients. -/
structure Atomic where
  hold : Holding
  turn : Nat → Turn

/-- Client `p` gets to `x`. -/
def Atomic.setTurn (s : Atomic) (m : Holding) (p : Nat) (x : Turn) : Atomic := ⟨m, fun q => if q = p then x else s.turn q⟩

/-- The ideal database carries out each call at one moment between the call and its answer. -/
inductive Atomic.Move (c : Codec) : Atomic → Mark → Atomic → Prop where
  | call {s : Atomic} {p : Nat} {op : Call} {next : Res Answer → Script} (h : s.turn p = .idle (.make op next)) :
    Move c s (.event (.call p op)) (s.setTurn s.hold p (.called op next))
  | point {s : Atomic} {p : Nat} {op : Call} {next : Res Answer → Script} (h : s.turn p = .called op next) :
    Move c s (.point p) (s.setTurn (intended c s.hold op).1 p (.decided (intended c s.hold op).2 next))
  | ret {s : Atomic} {p : Nat} {r : Res Answer} {next : Res Answer → Script} (h : s.turn p = .decided r next) :
    Move c s (.event (.ret p r)) (s.setTurn s.hold p (.idle (next r)))

/-- A run of the ideal database. -/
inductive Atomic.Run (c : Codec) : Atomic → List Mark → Atomic → Prop where
  | nil {s : Atomic} : Run c s [] s
  | cons {s t u : Atomic} {x : Mark} {xs : List Mark} (h : Move c s x t) (hs : Run c t xs u) : Run c s (x :: xs) u

/-- Everybody before the first call. -/
def Atomic.start (m : Holding) (script : Nat → Script) : Atomic := ⟨m, fun p => .idle (script p)⟩

/-- The states that the ideal database can get to. -/
def Reached (c : Codec) (m : Holding) (script : Nat → Script) (s : Atomic) : Prop := ∃ marks, Atomic.Run c (Atomic.start m script) marks s

/-- A call that does not look at what an article holds, only at whether it exists. -/
def Blind : Call → Prop
  | .createArticle .. => True
  | .writeArticle .. => True
  | .appendArticle .. => True
  | _ => False

/-- The call `op` overwrites. -/
def Overwrites : Call → Prop
  | .writeArticle .. => True
  | _ => False

/-- While the objects hold `m`, the call `op` does not disturb the call `op'`: what `op` changes and `op'` touches is only added to and may be
shared, or is an article that exists and `op'` does not look into. -/
def Undisturbed (m : Holding) (op op' : Call) : Prop :=
  ∀ o, changes op o → touches op' o → (Shared o (m o) ∧ ¬ Overwrites op) ∨ (Blind op' ∧ m o ≠ none)

/-- In no execution that carries out one call at a time do two calls that disturb each other wait at the same time. -/
def RaceFree (c : Codec) (m : Holding) (script : Nat → Script) : Prop :=
  ∀ s, Reached c m script s → ∀ p q op op' next next', p ≠ q → s.turn p = .called op next → s.turn q = .called op' next' →
    Undisturbed s.hold op op'

/-- In no such execution is a call made on an object without a place. -/
def AllPlaced (db : DB) (c : Codec) (fs : FS) (script : Nat → Script) : Prop :=
  ∀ s, Reached c (holdings db fs) script s → ∀ p op next, s.turn p = .called op next → ∀ o, touches op o → Placed db fs o

/-- A script that does not look at the answers. -/
def always : List Call → Script
  | [] => .stop
  | op :: ops => .make op fun _ => always ops

/-- All the clients before they have done anything. -/
def opening (fs : FS) (script : Nat → Script) : House := ⟨fs, fun p => .idle (script p)⟩

end Verif.Spec
