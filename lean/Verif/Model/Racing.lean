import Verif.Model.Connector
/-!
# Goroutines that register drivers, open databases and use them at the same time

All databases of a driver share its connector, whose only field is a string (/repo/pttbbs/pttbbs.go:12-14), and the drivers are in a map of the
package (/repo/bbs.go:270); nothing is locked (`// TODO: Mutex`, bbs.go:273). A Go string is two words, the address of its bytes and their number;
each is stored and loaded by itself. Simplifications: the words that are stored are seen by all at once and in the order of the schedule
(`Verif.Model.WeakRacing` lets loads see older stores); memory that holds strings is neither changed nor reused.
-/

namespace Verif

/-- The two words of a string. -/
structure GoString where
  addr : Nat
  len : Nat
  deriving DecidableEq, Repr

/-- The bytes of a string. -/
def GoString.text (mem : Nat → UInt8) (s : GoString) : Bytes := (List.range s.len).map fun k => mem (s.addr + k)

/-- The string that `Open` stores — /repo/pttbbs/pttbbs.go:23-33: slicing and `strings.Split` give parts of the same memory. -/
def GoString.home (mem : Nat → UInt8) (s : GoString) : GoString :=
  if (ascii "file://").isPrefixOf (s.text mem) then
    ⟨s.addr + 7, (((s.text mem).drop 7).takeWhile (· != 63)).length⟩
  else s

/-- What a goroutine does next: `bbs.Register` (/repo/bbs.go:272-275), `bbs.Open` (bbs.go:278-292), or one of the methods of the connector, each of
which loads the string once (/repo/pttbbs/pttbbs.go:35-37, 48-54, 100-102, 113-115, 131-141). -/
inductive RaceOp where
  | register (name : Bytes) (conn : Nat)
  | open_ (name : Bytes) (dsn : GoString)
  | use (conn : Nat)
  deriving DecidableEq

/-- Where a goroutine is within such a step. -/
inductive RacePc where
  | idle
  | mapStore (name : Bytes) (conn : Nat)
  | mapEnd
  | store (conn : Nat) (h : GoString)
  /-- One word is stored: the address if `addr`, else the length. -/
  | storeLast (conn : Nat) (h : GoString) (addr : Bool)
  | load (conn : Nat)
  /-- One word is loaded: the address if `addr`, else the length. -/
  | loadLast (conn : Nat) (addr : Bool) (w : Nat)
  deriving DecidableEq

inductive RaceEvent where
  /-- `Connector.Open` begins to store. -/
  | began (g conn : Nat) (h : GoString)
  /-- `bbs.Open` returns a database. -/
  | opened (g conn : Nat)
  /-- `bbs.Open` returns an error. -/
  | unknown (g : Nat)
  /-- The string has been loaded. -/
  | got (g conn : Nat) (h : GoString)
  /-- The runtime found two goroutines in the map, one of them writing: `fatal error: concurrent map writes` or `concurrent map read and map
  write`; the program ends. -/
  | fatal
  deriving DecidableEq

structure RaceState where
  drivers : Bytes → Option Nat
  /-- The flag of the map that tells that somebody writes. -/
  writing : Bool
  homes : Nat → GoString
  pc : Nat → RacePc
  todo : Nat → List RaceOp
  dead : Bool

/-- Goroutine `g` goes to `pc`. -/
def RaceState.goto (s : RaceState) (g : Nat) (pc : RacePc) : RaceState := { s with pc := fun i => if i = g then pc else s.pc i }

def RaceState.next (s : RaceState) (g : Nat) (rest : List RaceOp) : RaceState := { s with todo := fun i => if i = g then rest else s.todo i }

def RaceState.crash (s : RaceState) : RaceState × List RaceEvent := ({ s with dead := true }, [.fatal])

/-- Store one word of the string of a connector. -/
def RaceState.putWord (s : RaceState) (conn : Nat) (h : GoString) (addr : Bool) : RaceState :=
  { s with homes := fun i => if i = conn then (if addr then ⟨h.addr, (s.homes i).len⟩ else ⟨(s.homes i).addr, h.len⟩) else s.homes i }

/-- Load one word. -/
def RaceState.word (s : RaceState) (conn : Nat) (addr : Bool) : Nat := if addr then (s.homes conn).addr else (s.homes conn).len

/-- One step of goroutine `g`; `first` tells which word the compiler has stored or loaded first. -/
def RaceState.step (mem : Nat → UInt8) (s : RaceState) (g : Nat) (first : Bool) : RaceState × List RaceEvent :=
  if s.dead then (s, []) else
  match s.pc g with
  | .idle => match s.todo g with
    | [] => (s, [])
    | .register n k :: rest =>
      if s.writing then s.crash else ({ s with writing := true }.next g rest |>.goto g (.mapStore n k), [])
    | .open_ n d :: rest =>
      if s.writing then s.crash else
      match s.drivers n with
      | none => (s.next g rest, [.unknown g])
      | some k => ((s.next g rest).goto g (.store k (d.home mem)), [.began g k (d.home mem)])
    | .use k :: rest => ((s.next g rest).goto g (.load k), [])
  | .mapStore n k => ({ s with drivers := fun m => if m = n then some k else s.drivers m }.goto g .mapEnd, [])
  | .mapEnd => if s.writing then ({ s with writing := false }.goto g .idle, []) else s.crash
  | .store k h => ((s.putWord k h first).goto g (.storeLast k h first), [])
  | .storeLast k h addr => ((s.putWord k h (!addr)).goto g .idle, [.opened g k])
  | .load k => (s.goto g (.loadLast k first (s.word k first)), [])
  | .loadLast k addr w =>
    (s.goto g .idle, [.got g k (if addr then ⟨w, s.word k false⟩ else ⟨s.word k true, w⟩)])

def RaceState.run (mem : Nat → UInt8) (s : RaceState) : List (Nat × Bool) → RaceState × List RaceEvent
  | [] => (s, [])
  | (g, first) :: sched =>
    let (s', es) := s.step mem g first
    let (s'', es') := s'.run mem sched
    (s'', es ++ es')

end Verif
