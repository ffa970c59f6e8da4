import Verif.Model.Removers
import Verif.Spec.Records
/-!
# What is asked of several removals
-/

namespace Verif.Spec

/-- The calls that are started. -/
def startsOf (acts : List RvAct) : List Nat := acts.filterMap fun | .start p _ => some p | _ => none

/-- The records that are appended. -/
def addedBy (acts : List RvAct) : List Bytes := acts.filterMap fun | .append bs => some bs | _ => none

/-- Buffers hold whole records, and whole records are appended. (`io.CopyBuffer` reads into 256 or 32768 bytes.) -/
def WholeSteps (acts : List RvAct) : Prop :=
  ∀ a ∈ acts, (∀ p n, a = .read p n → 256 ∣ n) ∧ ∀ bs, a = .append bs → bs.length = 256

/-- Call `p` has returned. -/
def Returned (s : Removers) (p : Nat) : Prop := ∃ q, s.calls p = some q ∧ q.phase = .done

/-- The full claim of C132, for two calls that name different boards: when both have returned, the boards they named
are gone and all others are there, in order. -/
def RemovalsExact : Prop :=
  ∀ (rs : List Bytes), Sized 256 rs → rs.length < 2 ^ 54 → ∀ (i j : Int64), 0 ≤ i.toInt → i.toInt < j.toInt →
    j.toInt < rs.length → ∀ acts, WholeSteps acts → addedBy acts = [] →
    Returned (((Removers.init rs.flatten).run [.start 0 i, .start 1 j]).run acts) 0 →
    Returned (((Removers.init rs.flatten).run [.start 0 i, .start 1 j]).run acts) 1 →
    slots 256 (((Removers.init rs.flatten).run [.start 0 i, .start 1 j]).run acts).file =
      (rs.eraseIdx j.toInt.toNat).eraseIdx i.toInt.toNat

/-- No board is lost that nobody asked to remove. -/
def OthersStay : Prop :=
  ∀ (rs : List Bytes), Sized 256 rs → rs.length < 2 ^ 54 → ∀ (i j : Int64), 0 ≤ i.toInt → i.toInt < j.toInt →
    j.toInt < rs.length → ∀ acts, WholeSteps acts → addedBy acts = [] →
    ∀ (k : Nat) x, rs[k]? = some x → (k : Int) ≠ i.toInt → (k : Int) ≠ j.toInt →
      x ∈ slots 256 (((Removers.init rs.flatten).run [.start 0 i, .start 1 j]).run acts).file

/-- A board whose removal has returned is gone. -/
def NamedGo : Prop :=
  ∀ (rs : List Bytes), Sized 256 rs → rs.Nodup → rs.length < 2 ^ 54 → ∀ (i j : Int64), 0 ≤ i.toInt → i.toInt < j.toInt →
    j.toInt < rs.length → ∀ acts, WholeSteps acts → addedBy acts = [] →
    Returned (((Removers.init rs.flatten).run [.start 0 i, .start 1 j]).run acts) 1 →
    ∀ x, rs[j.toInt.toNat]? = some x →
      x ∉ slots 256 (((Removers.init rs.flatten).run [.start 0 i, .start 1 j]).run acts).file

/-- No blank board appears. -/
def NoneBlank : Prop :=
  ∀ (rs : List Bytes), Sized 256 rs → zeros 256 ∉ rs → rs.length < 2 ^ 54 → ∀ acts, WholeSteps acts → addedBy acts = [] →
    (∀ a ∈ acts, ∀ p i, a = .start p i → 0 ≤ i.toInt ∧ i.toInt + (startsOf acts).length ≤ rs.length) →
    zeros 256 ∉ slots 256 ((Removers.init rs.flatten).run acts).file

/-- One thing after another: a removal from start to end, with nothing in between, or an append. -/
inductive Turned where
  | remove (p : Nat) (index : Int64) (acts : List RvAct)
  | add (bs : Bytes)

/-- Its system calls. -/
def Turned.acts : Turned → List RvAct
  | .remove p index acts => .start p index :: acts
  | .add bs => [.append bs]

/-- The removals are of boards that exist, return, and are made by the call named; appends are of one record. -/
def InTurn : List Bytes → Removers → List Turned → Prop
  | _, _, [] => True
  | rs, s, .remove p i acts :: ts =>
    s.calls p = none ∧ 0 ≤ i.toInt ∧ i.toInt < rs.length ∧ rs.length ≤ 2 ^ 54 ∧
      (∀ a ∈ acts, (∃ n, a = .read p n) ∨ a = .write p ∨ a = .trunc p) ∧ Returned (s.run (.start p i :: acts)) p ∧
      InTurn (rs.eraseIdx i.toInt.toNat) (s.run (.start p i :: acts)) ts
  | rs, s, .add bs :: ts => bs.length = 256 ∧ InTurn (rs ++ [bs]) (s.run [.append bs]) ts

/-- What the turns should leave. -/
def Turned.leave (rs : List Bytes) : Turned → List Bytes
  | .remove _ i _ => rs.eraseIdx i.toInt.toNat
  | .add bs => rs ++ [bs]

end Verif.Spec
