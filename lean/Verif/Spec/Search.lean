import Verif.Spec.Decent
import Verif.Model.Search
/-!
# Searches while others post and comment
-/

namespace Verif.Spec
open Verif

/-- The answers that client `p` has got. -/
def told (p : Nat) (h : List Event) : List (Res Answer) :=
  h.filterMap fun
    | .ret q r => if q = p then some r else none
    | .call _ _ => none

/-- No call is under way. -/
def Rests (s : House) : Prop := ∀ p, ∃ x, s.sessions p = .idle x

/-- A text that has no unfinished line at its end. -/
def Ended (y : Bytes) : Prop := y = [] ∨ ∃ z, y = z ++ [10]

/-- Among posters and guests, all texts and comments end with a newline. -/
structure Lined (db : DB) (fs : FS) (posts : Nat → Option Post) (script : Nat → Script) : Prop where
  old : ∀ b f y, Placed db fs (.article b f) → holdings db fs (.article b f) = some y → Ended y
  texts : ∀ p P, posts p = some P → Ended P.text
  comments : ∀ p b x, script p = comment b x → Ended x

/-- What a client finds is at least what there was when it began: its result is the list `l`, it made its first call after the database was `s`, and
nothing was under way then. -/
def FoundSince {β : Type} (alone : FS → Res (List β)) (s : House) (r : Res (List β)) : Prop :=
  Rests s → ∀ l, r = .ok l → ∃ l0, alone s.fs = .ok l0 ∧ l0.Sublist l

/-- What a client has found is at most what there is when nothing is under way in `s`. -/
def FoundUntil {β : Type} (alone : FS → Res (List β)) (s : House) (r : Res (List β)) : Prop :=
  Rests s → ∀ l1, alone s.fs = .ok l1 → ∃ l, r = .ok l ∧ l.Sublist l1

/-- Whenever a client searches while others post and comment, it finds what there was before, and nothing that is not there afterwards. -/
def CommentSearchWorks (K : DB → FS → (Nat → Option Post) → (Nat → Script) → Prop) : Prop :=
  ∀ db c fs posts script, Scene Post.script db c fs posts script → K db fs posts script →
    ∀ user p, script p = (Prog.userComments user).script →
    ∀ s1 s2 s h s' h', (opening fs script).run db c s1 = (s, h) → s.run db c s2 = (s', h') → (∀ op, Event.call p op ∉ h) →
    ∀ r, (Prog.userComments user).after (told p h') = some r →
    FoundSince (fun fs => db.userComments c fs user) s r ∧ FoundUntil (fun fs => db.userComments c fs user) s' r

end Verif.Spec
