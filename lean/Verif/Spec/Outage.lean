import Verif.Spec.Decent
import Verif.Model.Outage
/-!
# What must be there when the machine starts again
-/

namespace Verif.Spec
open Verif

/-- What the list of a board is when it is read. -/
def listed (db : DB) (c : Codec) (fs : FS) (b : Bytes) : Res Answer := ((Call.listArticles b).exec db c fs).2

/-- The disk `D` has everything that was finished when the machine stopped, with at most `n` records begun: every list begins with the old records
and one record for every post that is through, in some order; the file of each of these is new, has a name of its own, and starts with its whole
text; nothing that was there is lost. -/
def Recovered (db : DB) (c : Codec) (fs : FS) (posts : Nat → Option Post) (through : Nat → Prop) (n : Nat) (D : FS) : Prop :=
  ∃ (order : List Nat) (name : Nat → Bytes), order.Nodup ∧ (∀ p ∈ order, posts p ≠ none) ∧ (∀ p P, posts p = some P → through p → p ∈ order) ∧
    (∀ b, Placed db fs (.articleIndex b) → ∃ begun : List FileHeader, begun.length ≤ n ∧
      listed db c D b = .ok (.articles (articlesIn c ((holdings db fs (.articleIndex b)).getD []) ++
        order.filterMap (fun p => (posts p).bind fun P => if P.board = b then some (storedArticle c (P.record (name p))) else none) ++ begun))) ∧
    (∀ p ∈ order, ∀ P, posts p = some P → (storedArticle c (P.record (name p))).filename = name p ∧
      holdings db fs (.article P.board (name p)) = none ∧
      (∀ q ∈ order, ∀ Q, posts q = some Q → p ≠ q → P.board = Q.board → name p ≠ name q) ∧
      ∃ z, fileAt D (at_ db (.article P.board (name p))) = some (P.text ++ z)) ∧
    ∀ b f y0, Placed db fs (.article b f) → holdings db fs (.article b f) = some y0 → ∃ z, fileAt D (at_ db (.article b f)) = some (y0 ++ z)

/-- Wherever the machine stops while clients post in the manner `how`, read and comment: what was finished is there afterwards. -/
def PostsSurvive (how : Post → Script) : Prop :=
  ∀ db c fs posts script, Scene how db c fs posts script → ∀ sched cuts,
    Recovered db c fs posts
      (fun p => ((opening fs script).run db c sched).1.sessions p = .idle .stop ∧ .ret p .diverge ∉ ((opening fs script).run db c sched).2)
      cuts.length (((opening fs script).run db c sched).1.outage cuts)

/-- Wherever the machine stops: a comment that was accepted is there afterwards. -/
def CommentsSurvive (how : Post → Script) : Prop :=
  ∀ db c fs posts script, Scene how db c fs posts script → ∀ sched cuts before after p b f x,
    ((opening fs script).run db c sched).2 = before ++ .ret p (.ok .done) :: after → lastCall p before = some (.appendArticle b f x) →
    ∃ u v, fileAt (((opening fs script).run db c sched).1.outage cuts) (at_ db (.article b f)) = some (u ++ x ++ v)

/-- After the stop the clients can go on posting, reading and commenting, under the rules of C118. -/
def StartsAgain (how : Post → Script) (cuts : List (Nat × Nat)) : Prop :=
  ∀ db c fs posts script, Scene how db c fs posts script → Placed db fs .boardList → ∀ sched posts' script',
    (∀ p P, posts' p = some P → script' p = how P ∧ Placed db fs (.articleIndex P.board) ∧
      ∀ j, Placed db fs (.article P.board (DB.articleName (P.draw j).1 (P.draw j).2)) ∧ -2 ^ 63 ≤ (P.draw j).1 ∧ (P.draw j).1 < 2 ^ 63) →
    (∀ p, posts' p = none → Guest (Placed db fs) (script' p)) →
    Scene how db c (((opening fs script).run db c sched).1.outage cuts) posts' script'

/-- One life of the machine: clients post, read and comment until it stops between two system calls. -/
def Life (db : DB) (c : Codec) (fs fs' : FS) : Prop :=
  ∃ posts script, Scene Post.script db c fs posts script ∧ ∃ sched, fs' = ((opening fs script).run db c sched).1.outage []

/-- Any number of lives. -/
inductive Lives (db : DB) (c : Codec) : FS → FS → Prop where
  | none {fs : FS} : Lives db c fs fs
  | more {fs fs' fs'' : FS} (h : Lives db c fs fs') (h' : Life db c fs' fs'') : Lives db c fs fs''

end Verif.Spec
