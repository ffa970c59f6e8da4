import Verif.Spec.Outage
import Verif.Model.PowerLoss
/-!
# What must be there after the power has failed
-/

namespace Verif.Spec
open Verif

/-- Whatever the power leaves while clients post in the manner `how`, read and comment: what was finished is there afterwards. -/
def PostsEndure (how : Post → Script) : Prop :=
  ∀ db c fs posts script, Scene how db c fs posts script → ∀ sched D, (opening fs script).PowerLoss db c sched D →
    ∃ n, Recovered db c fs posts
      (fun p => ((opening fs script).run db c sched).1.sessions p = .idle .stop ∧ .ret p .diverge ∉ ((opening fs script).run db c sched).2) n D

/-- The same when no call is under way, and whenever the lists are as they were: every post that is in a list has its whole text. -/
def ListedEndure (how : Post → Script) : Prop :=
  ∀ db c fs posts script, Scene how db c fs posts script → ∀ sched D, (opening fs script).PowerLoss db c sched D →
    (∀ p, ((opening fs script).run db c sched).1.sessions p = .idle .stop) →
    (∀ b, Placed db fs (.articleIndex b) → listed db c D b = listed db c ((opening fs script).run db c sched).1.fs b) →
    Recovered db c fs posts (fun p => .ret p .diverge ∉ ((opening fs script).run db c sched).2) 0 D

/-- What does endure: every list begins with its old records and the records of some posts, whole and in some order, with new names of their own, and some
records begun behind them; every article that was there has its text, and perhaps more. -/
def Endured (db : DB) (c : Codec) (fs : FS) (posts : Nat → Option Post) (D : FS) : Prop :=
  (∀ b, Placed db fs (.articleIndex b) → ∃ (order : List Nat) (name : Nat → Bytes) (begun : List FileHeader), order.Nodup ∧
    (∀ p ∈ order, ∃ P, posts p = some P ∧ (storedArticle c (P.record (name p))).filename = name p ∧ holdings db fs (.article P.board (name p)) = none ∧
      ∀ q ∈ order, ∀ Q, posts q = some Q → p ≠ q → P.board = Q.board → name p ≠ name q) ∧
    listed db c D b = .ok (.articles (articlesIn c ((holdings db fs (.articleIndex b)).getD []) ++
      order.filterMap (fun p => (posts p).bind fun P => if P.board = b then some (storedArticle c (P.record (name p))) else none) ++ begun))) ∧
  ∀ b f y0, Placed db fs (.article b f) → holdings db fs (.article b f) = some y0 → ∃ z, fileAt D (at_ db (.article b f)) = some (y0 ++ z)

/-! ## One client -/

/-- Bytes have been added to a file, perhaps to one that was not there. -/
def AddedTo (a b : Option Node) : Prop := a = b ∨ ∃ d x, (a = some (.file d) ∨ a = none ∧ d = []) ∧ b = some (.file (d ++ x))

/-- The path of a file that the call changes otherwise than by adding to it. -/
def rewrites (db : DB) : Call → Res Bytes
  | .writeArticle b f _ => getBoardArticleFilePath db.home b f
  | .writeDraft u d _ => getUserDraftPath db.home u d
  | .deleteDraft u d => getUserDraftPath db.home u d
  | _ => .err "no file is changed otherwise"

end Verif.Spec
