import Verif.Spec.Search
/-!
# What has been answered
-/

namespace Verif.Spec
open Verif

/-- Whose event it is. -/
def clientOf : Event → Nat
  | .call p _ => p
  | .ret p _ => p

/-- Nothing is heard of client `p`. -/
def Silent (p : Nat) (h : List Event) : Prop := ∀ e ∈ h, clientOf e ≠ p

/-- In the course of `h`, client `p` makes the call `op`, and this call is answered with `r`. -/
def Answered (h : List Event) (p : Nat) (op : Call) (r : Res Answer) : Prop :=
  ∃ before between after, h = before ++ .call p op :: (between ++ .ret p r :: after) ∧ Silent p between

/-- The board `b` is in the list of boards: it was there at first, or a client has been told that it was added, or a client has seen it there. -/
def BoardIn (db : DB) (c : Codec) (fs : FS) (h : List Event) (b : Bytes) : Prop :=
  (∃ x ∈ boardsIn c ((holdings db fs .boardList).getD []), x.brdName = b) ∨
  (∃ q x, Answered h q (.addBoard x) (.ok .done) ∧ (storedBoard c x).brdName = b) ∨
  ∃ q l x, Answered h q .readBoards (.ok (.boards l)) ∧ x ∈ l ∧ x.brdName = b

/-- The article `x` is in the list of the board `b`: it was there at first, or a client has been told that it was added, or a client has seen it
there. -/
def ArticleIn (db : DB) (c : Codec) (fs : FS) (h : List Event) (b : Bytes) (x : FileHeader) : Prop :=
  x ∈ articlesIn c ((holdings db fs (.articleIndex b)).getD []) ∨
  (∃ q y, Answered h q (.addRecord b y) (.ok .done) ∧ x = storedArticle c y) ∨
  ∃ q l, Answered h q (.listArticles b) (.ok (.articles l)) ∧ x ∈ l

end Verif.Spec
