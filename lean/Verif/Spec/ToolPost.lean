import Verif.Spec.Decent
import Verif.Props.Stopped
import Verif.Spec.Outage
/-!
# Articles posted the way the tool does it
-/

namespace Verif.Spec
open Verif

/-- A client that only reads, whatever it is told. -/
def Looker : Script → Prop
  | .stop => True
  | .make op next => onlyReads op ∧ ∀ r, Looker (next r)

/-- The clients that `who` tells do nothing instead. -/
def without (who : Nat → Bool) (script : Nat → Script) : Nat → Script := fun p => if who p then .stop else script p

/-- Whose event it is. -/
def ofClient : Event → Nat
  | .call p _ => p
  | .ret p _ => p

/-- A client that reads lists of articles and adds to articles it has found in one (`k`), whatever it is told. -/
def Remarks (placed : Obj → Prop) : Script → (Bytes → Bytes → Prop) → Prop
  | .stop => fun _ => True
  | .make op next => fun k => match op with
    | .listArticles b => placed (.articleIndex b) ∧
      ∀ r, Remarks placed (next r) fun b' f => k b' f ∨ (b' = b ∧ ∃ l, r = .ok (.articles l) ∧ ∃ x ∈ l, x.filename = f)
    | .appendArticle b f _ => k b f ∧ ∀ r, Remarks placed (next r) k
    | _ => False

/-- Some clients post articles the way the tool does it, some add to articles in lists, and the others read. The lists are made of whole records and
name articles that have a place, the boards are there, and the clock is a 64-bit number of seconds. -/
structure ToolScene (db : DB) (c : Codec) (fs : FS) (posts : Nat → Option Post) (script : Nat → Script) : Prop where
  lists : ∀ b d, Placed db fs (.articleIndex b) → holdings db fs (.articleIndex b) = some d →
    128 ∣ d.length ∧ ∀ r ∈ articlesIn c d, Placed db fs (.article b r.filename)
  posters : ∀ p P, posts p = some P → script p = P.toolScript ∧ Placed db fs (.articleIndex P.board) ∧
    ∀ j, Placed db fs (.article P.board (DB.articleName (P.draw j).1 (P.draw j).2)) ∧ -2 ^ 63 ≤ (P.draw j).1 ∧ (P.draw j).1 < 2 ^ 63
  guests : ∀ p, posts p = none → Looker (script p) ∨ Remarks (Placed db fs) (script p) fun _ _ => False

/-- The article was there at first, or the history tells that its text has been written. -/
def Finished (m : Holding) (h : List Event) (b f : Bytes) : Prop :=
  m (.article b f) ≠ none ∨ ∃ h1 h2 q y, h = h1 ++ .ret q (.ok .done) :: h2 ∧ lastCall q h1 = some (.writeArticle b f y)

/-- Once no call that changes anything is under way: the lists have grown by exactly one record for every post whose client was told so, in some order;
its file is new and has a name of its own; and when the client is through, its file starts with its whole text. Nothing that was there is lost. -/
def ToolPostsArrive (db : DB) (c : Codec) (fs : FS) (posts : Nat → Option Post) (s : House) (h : List Event) : Prop :=
  ∃ (order : List Nat) (name : Nat → Bytes), order.Nodup ∧ (∀ p, p ∈ order ↔ posts p ≠ none ∧ .ret p (.ok .done) ∈ h) ∧
    (∀ p P, posts p = some P → s.sessions p = .idle .stop → .ret p .diverge ∉ h → p ∈ order) ∧
    (∀ b, Placed db fs (.articleIndex b) → articlesIn c ((fileAt s.fs (at_ db (.articleIndex b))).getD []) =
      articlesIn c ((holdings db fs (.articleIndex b)).getD []) ++
      order.filterMap (fun p => (posts p).bind fun P => if P.board = b then some (storedArticle c (P.record (name p))) else none)) ∧
    (∀ p ∈ order, ∀ P, posts p = some P → (storedArticle c (P.record (name p))).filename = name p ∧
      holdings db fs (.article P.board (name p)) = none ∧
      (∀ q ∈ order, ∀ Q, posts q = some Q → p ≠ q → P.board = Q.board → name p ≠ name q) ∧
      ∃ y, fileAt s.fs (at_ db (.article P.board (name p))) = some y ∧ (s.sessions p = .idle .stop → P.text <+: y)) ∧
    ∀ b f y0, Placed db fs (.article b f) → holdings db fs (.article b f) = some y0 →
      ∃ z, fileAt s.fs (at_ db (.article b f)) = some (y0 ++ z)

/-- The same when the machine stops anywhere, with at most `n` writes begun: the lists begin with the old records and one record for every post whose
client was told so; their files are there, and those of the clients that are through start with the whole text. -/
def ToolRecovered (db : DB) (c : Codec) (fs : FS) (posts : Nat → Option Post) (s : House) (h : List Event) (n : Nat) (D : FS) : Prop :=
  ∃ (order : List Nat) (name : Nat → Bytes), order.Nodup ∧ (∀ p ∈ order, posts p ≠ none) ∧
    (∀ p P, posts p = some P → .ret p (.ok .done) ∈ h → p ∈ order) ∧
    (∀ p P, posts p = some P → s.sessions p = .idle .stop → .ret p .diverge ∉ h → p ∈ order) ∧
    (∀ b, Placed db fs (.articleIndex b) → ∃ begun : List FileHeader, begun.length ≤ n ∧
      listed db c D b = .ok (.articles (articlesIn c ((holdings db fs (.articleIndex b)).getD []) ++
        order.filterMap (fun p => (posts p).bind fun P => if P.board = b then some (storedArticle c (P.record (name p))) else none) ++ begun))) ∧
    (∀ p ∈ order, ∀ P, posts p = some P → (storedArticle c (P.record (name p))).filename = name p ∧
      holdings db fs (.article P.board (name p)) = none ∧
      (∀ q ∈ order, ∀ Q, posts q = some Q → p ≠ q → P.board = Q.board → name p ≠ name q) ∧
      ∃ y, fileAt D (at_ db (.article P.board (name p))) = some y ∧ (s.sessions p = .idle .stop → P.text <+: y)) ∧
    ∀ b f y0, Placed db fs (.article b f) → holdings db fs (.article b f) = some y0 → ∃ z, fileAt D (at_ db (.article b f)) = some (y0 ++ z)

/-- One life of the machine: clients post the way the tool does it, comment and read until it stops between two system calls. -/
def ToolLife (db : DB) (c : Codec) (fs fs' : FS) : Prop :=
  ∃ posts script, ToolScene db c fs posts script ∧ ∃ sched, fs' = ((opening fs script).run db c sched).1.outage []

/-- Any number of lives. -/
inductive ToolLives (db : DB) (c : Codec) : FS → FS → Prop where
  | none {fs : FS} : ToolLives db c fs fs
  | more {fs fs' fs'' : FS} (h : ToolLives db c fs fs') (h' : ToolLife db c fs' fs'') : ToolLives db c fs fs''

end Verif.Spec
