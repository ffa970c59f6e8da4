import Verif.Spec.Script
import Verif.Props.Articles
import Verif.Model.Search
/-!
# Clients that keep to a few rules
-/

namespace Verif.Spec
open Verif

/-- What a client knows: the articles it has created and nobody has heard of, with their contents; the articles and the boards it has found in
a list. -/
structure Ken where
  own : Bytes → Bytes → Option Bytes
  known : Bytes → Bytes → Prop
  boards : Bytes → Prop

/-- At first a client knows nothing. -/
def Ken.blank : Ken := ⟨fun _ _ => none, fun _ _ => False, fun _ => False⟩

/-- The private article `f` of the board `b` now holds `x`, or is no longer private. -/
def Ken.keep (k : Ken) (b f : Bytes) (x : Option Bytes) : Ken := ⟨fun b' f' => if b' = b ∧ f' = f then x else k.own b' f', k.known, k.boards⟩

/-- The articles of the board `b` that `names` tells are found. -/
def Ken.learn (k : Ken) (b : Bytes) (names : Bytes → Prop) : Ken := ⟨k.own, fun b' f' => k.known b' f' ∨ (b' = b ∧ names f'), k.boards⟩

/-- The boards that `names` tells are found. -/
def Ken.meet (k : Ken) (names : Bytes → Prop) : Ken := ⟨k.own, k.known, fun b => k.boards b ∨ names b⟩

/-- What the client knows after the call `op` was answered with `r`. -/
def Ken.after (c : Codec) (k : Ken) (op : Call) (r : Res Answer) : Ken :=
  match op, r with
  | .createArticle b _ _ _ _ _, .ok (.record x) => k.keep b x.filename (some [])
  | .writeArticle b f x, .ok .done => k.keep b f ((k.own b f).map fun y => x ++ y.drop x.length)
  | .addRecord b x, .ok .done => (k.keep b (storedArticle c x).filename none).learn b (· = (storedArticle c x).filename)
  | .listArticles b, .ok (.articles l) => k.learn b fun f => ∃ x ∈ l, x.filename = f
  | .readBoards, .ok (.boards l) => k.meet fun b => ∃ x ∈ l, x.brdName = b
  | _, _ => k

/-- What is agreed on: the objects with a place, the contents an article may have when it is put into a list, and what may be added to it then. -/
structure Rules where
  c : Codec
  placed : Obj → Prop
  fine : Bytes → Bytes → Bytes → Prop
  adds : Bytes → Prop

/-- The calls that a client knowing `k` may make: it reads and adds to articles it has found in a list, it writes to articles it has created and that
are in no list, it puts finished articles into lists, it adds boards that have a place, and it keeps to its own drafts. -/
def Allowed (R : Rules) (draft : Bytes → Bytes → Prop) (k : Ken) : Call → Prop
  | .readArticle b f => k.known b f
  | .writeArticle b f _ => k.own b f ≠ none
  | .appendArticle b f x => k.known b f ∧ R.adds x
  | .listArticles b => R.placed (.articleIndex b) ∨ k.boards b
  | .addBoard x => R.placed .boardList ∧ R.placed (.articleIndex (storedBoard R.c x).brdName)
  | .addRecord b x => R.placed (.articleIndex b) ∧
    (k.known b (storedArticle R.c x).filename ∨ ∃ y, k.own b (storedArticle R.c x).filename = some y ∧ R.fine b (storedArticle R.c x).filename y)
  | .readDraft u d => R.placed (.draft u d) ∧ draft u d
  | .deleteDraft u d => R.placed (.draft u d) ∧ draft u d
  | .writeDraft u d _ => R.placed (.draft u d) ∧ draft u d
  | op => ∀ o, touches op o → R.placed o

/-- A script that makes only such calls, whatever the ideal database answers. -/
def Decent (R : Rules) (draft : Bytes → Bytes → Prop) : Script → Ken → Prop
  | .stop => fun _ => True
  | .make op next => fun k => Allowed R draft k op ∧ ∀ m, Decent R draft (next (intended R.c m op).2) (k.after R.c op (intended R.c m op).2)

/-- The article can be looked for: it is there, or it will never be. -/
def Settled (R : Rules) (m : Holding) (b f : Bytes) : Prop :=
  R.placed (.article b f) ∧ (m (.article b f) ≠ none ∨ ∀ t n, f ≠ DB.articleName t n)

/-- The records of a list of boards. -/
def boardsIn (c : Codec) (d : Bytes) : List BoardHeader := (slots 256 d).map (BoardHeader.parse c)

/-- A database in good order: lists are made of whole records, there is a list of boards, and the lists name boards that have a place and articles
that are there, or that nobody will create. -/
structure Tidy (R : Rules) (m : Holding) : Prop where
  boards : ∃ d, m .boardList = some d ∧ 256 ∣ d.length ∧ ∀ r ∈ boardsIn R.c d, R.placed (.articleIndex r.brdName)
  lists : ∀ b d, R.placed (.articleIndex b) → m (.articleIndex b) = some d → 128 ∣ d.length
  listed : ∀ b d, R.placed (.articleIndex b) → m (.articleIndex b) = some d → ∀ r ∈ articlesIn R.c d, Settled R m b r.filename

/-- All that is agreed on when clients meet at the database `db` on the disk `fs`. -/
structure Company (db : DB) (fs : FS) (R : Rules) (draft : Nat → Bytes → Bytes → Prop) (script : Nat → Script) : Prop where
  placed : ∀ o, R.placed o → Placed db fs o
  tidy : Tidy R (holdings db fs)
  grows : ∀ b f y x, R.fine b f y → R.adds x → R.fine b f (y ++ x)
  start : ∀ b f y, R.placed (.article b f) → holdings db fs (.article b f) = some y → R.fine b f y
  decent : ∀ p, Decent R (draft p) (script p) Ken.blank
  apart : ∀ p q u d, p ≠ q → draft p u d → ¬ draft q u d

/-- The last call that client `p` made. -/
def lastCall (p : Nat) (h : List Event) : Option Call :=
  h.foldl (fun a e => match e with
    | .call q op => if q = p then some op else a
    | .ret _ _ => a) none

/-! ## Posting an article -/

/-- An article to be posted: where, by whom, when, under what title, and its text; and what the clock and the dice will say. -/
structure Post where
  board : Bytes
  owner : Bytes
  date : Bytes
  title : Bytes
  text : Bytes
  draw : Nat → Int × Fin 4096
  fuel : Nat

/-- The record of the article when its file is called `name`. -/
def Post.record (P : Post) (name : Bytes) : FileHeader := DB.newArticleRecord name P.owner P.date P.title

/-- Third, the article is put into the list. -/
def Post.third (P : Post) (r : FileHeader) : Script := .make (.addRecord P.board r) fun _ => .stop

/-- Second, its text is written. -/
def Post.second (P : Post) (r : FileHeader) : Script :=
  .make (.writeArticle P.board r.filename P.text) fun
    | .ok _ => P.third r
    | _ => .stop

/-- To post an article with the calls of /repo/bbs.go:461-504 such that nobody sees it before it is finished: a file is created for it, its text is
written, it is put into the list. -/
def Post.script (P : Post) : Script :=
  .make (.createArticle P.board P.owner P.date P.title P.draw P.fuel) fun
    | .ok (.record r) => P.second r
    | _ => .stop

/-- How `addBoardArticle` posts an article — /repo/cmd/bbstool/articles.go:82-97: a file is created for it, it is put into the list, its text is
written. -/
def Post.toolScript (P : Post) : Script :=
  .make (.createArticle P.board P.owner P.date P.title P.draw P.fuel) fun
    | .ok (.record r) => .make (.addRecord P.board r) fun
      | .ok _ => .make (.writeArticle P.board r.filename P.text) fun _ => .stop
      | _ => .stop
    | _ => .stop

/-- A script that never puts anything into a list. -/
def Quiet : Script → Prop
  | .stop => True
  | .make op next => (∀ b r, op ≠ .addRecord b r) ∧ ∀ r, Quiet (next r)

/-- Reading articles, one after the other. -/
def readAll (b : Bytes) : List Bytes → Script
  | [] => .stop
  | f :: fs => .make (.readArticle b f) fun _ => readAll b fs

/-- Reading every article in the list of a board. -/
def visit (b : Bytes) : Script :=
  .make (.listArticles b) fun
    | .ok (.articles l) => readAll b (l.map (·.filename))
    | _ => .stop

/-- Adding a comment `x` to the first article in the list of a board. -/
def comment (b x : Bytes) : Script :=
  .make (.listArticles b) fun
    | .ok (.articles (r :: _)) => .make (.appendArticle b r.filename x) fun _ => .stop
    | _ => .stop

/-! ## Posters, readers and commenters -/

/-- A guest does nothing, reads the articles of a board, comments on its first article, or searches all boards for what a user has written. -/
def Guest (placed : Obj → Prop) (s : Script) : Prop :=
  s = .stop ∨ (∃ b, placed (.articleIndex b) ∧ s = visit b) ∨ (∃ b x, placed (.articleIndex b) ∧ s = comment b x) ∨
    ∃ user, placed .boardList ∧ (s = (Prog.userArticles user).script ∨ s = (Prog.userComments user).script)

/-- What is agreed on among posters and guests: an article is put into a list when it is one that was there, or has the whole text of a post. -/
def sceneRules (db : DB) (c : Codec) (fs : FS) (posts : Nat → Option Post) : Rules where
  c := c
  placed := Placed db fs
  fine := fun b f y => (∃ y0, holdings db fs (.article b f) = some y0 ∧ y0 <+: y) ∨ ∃ q P, posts q = some P ∧ P.board = b ∧ P.text <+: y
  adds := fun _ => True

/-- Some clients post articles in the manner `how`, the others are guests. The database is in good order, the boards are there, and the clock is
a 64-bit number of seconds. -/
structure Scene (how : Post → Script) (db : DB) (c : Codec) (fs : FS) (posts : Nat → Option Post) (script : Nat → Script) : Prop where
  tidy : Tidy (sceneRules db c fs posts) (holdings db fs)
  posters : ∀ p P, posts p = some P → script p = how P ∧ Placed db fs (.articleIndex P.board) ∧
    ∀ j, Placed db fs (.article P.board (DB.articleName (P.draw j).1 (P.draw j).2)) ∧ -2 ^ 63 ≤ (P.draw j).1 ∧ (P.draw j).1 < 2 ^ 63
  guests : ∀ p, posts p = none → Guest (Placed db fs) (script p)

/-- Whoever reads an article gets it whole: what it held at first, or the whole text of a post on this board, and perhaps comments. -/
def ReadersSeeWhole (how : Post → Script) : Prop :=
  ∀ db c fs posts script, Scene how db c fs posts script → ∀ sched before after p b f y,
    ((opening fs script).run db c sched).2 = before ++ .ret p (.ok (.bytes y)) :: after → lastCall p before = some (.readArticle b f) →
    match holdings db fs (.article b f) with
    | some y0 => y0 <+: y
    | none => ∃ q P, posts q = some P ∧ P.board = b ∧ P.text <+: y

/-- A comment that was accepted is in the article once no call is under way. -/
def CommentsStay (how : Post → Script) : Prop :=
  ∀ db c fs posts script, Scene how db c fs posts script → ∀ sched before after p b f x,
    ((opening fs script).run db c sched).2 = before ++ .ret p (.ok .done) :: after → lastCall p before = some (.appendArticle b f x) →
    (∀ p, ∃ s, ((opening fs script).run db c sched).1.sessions p = .idle s) →
    ∃ u v, fileAt ((opening fs script).run db c sched).1.fs (at_ db (.article b f)) = some (u ++ x ++ v)

/-- Once no call is under way, the lists have grown by exactly one record for every post that is through, in some order; its file is new, has a name of
its own, and starts with its whole text. Nothing that was there is lost. -/
def PostsArrive (how : Post → Script) : Prop :=
  ∀ db c fs posts script, Scene how db c fs posts script → ∀ sched,
    (∀ p, ∃ s, ((opening fs script).run db c sched).1.sessions p = .idle s) →
    ∃ (order : List Nat) (name : Nat → Bytes), order.Nodup ∧ (∀ p ∈ order, posts p ≠ none) ∧
      (∀ p P, posts p = some P → ((opening fs script).run db c sched).1.sessions p = .idle .stop →
        .ret p .diverge ∉ ((opening fs script).run db c sched).2 → p ∈ order) ∧
      (∀ b, Placed db fs (.articleIndex b) →
        articlesIn c ((fileAt ((opening fs script).run db c sched).1.fs (at_ db (.articleIndex b))).getD []) =
          articlesIn c ((holdings db fs (.articleIndex b)).getD []) ++
          order.filterMap (fun p => (posts p).bind fun P => if P.board = b then some (storedArticle c (P.record (name p))) else none)) ∧
      (∀ p ∈ order, ∀ P, posts p = some P → (storedArticle c (P.record (name p))).filename = name p ∧
        holdings db fs (.article P.board (name p)) = none ∧
        (∀ q ∈ order, ∀ Q, posts q = some Q → p ≠ q → P.board = Q.board → name p ≠ name q) ∧
        ∃ z, fileAt ((opening fs script).run db c sched).1.fs (at_ db (.article P.board (name p))) = some (P.text ++ z)) ∧
      ∀ b f y0, Placed db fs (.article b f) → holdings db fs (.article b f) = some y0 →
        ∃ z, fileAt ((opening fs script).run db c sched).1.fs (at_ db (.article b f)) = some (y0 ++ z)

end Verif.Spec
