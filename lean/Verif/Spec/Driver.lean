import Verif.Model.Driver
/-!
# What a driver is asked
-/

namespace Verif.Spec
open Verif

/-- The methods of a driver. -/
inductive Meth where
  | usersPath | readUsers | favouritesPath | readFavourites | boardsPath | readBoards | articlesPath | treasuresPath | readArticles
  | articlePath | treasurePath | readArticle | newBoard | addBoard | createFilename | newArticle | addArticle | writeArticle | appendArticle
  | keptArticlesPath | readKeptArticles | keptCommentsPath | readKeptComments | draftPath | readDraft | deleteDraft | writeDraft
  deriving DecidableEq

/-- The methods that put something on the disk or take it off. -/
def Meth.changes : Meth → Bool
  | .addBoard | .createFilename | .addArticle | .writeArticle | .appendArticle | .deleteDraft | .writeDraft => true
  | _ => false

/-- The methods that are told a file name, and who makes it. -/
def Meth.namedBy : Meth → List Meth
  | .readUsers => [.usersPath]
  | .readFavourites => [.favouritesPath]
  | .readBoards | .addBoard => [.boardsPath]
  | .readArticles => [.articlesPath, .treasuresPath]
  | .addArticle => [.articlesPath]
  | .readArticle => [.articlePath, .treasurePath]
  | .writeArticle | .appendArticle => [.articlePath]
  | .readKeptArticles => [.keptArticlesPath]
  | .readKeptComments => [.keptCommentsPath]
  | .readDraft | .deleteDraft | .writeDraft => [.draftPath]
  | _ => []

/-- One method that was asked: what it was told, how it ended, and the path it gave if it is one that makes paths. -/
structure Asked where
  what : Meth
  told : List Bytes
  path : Option Bytes
  ended : Res Unit

/-- How something ended. -/
def outcome {α : Type} : Res α → Res Unit
  | .ok _ => .ok ()
  | .err e => .err e
  | .panic => .panic
  | .diverge => .diverge

/-- The method, written down. -/
def noted {σ α : Type} (what : Meth) (told : List Bytes) (path : α → Option Bytes) (m : Method σ α) : Method (σ × List Asked) α := fun x =>
  let y := m x.1
  ((y.1, x.2 ++ [⟨what, told, match y.2 with | .ok a => path a | _ => none, outcome y.2⟩]), y.2)

/-- The same driver, and everything it is asked is written down. -/
def taped {σ : Type} {K : Kinds} (d : Driver σ K) : Driver (σ × List Asked) K where
  usersPath := noted .usersPath [] some d.usersPath
  readUsers p := noted .readUsers [p] (fun _ => none) (d.readUsers p)
  favouritesPath u := noted .favouritesPath [u] some (d.favouritesPath u)
  readFavourites p := noted .readFavourites [p] (fun _ => none) (d.readFavourites p)
  boardsPath := noted .boardsPath [] some d.boardsPath
  readBoards p := noted .readBoards [p] (fun _ => none) (d.readBoards p)
  articlesPath b := noted .articlesPath [b] some (d.articlesPath b)
  treasuresPath b ds := noted .treasuresPath (b :: ds) some (d.treasuresPath b ds)
  readArticles p := noted .readArticles [p] (fun _ => none) (d.readArticles p)
  articlePath b f := noted .articlePath [b, f] some (d.articlePath b f)
  treasurePath b ds f := noted .treasurePath (b :: f :: ds) some (d.treasurePath b ds f)
  readArticle p := noted .readArticle [p] (fun _ => none) (d.readArticle p)
  boardWriter := d.boardWriter.map fun w => {
    new := fun a => noted .newBoard [] (fun _ => none) (w.new a)
    add := fun p r => noted .addBoard [p] (fun _ => none) (w.add p r) }
  articleWriter := d.articleWriter.map fun w => {
    createFilename := fun b => noted .createFilename [b] (fun _ => none) (w.createFilename b)
    new := fun f o t' t => noted .newArticle [f, o, t', t] (fun _ => none) (w.new f o t' t)
    add := fun p r => noted .addArticle [p] (fun _ => none) (w.add p r)
    write := fun p x => noted .writeArticle [p, x] (fun _ => none) (w.write p x)
    append := fun p x => noted .appendArticle [p, x] (fun _ => none) (w.append p x) }
  articleKeeper := d.articleKeeper.map fun k => {
    path := fun u => noted .keptArticlesPath [u] some (k.path u)
    read := fun p => noted .readKeptArticles [p] (fun _ => none) (k.read p) }
  commentKeeper := d.commentKeeper.map fun k => {
    path := fun u => noted .keptCommentsPath [u] some (k.path u)
    read := fun p => noted .readKeptComments [p] (fun _ => none) (k.read p) }
  drafts := d.drafts.map fun w => {
    path := fun u n => noted .draftPath [u, n] some (w.path u n)
    read := fun p => noted .readDraft [p] (fun _ => none) (w.read p)
    delete := fun p => noted .deleteDraft [p] (fun _ => none) (w.delete p)
    write := fun p x => noted .writeDraft [p, x] (fun _ => none) (w.write p x) }

/-- Everything the driver was asked during a call, in order. -/
def tape {σ : Type} {K : Kinds} (d : Driver σ K) (op : FrontCall K) (s : σ) : List Asked := ((taped d).call op (s, [])).1.2

/-- Every file name the driver is told is the path it gave right before, by the method that is for it. -/
def OwnPaths (l : List Asked) : Prop :=
  ∀ l1 e l2, l = l1 ++ e :: l2 → e.what.namedBy ≠ [] →
    ∃ l0 e' p, l1 = l0 ++ [e'] ∧ e'.what ∈ e.what.namedBy ∧ e'.ended = .ok () ∧ e'.path = some p ∧ e.told.head? = some p

/-- A method succeeded, or it was to read a list of articles of a board, and its error says that there is none. -/
def Passable {K : Kinds} (op : FrontCall K) (e : Asked) : Prop :=
  e.ended = .ok () ∨ e.what = .readArticles ∧ (∀ b ds, op ≠ .listTreasure b ds) ∧
    ∃ t, e.ended = .err t ∧ ascii "no such file or directory" <:+: ascii t

/-- Nothing is asked after a failure, and the failure is the answer. -/
def StopsAtFailure {K : Kinds} (op : FrontCall K) (l : List Asked) (r : Res (FrontAnswer K)) : Prop :=
  (∀ e ∈ l, Passable op e) ∨ ∃ l' e, l = l' ++ [e] ∧ (∀ e' ∈ l', Passable op e') ∧ ¬ Passable op e ∧ outcome r = e.ended

/-- Full claim: a call that succeeds has had no failing method. -/
def SuccessIsSuccess : Prop :=
  ∀ (σ : Type) (K : Kinds) (d : Driver σ K) (op : FrontCall K) (s s' : σ) (a : FrontAnswer K), d.call op s = (s', .ok a) →
    ∀ e ∈ tape d op s, e.ended = .ok ()

/-- The calls that read. -/
def readsOnly {K : Kinds} : FrontCall K → Bool
  | .addBoard _ | .createArticle .. | .addRecord .. | .writeArticle .. | .appendArticle .. | .deleteDraft .. | .writeDraft .. => false
  | _ => true

/-- The methods of the driver do not panic. -/
structure Calm {σ : Type} {K : Kinds} (d : Driver σ K) : Prop where
  usersPath : ∀ s, (d.usersPath s).2 ≠ .panic
  readUsers : ∀ p s, (d.readUsers p s).2 ≠ .panic
  favouritesPath : ∀ u s, (d.favouritesPath u s).2 ≠ .panic
  readFavourites : ∀ p s, (d.readFavourites p s).2 ≠ .panic
  boardsPath : ∀ s, (d.boardsPath s).2 ≠ .panic
  readBoards : ∀ p s, (d.readBoards p s).2 ≠ .panic
  articlesPath : ∀ b s, (d.articlesPath b s).2 ≠ .panic
  treasuresPath : ∀ b ds s, (d.treasuresPath b ds s).2 ≠ .panic
  readArticles : ∀ p s, (d.readArticles p s).2 ≠ .panic
  articlePath : ∀ b f s, (d.articlePath b f s).2 ≠ .panic
  treasurePath : ∀ b ds f s, (d.treasurePath b ds f s).2 ≠ .panic
  readArticle : ∀ p s, (d.readArticle p s).2 ≠ .panic
  boardWriter : ∀ w, d.boardWriter = some w → (∀ a s, (w.new a s).2 ≠ .panic) ∧ ∀ p r s, (w.add p r s).2 ≠ .panic
  articleWriter : ∀ w, d.articleWriter = some w → (∀ b s, (w.createFilename b s).2 ≠ .panic) ∧ (∀ f o t' t s, (w.new f o t' t s).2 ≠ .panic) ∧
    (∀ p r s, (w.add p r s).2 ≠ .panic) ∧ (∀ p x s, (w.write p x s).2 ≠ .panic) ∧ ∀ p x s, (w.append p x s).2 ≠ .panic
  articleKeeper : ∀ k, d.articleKeeper = some k → (∀ u s, (k.path u s).2 ≠ .panic) ∧ ∀ p s, (k.read p s).2 ≠ .panic
  commentKeeper : ∀ k, d.commentKeeper = some k → (∀ u s, (k.path u s).2 ≠ .panic) ∧ ∀ p s, (k.read p s).2 ≠ .panic
  drafts : ∀ w, d.drafts = some w → (∀ u n s, (w.path u n s).2 ≠ .panic) ∧ (∀ p s, (w.read p s).2 ≠ .panic) ∧
    (∀ p s, (w.delete p s).2 ≠ .panic) ∧ ∀ p x s, (w.write p x s).2 ≠ .panic

/-- Full claim: the database does not crash in front of a driver that does not. -/
def FrontNeverCrashes : Prop :=
  ∀ (σ : Type) (K : Kinds) (d : Driver σ K), Calm d → ∀ (op : FrontCall K) (s : σ), (d.call op s).2 ≠ .panic

/-- What is missing when a call crashes: the interface, or the draft. -/
def Lacks {σ : Type} {K : Kinds} (d : Driver σ K) (s : σ) : FrontCall K → Prop
  | .newBoard _ => d.boardWriter = none
  | .addBoard _ => d.boardWriter = none ∧ ∃ s' p, d.boardsPath s = (s', .ok p)
  | .createArticle .. => d.articleWriter = none
  | .addRecord b _ => d.articleWriter = none ∧ ∃ s' p, d.articlesPath b s = (s', .ok p)
  | .readDraft .. => d.drafts = none
  | .deleteDraft .. => d.drafts = none
  | .writeDraft u n x => d.drafts = none ∨ x = none ∧ ∃ w, d.drafts = some w ∧ ∃ s' p, w.path u n s = (s', .ok p)
  | _ => False

/-- The call of the database in front of `pttbbs` that a `Call` is. -/
def frontCall : Call → FrontCall pttKinds
  | .readUsers => .readUsers
  | .readFavourites u => .readFavourites u
  | .readBoards => .readBoards
  | .listArticles b => .listArticles b
  | .listTreasure b ds => .listTreasure b ds
  | .readArticle b f => .readArticle b f
  | .readTreasure b ds f => .readTreasure b ds f
  | .addBoard r => .addBoard (.own r)
  | .createArticle b o t' t _ _ => .createArticle b o t' t
  | .addRecord b r => .addRecord b (.own r)
  | .writeArticle b f x => .writeArticle b f x
  | .appendArticle b f x => .appendArticle b f x
  | .readDraft u n => .readDraft u n
  | .deleteDraft u n => .deleteDraft u n
  | .writeDraft u n x => .writeDraft u n (some x)

/-- The answer it gets. -/
def frontAnswer : Answer → FrontAnswer pttKinds
  | .done => .done
  | .bytes b => .bytes b
  | .record r => .article (.own r)
  | .users l => .users l
  | .boards l => .boards (l.map .own)
  | .articles l => .articles (l.map .own)
  | .favourites l => .favourites l

/-- The same result in another type. -/
def inFront {α β : Type} (f : α → β) : Res α → Res β
  | .ok a => .ok (f a)
  | .err e => .err e
  | .panic => .panic
  | .diverge => .diverge

/-- The methods that a search uses leave the driver as it is. -/
structure Unmoved {σ : Type} {K : Kinds} (d : Driver σ K) (s : σ) : Prop where
  boardsPath : (d.boardsPath s).1 = s
  readBoards : ∀ p, (d.readBoards p s).1 = s
  articlesPath : ∀ b, (d.articlesPath b s).1 = s
  readArticles : ∀ p, (d.readArticles p s).1 = s
  articlePath : ∀ b f, (d.articlePath b f s).1 = s
  readArticle : ∀ p, (d.readArticle p s).1 = s

/-- The boards a search looks at. -/
def searched {K : Kinds} (bs : List K.Board) : List K.Board := bs.filter fun b => K.boardID b ≠ ascii "ALLPOST"

/-- `l` are the articles of `user`, board after board, as the database lists them. -/
def AllArticles {σ : Type} {K : Kinds} (d : Driver σ K) (s : σ) (user : Bytes) (l : List UserArticle) : Prop :=
  ∃ (bs : List K.Board) (list : Bytes → List K.Article), (d.call .readBoards s).2 = .ok (.boards bs) ∧
    (∀ b ∈ searched bs, (d.call (.listArticles (K.boardID b)) s).2 = .ok (.articles (list (K.boardID b)))) ∧
    l = (searched bs).flatMap fun b => ((list (K.boardID b)).filter fun a => K.owner a = user).map fun a =>
      { board := K.boardID b, title := K.title a, owner := K.owner a, article := K.filename a }

/-- `l` are the comments of `user` in a board, article after article. -/
def BoardComments {σ : Type} {K : Kinds} (d : Driver σ K) (s : σ) (board user : Bytes) (l : List UserComment) : Prop :=
  ∃ (ars : List K.Article) (said : K.Article → List UserComment), (d.call (.listArticles board) s).2 = .ok (.articles ars) ∧
    (∀ a ∈ ars, (d.call (.articleComments board a) s).2 = .ok (.userComments (said a))) ∧
    l = ars.flatMap fun a => (said a).filter fun x => x.owner = user

/-- `l` are the comments of `user`, board after board. -/
def AllComments {σ : Type} {K : Kinds} (d : Driver σ K) (s : σ) (user : Bytes) (l : List UserComment) : Prop :=
  ∃ (bs : List K.Board) (said : Bytes → List UserComment), (d.call .readBoards s).2 = .ok (.boards bs) ∧
    (∀ b ∈ searched bs, BoardComments d s (K.boardID b) user (said (K.boardID b))) ∧
    l = (searched bs).flatMap fun b => said (K.boardID b)

/-- Full claim: a search that succeeds has found the user's articles and comments as they are now. -/
def SearchesFind : Prop :=
  ∀ (σ : Type) (K : Kinds) (d : Driver σ K) (s : σ) (user : Bytes), Unmoved d s →
    (∀ s' l, d.call (.userArticles user) s = (s', .ok (.userArticles l)) → AllArticles d s user l) ∧
    ∀ s' l, d.call (.userComments user) s = (s', .ok (.userComments l)) → AllComments d s user l

end Verif.Spec
