import Verif.Model.Connector
import Verif.Model.Factory
import Verif.Model.ServerMain
import Verif.Model.Tool
/-!
# The command-line tool — /repo/cmd/bbstool/main.go and articles.go

One run of the program: what it prints on standard output, the file system afterwards, and how it ends. Lines that contain the text
of an error keep only where they come from and the errno; the dump of the argument map (main.go:164) is left out, and so is what the
library prints on standard error.
-/

namespace Verif

/-! ## `flag.Parse` (environment, package `flag`, with the two string options of main.go:16-19) -/

/-- The two package variables — /repo/cmd/bbstool/main.go:13-14. -/
structure ToolOptions where
  driver : Bytes
  home : Bytes
  deriving DecidableEq, Repr

/-- Defaults — /repo/cmd/bbstool/main.go:16-19. -/
def ToolOptions.default : ToolOptions := ⟨ascii "pttbbs", ascii "/home/bbs"⟩

inductive FlagResult where
  | parsed (o : ToolOptions) (rest : List Bytes)
  | help
  | bad
  deriving DecidableEq, Repr

/-- Setting an option by name; `none` if there is no such option. -/
def ToolOptions.assign (o : ToolOptions) (name value : Bytes) : Option ToolOptions :=
  if name = ascii "driver" then some { o with driver := value }
  else if name = ascii "bbshome" then some { o with home := value }
  else none

/-- The name and, if there is a `=` behind the first character, the value. -/
def splitFlag : Bytes → Bytes × Option Bytes
  | [] => ([], none)
  | c :: rest =>
    match rest.dropWhile (· ≠ 0x3D) with
    | [] => (c :: rest, none)
    | _ :: v => (c :: rest.takeWhile (· ≠ 0x3D), some v)

/-- `FlagSet.Parse` and `parseOne` of package `flag`. -/
def parseFlags (o : ToolOptions) : List Bytes → FlagResult
  | [] => .parsed o []
  | s :: rest =>
    match s with
    | 0x2D :: c :: cs =>
      if c = 0x2D ∧ cs = [] then .parsed o rest
      else
        let name := if c = 0x2D then cs else c :: cs
        if name.head? = some 0x2D ∨ name.head? = some 0x3D then .bad
        else
          let nv := splitFlag name
          match o.assign nv.1 [] with
          | none => if nv.1 = ascii "help" ∨ nv.1 = ascii "h" then .help else .bad
          | some _ =>
            match nv.2 with
            | some v => parseFlags ((o.assign nv.1 v).getD o) rest
            | none =>
              match rest with
              | [] => .bad
              | v :: rest' => parseFlags ((o.assign nv.1 v).getD o) rest'
    | _ => .parsed o (s :: rest)

/-! ## A run -/

/-- One thing printed. -/
inductive Out where
  | text (b : Bytes)
  | complaint (place : String) (e : String)
  deriving DecidableEq, Repr

inductive Exit where
  | status (n : Nat)
  | crash
  | hang
  deriving DecidableEq, Repr

structure Run where
  out : List Out
  fs : FS
  exit : Exit
  deriving DecidableEq, Repr

/-- Print before the rest of a run. -/
def Run.after (o : List Out) (r : Run) : Run := { r with out := o ++ r.out }

/-- Use a result; on an error print it and return. -/
def orComplain {α : Type} (fs : FS) (place : String) (r : Res α) (k : α → Run) : Run :=
  match r with
  | .ok x => k x
  | .err e => ⟨[.complaint place e], fs, .status 0⟩
  | .panic => ⟨[], fs, .crash⟩
  | .diverge => ⟨[], fs, .hang⟩

def newline : Bytes := [0x0A]

/-- `chkIsDir` — /repo/cmd/bbstool/main.go:68-84. -/
def chkIsDir (fs : FS) (cwd : Path) (dir : Bytes) : Res Unit := do
  let l ← fs.lookup cwd dir
  match fs.get l with
  | none => .err "no such file or directory"
  | some .dir => .ok ()
  | some (.file _) => .err "is not dir"

/-- The drivers registered in this program: /repo/pttbbs/pttbbs.go:16-18 (imported at main.go:10). -/
def toolRegistry : Registry := (Registry.mk (fun _ => none) (fun _ => [])).register (ascii "pttbbs") 0

/-- `bbs.Open(driverName, "file://"+bbshome)`. -/
def toolOpen (cwd : Path) (o : ToolOptions) : Res DB := do
  let (conn, r) ← toolRegistry.openDB o.driver (ascii "file://" ++ o.home)
  .ok ⟨r.home conn, cwd⟩

/-- `openDB` — /repo/cmd/bbstool/main.go:86-99. -/
def openDB (fs : FS) (cwd : Path) (o : ToolOptions) : Res DB := do
  chkIsDir fs cwd o.home
  toolOpen cwd o

/-- What `parseArgsToMap` prints: an option at the very end has no value — /repo/cmd/bbstool/main.go:111-114. -/
def parseArgsNotice (args : List Bytes) (index : Nat) : List Out :=
  if h : index ≥ args.length then []
  else
    let a := args[index]
    if (ascii "--").isPrefixOf a then
      if index + 1 ≥ args.length then [.text (ascii "flag with no args " ++ a ++ newline)]
      else parseArgsNotice args (index + 2)
    else parseArgsNotice args (index + 1)
termination_by args.length - index

/-- `showboardlist` — /repo/cmd/bbstool/main.go:125-147. -/
def showBoardList (c : Codec) (cwd : Path) (fs : FS) (o : ToolOptions) : Run :=
  orComplain fs "showboardlist: error" (chkIsDir fs cwd o.home) fun _ =>
  orComplain fs "showboardlist: open db" (toolOpen cwd o) fun db =>
  orComplain fs "showboardlist: ReadBoardRecords" (db.readBoardRecords c fs) fun records =>
  ⟨records.map (fun r => .text (ascii "title: " ++ r.title ++ newline)), fs, .status 0⟩

/-- The string map as a `map[string]interface{}`. -/
def StrMap.args (m : StrMap) : Args := fun k => (m k).map .str

/-- `addboard` — /repo/cmd/bbstool/main.go:149-178. -/
def addBoard (c : Codec) (cwd : Path) (fs : FS) (o : ToolOptions) (args : List Bytes) : Run :=
  orComplain fs "addboard: error" (chkIsDir fs cwd o.home) fun _ =>
  orComplain fs "addboard: open db" (toolOpen cwd o) fun db =>
  Run.after (parseArgsNotice args 1) <|
  orComplain fs "addboard: NewBoardRecord" (newBoardRecord (parseArgsToMap args).args) fun newRecord =>
  orComplain fs "addboard: AddBoardRecordFileRecord" (db.addBoardRecord c fs newRecord) fun fs' =>
  ⟨[], fs', .status 0⟩

/-- `showuserlist` — /repo/cmd/bbstool/main.go:180-206. -/
def showUserList (c : Codec) (cwd : Path) (fs : FS) (o : ToolOptions) : Run :=
  orComplain fs "showuserlist: error" (chkIsDir fs cwd o.home) fun _ =>
  orComplain fs "showuserlist: open db" (toolOpen cwd o) fun db =>
  orComplain fs "showuserlist: ReadUserRecords" (db.readUserRecords c fs) fun records =>
  ⟨(records.filter (fun r => r.userID ≠ [])).map (fun r => .text (ascii "user id: " ++ r.userID ++ newline)), fs, .status 0⟩

/-- `args[key].(string)` without the second result: panics if there is no string. -/
def StrMap.must (m : StrMap) (key : Bytes) : Res Bytes :=
  match m key with
  | some s => .ok s
  | none => .panic

/-- `showuserarticlelist` — /repo/cmd/bbstool/main.go:208-236. -/
def showUserArticleList (c : Codec) (cwd : Path) (fs : FS) (o : ToolOptions) (args : List Bytes) : Run :=
  orComplain fs "showuserarticlelist: error" (chkIsDir fs cwd o.home) fun _ =>
  orComplain fs "showuserarticlelist: open db" (toolOpen cwd o) fun db =>
  Run.after (parseArgsNotice args 1) <|
  orComplain fs "" ((parseArgsToMap args).must (ascii "user_id")) fun user =>
  orComplain fs "showuserarticlelist: GetUserArticleRecordFile" (db.userArticles c fs user) fun records =>
  ⟨records.map (fun r => .text (ascii "titlex: " ++ r.title ++ newline)), fs, .status 0⟩

/-- `userCommentRecord.String` — /repo/user_comment_record.go:81-83. -/
def UserComment.string (r : UserComment) : Bytes :=
  ascii "order: " ++ dec r.order.toNat ++ ascii ", owner: " ++ r.owner ++ ascii ", time: " ++ timeFormat layoutComment r.time

/-- `showusercommentlist` — /repo/cmd/bbstool/main.go:238-263. -/
def showUserCommentList (c : Codec) (cwd : Path) (fs : FS) (o : ToolOptions) (args : List Bytes) : Run :=
  orComplain fs "showusercommentlist: error" (chkIsDir fs cwd o.home) fun _ =>
  orComplain fs "showusercommentlist: open db" (toolOpen cwd o) fun db =>
  Run.after (parseArgsNotice args 1) <|
  orComplain fs "" ((parseArgsToMap args).must (ascii "user_id")) fun user =>
  orComplain fs "showusercommentlist: GetUserCommentRecordFile" (db.userComments c fs user) fun records =>
  ⟨records.map (fun r => .text (ascii "user comment record: " ++ r.string ++ newline)), fs, .status 0⟩

/-- `% 12s`: padded with blanks on the left to 12 runes. -/
def padLeft12 (s : Bytes) : Bytes := List.replicate (12 - (runes s).length) 0x20 ++ s

/-- One line of the article list — /repo/cmd/bbstool/articles.go:32. -/
def articleLine (r : FileHeader) : Bytes :=
  r.filename ++ [0x20] ++ padLeft12 r.owner ++ [0x20] ++ r.date ++ [0x20] ++ r.title ++ newline

/-- `v, ok := inputArgs[key].(string)`, `if !ok { Println(…); return }`. -/
def orAsk (fs : FS) (m : StrMap) (key : Bytes) (msg : Bytes) (k : Bytes → Run) : Run :=
  match m key with
  | some s => k s
  | none => ⟨[.text (msg ++ newline)], fs, .status 0⟩

/-- `db, err := openDB(); if err != nil { Println(…) }` and then on: `db` is nil after an error — articles.go:12-15, 37-40, 104-107. -/
def withDB (fs : FS) (cwd : Path) (o : ToolOptions) (k : Option DB → Run) : Run :=
  match openDB fs cwd o with
  | .ok db => k (some db)
  | .err e => Run.after [.complaint "openDB:" e] (k none)
  | .panic => ⟨[], fs, .crash⟩
  | .diverge => ⟨[], fs, .hang⟩

/-- A method call on a `*bbs.DB` that uses `db.connector`: panics on nil. -/
def onDB {α : Type} (db : Option DB) (f : DB → Res α) : Res α :=
  match db with
  | some db => f db
  | none => .panic

/-- `showBoardArticleList` — /repo/cmd/bbstool/articles.go:11-34: the error of line 26 is not looked at. -/
def showBoardArticleList (c : Codec) (cwd : Path) (fs : FS) (o : ToolOptions) (args : List Bytes) : Run :=
  withDB fs cwd o fun db =>
  Run.after (parseArgsNotice args 1) <|
  orAsk fs (parseArgsToMap args) (ascii "board") (ascii "please provide board argument") fun board =>
  orComplain fs "" (loaded (onDB db fun db => db.readArticleRecords c fs board)) fun records =>
  ⟨(records.filter (fun r => r.filename ≠ [])).map (fun r => .text (articleLine r)), fs, .status 0⟩

/-- The text to post — /repo/cmd/bbstool/articles.go:66-84. -/
def articleText (fs : FS) (cwd : Path) (m : StrMap) : Res Bytes :=
  match m (ascii "content") with
  | some content => .ok content
  | none => fs.readFile cwd ((m (ascii "content_file")).getD [])

/-- `addBoardArticle` — /repo/cmd/bbstool/articles.go:36-101. Without `content` and `content_file` it complains and goes on, to read a
file without name. -/
def addBoardArticle (c : Codec) (cwd : Path) (fs : FS) (o : ToolOptions) (args : List Bytes) (draw : Nat → Int × Fin 4096)
    (fuel : Nat) : Run :=
  let m := parseArgsToMap args
  withDB fs cwd o fun db =>
  Run.after (parseArgsNotice args 1) <|
  orAsk fs m (ascii "board") (ascii "please provide board argument") fun board =>
  orAsk fs m (ascii "owner") (ascii "please provide owner argument") fun owner =>
  orAsk fs m (ascii "date") (ascii "please provide date argument") fun date =>
  orAsk fs m (ascii "title") (ascii "please provide title argument") fun title =>
  Run.after (if (m (ascii "content")).isNone ∧ (m (ascii "content_file")).isNone then
    [.text (ascii "please provide content or content_file" ++ newline)] else []) <|
  orComplain fs "readfile error:" (articleText fs cwd m) fun content =>
  orComplain fs "show_article_list: NewArticleRecord: "
    (onDB db fun db => db.createArticleRecord fs board owner date title draw fuel) fun (record, fs1) =>
  orComplain fs1 "AddArticleRecordFileRecord error:" (onDB db fun db => db.addArticleRecord c fs1 board record) fun fs2 =>
  orComplain fs2 "WriteBoardArticleFile error: "
    (onDB db fun db => db.writeBoardArticleFile fs2 board record.filename (c.enc content)) fun fs3 =>
  ⟨[.text (ascii "new filename: " ++ record.filename ++ newline)], fs3, .status 0⟩

/-- `showBoardArticle` — /repo/cmd/bbstool/articles.go:103-130. -/
def showBoardArticle (c : Codec) (cwd : Path) (fs : FS) (o : ToolOptions) (args : List Bytes) : Run :=
  let m := parseArgsToMap args
  withDB fs cwd o fun db =>
  Run.after (parseArgsNotice args 1) <|
  orAsk fs m (ascii "board") (ascii "please provide board argument") fun board =>
  orAsk fs m (ascii "filename") (ascii "please provide filename argument") fun filename =>
  orComplain fs "ReadrBoardArticleFile error: %w" (onDB db fun db => db.readBoardArticleFile fs board filename) fun data =>
  ⟨[.text (ascii "filecontent: " ++ newline ++ c.dec data ++ newline)], fs, .status 0⟩

/-- `%v` of a `[]string`. -/
def showStrings (l : List Bytes) : Bytes := ascii "[" ++ (List.intersperse [0x20] l).flatten ++ ascii "]"

/-- The first three lines — /repo/cmd/bbstool/main.go:24-26. -/
def toolBanner (o : ToolOptions) (args : List Bytes) : List Out :=
  [.text (ascii "driver name: " ++ o.driver ++ newline), .text (ascii "bbshome: " ++ o.home ++ newline),
   .text (ascii "args: " ++ showStrings args ++ newline)]

/-- The subcommand — /repo/cmd/bbstool/main.go:28-64. `flag.Arg(0)` is empty if there is none. -/
def toolCommand (c : Codec) (cwd : Path) (fs : FS) (o : ToolOptions) (args : List Bytes) (draw : Nat → Int × Fin 4096) (fuel : Nat) :
    Run :=
  let cmd := args.headD []
  if cmd = ascii "show_board_list" then showBoardList c cwd fs o
  else if cmd = ascii "add_board" then addBoard c cwd fs o args
  else if cmd = ascii "show_user_list" then showUserList c cwd fs o
  else if cmd = ascii "show_user_article_list" then showUserArticleList c cwd fs o args
  else if cmd = ascii "show_user_comment_list" then showUserCommentList c cwd fs o args
  else if cmd = ascii "show_board_article_list" then showBoardArticleList c cwd fs o args
  else if cmd = ascii "add_board_article" then addBoardArticle c cwd fs o args draw fuel
  else if cmd = ascii "show_board_article" then showBoardArticle c cwd fs o args
  else ⟨[.text (ascii "unknown subcommand: " ++ cmd ++ newline)], fs, .status 0⟩

/-- `main` — /repo/cmd/bbstool/main.go:21-66, for the command line `argv` (without the program name). `flag.Parse` ends the program
with status 2 after a wrong option and with status 0 after `-help` (Go 1.15 and later). -/
def toolMain (c : Codec) (cwd : Path) (fs : FS) (argv : List Bytes) (draw : Nat → Int × Fin 4096) (fuel : Nat) : Run :=
  match parseFlags .default argv with
  | .help => ⟨[], fs, .status 0⟩
  | .bad => ⟨[], fs, .status 2⟩
  | .parsed o args => Run.after (toolBanner o args) (toolCommand c cwd fs o args draw fuel)

end Verif
