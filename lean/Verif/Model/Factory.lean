import Verif.Model.Lists
/-!
# Making records from argument maps

/repo/pttbbs/pttbbs_write_board_connector.go, `NewArticleRecordWithMap` of /repo/pttbbs/pttbbs_write_article_connector.go, and the
board operations of /repo/bbs.go:422-457.
-/

namespace Verif

/-- A value of type `interface{}`: a string, or a value of another type (including nil). -/
inductive ArgVal where
  | str (s : Bytes)
  | other
  deriving DecidableEq, Repr

/-- `map[string]interface{}`. -/
abbrev Args := Bytes → Option ArgVal

/-- `v, ok := args[key].(string)`: `ok` only if the key is present and holds a string. -/
def Args.str (args : Args) (key : Bytes) : Option Bytes :=
  match args key with
  | some (.str s) => some s
  | _ => none

/-- `s, ok := args[key].(string)` followed by `if !ok { return nil, err }`. -/
def Args.need (args : Args) (key : Bytes) (e : String) : Res Bytes :=
  match args.str key with
  | some s => .ok s
  | none => .err e

/-- `NewBoardRecord` — /repo/pttbbs/pttbbs_write_board_connector.go:9-26, /repo/bbs.go:422-424. -/
def newBoardRecord (args : Args) : Res BoardHeader := do
  let boardID ← args.need (ascii "board_id") "NewBoardRecord: board_id must not be empty"
  let record := { BoardHeader.zero with brdName := boardID }
  let title ← args.need (ascii "title") "NewBoardRecord: title must not be empty"
  .ok { record with title := title }

/-- `作者: ` in UTF-8 -/
def authorLabel : Bytes := [0xE4, 0xBD, 0x9C, 0xE8, 0x80, 0x85, 0x3A, 0x20]

/-- ` 看板: ` in UTF-8 -/
def boardLabel : Bytes := [0x20, 0xE7, 0x9C, 0x8B, 0xE6, 0x9D, 0xBF, 0x3A, 0x20]

/-- newline and `標題: ` in UTF-8 -/
def titleLabel : Bytes := [0x0A, 0xE6, 0xA8, 0x99, 0xE9, 0xA1, 0x8C, 0x3A, 0x20]

/-- blank, newline and `時間: ` in UTF-8 -/
def dateLabel : Bytes := [0x20, 0x0A, 0xE6, 0x99, 0x82, 0xE9, 0x96, 0x93, 0x3A, 0x20]

/-- The first lines of a new article — /repo/pttbbs/pttbbs_write_article_connector.go:128-129. -/
def articleHead (owner board title date : Bytes) : Bytes :=
  authorLabel ++ owner ++ boardLabel ++ board ++ titleLabel ++ title ++ dateLabel ++ date ++ [0x0A]

namespace DB

/-- `AddBoardRecord` — /repo/bbs.go:426-442, pttbbs_write_board_connector.go:30-37, /repo/pttbbs/board.go:200-226. -/
def addBoardRecord (db : DB) (c : Codec) (fs : FS) (r : BoardHeader) : Res FS := do
  let p ← getBoardPath db.home
  fs.appendCreate db.cwd p (r.marshal c)

/-- `UpdateBoardRecord` — /repo/bbs.go:445-448. -/
def updateBoardRecord (_index : UInt64) (_r : BoardHeader) : Res Unit := .err "not implement"

/-- `ReadBoardRecord` — /repo/bbs.go:450-453. -/
def readBoardRecord (_index : UInt64) : Res BoardHeader := .err "not implement"

/-- `RemoveBoardRecord` — /repo/bbs.go:455-458. -/
def removeBoardRecord (_index : UInt64) : Res Unit := .err "not implement"

/-- The loop of `NewArticleRecordWithMap` — /repo/pttbbs/pttbbs_write_article_connector.go:105-116: the clock was read once, before
the loop, so only the random number changes. Result: name, path and the file system with the empty file. -/
def claimName (db : DB) (fs : FS) (board : Bytes) (clock : Int) (rand : Nat → Fin 4096) : Nat → Nat → Res (Bytes × Bytes × FS)
  | 0, _ => .diverge
  | fuel + 1, k => do
    let filename := articleName clock (rand k)
    let p ← getBoardArticleFilePath db.home board filename
    match fs.createExcl db.cwd p with
    | .ok fs' => .ok (filename, p, fs')
    | _ => claimName db fs board clock rand fuel (k + 1)

/-- `NewArticleRecordWithMap` — /repo/pttbbs/pttbbs_write_article_connector.go:73-136. The lock does nothing
(/repo/filelock/filelock.go); the write goes to the file just created. -/
def newArticleWithMap (db : DB) (fs : FS) (args : Args) (clock : Int) (rand : Nat → Fin 4096) (fuel : Nat) :
    Res (FileHeader × FS) := do
  let owner ← args.need (ascii "owner") "NewArticleRecord: owner must not be empty"
  let date ← args.need (ascii "date") "NewArticleRecord: date must not be empty"
  let title ← args.need (ascii "title") "NewArticleRecord: title must not be empty"
  let board ← args.need (ascii "board_id") "NewArticleRecord: board_id must not be empty"
  let (filename, p, fs') ← db.claimName fs board clock rand fuel 0
  let fs'' ← fs'.overwrite db.cwd p (articleHead owner board title date)
  .ok ({ FileHeader.zero with owner := owner, date := date, title := title, filename := filename }, fs'')

end DB

end Verif
