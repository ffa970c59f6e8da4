import Verif.Model.Factory
/-!
# The generator behind the names of articles

`CreateBoardArticleFilename` takes numbers from the generator of package `math/rand` as it is (/repo/pttbbs/pttbbs_write_article_connector.go:21);
`NewArticleRecordWithMap` first seeds it with the clock (:101-102). The generator belongs to the process. `Intn(0x1000)` takes one number of
the source, since 0x1000 is a power of two.
-/

namespace Verif

/-- The state of the generator: the last seed, and how many numbers have been taken since. -/
structure Source where
  seed : Int
  taken : Nat
  deriving DecidableEq, Repr

/-- The numbers below 0x1000 that the generator gives after each seed (environment: a fixed function, package `math/rand`). -/
abbrev Draws := Int → Nat → Fin 4096

/-- `rand.Intn(0x1000)`. -/
def Source.next (d : Draws) (s : Source) : Fin 4096 × Source := (d s.seed s.taken, ⟨s.seed, s.taken + 1⟩)

/-- `rand.Seed(seed)`. -/
def Source.reseed (_ : Source) (seed : Int) : Source := ⟨seed, 0⟩

namespace DB

/-- `CreateBoardArticleFilename` with the generator — /repo/pttbbs/pttbbs_write_article_connector.go:16-39; `clock k` is what the clock says in
round `k`. -/
def createNameFrom (db : DB) (d : Draws) (fs : FS) (board : Bytes) (clock : Nat → Int) : Nat → Nat → Source → Res (Bytes × FS × Source)
  | 0, _, _ => .diverge
  | fuel + 1, k, s => do
    let (x, s) := s.next d
    let filename := articleName (clock k) x
    let p ← getBoardArticleFilePath db.home board filename
    match fs.createExcl db.cwd p with
    | .ok fs' => .ok (filename, fs', s)
    | _ => createNameFrom db d fs board clock fuel (k + 1) s

/-- The loop of `NewArticleRecordWithMap` with the generator — /repo/pttbbs/pttbbs_write_article_connector.go:105-116. -/
def claimNameFrom (db : DB) (d : Draws) (fs : FS) (board : Bytes) (clock : Int) : Nat → Source → Res (Bytes × Bytes × FS × Source)
  | 0, _ => .diverge
  | fuel + 1, s => do
    let (x, s) := s.next d
    let filename := articleName clock x
    let p ← getBoardArticleFilePath db.home board filename
    match fs.createExcl db.cwd p with
    | .ok fs' => .ok (filename, p, fs', s)
    | _ => claimNameFrom db d fs board clock fuel s

/-- `NewArticleRecordWithMap` with the generator — /repo/pttbbs/pttbbs_write_article_connector.go:73-136. -/
def mapArticleFrom (db : DB) (d : Draws) (fs : FS) (args : Args) (clock : Int) (fuel : Nat) (s : Source) :
    Res (FileHeader × FS × Source) := do
  let owner ← args.need (ascii "owner") "NewArticleRecord: owner must not be empty"
  let date ← args.need (ascii "date") "NewArticleRecord: date must not be empty"
  let title ← args.need (ascii "title") "NewArticleRecord: title must not be empty"
  let board ← args.need (ascii "board_id") "NewArticleRecord: board_id must not be empty"
  let s := s.reseed clock
  let (filename, p, fs', s) ← db.claimNameFrom d fs board clock fuel s
  let fs'' ← fs'.overwrite db.cwd p (articleHead owner board title date)
  .ok ({ FileHeader.zero with owner := owner, date := date, title := title, filename := filename }, fs'', s)

end DB

end Verif
