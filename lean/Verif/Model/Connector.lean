import Verif.Go.Strings
import Verif.Model.Fav
import Verif.Model.Lists
/-!
# Connectors, opening a database, and a user's favourites

/repo/bbs.go:268-331 and /repo/pttbbs/pttbbs.go:12-98.
-/

namespace Verif

/-! ## Opening -/

/-- `Connector.Open`: the home directory for a data source name — /repo/pttbbs/pttbbs.go:23-33. Element 0 of
`strings.Split(s, "?")` is the text before the first `?`. -/
def dsnHome (dsn : Bytes) : Bytes :=
  if (ascii "file://").isPrefixOf dsn then (splitByte 63 (dsn.drop 7)).headD [] else dsn

/-- The registered drivers and the memory they point to: `drivers` is the map of /repo/bbs.go:269 (its values are
pointers to connectors), `home` the `home` field of the connector at an address (/repo/pttbbs/pttbbs.go:12-14). -/
structure Registry where
  drivers : Bytes → Option Nat
  home : Nat → Bytes

namespace Registry

/-- `Register` — /repo/bbs.go:272-274. -/
def register (r : Registry) (name : Bytes) (conn : Nat) : Registry :=
  { r with drivers := fun n => if n = name then some conn else r.drivers n }

/-- `Open` — /repo/bbs.go:278-293: the database holds the pointer stored in the map. -/
def openDB (r : Registry) (name dsn : Bytes) : Res (Nat × Registry) :=
  match r.drivers name with
  | none => .err "bbs: drivername not found"
  | some conn => .ok (conn, { r with home := fun k => if k = conn then dsnHome dsn else r.home k })

end Registry

/-! ## Favourites with board names -/

mutual
/-- `appendBoardID` — /repo/pttbbs/pttbbs.go:82-98, writing the names into the items. `brd[bid]` with
`bid = BoardID - 1` (uint32) panics out of range, a nil folder panics at `folder.FavItems`. -/
def FavFolder.resolve (brd : List BoardHeader) : FavFolder → Res FavFolder
  | .mk na dt nb nl nf li fi items => do
    let items' ← resolveItems brd items
    .ok (.mk na dt nb nl nf li fi items')
def resolveItems (brd : List BoardHeader) : List FavItem → Res (List FavItem)
  | [] => .ok []
  | .mk t a (.board b v at' _) :: rest =>
    match brd[(b - 1).toNat]? with
    | none => .panic
    | some h => do
      let rest' ← resolveItems brd rest
      .ok (.mk t a (.board b v at' h.brdName) :: rest')
  | .mk t a (.folder id title (some f)) :: rest => do
    let f' ← f.resolve brd
    let rest' ← resolveItems brd rest
    .ok (.mk t a (.folder id title (some f')) :: rest')
  | .mk _ _ (.folder _ _ none) :: _ => .panic
  | .mk t a (.line id) :: rest => do
    let rest' ← resolveItems brd rest
    .ok (.mk t a (.line id) :: rest')
  | .mk t a .nil :: rest => do
    let rest' ← resolveItems brd rest
    .ok (.mk t a .nil :: rest')
end

/-- `FavItem.BoardID` — /repo/pttbbs/fav.go:89-94; the type assertion panics on another dynamic type. -/
def FavItem.boardID : FavItem → Res Bytes
  | .mk t _ d =>
    if t ≠ 1 then .ok []
    else match d with
      | .board _ _ _ name => .ok name
      | _ => .panic

/-- `FavItem.Title` — /repo/pttbbs/fav.go:96-104. -/
def FavItem.title : FavItem → Res Bytes
  | .mk t _ d =>
    if t = 3 then .ok (List.replicate 42 0x2D)
    else if t = 2 then
      match d with
      | .folder _ title _ => .ok title
      | _ => .panic
    else .ok []

/-- `bbs.FavoriteType` — /repo/bbs.go:66-73. -/
inductive FavKind where
  | board | folder | line
  deriving DecidableEq, Repr

/-- `FavItem.Type` — /repo/pttbbs/fav.go:106-117. -/
def FavItem.kind : FavItem → FavKind
  | .mk t _ _ => if t = 1 then .board else if t = 2 then .folder else if t = 3 then .line else .board

/-- `FavItem.Records` — /repo/pttbbs/fav.go:119-129. -/
def FavItem.records : FavItem → Res (List FavItem)
  | .mk t _ d =>
    if t ≠ 2 then .ok []
    else match d with
      | .folder _ _ (some f) => .ok f.items
      | _ => .panic

/-- `FavItem.GetBoard` — /repo/pttbbs/fav.go:132-137: the content if it is that of a board, whatever the type byte says. -/
def FavItem.getBoard : FavItem → Option (UInt32 × Int × UInt32 × Bytes)
  | .mk _ _ (.board id lv attr name) => some (id, lv, attr, name)
  | _ => none

/-- `FavItem.GetFolder` — /repo/pttbbs/fav.go:140-145. -/
def FavItem.getFolder : FavItem → Option (UInt8 × Bytes × Option FavFolder)
  | .mk _ _ (.folder id title f) => some (id, title, f)
  | _ => none

/-- `FavItem.GetLine` — /repo/pttbbs/fav.go:148-153. -/
def FavItem.getLine : FavItem → Option UInt8
  | .mk _ _ (.line id) => some id
  | _ => none

namespace DB

/-- `ReadUserFavoriteRecordsFile` — /repo/pttbbs/pttbbs.go:56-80. -/
def readFavoriteFile (db : DB) (c : Codec) (fs : FS) (p : Bytes) : Res (List FavItem) :=
  if !fs.statOk db.cwd p then .ok []
  else do
    let data ← fs.readFile db.cwd p
    let rec ← loadFav c data
    let bp ← getBoardPath db.home
    let br ← db.openBoardList c fs bp
    let folder ← rec.folder.resolve br
    .ok folder.items

/-- `ReadUserFavoriteRecords` — /repo/bbs.go:314-331. -/
def readFavorites (db : DB) (c : Codec) (fs : FS) (user : Bytes) : Res (List FavItem) := do
  let p ← getUserFavoritePath db.home user
  db.readFavoriteFile c fs p

end DB

end Verif
