import Verif.Model.Fav
import Verif.Spec.Fields
/-!
# Specification of well-formed favourites trees
-/

namespace Verif.Spec

mutual
/-- A folder whose counters agree with its items: the three stored counts add up (as uint16) to the number of
items, the derived fields have the loader's values, and items are well-formed and numbered. -/
def WfFolder (c : Codec) : FavFolder → Prop
  | .mk nAlloc dataTail nBoards nLines nFolders lineID folderID items =>
    dataTail = nBoards + nFolders.toUInt16 + nLines.toUInt16 ∧ nAlloc = dataTail + 8 ∧
    items.length = dataTail.toNat ∧ WfItems c lineID folderID 0 0 items
/-- Items with sub-folders numbered `fid + 1, fid + 2, …` up to `folderID` and lines numbered `lid + 1, …` up to
`lineID` (uint8). -/
def WfItems (c : Codec) (lineID folderID : UInt8) : (lid fid : UInt8) → List FavItem → Prop
  | lid, fid, [] => lineID = lid ∧ folderID = fid
  | lid, fid, .mk t _ (.board _ lv _ name) :: rest =>
    t = 1 ∧ FitsTime lv ∧ name = [] ∧ WfItems c lineID folderID lid fid rest
  | lid, fid, .mk t _ (.folder id title (some f)) :: rest =>
    t = 2 ∧ id = fid + 1 ∧ FitsCstr 49 (c.enc title) ∧ c.dec (c.enc title) = title ∧ WfFolder c f ∧
      WfItems c lineID folderID lid (fid + 1) rest
  | lid, fid, .mk t _ (.line id) :: rest =>
    t = 3 ∧ id = lid + 1 ∧ WfItems c lineID folderID (lid + 1) fid rest
  | _, _, .mk _ _ (.folder _ _ none) :: _ => False
  | _, _, .mk _ _ .nil :: _ => False
end

/-! A plain favourites tree, as a user sees it. -/

/-- A user's favourites: boards, separator lines, titled folders. -/
inductive Fav where
  | board (attr : UInt8) (boardID : UInt32) (lastVisit : UInt32) (battr : UInt32)
  | line (attr : UInt8)
  | folder (attr : UInt8) (title : Bytes) (items : List Fav)

/-- Number of boards / lines / folders among items. -/
def boards (l : List Fav) : Nat := l.countP (fun x => match x with | .board .. => true | _ => false)
def lines (l : List Fav) : Nat := l.countP (fun x => match x with | .line .. => true | _ => false)
def folders (l : List Fav) : Nat := l.countP (fun x => match x with | .folder .. => true | _ => false)

/-- The counts of one folder fit the format (uint16 for boards and the total, uint8 for lines and folders). -/
def CountsFit (l : List Fav) : Prop := l.length < 65536 ∧ lines l < 256 ∧ folders l < 256

mutual
/-- Every folder's counts fit and every title survives the codec and fits its field. -/
def Fav.Ok (c : Codec) : Fav → Prop
  | .board .. => True
  | .line .. => True
  | .folder _ title items =>
    FitsCstr 49 (c.enc title) ∧ c.dec (c.enc title) = title ∧ CountsFit items ∧ AllOk c items
def AllOk (c : Codec) : List Fav → Prop
  | [] => True
  | x :: xs => x.Ok c ∧ AllOk c xs
end

mutual
/-- The in-memory item for a plain tree node; folders and lines get the given numbers. -/
def Fav.toItem (lid fid : UInt8) : Fav → FavItem
  | .board a b v t => .mk 1 a (.board b (timeOfU32 v) t [])
  | .line a => .mk 3 a (.line (lid + 1))
  | .folder a title items => .mk 2 a (.folder (fid + 1) title (some (toFolder items)))
def toItems : (lid fid : UInt8) → List Fav → List FavItem
  | _, _, [] => []
  | lid, fid, x :: xs =>
    x.toItem lid fid ::
      (match x with
       | .board .. => toItems lid fid xs
       | .line .. => toItems (lid + 1) fid xs
       | .folder .. => toItems lid (fid + 1) xs)
/-- The in-memory folder for a list of plain items, with the true counts. -/
def toFolder (l : List Fav) : FavFolder :=
  .mk (UInt16.ofNat l.length + 8) (UInt16.ofNat l.length) (UInt16.ofNat (boards l)) (UInt8.ofNat (lines l))
    (UInt8.ofNat (folders l)) (UInt8.ofNat (lines l)) (UInt8.ofNat (folders l)) (toItems 0 0 l)
end

/-! Counters. -/

mutual
/-- `P` holds of a folder and of every folder nested in it. -/
def EveryFolder (P : FavFolder → Prop) : FavFolder → Prop
  | .mk na dt nb nl nf li fi items => P (.mk na dt nb nl nf li fi items) ∧ EveryFolderIn P items
def EveryFolderIn (P : FavFolder → Prop) : List FavItem → Prop
  | [] => True
  | .mk _ _ (.folder _ _ (some f)) :: rest => EveryFolder P f ∧ EveryFolderIn P rest
  | .mk _ _ (.folder _ _ none) :: rest => EveryFolderIn P rest
  | .mk _ _ (.board _ _ _ _) :: rest => EveryFolderIn P rest
  | .mk _ _ (.line _) :: rest => EveryFolderIn P rest
  | .mk _ _ .nil :: rest => EveryFolderIn P rest
end

/-- The item counter of a folder (`DataTail`) is the number of its items, and it is the sum of the three
per-kind counters (as uint16). -/
def TotalAgrees : FavFolder → Prop
  | .mk _ dataTail nBoards nLines nFolders _ _ items =>
    dataTail.toNat = items.length ∧ dataTail = nBoards + nLines.toUInt16 + nFolders.toUInt16

/-- The three per-kind counters are the numbers of items of each kind. -/
def KindsAgree : FavFolder → Prop
  | .mk _ _ nBoards nLines nFolders _ _ items =>
    nBoards.toNat = items.countP (fun it => match it with | .mk _ _ (.board ..) => true | _ => false) ∧
    nLines.toNat = items.countP (fun it => match it with | .mk _ _ (.line ..) => true | _ => false) ∧
    nFolders.toNat = items.countP (fun it => match it with | .mk _ _ (.folder ..) => true | _ => false)

end Verif.Spec
