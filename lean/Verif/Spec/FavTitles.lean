import Verif.Spec.Fav
/-!
# Specification of favourites trees with arbitrary titles
-/

namespace Verif.Spec

mutual
/-- `WfFolder` with an arbitrary condition on the titles. -/
def Shape (P : Bytes → Prop) : FavFolder → Prop
  | .mk nAlloc dataTail nBoards nLines nFolders lineID folderID items =>
    dataTail = nBoards + nFolders.toUInt16 + nLines.toUInt16 ∧ nAlloc = dataTail + 8 ∧
    items.length = dataTail.toNat ∧ ShapeIn P lineID folderID 0 0 items
def ShapeIn (P : Bytes → Prop) (lineID folderID : UInt8) : (lid fid : UInt8) → List FavItem → Prop
  | lid, fid, [] => lineID = lid ∧ folderID = fid
  | lid, fid, .mk t _ (.board _ lv _ name) :: rest =>
    t = 1 ∧ FitsTime lv ∧ name = [] ∧ ShapeIn P lineID folderID lid fid rest
  | lid, fid, .mk t _ (.folder id title (some f)) :: rest =>
    t = 2 ∧ id = fid + 1 ∧ P title ∧ Shape P f ∧ ShapeIn P lineID folderID lid (fid + 1) rest
  | lid, fid, .mk t _ (.line id) :: rest =>
    t = 3 ∧ id = lid + 1 ∧ ShapeIn P lineID folderID (lid + 1) fid rest
  | _, _, .mk _ _ (.folder _ _ none) :: _ => False
  | _, _, .mk _ _ .nil :: _ => False
end

mutual
/-- The tree with every title, at every depth, replaced. -/
def mapTitles (g : Bytes → Bytes) : FavFolder → FavFolder
  | .mk na dt nb nl nf li fi items => .mk na dt nb nl nf li fi (mapTitlesIn g items)
def mapTitlesIn (g : Bytes → Bytes) : List FavItem → List FavItem
  | [] => []
  | .mk t a (.folder id title (some f)) :: rest =>
    .mk t a (.folder id (g title) (some (mapTitles g f))) :: mapTitlesIn g rest
  | .mk t a (.folder id title none) :: rest => .mk t a (.folder id (g title) none) :: mapTitlesIn g rest
  | .mk t a (.board b v at' nm) :: rest => .mk t a (.board b v at' nm) :: mapTitlesIn g rest
  | .mk t a (.line id) :: rest => .mk t a (.line id) :: mapTitlesIn g rest
  | .mk t a .nil :: rest => .mk t a .nil :: mapTitlesIn g rest
end

mutual
/-- Every title, at every depth, satisfies `P`. -/
def EveryTitle (P : Bytes → Prop) : FavFolder → Prop
  | .mk _ _ _ _ _ _ _ items => EveryTitleIn P items
def EveryTitleIn (P : Bytes → Prop) : List FavItem → Prop
  | [] => True
  | .mk _ _ (.folder _ title (some f)) :: rest => P title ∧ EveryTitle P f ∧ EveryTitleIn P rest
  | .mk _ _ (.folder _ title none) :: rest => P title ∧ EveryTitleIn P rest
  | .mk _ _ (.board _ _ _ _) :: rest => EveryTitleIn P rest
  | .mk _ _ (.line _) :: rest => EveryTitleIn P rest
  | .mk _ _ .nil :: rest => EveryTitleIn P rest
end

end Verif.Spec
