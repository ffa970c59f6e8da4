import Verif.Model.Path
/-!
# What the path properties talk about
-/

namespace Verif.Spec

/-- A single path component. -/
structure Component (c : Bytes) : Prop where
  nonempty : c ≠ []
  noSlash : slash ∉ c
  notDot : c ≠ ascii "."
  notDotDot : c ≠ ascii ".."

/-- Reading `s` as a path, no step of it goes up. -/
def NoUp (s : Bytes) : Prop := ascii ".." ∉ splitByte slash s

/-- `p` is strictly below the directory `d`. -/
def Below (d p : Path) : Prop := ∃ x xs, p = d ++ x :: xs

/-- Everything the library stores in a file. -/
inductive Obj where
  | passwd
  | boardList
  | favourite (user : Bytes)
  | draft (user id : Bytes)
  | mail (user file : Bytes)
  | loginRecent (user : Bytes)
  | articleIndex (board : Bytes)
  | article (board file : Bytes)
  | treasureIndex (board : Bytes) (dirs : List Bytes)
  | treasure (board : Bytes) (dirs : List Bytes) (file : Bytes)
  | boardName (board : Bytes)
  deriving DecidableEq

/-- The path string the library uses for an object. -/
def Obj.path (home : Bytes) : Obj → Res Bytes
  | .passwd => getPasswdsPath home
  | .boardList => getBoardPath home
  | .favourite u => getUserFavoritePath home u
  | .draft u d => getUserDraftPath home u d
  | .mail u f => getUserMailPath home u f
  | .loginRecent u => getLoginRecentPath home u
  | .articleIndex b => getBoardArticlesDirectoryPath home b
  | .article b f => getBoardArticleFilePath home b f
  | .treasureIndex b ds => getBoardTreasuresDirectoryPath home b ds
  | .treasure b ds f => getBoardTreasureFilePath home b ds f
  | .boardName b => getBoardNameFilePath home b

/-- The strings a caller supplies to name the object. -/
def Obj.names : Obj → List Bytes
  | .passwd | .boardList => []
  | .favourite u | .loginRecent u => [u]
  | .draft u d => [u, d]
  | .mail u f => [u, f]
  | .articleIndex b | .boardName b => [b]
  | .article b f => [b, f]
  | .treasureIndex b ds => b :: ds
  | .treasure b ds f => b :: f :: ds

/-- The user id or board id of the object, if it has one. -/
def Obj.owner : Obj → Option Bytes
  | .passwd | .boardList => none
  | .favourite u | .loginRecent u | .draft u _ | .mail u _ => some u
  | .articleIndex b | .boardName b | .article b _ | .treasureIndex b _ | .treasure b _ _ => some b

/-- The home directory. The empty string makes every path absolute, i.e. it names the root. -/
def homeDir (cwd : Path) (home : Bytes) : Path := if home = [] then [] else resolve cwd home

/-- The directory named after the first letter of an id (`.` names the directory itself). -/
def letterDir (id : Bytes) : Path := if id.head? = some dot then [] else [fmtC (id.headD 0)]

/-- Location of an object relative to the home directory. -/
def Obj.loc : Obj → Path
  | .passwd => [ascii ".PASSWDS"]
  | .boardList => [ascii ".BRD"]
  | .favourite u => [ascii "home"] ++ letterDir u ++ [u, ascii ".fav"]
  | .draft u d => [ascii "home"] ++ letterDir u ++ [u, ascii "buf." ++ d]
  | .mail u f => [ascii "home"] ++ letterDir u ++ [u, f]
  | .loginRecent u => [ascii "home"] ++ letterDir u ++ [u, ascii "logins.recent"]
  | .articleIndex b => [ascii "boards"] ++ letterDir b ++ [b, ascii ".DIR"]
  | .article b f => [ascii "boards"] ++ letterDir b ++ [b, f]
  | .treasureIndex b ds => [ascii "man", ascii "boards"] ++ letterDir b ++ [b] ++ ds ++ [ascii ".DIR"]
  | .treasure b ds f => [ascii "man", ascii "boards"] ++ letterDir b ++ [b] ++ ds ++ [f]
  | .boardName b => [ascii "boards"] ++ letterDir b ++ [b, ascii ".Name"]

/-- The file name is not one the library itself uses in that directory. -/
def Obj.NotReserved : Obj → Prop
  | .mail _ f => f ≠ ascii ".fav" ∧ f ≠ ascii "logins.recent" ∧ ¬ ascii "buf." <+: f
  | .article _ f => f ≠ ascii ".DIR" ∧ f ≠ ascii ".Name"
  | .treasure _ _ f => f ≠ ascii ".DIR"
  | _ => True

end Verif.Spec
