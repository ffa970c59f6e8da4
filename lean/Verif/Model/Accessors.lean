import Verif.Model.FileHeader
import Verif.Model.Settings
import Verif.Model.Lists
import Verif.Go.Fmt
/-!
# What callers of package bbs see of a record

Package bbs and its callers know records only by their methods: the interfaces `UserRecord`, `BoardRecord`, `BoardRecordInfo`, `ArticleRecord`
(/repo/bbs.go:14-136), `UserArticleRecord` (/repo/user_article_record.go:3-8) and `UserCommentRecord` (/repo/user_comment_record.go:13-29). Here are the
methods that read or store one field. Times are Unix seconds.
-/

namespace Verif

/-! ## Articles — /repo/pttbbs/file.go:78-96 -/

namespace FileHeader

/-- line 78 -/
def tellFilename (f : FileHeader) : Bytes := f.filename
/-- line 79 -/
def setFilename (f : FileHeader) (s : Bytes) : FileHeader := { f with filename := s }
/-- line 81 -/
def tellModified (f : FileHeader) : Int := f.modified
/-- line 82 -/
def setModified (f : FileHeader) (t : Int) : FileHeader := { f with modified := t }
/-- line 87 -/
def tellOwner (f : FileHeader) : Bytes := f.owner
/-- line 88 -/
def setOwner (f : FileHeader) (s : Bytes) : FileHeader := { f with owner := s }
/-- line 90 -/
def tellDate (f : FileHeader) : Bytes := f.date
/-- line 91 -/
def setDate (f : FileHeader) (s : Bytes) : FileHeader := { f with date := s }
/-- line 93 -/
def tellTitle (f : FileHeader) : Bytes := f.title
/-- line 94 -/
def setTitle (f : FileHeader) (s : Bytes) : FileHeader := { f with title := s }
/-- line 96 -/
def tellMoney (f : FileHeader) : Int := f.money

end FileHeader

/-- The answers of the methods of `bbs.ArticleRecord` — /repo/bbs.go:127-136. -/
structure ArticleView where
  filename : Bytes
  modified : Int
  recommend : Int
  date : Bytes
  title : Bytes
  money : Int
  owner : Bytes
  deriving DecidableEq, Repr

def FileHeader.told (f : FileHeader) : ArticleView :=
  ⟨f.tellFilename, f.tellModified, f.recommendInt, f.tellDate, f.tellTitle, f.tellMoney, f.tellOwner⟩

/-- The methods that change an article record. -/
inductive ArticleEdit where
  | filename (s : Bytes)
  | modified (t : Int)
  | recommend (u : Int8)
  | owner (s : Bytes)
  | date (s : Bytes)
  | title (s : Bytes)
  deriving DecidableEq, Repr

def FileHeader.edit (f : FileHeader) : ArticleEdit → FileHeader
  | .filename s => f.setFilename s
  | .modified t => f.setModified t
  | .recommend u => f.addRecommend u
  | .owner s => f.setOwner s
  | .date s => f.setDate s
  | .title s => f.setTitle s

/-! ## Boards — /repo/pttbbs/board.go:69-76, 105-107 -/

namespace BoardHeader

/-- line 69 -/
def tellID (b : BoardHeader) : Bytes := b.brdName
/-- line 70 -/
def setID (b : BoardHeader) (s : Bytes) : BoardHeader := { b with brdName := s }
/-- line 72 -/
def tellTitle (b : BoardHeader) : Bytes := b.title
/-- line 73 -/
def setTitle (b : BoardHeader) (s : Bytes) : BoardHeader := { b with title := s }
/-- line 76: `fmt.Sprintf("%v", b.Gid)` -/
def tellClassID (b : BoardHeader) : Bytes := decInt b.gid.toInt
/-- line 105 -/
def tellPostLimitPosts (b : BoardHeader) : UInt8 := b.postLimitPosts
/-- line 106 -/
def tellPostLimitLogins (b : BoardHeader) : UInt8 := b.postLimitLogins
/-- line 107 -/
def tellPostLimitBadPost (b : BoardHeader) : UInt8 := b.postLimitBadPost

end BoardHeader

/-- The answers of the methods of `bbs.BoardRecord` and `bbs.BoardRecordInfo` — /repo/bbs.go:83-93, 121-125. -/
structure BoardView where
  boardID : Bytes
  title : Bytes
  isClass : Bool
  classID : Bytes
  bm : List Bytes
  postLimitPosts : UInt8
  postLimitLogins : UInt8
  postLimitBadPost : UInt8
  deriving DecidableEq, Repr

def BoardHeader.told (b : BoardHeader) : BoardView :=
  ⟨b.tellID, b.tellTitle, b.isClass, b.tellClassID, b.moderators, b.tellPostLimitPosts, b.tellPostLimitLogins, b.tellPostLimitBadPost⟩

/-- The methods that change a board record. -/
inductive BoardEdit where
  | boardID (s : Bytes)
  | title (s : Bytes)
  deriving DecidableEq, Repr

def BoardHeader.edit (b : BoardHeader) : BoardEdit → BoardHeader
  | .boardID s => b.setID s
  | .title s => b.setTitle s

/-! ## Users — /repo/pttbbs/passwd.go:150-152, 170-201 -/

namespace Userec

/-- lines 150-152 -/
def tellHashedPassword (u : Userec) : Bytes := u.password
/-- line 170 -/
def tellUserID (u : Userec) : Bytes := u.userID
/-- line 174 -/
def tellNickname (u : Userec) : Bytes := u.nickname
/-- line 178 -/
def tellRealName (u : Userec) : Bytes := u.realName
/-- line 181 -/
def tellNumLoginDays (u : Userec) : Int := u.numLoginDays.toNat
/-- line 184 -/
def tellNumPosts (u : Userec) : Int := u.numPosts.toNat
/-- line 187 -/
def tellMoney (u : Userec) : Int := u.money.toInt
/-- lines 189-191 -/
def tellLastLogin (u : Userec) : Int := u.lastLogin
/-- lines 193-195 -/
def tellLastHost (u : Userec) : Bytes := u.lastHost
/-- lines 199-201 -/
def tellUserFlag (u : Userec) : UInt32 := u.userFlag

end Userec

/-- The answers of the methods of `bbs.UserRecord`, `VerifyPassword` apart — /repo/bbs.go:14-45. -/
structure UserView where
  userID : Bytes
  hashedPassword : Bytes
  nickname : Bytes
  realName : Bytes
  numLoginDays : Int
  numPosts : Int
  money : Int
  lastLogin : Int
  lastHost : Bytes
  userFlag : UInt32
  deriving DecidableEq, Repr

def Userec.told (u : Userec) : UserView :=
  ⟨u.tellUserID, u.tellHashedPassword, u.tellNickname, u.tellRealName, u.tellNumLoginDays, u.tellNumPosts, u.tellMoney, u.tellLastLogin, u.tellLastHost,
    u.tellUserFlag⟩

/-! ## What searches find — /repo/user_article_record.go:10-23, /repo/user_comment_record.go:61-91 -/

/-- `userArticleRecord`: a Go map, as the list of its entries. -/
abbrev ArticleMap := List (Bytes × Bytes)

/-- `r[key]`: the empty string if the key is missing. -/
def ArticleMap.at (r : ArticleMap) (key : Bytes) : Bytes := ((r.find? fun e => e.1 == key).map Prod.snd).getD []

/-- The literal — /repo/bbs.go:569-574. -/
def articleMap (b : BoardHeader) (ar : FileHeader) : ArticleMap :=
  [(ascii "board_id", b.tellID), (ascii "title", ar.tellTitle), (ascii "owner", ar.tellOwner), (ascii "article_id", ar.tellFilename)]

/-- The four methods — /repo/user_article_record.go:12-23. -/
def ArticleMap.told (r : ArticleMap) : UserArticle :=
  ⟨r.at (ascii "board_id"), r.at (ascii "title"), r.at (ascii "owner"), r.at (ascii "article_id")⟩

/-- The answers of the methods of `UserCommentRecord`, `String` apart — /repo/user_comment_record.go:13-29. -/
structure CommentView where
  order : UInt32
  time : Civil
  owner : Bytes
  ip : Bytes
  comment : Bytes
  board : Bytes
  filename : Bytes
  deriving DecidableEq, Repr

/-- /repo/user_comment_record.go:61-91. The address is never stored (line 54: `ip: "", // TODO`). -/
def UserComment.told (r : UserComment) : CommentView := ⟨r.order, r.time, r.owner, [], r.comment, r.board, r.filename⟩

end Verif
