import Verif.Model.DB
/-!
# The texts of errors

`ReadBoardArticleRecordsFile` decides what an error means by searching its text. Here the text is the whole one.
-/

namespace Verif

/-- `strings.Contains(text, phrase)`: the phrase stands at the beginning, or in the rest. -/
def containsPhrase (phrase : Bytes) : Bytes → Bool
  | [] => phrase.isEmpty
  | c :: cs => phrase.isPrefixOf (c :: cs) || containsPhrase phrase cs

/-- `(*os.PathError).Error()` for a failed `os.Open` — Go `os/error.go`: `e.Op + " " + e.Path + ": " + e.Err.Error()`. -/
def openErrorText (p : Bytes) (e : String) : Bytes := ascii "open " ++ p ++ ascii ": " ++ ascii e

/-- What /repo/bbs.go:361 looks for. -/
def missingPhrase : Bytes := ascii "no such file or directory"

namespace DB

/-- `ReadBoardArticleRecordsFile` — /repo/bbs.go:350-369, with the search in the whole text of the error. The only error
of `OpenFileHeaderFile` (/repo/pttbbs/file.go:104-133) is that of `os.Open`. -/
def readArticleRecordsText (db : DB) (c : Codec) (fs : FS) (board : Bytes) : Res (List FileHeader) := do
  let p ← getBoardArticlesDirectoryPath db.home board
  match db.openArticleList c fs p with
  | .err e => if containsPhrase missingPhrase (openErrorText p e) then .ok [] else .err e
  | r => r

end DB

end Verif
