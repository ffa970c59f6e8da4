import Verif.Conformance.Tables
import Verif.Model.RecordFile
/-!
# The tests of the article list — /repo/pttbbs/file_test.go

Written by /verif/tools/conform.py.
-/

namespace Verif.Conformance

/-- /repo/pttbbs/testcase/file/01.DIR. -/
def dir01 : Bytes :=
  bytes 384 0x4d2e313539393035393234362e412e43463600000000000000000000d0ba4f5f00005359534f5000000000000000000020392f3032005bb6a2b2e15d20a6dba476aabaa4e5b3b9a6dba476bc670000000000000000000000000000000000000000000000000000000000000000000000000000000000000000000000000000004d2e313539393035393431352e412e46424100000000000000000000d9ba4f5f00005359534f5000000000000000000020392f3032005bb051bdd75d20bde0a46abd5fd14cb7cfa4f5bbb7c2f7a448bce9a1490000000000000000000000000000000000000000000000000000000000000000000000000000000000000000004d2e313539393035393439362e412e32424500000000000000000000e2ba4f5f00005359534f5000000000000000000020392f3032005ba4bda7695d20a6f3a4a3a14820a4ada46abc65ae6500000000000000000000000000000000000000000000000000000000000000000000000000000000000000000000000000000000

/-- /repo/pttbbs/file_test.go:31-92. -/
def articles01 : List FileHeader :=
  [{ filename := ascii "M.1599059246.A.CF6", modified := 1599060688, recommend := 0, owner := ascii "SYSOP",
       date := ascii " 9/02", title := utf8 "[閒聊] 自己的文章自己寫", money := 0, annoUID := 0,
       voteLimits := ⟨0, 0, 0, 0⟩, filemode := 0 },
     { filename := ascii "M.1599059415.A.FBA", modified := 1599060697, recommend := 0, owner := ascii "SYSOP",
       date := ascii " 9/02", title := utf8 "[討論] 賞大稻埕煙火遠離人潮！", money := 0, annoUID := 0,
       voteLimits := ⟨0, 0, 0, 0⟩, filemode := 0 },
     { filename := ascii "M.1599059496.A.2BE", modified := 1599060706, recommend := 0, owner := ascii "SYSOP",
       date := ascii " 9/02", title := utf8 "[公告] 何不？ 五大寬容", money := 0, annoUID := 0,
       voteLimits := ⟨0, 0, 0, 0⟩, filemode := 0 }]

/-- `TestParse…` — the records expected of 01.DIR. -/
example : openFileHeaderFile codec (some dir01) = .ok articles01 := by
  decide +kernel

/-- /repo/pttbbs/testcase/file/02.DIR. -/
def dir02 : Bytes :=
  bytes 128 0x4d2e313630343438393431352e412e43333100000000000000000000c690a25f0000706963687500000000000000000031312f3034005bb0ddc3445d2074657374000000000000000000000000000000000000000000000000000000000000000000000000000000000000000000000000000000000000000000000000000000

/-- /repo/pttbbs/file_test.go:105-126. -/
def articles02 : List FileHeader :=
  [{ filename := ascii "M.1604489415.A.C31", modified := 1604489414, recommend := 0, owner := ascii "pichu",
       date := ascii "11/04", title := utf8 "[問題] test", money := 0, annoUID := 0, voteLimits := ⟨0, 0, 0, 0⟩,
       filemode := 0 }]

/-- `TestParse…` — the records expected of 02.DIR. -/
example : openFileHeaderFile codec (some dir02) = .ok articles02 := by
  decide +kernel

/-- /repo/pttbbs/testcase/file/03.DIR. -/
def dir03 : Bytes :=
  bytes 128 0x443644380000000000000000000000000000000000000000000000000000000000005359534f5000000000000000000031322f323000a1bb20466f6c64657220312e312e312e31000000000000000000000000000000000000000000000000000000000000000000000000000000000000000000000000000000000000000000

/-- /repo/pttbbs/file_test.go:138-159. -/
def articles03 : List FileHeader :=
  [{ filename := ascii "D6D8", modified := 0, recommend := 0, owner := ascii "SYSOP", date := ascii "12/20",
       title := utf8 "◆ Folder 1.1.1.1", money := 0, annoUID := 0, voteLimits := ⟨0, 0, 0, 0⟩, filemode := 0 }]

/-- `TestParse…` — the records expected of 03.DIR. -/
example : openFileHeaderFile codec (some dir03) = .ok articles03 := by
  decide +kernel

/-- /repo/pttbbs/file_test.go:212-309. -/
def encodedArticles : List (FileHeader × Bytes) :=
  [({ filename := ascii "M.1599059246.A.CF6", modified := 1599060688, recommend := 0, owner := ascii "SYSOP",
      date := ascii " 9/02", title := utf8 "[閒聊] 自己的文章自己寫", money := 0, annoUID := 0,
      voteLimits := ⟨0, 0, 0, 0⟩, filemode := 0 },
    bytes 128 0x4d2e313539393035393234362e412e43463600000000000000000000d0ba4f5f00005359534f5000000000000000000020392f3032005bb6a2b2e15d20a6dba476aabaa4e5b3b9a6dba476bc67000000000000000000000000000000000000000000000000000000000000000000000000000000000000000000000000000000),
   ({ filename := ascii "M.1599059415.A.FBA", modified := 1599060697, recommend := 0, owner := ascii "SYSOP",
      date := ascii " 9/02", title := utf8 "[討論] 賞大稻埕煙火遠離人潮！", money := 0, annoUID := 0,
      voteLimits := ⟨0, 0, 0, 0⟩, filemode := 0 },
    bytes 128 0x4d2e313539393035393431352e412e46424100000000000000000000d9ba4f5f00005359534f5000000000000000000020392f3032005bb051bdd75d20bde0a46abd5fd14cb7cfa4f5bbb7c2f7a448bce9a149000000000000000000000000000000000000000000000000000000000000000000000000000000000000000000),
   ({ filename := ascii "M.1599059496.A.2BE", modified := 1599060706, recommend := 0, owner := ascii "SYSOP",
      date := ascii " 9/02", title := utf8 "[公告] 何不？ 五大寬容", money := 0, annoUID := 0,
      voteLimits := ⟨0, 0, 0, 0⟩, filemode := 0 },
    bytes 128 0x4d2e313539393035393439362e412e32424500000000000000000000e2ba4f5f00005359534f5000000000000000000020392f3032005ba4bda7695d20a6f3a4a3a14820a4ada46abc65ae6500000000000000000000000000000000000000000000000000000000000000000000000000000000000000000000000000000000)]

/-- `TestEncodingFileHeader`. -/
example : encodedArticles.all (fun c => c.1.marshal codec == c.2) = true := by
  decide +kernel

/-- /repo/pttbbs/file_test.go:324-385. -/
def appended : List FileHeader :=
  [{ filename := ascii "M.1599059246.A.CF6", modified := 1599060688, recommend := 0, owner := ascii "SYSOP",
       date := ascii " 9/02", title := utf8 "[閒聊] 自己的文章自己寫", money := 0, annoUID := 0,
       voteLimits := ⟨0, 0, 0, 0⟩, filemode := 0 },
     { filename := ascii "M.1599059415.A.FBA", modified := 1599060697, recommend := 0, owner := ascii "SYSOP",
       date := ascii " 9/02", title := utf8 "[討論] 賞大稻埕煙火遠離人潮！", money := 0, annoUID := 0,
       voteLimits := ⟨0, 0, 0, 0⟩, filemode := 0 },
     { filename := ascii "M.1599059496.A.2BE", modified := 1599060706, recommend := 0, owner := ascii "SYSOP",
       date := ascii " 9/02", title := utf8 "[公告] 何不？ 五大寬容", money := 0, annoUID := 0,
       voteLimits := ⟨0, 0, 0, 0⟩, filemode := 0 }]

/-- `TestAppendFileHeaderFileRecord`: three records are appended to a file that is not there. -/
example : openFileHeaderFile codec (appended.foldl (appendFileHeader codec) none) = .ok appended := by
  decide +kernel

end Verif.Conformance
