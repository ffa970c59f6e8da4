import Verif.Conformance.Boards
import Verif.Model.Accessors
import Verif.Model.DB
import Verif.Model.Server
import Verif.Model.SharedMem
/-!
# The tests that change something

Written by hand after the tests of /repo/pttbbs and /repo/cache: each example follows one test step by step in the model.
-/

namespace Verif.Conformance

/-- `TestAppendAndRemoveBoardRecord` — /repo/pttbbs/board_test.go:628-673, second half: record 0 is removed from a file with one
record; no record is left. Reading starts at the end of the file, so the only system calls are the read that meets the end and
the truncation. -/
example :
    (do
      let s ← removeStart (appendBoardHeader codec (some []) { BoardHeader.zero with brdName := ascii "XXXSSS" }) 0
      match s.run [.eof, .trunc] with
      | some s' => openBoardHeaderFile codec (some s'.file)
      | none => .panic) = .ok [] := by
  decide +kernel

/-- `TestBM` — /repo/pttbbs/board_test.go:699-704. -/
example : (boardHeaders.map BoardHeader.moderators).head? = some [] := by
  decide +kernel

/-- `TestOpenMMAP` — /repo/cache/mmap_test.go:7-46: the three values read from the buffer, and the name is gone at the end. -/
example :
    (do
      let s : MFS := ⟨fun _ => none, fun _ => [], 0, fun _ => none⟩
      let r := createMmap s (ascii "./test") 20 1
      let v ← r.1
      let s ← r.2.store v 0 [42]
      let a ← s.view v
      let s ← closeMmap s v
      let r := openMmap s (ascii "./test") 2
      let v ← r.1
      let b ← r.2.view v
      let s ← r.2.store v 0 [43]
      let s ← closeMmap s v
      let r := openMmap s (ascii "./test") 3
      let v ← r.1
      let c ← r.2.view v
      let s ← removeMmap r.2 (ascii "./test")
      Res.ok (a.head?, b.head?, c.head?, s.names (ascii "./test"))) = .ok (some 42, some 42, some 43, none) := by
  decide +kernel

/-- `TestOpenSHM` — /repo/cache/systemvshm_test.go:9-46: the same with a segment of four bytes under key 10. -/
example :
    (do
      let s : Ipc := ⟨fun _ => none, 0, fun _ => none, 1000⟩
      let (v, s) ← createKey s 10 4 1
      let s ← s.store v 0 [42]
      let a ← s.view v
      let s ← closeShm s v
      let (v, s) ← openKey s 10 2
      let b ← s.view v
      let s ← s.store v 0 [43]
      let s ← closeShm s v
      let (v, s) ← openKey s 10 3
      let c ← s.view v
      let s ← removeKey s 10
      Res.ok (a.head?, b.head?, c.head?, (s.find 10).isSome)) = .ok (some 42, some 42, some 43, false) := by
  decide +kernel

/-- `TestNewCacheWithMmap` — /repo/cache/cache_test.go:7-36. -/
example :
    (do
      let s : MFS := ⟨fun _ => none, fun _ => [], 0, fun _ => none⟩
      let r := createMmap s (ascii "./test") 20 1
      let v ← r.1
      let s ← r.2.store v 0 [42]
      let s ← closeMmap s v
      let (b, m) ← newBuf ⟨⟨fun _ => none, 0, fun _ => none, 1000⟩, s⟩ (ascii "file:./test") 2
      let a ← m.view b
      Res.ok a.head?) = .ok (some 42) := by
  decide +kernel

/-- `TestNewCacheWithSHM` — /repo/cache/cache_test.go:38-68: the cache has the length of the segment. -/
example :
    (do
      let s : Ipc := ⟨fun _ => none, 0, fun _ => none, 1000⟩
      let (v, s) ← createKey s 10 4 1
      let s ← s.store v 0 [42]
      let s ← closeShm s v
      let (b, m) ← newBuf ⟨s, ⟨fun _ => none, fun _ => [], 0, fun _ => none⟩⟩ (ascii "shmkey:10") 2
      let a ← m.view b
      Res.ok (a.length, a.head?)) = .ok (4, some 42) := by
  decide +kernel

/-- `./testcase` with the directory of the board SYSOP and the article of the board test. -/
def testcase (article : Bytes) : FS :=
  ⟨[([ascii "testcase"], .dir), ([ascii "testcase", ascii "boards"], .dir), ([ascii "testcase", ascii "boards", ascii "S"], .dir),
    ([ascii "testcase", ascii "boards", ascii "S", ascii "SYSOP"], .dir), ([ascii "testcase", ascii "boards", ascii "t"], .dir),
    ([ascii "testcase", ascii "boards", ascii "t", ascii "test"], .dir),
    ([ascii "testcase", ascii "boards", ascii "t", ascii "test", ascii "M.1606672292.A.B23"], .file article)]⟩

/-- `TestNewArticleRecord` — /repo/pttbbs/pttbbs_write_article_connector_test.go:10-58, at one moment of the clock and one random
number: the file is made, the fields are the ones given, and the file can be removed. -/
example :
    (do
      let (name, fs) ← DB.createFilename ⟨ascii "./testcase", []⟩ (testcase []) (ascii "SYSOP") (fun _ => (1621028697, 0x547)) 1 0
      let r := DB.newArticleRecord name (ascii "nickyanggg") (ascii " 5/15") (ascii "Test")
      let d ← fs.readFile [] (ascii "./testcase/boards/S/SYSOP/" ++ r.filename)
      Res.ok (r.filename, r.owner, r.date, r.title, d)) =
    .ok (ascii "M.1621028697.A.547", ascii "nickyanggg", ascii " 5/15", ascii "Test", []) := by
  decide +kernel

/-- `TestNewComment` — /repo/pttbbs/pttbss_append_new_line_test.go:9-37: whatever the article was, the line stands behind it. -/
example :
    (do
      let line := ([27] ++ ascii "[1;31m") ++ utf8 "→ " ++ [27] ++ ascii "[33mSYSOP" ++ [27] ++ ascii "[m" ++ [27] ++
        ascii "[33m:test                                                   " ++ [27] ++ ascii "[m" ++ utf8 "推 01/17 11:36"
      let fs ← (testcase (ascii "before")).append [] (ascii "./testcase/boards/t/test//M.1606672292.A.B23") line
      let d ← fs.readFile [] (ascii "./testcase/boards/t/test//M.1606672292.A.B23")
      Res.ok (decide (d.drop 6 = line))) = .ok true := by
  decide +kernel

/-- `TestGetVersion` — /repo/pttbbs/cache_test.go:24-42. -/
example :
    (do
      let c ← newCacheState [12, 0, 0, 0] ⟨2, 10, 12, false, 0⟩
      c.version) = .ok 12 := by
  decide +kernel

/-- `TestGetUserInformation` — /repo/serverlet/route_users_test.go:54-93, through the router, with a token that is just the user
name: the answer is the information, and its `user_id` is SYSOP. -/
example :
    (do
      let r ← serve Claims.subject ⟨[{ Userec.zero with userID := ascii "SYSOP", userFlag := 1 }], []⟩
        ⟨ascii "GET", ascii "/v1/users/SYSOP/information", ascii "bearer " ++ newAccessToken Claims.subject (ascii "SYSOP"), [], []⟩
      match r with
      | .userInfo d => Res.ok d.userID
      | _ => .panic) = .ok (ascii "SYSOP") := by
  decide +kernel

end Verif.Conformance
