import Verif.Conformance.Tables
import Verif.Model.Path
/-!
# The tests of the file names — /repo/pttbbs/path_test.go

Written by /verif/tools/conform.py.
-/

namespace Verif.Conformance

/-- `TestGetPasswdsPath` — /repo/pttbbs/path_test.go:27-45. -/
example : getPasswdsPath (ascii "/root") = .ok (ascii "/root/.PASSWDS") ∧
    getPasswdsPath (ascii "/root/") = .ok (ascii "/root//.PASSWDS") ∧
    getPasswdsPath (ascii "/root//") = .ok (ascii "/root///.PASSWDS") ∧
    getPasswdsPath (ascii "home/bbs") = .ok (ascii "home/bbs/.PASSWDS") := by
  decide +kernel

/-- `TestGetBoardPath` — /repo/pttbbs/path_test.go:66-84. -/
example : getBoardPath (ascii "/root") = .ok (ascii "/root/.BRD") ∧
    getBoardPath (ascii "/root/") = .ok (ascii "/root//.BRD") ∧
    getBoardPath (ascii "/root//") = .ok (ascii "/root///.BRD") ∧
    getBoardPath (ascii "home/bbs") = .ok (ascii "home/bbs/.BRD") := by
  decide +kernel

/-- `TestGetUserFavoritePath` — /repo/pttbbs/path_test.go:109-139. -/
example : getUserFavoritePath (ascii "/root") (ascii "SYSOP") = .ok (ascii "/root/home/S/SYSOP/.fav") ∧
    getUserFavoritePath (ascii "/root/") (ascii "SYSOP") = .ok (ascii "/root//home/S/SYSOP/.fav") ∧
    getUserFavoritePath (ascii "/root//") (ascii "SYSOP") = .ok (ascii "/root///home/S/SYSOP/.fav") ∧
    getUserFavoritePath (ascii "/root") (ascii "sysop") = .ok (ascii "/root/home/s/sysop/.fav") := by
  decide +kernel

/-- `TestGetUserDraftPath` — /repo/pttbbs/path_test.go:165-199. -/
example : getUserDraftPath (ascii "/root") (ascii "SYSOP") (ascii "1") = .ok (ascii "/root/home/S/SYSOP/buf.1") ∧
    getUserDraftPath (ascii "/root/") (ascii "SYSOP") (ascii "2") = .ok (ascii "/root//home/S/SYSOP/buf.2") ∧
    getUserDraftPath (ascii "/root//") (ascii "SYSOP") (ascii "3") = .ok (ascii "/root///home/S/SYSOP/buf.3") ∧
    getUserDraftPath (ascii "/root") (ascii "sysop") (ascii "4") = .ok (ascii "/root/home/s/sysop/buf.4") := by
  decide +kernel

/-- `TestGetUserMailPath` — /repo/pttbbs/path_test.go:225-259. -/
example : getUserMailPath (ascii "/root") (ascii "SYSOP") (ascii "M.1600751073.A.BC9") = .ok (ascii "/root/home/S/SYSOP/M.1600751073.A.BC9") ∧
    getUserMailPath (ascii "/root/") (ascii "SYSOP") (ascii "M.16007514073.A.BC9") = .ok (ascii "/root//home/S/SYSOP/M.16007514073.A.BC9") ∧
    getUserMailPath (ascii "/root//") (ascii "SYSOP") (ascii "M.2600751073.A.BC9") = .ok (ascii "/root///home/S/SYSOP/M.2600751073.A.BC9") ∧
    getUserMailPath (ascii "/root") (ascii "sysop") (ascii "M.1600751073.B.BC9") = .ok (ascii "/root/home/s/sysop/M.1600751073.B.BC9") := by
  decide +kernel

/-- `TestGetLoginRecentPath` — /repo/pttbbs/path_test.go:284-314. -/
example : getLoginRecentPath (ascii "/root") (ascii "SYSOP") = .ok (ascii "/root/home/S/SYSOP/logins.recent") ∧
    getLoginRecentPath (ascii "/root/") (ascii "SYSOP") = .ok (ascii "/root//home/S/SYSOP/logins.recent") ∧
    getLoginRecentPath (ascii "/root//") (ascii "SYSOP") = .ok (ascii "/root///home/S/SYSOP/logins.recent") ∧
    getLoginRecentPath (ascii "/root") (ascii "sysop") = .ok (ascii "/root/home/s/sysop/logins.recent") := by
  decide +kernel

/-- `TestGetBoardArticlesDirectoryPath` — /repo/pttbbs/path_test.go:339-369. -/
example : getBoardArticlesDirectoryPath (ascii "/root") (ascii "SYSOP") = .ok (ascii "/root/boards/S/SYSOP/.DIR") ∧
    getBoardArticlesDirectoryPath (ascii "/root/") (ascii "SYSOP") = .ok (ascii "/root//boards/S/SYSOP/.DIR") ∧
    getBoardArticlesDirectoryPath (ascii "/root//") (ascii "SYSOP") = .ok (ascii "/root///boards/S/SYSOP/.DIR") ∧
    getBoardArticlesDirectoryPath (ascii "/root") (ascii "sysop") = .ok (ascii "/root/boards/s/sysop/.DIR") := by
  decide +kernel

/-- `TestGetBoardArticleFilePath` — /repo/pttbbs/path_test.go:395-429. -/
example : getBoardArticleFilePath (ascii "/root") (ascii "SYSOP") (ascii "M.16007514073.A.BC9") = .ok (ascii "/root/boards/S/SYSOP/M.16007514073.A.BC9") ∧
    getBoardArticleFilePath (ascii "/root/") (ascii "SYSOP") (ascii "M.16007514073.A.BC9") = .ok (ascii "/root//boards/S/SYSOP/M.16007514073.A.BC9") ∧
    getBoardArticleFilePath (ascii "/root//") (ascii "SYSOP") (ascii "M.16007514073.A.BC9") = .ok (ascii "/root///boards/S/SYSOP/M.16007514073.A.BC9") ∧
    getBoardArticleFilePath (ascii "/root") (ascii "sysop") (ascii "M.16007514073.A.BC9") = .ok (ascii "/root/boards/s/sysop/M.16007514073.A.BC9") := by
  decide +kernel

/-- `TestGetBoardTreasuresDirectoryPath` — /repo/pttbbs/path_test.go:455-486. -/
example : getBoardTreasuresDirectoryPath (ascii "/root") (ascii "SYSOP") ([]) = .ok (ascii "/root/man/boards/S/SYSOP/.DIR") ∧
    getBoardTreasuresDirectoryPath (ascii "/root") (ascii "SYSOP") ([ascii "D3D1"]) = .ok (ascii "/root/man/boards/S/SYSOP/D3D1/.DIR") ∧
    getBoardTreasuresDirectoryPath (ascii "/root") (ascii "SYSOP") ([ascii "D3D1", ascii "D3D2"]) = .ok (ascii "/root/man/boards/S/SYSOP/D3D1/D3D2/.DIR") := by
  decide +kernel

/-- `TestGetBoardTreasureFilePath` — /repo/pttbbs/path_test.go:513-547. -/
example : getBoardTreasureFilePath (ascii "/root") (ascii "SYSOP") ([]) (ascii "M.16007514073.A.BC9") = .ok (ascii "/root/man/boards/S/SYSOP/M.16007514073.A.BC9") ∧
    getBoardTreasureFilePath (ascii "/root") (ascii "sysop") ([ascii "D3D1"]) (ascii "M.16007514073.A.BC9") = .ok (ascii "/root/man/boards/s/sysop/D3D1/M.16007514073.A.BC9") ∧
    getBoardTreasureFilePath (ascii "/root") (ascii "sysop") ([ascii "D3D1", ascii "D3D2"]) (ascii "M.16007514073.A.BC9") = .ok (ascii "/root/man/boards/s/sysop/D3D1/D3D2/M.16007514073.A.BC9") := by
  decide +kernel

/-- `TestGetBoardNameFilePath` — /repo/pttbbs/path_test.go:572-602. -/
example : getBoardNameFilePath (ascii "/root") (ascii "SYSOP") = .ok (ascii "/root/boards/S/SYSOP/.Name") ∧
    getBoardNameFilePath (ascii "/root/") (ascii "SYSOP") = .ok (ascii "/root//boards/S/SYSOP/.Name") ∧
    getBoardNameFilePath (ascii "/root//") (ascii "SYSOP") = .ok (ascii "/root///boards/S/SYSOP/.Name") ∧
    getBoardNameFilePath (ascii "/root") (ascii "sysop") = .ok (ascii "/root/boards/s/sysop/.Name") := by
  decide +kernel

end Verif.Conformance
