import Verif.Conformance.Tables
import Verif.Model.Fav
/-!
# The tests of the favourites file — /repo/pttbbs/fav_test.go

Written by /verif/tools/conform.py.
-/

namespace Verif.Conformance

/-- A favourites tree written out as a list of numbers: every field the test compares as JSON, in order, each list and string
behind its length. The fuel is the depth looked at. -/
def flat : Nat → FavFolder → List Nat
  | 0, _ => [0]
  | k + 1, .mk na dt nb nl nf li fi items =>
    [na.toNat, dt.toNat, nb.toNat, nl.toNat, nf.toNat, li.toNat, fi.toNat, items.length] ++
      items.flatMap fun it =>
        match it with
        | .mk t at_ .nil => [t.toNat, at_.toNat, 1]
        | .mk t at_ (.board id lv attr _) => [t.toNat, at_.toNat, 2, id.toNat, lv.toNat, attr.toNat]
        | .mk t at_ (.folder id title f) =>
          [t.toNat, at_.toNat, 3, id.toNat, title.length] ++ title.map UInt8.toNat ++ (f.elim [0] (fun f => 1 :: flat k f))
        | .mk t at_ (.line id) => [t.toNat, at_.toNat, 4, id.toNat]

/-- /repo/pttbbs/testcase/fav/01.fav. -/
def fav01 : Bytes :=
  bytes 34 0x230d0200000001010e00000000000000000000000101060000000000000000000000

/-- /repo/pttbbs/fav_test.go:57-264. -/
def folder01 : FavFolder :=
  (.mk 10 2 2 0 0 0 0
    [.mk 1 1 (.board 14 0 0 []),
     .mk 1 1 (.board 6 0 0 [])])

/-- `TestOpenFavFile`, 01.fav: the tree. -/
example : (do
      let f ← unmarshalFavFile codec fav01
      Res.ok (f.version, flat 10 f.folder)) = .ok (3363, flat 10 folder01) := by
  decide +kernel

/-- `TestOpenFavFile`, 01.fav: written back, it is the file. -/
example : (do
      let f ← unmarshalFavFile codec fav01
      f.marshal codec) = .ok fav01 := by
  decide +kernel

/-- /repo/pttbbs/testcase/fav/02.fav. -/
def fav02 : Bytes :=
  bytes 365 0x230d03000001020101b773aabaa5d8bffd000000000000000000000000000000000000000000000000000000000000000000000000000000000001010d000000000000000000000001010e0000000000000000000000010106000000000000000000000000000201030101020101466f6c6465723032000000000000000000000000000000000000000000000000000000000000000000000000000000000003010200000001020101466f6c6465723033000000000000000000000000000000000000000000000000000000000000000000000000000000000001000102020101466f6c6465723034000000000000000000000000000000000000000000000000000000000000000000000000000000000001010e00000000000000000000000301010201024d4158204c656e6774683a32333435363732323334353637383930333233343536373839303432333435363738393035000100000001010e000000000000000000000000000000

/-- /repo/pttbbs/fav_test.go:57-264. -/
def folder02 : FavFolder :=
  (.mk 12 4 3 0 1 0 1
    [.mk 2 1 (.folder 1 (utf8 "新的目錄") (some (.mk 11 3 0 2 1 2 1
       [.mk 3 1 (.line 1),
        .mk 2 1 (.folder 1 (ascii "Folder02") (some (.mk 9 1 0 0 1 0 1
          [.mk 2 1 (.folder 1 (ascii "Folder03") (some (.mk 12 4 1 1 2 1 2
             [.mk 2 1 (.folder 1 (ascii "Folder04") (some (.mk 9 1 1 0 0 0 0
                [.mk 1 1 (.board 14 0 0 [])]))),
              .mk 1 1 (.board 14 0 0 []),
              .mk 3 1 (.line 1),
              .mk 2 1 (.folder 2 (ascii "MAX Length:2345672234567890323456789042345678905") (some (.mk 8 0 0 0 0 0 0
                [])))])))]))),
        .mk 3 1 (.line 2)]))),
     .mk 1 1 (.board 13 0 0 []),
     .mk 1 1 (.board 14 0 0 []),
     .mk 1 1 (.board 6 0 0 [])])

/-- `TestOpenFavFile`, 02.fav: the tree. -/
example : (do
      let f ← unmarshalFavFile codec fav02
      Res.ok (f.version, flat 10 f.folder)) = .ok (3363, flat 10 folder02) := by
  decide +kernel

/-- `TestOpenFavFile`, 02.fav: written back, it is the file. -/
example : (do
      let f ← unmarshalFavFile codec fav02
      f.marshal codec) = .ok fav02 := by
  decide +kernel

/-- `TestUnmarshalFavItem` — /repo/pttbbs/fav_test.go:29-50. -/
example : (do
      let (it, _) ← unmarshalFavItem codec [3, 1, 2] 0
      let b ← it.marshal codec
      Res.ok (it.favType, (match it.item with | .line n => some n | _ => none), b)) = .ok (3, some 2, [3, 1, 2]) := by
  decide +kernel

end Verif.Conformance
