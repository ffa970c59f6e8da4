import Verif.Model.Path
/-!
# The treasure path functions and the caller's slice

Go slices are windows on shared arrays; `append` writes into the array when there is spare capacity. Only the
`append` on the caller's slice in /repo/pttbbs/path.go:78 and :84 needs this.
-/

namespace Verif

/-- Arrays of strings, by address. Addresses below `next` are in use. -/
structure Heap where
  arrays : Nat → List Bytes
  next : Nat

/-- A `[]string`: array, offset, length, capacity. -/
structure SliceHdr where
  arr : Nat
  off : Nat
  len : Nat
  cap : Nat
  deriving DecidableEq, Repr

/-- The elements seen through a slice. -/
def Heap.view (h : Heap) (s : SliceHdr) : List Bytes := ((h.arrays s.arr).drop s.off).take s.len

/-- Go's `append(s, x)`: in place if there is spare capacity, else into a fresh array. -/
def Heap.append (h : Heap) (s : SliceHdr) (x : Bytes) : Heap × SliceHdr :=
  if s.len < s.cap then
    ({ h with arrays := fun a => if a = s.arr then (h.arrays a).set (s.off + s.len) x else h.arrays a },
     { s with len := s.len + 1 })
  else
    ({ arrays := fun a => if a = h.next then h.view s ++ [x] else h.arrays a, next := h.next + 1 },
     { arr := h.next, off := 0, len := s.len + 1, cap := s.len + 1 })

/-- `GetBoardTreasuresDirectoryPath` with its caller's memory — /repo/pttbbs/path.go:77-81. -/
def treasureDirIn (h : Heap) (home boardID : Bytes) (s : SliceHdr) : Heap × Res Bytes :=
  let (h', s') := h.append s []
  let subPath := joinSlash (h'.view s')
  (h', do
    let c ← firstByte boardID
    .ok (home ++ ascii "/man/boards/" ++ fmtC c ++ ascii "/" ++ boardID ++ ascii "/" ++ subPath ++ ascii ".DIR"))

/-- `GetBoardTreasureFilePath` with its caller's memory — /repo/pttbbs/path.go:83-87. -/
def treasureFileIn (h : Heap) (home boardID : Bytes) (s : SliceHdr) (filename : Bytes) : Heap × Res Bytes :=
  let (h', s') := h.append s []
  let subPath := joinSlash (h'.view s')
  (h', do
    let c ← firstByte boardID
    .ok (home ++ ascii "/man/boards/" ++ fmtC c ++ ascii "/" ++ boardID ++ ascii "/" ++ subPath ++ filename))

end Verif
