import Verif.Model.Board
/-!
# Model of `/repo/pttbbs/fav.go`: the favourites file
-/

namespace Verif

mutual
/-- `FavFolder` — /repo/pttbbs/fav.go:163-172. -/
inductive FavFolder where
  | mk (nAlloc dataTail nBoards : UInt16) (nLines nFolders lineID folderID : UInt8) (items : List FavItem)
/-- `FavItem` — /repo/pttbbs/fav.go:83-87. -/
inductive FavItem where
  | mk (favType favAttr : UInt8) (item : FavData)
/-- The dynamic value of `FavItem.Item`: `nil`, `*FavBoardItem` (fav.go:175-180), `*FavFolderItem` (fav.go:183-187;
`ThisFolder` is a pointer, `none` for nil) or `*FavLineItem` (fav.go:190-192). `name` is the unexported `boardID`.
Simplification: other dynamic types, which behave like `nil` in the code, are not represented. -/
inductive FavData where
  | nil
  | board (boardID : UInt32) (lastVisit : Int) (attr : UInt32) (name : Bytes)
  | folder (folderID : UInt8) (title : Bytes) (thisFolder : Option FavFolder)
  | line (lineID : UInt8)
end

/-- `FavItem.FavType`. -/
def FavItem.favType : FavItem → UInt8 | .mk t _ _ => t
/-- `FavItem.FavAttr`. -/
def FavItem.favAttr : FavItem → UInt8 | .mk _ a _ => a
/-- `FavItem.Item`. -/
def FavItem.item : FavItem → FavData | .mk _ _ d => d
/-- `FavFolder.FavItems`. -/
def FavFolder.items : FavFolder → List FavItem | .mk _ _ _ _ _ _ _ is => is

/-- `FavFile` — /repo/pttbbs/fav.go:156-159 (`Folder` is never nil after loading). -/
structure FavFile where
  version : UInt16
  folder : FavFolder

/-! ## Writer -/

/-- `FavItem.MarshalBinary` with the three item writers — /repo/pttbbs/fav.go:428-476: type, attribute, then
12 bytes for a board, 50 for a folder (1 + 49, `BoardTitleLength` = 48), 1 for a line. -/
def FavItem.marshal (c : Codec) : FavItem → Res Bytes
  | .mk t a (.board bid lv attr _) =>
    .ok ([t, a] ++ runWrites 12 [w32 0 bid, w32 4 (unixU32 lv), w32 8 attr])
  | .mk t a (.folder fid title _) => .ok ([t, a] ++ runWrites 50 [w8 0 fid, wCopy 1 50 (c.enc title)])
  | .mk t a (.line lid) => .ok ([t, a] ++ runWrites 1 [w8 0 lid])
  | .mk _ _ .nil => .err "FavItem.Item must implement encoding.BinaryMarshaler"

/-- The loop of fav.go:407-413. -/
def marshalItems (c : Codec) : List FavItem → Res Bytes
  | [] => .ok []
  | it :: rest => do
    let e ← it.marshal c
    let r ← marshalItems c rest
    .ok (e ++ r)

mutual
/-- `FavFolder.MarshalBinary` — /repo/pttbbs/fav.go:394-426. -/
def FavFolder.marshal (c : Codec) : FavFolder → Res Bytes
  | .mk _ _ nBoards nLines nFolders _ _ items => do
    let hs ← marshalItems c items
    let subs ← marshalSubs c items
    .ok (runWrites 4 [w16 0 nBoards, w8 2 nLines, w8 3 nFolders] ++ hs ++ subs)
/-- The loop of fav.go:415-423. A nil `ThisFolder` is dereferenced at line 399: panic. -/
def marshalSubs (c : Codec) : List FavItem → Res Bytes
  | [] => .ok []
  | .mk _ _ (.folder _ _ (some f)) :: rest => do
    let e ← f.marshal c
    let r ← marshalSubs c rest
    .ok (e ++ r)
  | .mk _ _ (.folder _ _ none) :: _ => .panic
  | .mk _ _ (.board _ _ _ _) :: rest => marshalSubs c rest
  | .mk _ _ (.line _) :: rest => marshalSubs c rest
  | .mk _ _ .nil :: rest => marshalSubs c rest
end

/-- `FavFile.MarshalBinary` — /repo/pttbbs/fav.go:381-392. -/
def FavFile.marshal (c : Codec) (f : FavFile) : Res Bytes := do
  let b ← f.folder.marshal c
  .ok (runWrites 2 [w16 0 f.version] ++ b)

/-! ## Reader -/

/-- `UnmarshalFavItem` with `UnmarshalFavBoardItem`, `UnmarshalFavFolderItem`, `UnmarshalFavLineItem`
— /repo/pttbbs/fav.go:284-379. All slices are inside the length tested before. -/
def unmarshalFavItem (c : Codec) (data : Bytes) (i : Nat) : Res (FavItem × Nat) :=
  if data.length < i + 2 then .err "index out of range, file format invalid"
  else
    let t := byteAt data i
    let a := byteAt data (i + 1)
    let j := i + 2
    if t = 1 then
      if data.length < j + 12 then .err "index out of range, file format invalid"
      else .ok (.mk t a (.board (rd32 (slice data j (j + 4))) (timeOfU32 (rd32 (slice data (j + 4) (j + 8))))
        (rd32 (slice data (j + 8) (j + 12))) []), j + 12)
    else if t = 3 then
      if data.length < j + 1 then .err "index out of range, file format invalid"
      else .ok (.mk t a (.line (byteAt data j)), j + 1)
    else if t = 2 then
      if data.length < j + 50 then .err "index out of range, file format invalid"
      else .ok (.mk t a (.folder (byteAt data j) (c.dec (splitNulHead (slice data (j + 1) (j + 50)))) none), j + 50)
    else .err "invalid Favorite type"

/-- The loop of fav.go:254-261: read `count` items. -/
def unmarshalFavItems (c : Codec) (data : Bytes) : Nat → Nat → Res (List FavItem × Nat)
  | 0, i => .ok ([], i)
  | n + 1, i => do
    let (it, j) ← unmarshalFavItem c data i
    let (its, k) ← unmarshalFavItems c data n j
    .ok (it :: its, k)

/-- The loop of fav.go:264-279: for each folder item read the nested folder (by `rec`), and number folders and
lines. `fid`, `lid` are `ret.FolderID`, `ret.LineID` (uint8, wrapping). -/
def fillSubs (rec : Nat → Res (FavFolder × Nat)) :
    List FavItem → Nat → UInt8 → UInt8 → Res (List FavItem × Nat × UInt8 × UInt8)
  | [], i, fid, lid => .ok ([], i, fid, lid)
  | .mk t a (.folder _ title _) :: rest, i, fid, lid => do
    let (f, j) ← rec i
    let (its, k, fid', lid') ← fillSubs rec rest j (fid + 1) lid
    .ok (.mk t a (.folder (fid + 1) title (some f)) :: its, k, fid', lid')
  | .mk t a (.line _) :: rest, i, fid, lid => do
    let (its, k, fid', lid') ← fillSubs rec rest i fid (lid + 1)
    .ok (.mk t a (.line (lid + 1)) :: its, k, fid', lid')
  | .mk t a (.board b v at' nm) :: rest, i, fid, lid => do
    let (its, k, fid', lid') ← fillSubs rec rest i fid lid
    .ok (.mk t a (.board b v at' nm) :: its, k, fid', lid')
  | .mk t a .nil :: rest, i, fid, lid => do
    let (its, k, fid', lid') ← fillSubs rec rest i fid lid
    .ok (.mk t a .nil :: its, k, fid', lid')

/-- `UnmarshalFavFolder` — /repo/pttbbs/fav.go:224-282, recursion limited by fuel (`diverge` when exhausted). -/
def unmarshalFavFolder (c : Codec) (data : Bytes) : Nat → Nat → Res (FavFolder × Nat)
  | 0, _ => .diverge
  | fuel + 1, i =>
    if data.length < i + 4 then .err "index out of range, file format invalid"
    else do
      let nBoards := rd16 (slice data i (i + 2))
      let nLines := byteAt data (i + 2)
      let nFolders := byteAt data (i + 3)
      -- getDataNumber, fav.go:218-220 (uint16 arithmetic)
      let dataTail := nBoards + nFolders.toUInt16 + nLines.toUInt16
      let (its, j) ← unmarshalFavItems c data dataTail.toNat (i + 4)
      let (its', k, fid, lid) ← fillSubs (unmarshalFavFolder c data fuel) its j 0 0
      .ok (.mk (dataTail + 8) dataTail nBoards nLines nFolders lid fid its', k)

/-- `UnmarshalFavFile` — /repo/pttbbs/fav.go:204-215, with the recursion depth limited by `fuel`. The slice `data[0:2]` is checked against the capacity, so it
may reach into memory behind the file. -/
def unmarshalFavSlice (c : Codec) (fuel : Nat) (s : GSlice) : Res FavFile := do
  let v ← s.sub 0 2
  let (f, _) ← unmarshalFavFolder c (s.mem.take s.len) fuel 2
  .ok ⟨rd16 v, f⟩

/-- `UnmarshalFavFile` on a slice whose capacity is its length. -/
def unmarshalFavFileF (c : Codec) (fuel : Nat) (data : Bytes) : Res FavFile := unmarshalFavSlice c fuel (.full data)

theorem unmarshalFavFileF_eq (c : Codec) (fuel : Nat) (data : Bytes) : unmarshalFavFileF c fuel data =
    if data.length < 2 then .panic
    else (do
      let (f, _) ← unmarshalFavFolder c data fuel 2
      .ok ⟨rd16 (slice data 0 2), f⟩) := by
  unfold unmarshalFavFileF unmarshalFavSlice GSlice.sub GSlice.full
  by_cases h : data.length < 2
  · rw [if_pos h, if_neg (by simp only; omega)]; rfl
  · rw [if_neg h, if_pos (by simp only; omega), Res.ok_bind]
    simp only [List.take_length]

/-- `UnmarshalFavFile` — /repo/pttbbs/fav.go:204-215. The fuel is proved sufficient (C08), so this is the
unlimited recursion of the source. -/
def unmarshalFavFile (c : Codec) (data : Bytes) : Res FavFile := unmarshalFavFileF c (data.length + 1) data

/-- `OpenFavFile` — /repo/pttbbs/fav.go:195-201, once the file is read. -/
def loadFav (c : Codec) (data : Bytes) : Res FavFile := unmarshalFavSlice c (data.length + 1) (.ofFile data)

/-- The memory behind the file does not matter: only the version could come from it, and then there is no folder. -/
theorem unmarshalFavSlice_eq (c : Codec) (data rest : Bytes) (h : 2 ≤ (data ++ rest).length) : unmarshalFavSlice c (data.length + 1) ⟨data ++ rest, data.length⟩ =
    if data.length < 2 then .err "index out of range, file format invalid" else unmarshalFavFile c data := by
  unfold unmarshalFavFile
  rw [unmarshalFavFileF_eq]
  unfold unmarshalFavSlice GSlice.sub
  rw [if_pos (by simp only; omega), Res.ok_bind]
  simp only [List.take_left']
  by_cases h2 : data.length < 2
  · rw [if_pos h2, unmarshalFavFolder, if_pos (by omega)]; rfl
  · rw [if_neg h2, if_neg h2, slice, slice, List.take_append_of_le_length (by omega)]

theorem loadFav_eq (c : Codec) (data : Bytes) : loadFav c data =
    if data.length < 2 then .err "index out of range, file format invalid" else unmarshalFavFile c data :=
  unmarshalFavSlice_eq c data _ (by rw [List.length_append, zeros, List.length_replicate]; omega)

theorem loadFav_ok (c : Codec) (data : Bytes) (f : FavFile) : loadFav c data = .ok f ↔ unmarshalFavFile c data = .ok f := by
  rw [loadFav_eq]
  split
  · next h =>
    unfold unmarshalFavFile
    rw [unmarshalFavFileF_eq, if_pos h]
    exact ⟨(fun h => by cases h), (fun h => by cases h)⟩
  · exact Iff.rfl

end Verif
