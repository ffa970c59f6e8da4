import Verif.Proofs.Decode
import Verif.Model.Board
import Verif.Proofs.Record
/-!
# C04: the board record round trip
-/

namespace Verif
open Spec

/-- Every string fits its field, every time fits 32 bits, the codec is faithful on the four Big5 strings. -/
structure BoardHeader.Storable (c : Codec) (b : BoardHeader) : Prop where
  name : FitsCstr 13 (c.enc b.brdName)
  nameC : c.dec (c.enc b.brdName) = b.brdName
  title : FitsCstr 49 (c.enc b.title)
  titleC : c.dec (c.enc b.title) = b.title
  bm : FitsTrim 39 b.bm
  chess : FitsTrim 1 b.chessCountry
  postType : FitsTrim 33 (c.enc b.postType)
  postTypeC : c.dec (c.enc b.postType) = b.postType
  postTypeF : FitsTrim 1 (c.enc b.postTypeF)
  postTypeFC : c.dec (c.enc b.postTypeF) = b.postTypeF
  bUpdate : FitsTime b.bUpdate
  vTime : FitsTime b.vTime
  permReload : FitsTime b.permReload
  endGamble : FitsTime b.endGamble
  srExpire : FitsTime b.srExpire
  next : b.next.length = 2
  firstChild : b.firstChild.length = 2

theorem wPair_mem {a : Nat} {l : List Int32} {w : Write} (h : w ∈ wPair a l) :
    ∃ x y, l = [x, y] ∧ (w = w32 a x.toUInt32 ∨ w = w32 (a + 4) y.toUInt32) := by
  unfold wPair at h
  split at h
  · rename_i x y
    exact ⟨x, y, rfl, by simpa using h⟩
  · simp at h

theorem BoardHeader.writesIn (c : Codec) (b : BoardHeader) : WritesIn 256 (b.writes c) := by
  intro w hw
  simp only [BoardHeader.writes, List.mem_append] at hw
  rcases hw with ((hw | hw) | hw) | hw
  · revert w; simp [wCopy, w32, w8]
  · obtain ⟨x, y, _, rfl | rfl⟩ := wPair_mem hw <;> simp [w32]
  · obtain ⟨x, y, _, rfl | rfl⟩ := wPair_mem hw <;> simp [w32]
  · revert w; simp [wCopy, w32, w8]

theorem BoardHeader.marshal_length (c : Codec) (b : BoardHeader) : (b.marshal c).length = 256 :=
  runWrites_length (b.writesIn c)

theorem wPair_of_ne {a : Nat} {l : List Int32} (h : l.length ≠ 2) : wPair a l = [] := by
  rcases l with _ | ⟨x, _ | ⟨y, _ | ⟨z, l⟩⟩⟩ <;> first | rfl | exact absurd rfl h

theorem wPair_two (a : Nat) (x y : Int32) : wPair a [x, y] = [w32 a x.toUInt32, w32 (a + 4) y.toUInt32] := rfl

theorem wPair_cases (l : List Int32) : (∃ x y, l = [x, y]) ∨ l.length ≠ 2 := by
  rcases l with _ | ⟨x, _ | ⟨y, _ | ⟨z, l⟩⟩⟩
  · exact .inr (by simp)
  · exact .inr (by simp)
  · exact .inl ⟨x, y, rfl⟩
  · exact .inr (by simp)

theorem BoardHeader.writesDisjoint (c : Codec) (b : BoardHeader) : (b.writes c).Pairwise Write.Disjoint := by
  rcases wPair_cases b.next with ⟨x, y, hn⟩ | hn <;> rcases wPair_cases b.firstChild with ⟨z, w, hf⟩ | hf
  · simp [BoardHeader.writes, hn, hf, wPair, wCopy, w32, w8, Write.Disjoint]
  · simp [BoardHeader.writes, hn, wPair_of_ne hf, wPair_two, wCopy, w32, w8, Write.Disjoint]
  · simp [BoardHeader.writes, wPair_of_ne hn, hf, wPair_two, wCopy, w32, w8, Write.Disjoint]
  · simp [BoardHeader.writes, wPair_of_ne hn, wPair_of_ne hf, wCopy, w32, w8, Write.Disjoint]

/-- What the pair fields keep: exactly two numbers, or else two zeros. -/
def Spec.storedPair (l : List Int32) : List Int32 := if l.length = 2 then l else [0, 0]

/-- What a saved board record contains, for any board whatever: strings are cut at the end of their field and at NULs, times
are taken modulo 2³², the two pairs are zero unless they have two elements. -/
def Spec.storedBoard (c : Codec) (b : BoardHeader) : BoardHeader :=
  { b with
    brdName := c.dec (cut 13 (c.enc b.brdName))
    title := c.dec (cut 49 (c.enc b.title))
    bm := cutTrim 39 b.bm
    chessCountry := cutTrim 1 b.chessCountry
    bUpdate := wrap32 b.bUpdate
    vTime := wrap32 b.vTime
    permReload := wrap32 b.permReload
    next := storedPair b.next
    firstChild := storedPair b.firstChild
    endGamble := wrap32 b.endGamble
    postType := c.dec (cutTrim 33 (c.enc b.postType))
    postTypeF := c.dec (cutTrim 1 (c.enc b.postTypeF))
    srExpire := wrap32 b.srExpire }

/-- The exact effect of saving and loading any board. -/
theorem BoardHeader.parse_marshal_exact (c : Codec) (b : BoardHeader) :
    BoardHeader.parse c (b.marshal c) = storedBoard c b := by
  have hin := b.writesIn c
  have hdj := b.writesDisjoint c
  have R {a e : Nat} {s : Bytes} (hm : wCopy a e s ∈ b.writes c) :
      slice (b.marshal c) a e = padTo (e - a) s := read_copy hin hdj hm
  have R4 {a : Nat} {v : UInt32} (hm : w32 a v ∈ b.writes c) :
      slice (b.marshal c) a (a + 4) = le32 v := read_32 hin hdj hm
  have R1 {a : Nat} {v : UInt8} (hm : w8 a v ∈ b.writes c) :
      byteAt (b.marshal c) a = v := read_8 hin hdj hm
  have e1 : slice (b.marshal c) 0 13 = padTo 13 (c.enc b.brdName) := R (by simp [BoardHeader.writes])
  have e2 : slice (b.marshal c) 13 62 = padTo 49 (c.enc b.title) := R (by simp [BoardHeader.writes])
  have e3 : slice (b.marshal c) 62 101 = padTo 39 b.bm := R (by simp [BoardHeader.writes])
  have e4 : slice (b.marshal c) 104 108 = le32 b.brdattr := R4 (a := 104) (by simp [BoardHeader.writes])
  have e5 : byteAt (b.marshal c) 109 = b.voteLimitPosts := R1 (by simp [BoardHeader.writes])
  have e6 : byteAt (b.marshal c) 110 = b.voteLimitLogins := R1 (by simp [BoardHeader.writes])
  have e7 : slice (b.marshal c) 108 109 = padTo 1 b.chessCountry := R (by simp [BoardHeader.writes])
  have e8 : slice (b.marshal c) 112 116 = le32 (unixU32 b.bUpdate) := R4 (a := 112) (by simp [BoardHeader.writes])
  have e9 : byteAt (b.marshal c) 116 = b.postLimitPosts := R1 (by simp [BoardHeader.writes])
  have e10 : byteAt (b.marshal c) 117 = b.postLimitLogins := R1 (by simp [BoardHeader.writes])
  have e11 : byteAt (b.marshal c) 119 = b.bVote := R1 (by simp [BoardHeader.writes])
  have e12 : slice (b.marshal c) 120 124 = le32 (unixU32 b.vTime) := R4 (a := 120) (by simp [BoardHeader.writes])
  have e13 : slice (b.marshal c) 124 128 = le32 b.level := R4 (a := 124) (by simp [BoardHeader.writes])
  have e14 : slice (b.marshal c) 128 132 = le32 (unixU32 b.permReload) :=
    R4 (a := 128) (by simp [BoardHeader.writes])
  have e15 : slice (b.marshal c) 132 136 = le32 b.gid.toUInt32 := R4 (a := 132) (by simp [BoardHeader.writes])
  have e20 : slice (b.marshal c) 152 156 = le32 b.parent.toUInt32 := R4 (a := 152) (by simp [BoardHeader.writes])
  have e21 : slice (b.marshal c) 156 160 = le32 b.childCount.toUInt32 :=
    R4 (a := 156) (by simp [BoardHeader.writes])
  have e22 : slice (b.marshal c) 160 164 = le32 b.nuser.toUInt32 := R4 (a := 160) (by simp [BoardHeader.writes])
  have e23 : slice (b.marshal c) 164 168 = le32 b.postExpire.toUInt32 :=
    R4 (a := 164) (by simp [BoardHeader.writes])
  have e24 : slice (b.marshal c) 168 172 = le32 (unixU32 b.endGamble) :=
    R4 (a := 168) (by simp [BoardHeader.writes])
  have e25 : slice (b.marshal c) 172 205 = padTo 33 (c.enc b.postType) := R (by simp [BoardHeader.writes])
  have e26 : slice (b.marshal c) 205 206 = padTo 1 (c.enc b.postTypeF) := R (by simp [BoardHeader.writes])
  have e27 : byteAt (b.marshal c) 206 = b.fastRecommendPause := R1 (by simp [BoardHeader.writes])
  have e28 : byteAt (b.marshal c) 207 = b.voteLimitBadPost := R1 (by simp [BoardHeader.writes])
  have e29 : byteAt (b.marshal c) 208 = b.postLimitBadPost := R1 (by simp [BoardHeader.writes])
  have e30 : slice (b.marshal c) 212 216 = le32 (unixU32 b.srExpire) :=
    R4 (a := 212) (by simp [BoardHeader.writes])
  have hz : rd32 (zeros 4) = 0 := by decide
  have e16 : [(rd32 (slice (b.marshal c) 136 140)).toInt32, (rd32 (slice (b.marshal c) 140 144)).toInt32] =
      storedPair b.next := by
    rcases wPair_cases b.next with ⟨x, y, hn⟩ | hn
    · rw [show slice (b.marshal c) 136 140 = le32 x.toUInt32 from R4 (a := 136) (by simp [BoardHeader.writes, hn, wPair]),
        show slice (b.marshal c) 140 144 = le32 y.toUInt32 from R4 (a := 140) (by simp [BoardHeader.writes, hn, wPair]),
        rd32_le32, rd32_le32, hn]
      rfl
    · have hu : ∀ w ∈ b.writes c, w.lim ≤ 136 ∨ 144 ≤ w.off := by
        intro w hw
        simp only [BoardHeader.writes, wPair_of_ne hn, List.mem_append] at hw
        rcases hw with ((hw | hw) | hw) | hw
        · revert w; simp [wCopy, w32, w8]
        · cases hw
        · obtain ⟨x, y, _, rfl | rfl⟩ := wPair_mem hw <;> simp [w32]
        · revert w; simp [wCopy, w32, w8]
      rw [show slice (b.marshal c) 136 140 = zeros 4 from
          slice_runWrites_untouched hin (by omega) (fun w hw => by have := hu w hw; omega),
        show slice (b.marshal c) 140 144 = zeros 4 from
          slice_runWrites_untouched hin (by omega) (fun w hw => by have := hu w hw; omega), hz]
      unfold storedPair
      rw [if_neg hn]
      rfl
  have e17 : [(rd32 (slice (b.marshal c) 144 148)).toInt32, (rd32 (slice (b.marshal c) 148 152)).toInt32] =
      storedPair b.firstChild := by
    rcases wPair_cases b.firstChild with ⟨x, y, hn⟩ | hn
    · rw [show slice (b.marshal c) 144 148 = le32 x.toUInt32 from R4 (a := 144) (by simp [BoardHeader.writes, hn, wPair]),
        show slice (b.marshal c) 148 152 = le32 y.toUInt32 from R4 (a := 148) (by simp [BoardHeader.writes, hn, wPair]),
        rd32_le32, rd32_le32, hn]
      rfl
    · have hu : ∀ w ∈ b.writes c, w.lim ≤ 144 ∨ 152 ≤ w.off := by
        intro w hw
        simp only [BoardHeader.writes, wPair_of_ne hn, List.mem_append] at hw
        rcases hw with ((hw | hw) | hw) | hw
        · revert w; simp [wCopy, w32, w8]
        · obtain ⟨x, y, _, rfl | rfl⟩ := wPair_mem hw <;> simp [w32]
        · cases hw
        · revert w; simp [wCopy, w32, w8]
      rw [show slice (b.marshal c) 144 148 = zeros 4 from
          slice_runWrites_untouched hin (by omega) (fun w hw => by have := hu w hw; omega),
        show slice (b.marshal c) 148 152 = zeros 4 from
          slice_runWrites_untouched hin (by omega) (fun w hw => by have := hu w hw; omega), hz]
      unfold storedPair
      rw [if_neg hn]
      rfl
  simp only [BoardHeader.parse, splitNulHead, e1, e2, e3, e4, e5, e6, e7, e8, e9, e10, e11, e12, e13, e14,
    e15, e16, e17, e20, e21, e22, e23, e24, e25, e26, e27, e28, e29, e30, takeWhile_padTo_cut, trimNul_padTo_cut,
    rd32_le32, time_wrap, UInt32.toInt32_toUInt32]
  rfl

/-- **C04, for any board at all**: 256 bytes, and what they contain. -/
theorem C04_exact (c : Codec) (b : BoardHeader) :
    (b.marshal c).length = 256 ∧ BoardHeader.unmarshal c (b.marshal c) = .ok (storedBoard c b) := by
  have hl := b.marshal_length c
  refine ⟨hl, ?_⟩
  simp [BoardHeader.unmarshal_def, hl, b.parse_marshal_exact c]

theorem BoardHeader.Storable.stored {c : Codec} {b : BoardHeader} (h : b.Storable c) : storedBoard c b = b := by
  unfold storedBoard
  rw [cut_of_fits h.name, cut_of_fits h.title, cutTrim_of_fits h.bm, cutTrim_of_fits h.chess, cutTrim_of_fits h.postType,
    cutTrim_of_fits h.postTypeF, h.nameC, h.titleC, h.postTypeC, h.postTypeFC, wrap32_of_fits h.bUpdate,
    wrap32_of_fits h.vTime, wrap32_of_fits h.permReload, wrap32_of_fits h.endGamble, wrap32_of_fits h.srExpire]
  unfold storedPair
  rw [if_pos h.next, if_pos h.firstChild]

/-- **C04.** Serialising a board record gives 256 bytes and parsing them gives back the same record. -/
theorem C04_board_record_roundtrip (c : Codec) (b : BoardHeader) (h : b.Storable c) :
    (b.marshal c).length = 256 ∧ BoardHeader.unmarshal c (b.marshal c) = .ok b := by
  have := C04_exact c b
  rwa [h.stored] at this

/-- A concrete board. -/
def sampleBoard : BoardHeader :=
  { BoardHeader.zero with
    brdName := ascii "SYSOP", title := ascii "chat board", bm := ascii "alice/bob", brdattr := 0x00000810,
    chessCountry := [], voteLimitPosts := 3, bUpdate := 1600681288, vTime := 0, permReload := 1, gid := 2,
    next := [3, -4], firstChild := [5, 6], parent := -7, childCount := 8, nuser := 9, postExpire := 10,
    endGamble := 0, postType := ascii "ask say", postTypeF := ascii "x", postLimitBadPost := 11, srExpire := 12 }

/-- Non-vacuity of C04. -/
example : sampleBoard.Storable asciiCodec := by
  constructor <;> decide

/-- An over-long name, a title with a NUL inside, a time before 1970 and a pair with three elements. -/
example :
    let b := { sampleBoard with
      brdName := ascii "AVeryLongBoardName", title := [65, 0, 66], vTime := -1, next := [1, 2, 3], firstChild := [4, 5] }
    (storedBoard asciiCodec b).brdName = ascii "AVeryLongBoar" ∧ (storedBoard asciiCodec b).title = [65] ∧
      (storedBoard asciiCodec b).vTime = 4294967295 ∧ (storedBoard asciiCodec b).next = [0, 0] ∧
      (storedBoard asciiCodec b).firstChild = [4, 5] := by decide

end Verif
