import Verif.Proofs.Decode
import Verif.Model.UserInfo
import Verif.Proofs.Record
import Verif.Props.UserRecord
/-!
# C06: the online-user record round trip
-/

set_option linter.unusedSimpArgs false

namespace Verif
open Spec

/-- Every string fits its field, messages have their fixed size, times fit 32 bits, and the codec is faithful on
the strings stored. -/
structure UserInfo.Storable (c : Codec) (u : UserInfo) : Prop where
  userID : FitsCstr 13 u.userID
  userIDC : c.enc u.userID = u.userID
  nickname : FitsCstr 24 (c.enc u.nickname)
  nicknameC : c.dec (c.enc u.nickname) = u.nickname
  fromHost : FitsCstr 27 u.fromHost
  fromHostC : c.enc u.fromHost = u.fromHost
  lastAct : FitsTime u.lastAct
  chatID : FitsCstr 11 u.chatID
  chatIDC : c.enc u.chatID = u.chatID
  mateID : FitsCstr 13 (c.enc u.mateID)
  mateIDC : c.dec (c.enc u.mateID) = u.mateID
  wbTime : FitsTime u.wbTime
  msgs : ∀ i : Fin 10, u.msgs[i].length = 100

theorem UserInfo.orderedA (c : Codec) (u : UserInfo) : Ordered 3449 0 (u.writesA c) := by
  unfold UserInfo.writesA
  refine Ordered.append (mid := 3392) (Ordered.append (mid := 2292) (Ordered.append (mid := 2284)
    (Ordered.append (mid := 2156) (Ordered.append (mid := 1128) (Ordered.append (mid := 100) ?_ ?_) ?_) ?_) ?_) ?_) ?_
  · simp [Ordered, wCopy, w32, w16, w8]
  · exact (Ordered.ofFn 100 4 256 _ (fun i => by simp [w32])).mono (by omega)
  · exact (Ordered.ofFn 1128 4 256 _ (fun i => by simp [w32])).mono (by omega)
  · exact (Ordered.ofFn 2156 4 32 _ (fun i => by simp [w32])).mono (by omega)
  · simp [Ordered, w8]
  · exact (Ordered.ofFn 2292 100 10 _ (fun i => by simp [wCopy])).mono (by omega)
  · simp [Ordered, wCopy, w32, w16, w8]

theorem UserInfo.boundsB (u : UserInfo) : ∀ w ∈ u.writesB, 3449 ≤ w.off ∧ w.off ≤ w.lim ∧ w.lim ≤ 3475 := by
  simp [UserInfo.writesB, w32, w16]

theorem UserInfo.writesIn (c : Codec) (u : UserInfo) : WritesIn 3484 (u.writes c) := by
  intro w hw
  rcases List.mem_append.mp hw with h | h
  · have := (u.orderedA c).bounds.2 w h; omega
  · have := u.boundsB w h; omega

theorem UserInfo.marshal_length (c : Codec) (u : UserInfo) : (u.marshal c).length = 3484 :=
  runWrites_length (u.writesIn c)

theorem UserInfo.sliceA (c : Codec) (u : UserInfo) {a b : Nat} (h : b ≤ 3449) :
    slice (u.marshal c) a b = slice (runWrites 3484 (u.writesA c)) a b := by
  have hA : WritesIn 3484 (u.writesA c) := fun w hw => by
    have := (u.orderedA c).bounds.2 w hw; omega
  have hl := runWrites_length hA
  unfold UserInfo.marshal runWrites UserInfo.writes
  rw [List.foldl_append]
  apply slice_foldl_untouched
  · intro w hw
    have := u.boundsB w hw
    unfold runWrites at hl
    omega
  · intro w hw
    have := u.boundsB w hw
    omega

/-- The record that a save/load cycle really returns: three scores are replaced by others stored in the same place. -/
def UserInfo.clobbered (u : UserInfo) : UserInfo :=
  { u with
    five := { u.five with tie := u.chineseChess.tie }
    chineseChess := { u.chineseChess with win := u.chessEloRating, lose := u.goChess.win } }

/-- What a saved online record contains, for any record whatever: the three scores above, strings cut at the end of their field
and at the first NUL, messages cut or filled with zeros to 100 bytes, times modulo 2³². -/
def Spec.storedOnline (c : Codec) (u : UserInfo) : UserInfo :=
  { u.clobbered with
    userID := cut 13 (c.enc u.userID)
    nickname := c.dec (cut 24 (c.enc u.nickname))
    fromHost := cut 27 (c.enc u.fromHost)
    lastAct := wrap32 u.lastAct
    chatID := cut 11 (c.enc u.chatID)
    mateID := c.dec (cut 13 (c.enc u.mateID))
    wbTime := wrap32 u.wbTime
    msgs := Vector.ofFn fun i : Fin 10 => padTo 100 u.msgs[i] }

theorem UserInfo.parse_marshal_exact (c : Codec) (u : UserInfo) : UserInfo.parse c (u.marshal c) = storedOnline c u := by
  have hl := u.marshal_length c
  have hin : WritesIn 3484 (u.writesA c) := fun w hw => by
    have := (u.orderedA c).bounds.2 w hw; omega
  have hdj := (u.orderedA c).disjoint
  have bd := (u.orderedA c).bounds.2
  have R {a e : Nat} {s : Bytes} (hm : wCopy a e s ∈ u.writesA c) :
      slice (u.marshal c) a e = padTo (e - a) s := by
    have hb : e ≤ 3449 := (bd _ hm).2.2
    rw [u.sliceA c hb]; exact read_copy hin hdj hm
  have R4 {a : Nat} {v : UInt32} (hm : w32 a v ∈ u.writesA c) :
      slice (u.marshal c) a (a + 4) = le32 v := by
    have hb : a + 4 ≤ 3449 := (bd _ hm).2.2
    rw [u.sliceA c hb]; exact read_32 hin hdj hm
  have R2 {a : Nat} {v : UInt16} (hm : w16 a v ∈ u.writesA c) :
      slice (u.marshal c) a (a + 2) = le16 v := by
    have hb : a + 2 ≤ 3449 := (bd _ hm).2.2
    rw [u.sliceA c hb]; exact read_16 hin hdj hm
  have R1 {a : Nat} {v : UInt8} (hm : w8 a v ∈ u.writesA c) :
      byteAt (u.marshal c) a = v := by
    have h1 := (bd _ hm).2.2
    simp only [w8] at h1
    have h2 := u.sliceA c h1 (a := a)
    rw [byteAt_eq_slice _ _ (by omega), byteAt_eq_slice _ _ (by rw [runWrites_length hin]; omega)] at h2
    rw [List.singleton_inj.mp h2]
    exact read_8 hin hdj hm
  have e0 : slice (u.marshal c) 0 4 = le32 u.uid.toUInt32 :=
    R4 (a := 0) (by simp only [UserInfo.writesA, List.mem_append, List.mem_cons, true_or, or_true])
  have e1 : slice (u.marshal c) 4 8 = le32 u.pid.toUInt32 :=
    R4 (a := 4) (by simp only [UserInfo.writesA, List.mem_append, List.mem_cons, true_or, or_true])
  have e2 : slice (u.marshal c) 8 12 = le32 u.sockAddr.toUInt32 :=
    R4 (a := 8) (by simp only [UserInfo.writesA, List.mem_append, List.mem_cons, true_or, or_true])
  have e3 : slice (u.marshal c) 12 16 = le32 u.userLevel :=
    R4 (a := 12) (by simp only [UserInfo.writesA, List.mem_append, List.mem_cons, true_or, or_true])
  have e4 : slice (u.marshal c) 16 29 = padTo 13 (c.enc u.userID) :=
    R (a := 16) (by simp only [UserInfo.writesA, List.mem_append, List.mem_cons, true_or, or_true])
  have e5 : slice (u.marshal c) 29 53 = padTo 24 (c.enc u.nickname) :=
    R (a := 29) (by simp only [UserInfo.writesA, List.mem_append, List.mem_cons, true_or, or_true])
  have e6 : slice (u.marshal c) 53 80 = padTo 27 (c.enc u.fromHost) :=
    R (a := 53) (by simp only [UserInfo.writesA, List.mem_append, List.mem_cons, true_or, or_true])
  have e7 : slice (u.marshal c) 80 84 = le32 u.fromIP :=
    R4 (a := 80) (by simp only [UserInfo.writesA, List.mem_append, List.mem_cons, true_or, or_true])
  have e8 : slice (u.marshal c) 84 86 = le16 u.darkChess.win :=
    R2 (a := 84) (by simp only [UserInfo.writesA, List.mem_append, List.mem_cons, true_or, or_true])
  have e9 : slice (u.marshal c) 86 88 = le16 u.darkChess.lose :=
    R2 (a := 86) (by simp only [UserInfo.writesA, List.mem_append, List.mem_cons, true_or, or_true])
  have e10 : byteAt (u.marshal c) 89 = u.angelPause :=
    R1 (a := 89) (by simp only [UserInfo.writesA, List.mem_append, List.mem_cons, true_or, or_true])
  have e11 : slice (u.marshal c) 90 92 = le16 u.darkChess.tie :=
    R2 (a := 90) (by simp only [UserInfo.writesA, List.mem_append, List.mem_cons, true_or, or_true])
  have e12 : slice (u.marshal c) 92 96 = le32 u.friendTotal.toUInt32 :=
    R4 (a := 92) (by simp only [UserInfo.writesA, List.mem_append, List.mem_cons, true_or, or_true])
  have e13 : slice (u.marshal c) 96 98 = le16 u.numFriends.toUInt16 :=
    R2 (a := 96) (by simp only [UserInfo.writesA, List.mem_append, List.mem_cons, true_or, or_true])
  have e14 : byteAt (u.marshal c) 2288 = u.msgCount :=
    R1 (a := 2288) (by simp only [UserInfo.writesA, List.mem_append, List.mem_cons, true_or, or_true])
  have e15 : byteAt (u.marshal c) 3392 = (boolByte u.birth) :=
    R1 (a := 3392) (by simp only [UserInfo.writesA, List.mem_append, List.mem_cons, true_or, or_true])
  have e16 : byteAt (u.marshal c) 3393 = (boolByte u.active) :=
    R1 (a := 3393) (by simp only [UserInfo.writesA, List.mem_append, List.mem_cons, true_or, or_true])
  have e17 : byteAt (u.marshal c) 3394 = (boolByte u.invisible) :=
    R1 (a := 3394) (by simp only [UserInfo.writesA, List.mem_append, List.mem_cons, true_or, or_true])
  have e18 : byteAt (u.marshal c) 3395 = u.mode :=
    R1 (a := 3395) (by simp only [UserInfo.writesA, List.mem_append, List.mem_cons, true_or, or_true])
  have e19 : byteAt (u.marshal c) 3396 = (boolByte u.pager) :=
    R1 (a := 3396) (by simp only [UserInfo.writesA, List.mem_append, List.mem_cons, true_or, or_true])
  have e20 : slice (u.marshal c) 3398 3400 = le16 u.conn6.win :=
    R2 (a := 3398) (by simp only [UserInfo.writesA, List.mem_append, List.mem_cons, true_or, or_true])
  have e21 : slice (u.marshal c) 3400 3404 = le32 (unixU32 u.lastAct) :=
    R4 (a := 3400) (by simp only [UserInfo.writesA, List.mem_append, List.mem_cons, true_or, or_true])
  have e22 : byteAt (u.marshal c) 3404 = u.alerts :=
    R1 (a := 3404) (by simp only [UserInfo.writesA, List.mem_append, List.mem_cons, true_or, or_true])
  have e23 : slice (u.marshal c) 3406 3408 = le16 u.conn6.lose :=
    R2 (a := 3406) (by simp only [UserInfo.writesA, List.mem_append, List.mem_cons, true_or, or_true])
  have e24 : byteAt (u.marshal c) 3409 = u.signature :=
    R1 (a := 3409) (by simp only [UserInfo.writesA, List.mem_append, List.mem_cons, true_or, or_true])
  have e25 : slice (u.marshal c) 3410 3412 = le16 u.conn6.tie :=
    R2 (a := 3410) (by simp only [UserInfo.writesA, List.mem_append, List.mem_cons, true_or, or_true])
  have e26 : slice (u.marshal c) 3412 3416 = le32 u.destUID.toUInt32 :=
    R4 (a := 3412) (by simp only [UserInfo.writesA, List.mem_append, List.mem_cons, true_or, or_true])
  have e27 : slice (u.marshal c) 3416 3420 = le32 u.destUIP.toUInt32 :=
    R4 (a := 3416) (by simp only [UserInfo.writesA, List.mem_append, List.mem_cons, true_or, or_true])
  have e28 : byteAt (u.marshal c) 3420 = u.sockActive :=
    R1 (a := 3420) (by simp only [UserInfo.writesA, List.mem_append, List.mem_cons, true_or, or_true])
  have e29 : byteAt (u.marshal c) 3421 = u.inChat :=
    R1 (a := 3421) (by simp only [UserInfo.writesA, List.mem_append, List.mem_cons, true_or, or_true])
  have e30 : slice (u.marshal c) 3422 3433 = padTo 11 (c.enc u.chatID) :=
    R (a := 3422) (by simp only [UserInfo.writesA, List.mem_append, List.mem_cons, true_or, or_true])
  have e31 : byteAt (u.marshal c) 3433 = u.lockMode :=
    R1 (a := 3433) (by simp only [UserInfo.writesA, List.mem_append, List.mem_cons, true_or, or_true])
  have e32 : byteAt (u.marshal c) 3434 = (boolByte u.turn) :=
    R1 (a := 3434) (by simp only [UserInfo.writesA, List.mem_append, List.mem_cons, true_or, or_true])
  have e33 : slice (u.marshal c) 3435 3448 = padTo 13 (c.enc u.mateID) :=
    R (a := 3435) (by simp only [UserInfo.writesA, List.mem_append, List.mem_cons, true_or, or_true])
  have e34 : byteAt (u.marshal c) 3448 = u.color :=
    R1 (a := 3448) (by simp only [UserInfo.writesA, List.mem_append, List.mem_cons, true_or, or_true])
  have a0 (i : Fin 256) : slice (u.marshal c) (100 + 4 * i) (100 + 4 * i + 4) = le32 u.myFriend[i].toUInt32 :=
    R4 (a := 100 + 4 * i) (by
      unfold UserInfo.writesA
      simp only [List.mem_append, List.mem_ofFn]
      exact Or.inl (Or.inl (Or.inl (Or.inl (Or.inl (Or.inr ⟨i, rfl⟩))))))
  have a1 (i : Fin 256) : slice (u.marshal c) (1128 + 4 * i) (1128 + 4 * i + 4) = le32 u.friendOnline[i] :=
    R4 (a := 1128 + 4 * i) (by
      unfold UserInfo.writesA
      simp only [List.mem_append, List.mem_ofFn]
      exact Or.inl (Or.inl (Or.inl (Or.inl (Or.inr ⟨i, rfl⟩)))))
  have a2 (i : Fin 32) : slice (u.marshal c) (2156 + 4 * i) (2156 + 4 * i + 4) = le32 u.reject[i].toUInt32 :=
    R4 (a := 2156 + 4 * i) (by
      unfold UserInfo.writesA
      simp only [List.mem_append, List.mem_ofFn]
      exact Or.inl (Or.inl (Or.inl (Or.inr ⟨i, rfl⟩))))
  have am (i : Fin 10) : slice (u.marshal c) (2292 + 100 * i) (2292 + 100 * i + 100) = padTo 100 u.msgs[i] := by
    have h1 := R (a := 2292 + 100 * i) (e := 2292 + 100 * i + 100) (s := u.msgs[i]) (by
      unfold UserInfo.writesA
      simp only [List.mem_append, List.mem_ofFn]
      exact Or.inl (Or.inr ⟨i, rfl⟩))
    rw [h1, show 2292 + 100 * i.val + 100 - (2292 + 100 * i.val) = 100 by omega]
  have B {pre post : List Write} {w : Write} (hs : u.writesB = pre ++ w :: post)
      (hf : w.data.length = w.lim - w.off) (hd : ∀ x ∈ post, x.lim ≤ w.off ∨ w.lim ≤ x.off) :
      slice (u.marshal c) w.off w.lim = w.data := by
    apply slice_runWrites_last (u.writesIn c) (pre := u.writesA c ++ pre) (post := post) _ hf hd
    rw [UserInfo.writes, hs, List.append_assoc]
  have b0 : slice (u.marshal c) 3449 3451 = le16 u.five.win :=
    B (w := w16 3449 u.five.win) (pre := [])
      (post := [w16 3451 u.five.lose, w16 3453 u.five.tie, w16 3455 u.chineseChess.win, w16 3457 u.chineseChess.lose, w16 3453 u.chineseChess.tie, w16 3455 u.chessEloRating, w16 3457 u.goChess.win, w16 3459 u.goChess.lose, w16 3461 u.goChess.tie, w32 3463 u.withMe, w32 3467 u.brcID, w32 3471 (unixU32 u.wbTime)]) rfl (by simp [w16, w32]) (by simp [w16, w32])
  have b1 : slice (u.marshal c) 3451 3453 = le16 u.five.lose :=
    B (w := w16 3451 u.five.lose) (pre := [w16 3449 u.five.win])
      (post := [w16 3453 u.five.tie, w16 3455 u.chineseChess.win, w16 3457 u.chineseChess.lose, w16 3453 u.chineseChess.tie, w16 3455 u.chessEloRating, w16 3457 u.goChess.win, w16 3459 u.goChess.lose, w16 3461 u.goChess.tie, w32 3463 u.withMe, w32 3467 u.brcID, w32 3471 (unixU32 u.wbTime)]) rfl (by simp [w16, w32]) (by simp [w16, w32])
  have b5 : slice (u.marshal c) 3453 3455 = le16 u.chineseChess.tie :=
    B (w := w16 3453 u.chineseChess.tie) (pre := [w16 3449 u.five.win, w16 3451 u.five.lose, w16 3453 u.five.tie, w16 3455 u.chineseChess.win, w16 3457 u.chineseChess.lose])
      (post := [w16 3455 u.chessEloRating, w16 3457 u.goChess.win, w16 3459 u.goChess.lose, w16 3461 u.goChess.tie, w32 3463 u.withMe, w32 3467 u.brcID, w32 3471 (unixU32 u.wbTime)]) rfl (by simp [w16, w32]) (by simp [w16, w32])
  have b6 : slice (u.marshal c) 3455 3457 = le16 u.chessEloRating :=
    B (w := w16 3455 u.chessEloRating) (pre := [w16 3449 u.five.win, w16 3451 u.five.lose, w16 3453 u.five.tie, w16 3455 u.chineseChess.win, w16 3457 u.chineseChess.lose, w16 3453 u.chineseChess.tie])
      (post := [w16 3457 u.goChess.win, w16 3459 u.goChess.lose, w16 3461 u.goChess.tie, w32 3463 u.withMe, w32 3467 u.brcID, w32 3471 (unixU32 u.wbTime)]) rfl (by simp [w16, w32]) (by simp [w16, w32])
  have b7 : slice (u.marshal c) 3457 3459 = le16 u.goChess.win :=
    B (w := w16 3457 u.goChess.win) (pre := [w16 3449 u.five.win, w16 3451 u.five.lose, w16 3453 u.five.tie, w16 3455 u.chineseChess.win, w16 3457 u.chineseChess.lose, w16 3453 u.chineseChess.tie, w16 3455 u.chessEloRating])
      (post := [w16 3459 u.goChess.lose, w16 3461 u.goChess.tie, w32 3463 u.withMe, w32 3467 u.brcID, w32 3471 (unixU32 u.wbTime)]) rfl (by simp [w16, w32]) (by simp [w16, w32])
  have b8 : slice (u.marshal c) 3459 3461 = le16 u.goChess.lose :=
    B (w := w16 3459 u.goChess.lose) (pre := [w16 3449 u.five.win, w16 3451 u.five.lose, w16 3453 u.five.tie, w16 3455 u.chineseChess.win, w16 3457 u.chineseChess.lose, w16 3453 u.chineseChess.tie, w16 3455 u.chessEloRating, w16 3457 u.goChess.win])
      (post := [w16 3461 u.goChess.tie, w32 3463 u.withMe, w32 3467 u.brcID, w32 3471 (unixU32 u.wbTime)]) rfl (by simp [w16, w32]) (by simp [w16, w32])
  have b9 : slice (u.marshal c) 3461 3463 = le16 u.goChess.tie :=
    B (w := w16 3461 u.goChess.tie) (pre := [w16 3449 u.five.win, w16 3451 u.five.lose, w16 3453 u.five.tie, w16 3455 u.chineseChess.win, w16 3457 u.chineseChess.lose, w16 3453 u.chineseChess.tie, w16 3455 u.chessEloRating, w16 3457 u.goChess.win, w16 3459 u.goChess.lose])
      (post := [w32 3463 u.withMe, w32 3467 u.brcID, w32 3471 (unixU32 u.wbTime)]) rfl (by simp [w16, w32]) (by simp [w16, w32])
  have b10 : slice (u.marshal c) 3463 3467 = le32 u.withMe :=
    B (w := w32 3463 u.withMe) (pre := [w16 3449 u.five.win, w16 3451 u.five.lose, w16 3453 u.five.tie, w16 3455 u.chineseChess.win, w16 3457 u.chineseChess.lose, w16 3453 u.chineseChess.tie, w16 3455 u.chessEloRating, w16 3457 u.goChess.win, w16 3459 u.goChess.lose, w16 3461 u.goChess.tie])
      (post := [w32 3467 u.brcID, w32 3471 (unixU32 u.wbTime)]) rfl (by simp [w16, w32]) (by simp [w16, w32])
  have b11 : slice (u.marshal c) 3467 3471 = le32 u.brcID :=
    B (w := w32 3467 u.brcID) (pre := [w16 3449 u.five.win, w16 3451 u.five.lose, w16 3453 u.five.tie, w16 3455 u.chineseChess.win, w16 3457 u.chineseChess.lose, w16 3453 u.chineseChess.tie, w16 3455 u.chessEloRating, w16 3457 u.goChess.win, w16 3459 u.goChess.lose, w16 3461 u.goChess.tie, w32 3463 u.withMe])
      (post := [w32 3471 (unixU32 u.wbTime)]) rfl (by simp [w16, w32]) (by simp [w16, w32])
  have b12 : slice (u.marshal c) 3471 3475 = le32 (unixU32 u.wbTime) :=
    B (w := w32 3471 (unixU32 u.wbTime)) (pre := [w16 3449 u.five.win, w16 3451 u.five.lose, w16 3453 u.five.tie, w16 3455 u.chineseChess.win, w16 3457 u.chineseChess.lose, w16 3453 u.chineseChess.tie, w16 3455 u.chessEloRating, w16 3457 u.goChess.win, w16 3459 u.goChess.lose, w16 3461 u.goChess.tie, w32 3463 u.withMe, w32 3467 u.brcID])
      (post := []) rfl (by simp [w16, w32]) (by simp [w16, w32])
  simp only [UserInfo.parse, storedOnline, UserInfo.clobbered, cstrToString, Codec.ofCstr, am,
    e0, e1, e2, e3, e4, e5, e6, e7, e8, e9, e10, e11, e12, e13, e14, e15, e16, e17, e18, e19, e20, e21, e22,
    e23, e24, e25, e26, e27, e28, e29, e30, e31, e32, e33, e34, a0, a1, a2, b0, b1, b5, b6, b7, b8, b9, b10,
    b11, b12, cstr_padTo_cut, time_wrap,
    rd32_le32, rd16_le16, UInt32.toInt32_toUInt32, UInt16.toInt16_toUInt16, boolByte_ne_zero, vector_ofFn_getElem]

/-- **C06, for any record at all**: 3484 bytes, and what they contain. -/
theorem C06_exact (c : Codec) (u : UserInfo) :
    (u.marshal c).length = 3484 ∧ UserInfo.unmarshal c (u.marshal c) = .ok (storedOnline c u) := by
  have hl := u.marshal_length c
  refine ⟨hl, ?_⟩
  simp [UserInfo.unmarshal_def, hl, u.parse_marshal_exact c]

/-- **C06, the part that holds**, for a record that fits: every field survives except that the
five-in-a-row ties come back as the Chinese-chess ties, the Chinese-chess wins as the Elo rating and the
Chinese-chess losses as the Go wins. -/
theorem C06_online_record_roundtrip_partial (c : Codec) (u : UserInfo) (h : u.Storable c) :
    (u.marshal c).length = 3484 ∧
    UserInfo.unmarshal c (u.marshal c) =
      .ok { u with
            five := { u.five with tie := u.chineseChess.tie }
            chineseChess := { u.chineseChess with win := u.chessEloRating, lose := u.goChess.win } } := by
  refine ⟨(C06_exact c u).1, ?_⟩
  rw [(C06_exact c u).2]
  have hm : (Vector.ofFn fun i : Fin 10 => padTo 100 u.msgs[i]) = u.msgs := by
    rw [← vector_ofFn_getElem u.msgs]
    congr 1
    funext i
    simp only [Fin.getElem_fin, Vector.getElem_ofFn]
    exact padTo_eq_of_length (h.msgs i)
  unfold storedOnline
  simp only [hm, UserInfo.clobbered, h.userIDC, cut_of_fits h.userID, cut_of_fits h.nickname, h.nicknameC, h.fromHostC,
    cut_of_fits h.fromHost, wrap32_of_fits h.lastAct, h.chatIDC, cut_of_fits h.chatID, cut_of_fits h.mateID, h.mateIDC,
    wrap32_of_fits h.wbTime]

/-- The full claim of C06. -/
def Spec.OnlineRecordRoundtrip (c : Codec) : Prop :=
  ∀ u : UserInfo, u.Storable c →
    (u.marshal c).length = 3484 ∧ UserInfo.unmarshal c (u.marshal c) = .ok u

/-- A concrete online user. -/
def sampleOnline : UserInfo :=
  { uid := 1, pid := 4321, sockAddr := 0, userLevel := 0x1F, userID := ascii "SYSOP", nickname := ascii "god",
    fromHost := ascii "localhost", fromIP := 0x0100007F, darkChess := ⟨1, 2, 3⟩, angelPause := 0, friendTotal := 2,
    numFriends := -1, myFriend := Vector.ofFn (fun i => Int32.ofNat i), friendOnline := Vector.replicate 256 7,
    reject := Vector.replicate 32 (-1), msgCount := 1, msgs := Vector.replicate 10 (zeros 100), birth := false,
    active := true, invisible := false, mode := 3, pager := true, conn6 := ⟨4, 5, 6⟩, lastAct := 1600681288,
    alerts := 0, signature := 1, destUID := 0, destUIP := 0, sockActive := 0, inChat := 0,
    chatID := ascii "chat", lockMode := 0, turn := true, mateID := ascii "mate", color := 1,
    five := ⟨10, 11, 12⟩, chineseChess := ⟨20, 21, 22⟩, chessEloRating := 1500, goChess := ⟨30, 31, 32⟩,
    withMe := 0, brcID := 9, wbTime := 1600681289 }

/-- An over-long chat name, a mate with a NUL inside and a time before 1970. -/
example :
    let u := { sampleOnline with chatID := ascii "AVeryLongChatName", mateID := [65, 0, 66], lastAct := -1 }
    (storedOnline asciiCodec u).chatID = ascii "AVeryLongCh" ∧ (storedOnline asciiCodec u).mateID = [65] ∧
      (storedOnline asciiCodec u).lastAct = 4294967295 := by decide

theorem sampleOnline_storable : sampleOnline.Storable asciiCodec := by
  constructor <;> decide

/-- **C06 is false of the code**: overlapping offsets destroy three game scores. -/
theorem C06_online_record_roundtrip_refuted : ¬ Spec.OnlineRecordRoundtrip asciiCodec := by
  intro h
  have h1 := (h sampleOnline sampleOnline_storable).2
  rw [(C06_online_record_roundtrip_partial asciiCodec sampleOnline sampleOnline_storable).2] at h1
  have h2 := congrArg UserInfo.five (Res.ok.inj h1)
  revert h2
  decide

end Verif
