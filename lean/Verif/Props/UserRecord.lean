import Verif.Proofs.Decode
import Verif.Model.Userec
import Verif.Proofs.Record
/-!
# C05: the user record round trip
-/

namespace Verif
open Spec

/-- Every string fits its field (fields are C strings), every time fits 32 bits, and the codec is faithful on the
strings stored (fields read without Big5 decoding must be unchanged by encoding, e.g. ASCII). -/
structure Userec.Storable (c : Codec) (u : Userec) : Prop where
  userID : FitsCstr 13 u.userID
  userIDC : c.enc u.userID = u.userID
  realName : FitsCstr 20 (c.enc u.realName)
  realNameC : c.dec (c.enc u.realName) = u.realName
  nickname : FitsCstr 24 (c.enc u.nickname)
  nicknameC : c.dec (c.enc u.nickname) = u.nickname
  password : FitsCstr 14 u.password
  passwordC : c.enc u.password = u.password
  firstLogin : FitsTime u.firstLogin
  lastLogin : FitsTime u.lastLogin
  lastHost : FitsCstr 16 u.lastHost
  lastHostC : c.enc u.lastHost = u.lastHost
  email : FitsCstr 50 (c.enc u.email)
  emailC : c.dec (c.enc u.email) = u.email
  address : FitsCstr 50 (c.enc u.address)
  addressC : c.dec (c.enc u.address) = u.address
  justify : FitsCstr 38 (c.enc u.justify)
  justifyC : c.dec (c.enc u.justify) = u.justify
  career : FitsCstr 40 (c.enc u.career)
  careerC : c.dec (c.enc u.career) = u.career
  lastSeen : FitsTime u.lastSeen
  timeSetAngel : FitsTime u.timeSetAngel
  timePlayAngel : FitsTime u.timePlayAngel
  lastSong : FitsTime u.lastSong
  myAngel : FitsCstr 14 u.myAngel
  myAngelC : c.enc u.myAngel = u.myAngel
  timeRemoveBadPost : FitsTime u.timeRemoveBadPost
  timeViolateLaw : FitsTime u.timeViolateLaw

theorem boolByte_ne_zero (b : Bool) : (boolByte b != 0) = b := by cases b <;> decide

theorem Userec.ordered (c : Codec) (u : Userec) : Ordered 512 0 (u.writes c) := by
  simp [Userec.writes, Ordered, wCopy, w32, w16, w8]

theorem Userec.marshal_length (c : Codec) (u : Userec) : (u.marshal c).length = 512 :=
  runWrites_length (u.ordered c).writesIn

/-- What a saved user record contains, for any record whatever: strings are encoded, cut at the end of their field and at the
first NUL, and decoded only for the fields that the reader decodes; times are taken modulo 2³²; the role is zero. -/
def Spec.storedUser (c : Codec) (u : Userec) : Userec :=
  { u with
    userID := cut 13 (c.enc u.userID)
    password := cut 14 (c.enc u.password)
    lastHost := cut 16 (c.enc u.lastHost)
    myAngel := cut 14 (c.enc u.myAngel)
    realName := c.dec (cut 20 (c.enc u.realName))
    nickname := c.dec (cut 24 (c.enc u.nickname))
    email := c.dec (cut 50 (c.enc u.email))
    address := c.dec (cut 50 (c.enc u.address))
    justify := c.dec (cut 38 (c.enc u.justify))
    career := c.dec (cut 40 (c.enc u.career))
    firstLogin := wrap32 u.firstLogin
    lastLogin := wrap32 u.lastLogin
    lastSeen := wrap32 u.lastSeen
    timeSetAngel := wrap32 u.timeSetAngel
    timePlayAngel := wrap32 u.timePlayAngel
    lastSong := wrap32 u.lastSong
    timeRemoveBadPost := wrap32 u.timeRemoveBadPost
    timeViolateLaw := wrap32 u.timeViolateLaw
    role := 0 }

theorem Userec.parse_marshal_exact (c : Codec) (u : Userec) : Userec.parse c (u.marshal c) = storedUser c u := by
  have hin := (u.ordered c).writesIn
  have hdj := (u.ordered c).disjoint
  have R {a e : Nat} {s : Bytes} (hm : wCopy a e s ∈ u.writes c) :
      slice (u.marshal c) a e = padTo (e - a) s := read_copy hin hdj hm
  have R4 {a : Nat} {v : UInt32} (hm : w32 a v ∈ u.writes c) :
      slice (u.marshal c) a (a + 4) = le32 v := read_32 hin hdj hm
  have R2 {a : Nat} {v : UInt16} (hm : w16 a v ∈ u.writes c) :
      slice (u.marshal c) a (a + 2) = le16 v := read_16 hin hdj hm
  have R1 {a : Nat} {v : UInt8} (hm : w8 a v ∈ u.writes c) :
      byteAt (u.marshal c) a = v := read_8 hin hdj hm
  have e0 : slice (u.marshal c) 0 4 = le32 u.version :=
    R4 (a := 0) (by simp [Userec.writes])
  have e1 : slice (u.marshal c) 4 17 = padTo 13 (c.enc u.userID) :=
    R (a := 4) (by simp [Userec.writes])
  have e2 : slice (u.marshal c) 17 37 = padTo 20 (c.enc u.realName) :=
    R (a := 17) (by simp [Userec.writes])
  have e3 : slice (u.marshal c) 37 61 = padTo 24 (c.enc u.nickname) :=
    R (a := 37) (by simp [Userec.writes])
  have e4 : slice (u.marshal c) 61 75 = padTo 14 (c.enc u.password) :=
    R (a := 61) (by simp [Userec.writes])
  have e5 : slice (u.marshal c) 76 80 = le32 u.userFlag :=
    R4 (a := 76) (by simp [Userec.writes])
  have e6 : slice (u.marshal c) 84 88 = le32 u.userLevel :=
    R4 (a := 84) (by simp [Userec.writes])
  have e7 : slice (u.marshal c) 88 92 = le32 u.numLoginDays :=
    R4 (a := 88) (by simp [Userec.writes])
  have e8 : slice (u.marshal c) 92 96 = le32 u.numPosts :=
    R4 (a := 92) (by simp [Userec.writes])
  have e9 : slice (u.marshal c) 96 100 = le32 (unixU32 u.firstLogin) :=
    R4 (a := 96) (by simp [Userec.writes])
  have e10 : slice (u.marshal c) 100 104 = le32 (unixU32 u.lastLogin) :=
    R4 (a := 100) (by simp [Userec.writes])
  have e11 : slice (u.marshal c) 104 120 = padTo 16 (c.enc u.lastHost) :=
    R (a := 104) (by simp [Userec.writes])
  have e12 : slice (u.marshal c) 120 124 = le32 u.money.toUInt32 :=
    R4 (a := 120) (by simp [Userec.writes])
  have e13 : slice (u.marshal c) 128 178 = padTo 50 (c.enc u.email) :=
    R (a := 128) (by simp [Userec.writes])
  have e14 : slice (u.marshal c) 178 228 = padTo 50 (c.enc u.address) :=
    R (a := 178) (by simp [Userec.writes])
  have e15 : slice (u.marshal c) 228 266 = padTo 38 (c.enc u.justify) :=
    R (a := 228) (by simp [Userec.writes])
  have e16 : byteAt (u.marshal c) 270 = (boolByte u.over18) :=
    R1 (a := 270) (by simp [Userec.writes])
  have e17 : byteAt (u.marshal c) 271 = u.pagerUIType :=
    R1 (a := 271) (by simp [Userec.writes])
  have e18 : byteAt (u.marshal c) 272 = u.pager :=
    R1 (a := 272) (by simp [Userec.writes])
  have e19 : byteAt (u.marshal c) 273 = (boolByte u.invisible) :=
    R1 (a := 273) (by simp [Userec.writes])
  have e20 : slice (u.marshal c) 276 280 = le32 u.exMailBox :=
    R4 (a := 276) (by simp [Userec.writes])
  have e21 : slice (u.marshal c) 284 324 = padTo 40 (c.enc u.career) :=
    R (a := 284) (by simp [Userec.writes])
  have e22 : slice (u.marshal c) 396 400 = le32 (unixU32 u.lastSeen) :=
    R4 (a := 396) (by simp [Userec.writes])
  have e23 : slice (u.marshal c) 400 404 = le32 (unixU32 u.timeSetAngel) :=
    R4 (a := 400) (by simp [Userec.writes])
  have e24 : slice (u.marshal c) 404 408 = le32 (unixU32 u.timePlayAngel) :=
    R4 (a := 404) (by simp [Userec.writes])
  have e25 : slice (u.marshal c) 408 412 = le32 (unixU32 u.lastSong) :=
    R4 (a := 408) (by simp [Userec.writes])
  have e26 : slice (u.marshal c) 412 416 = le32 u.loginView :=
    R4 (a := 412) (by simp [Userec.writes])
  have e27 : slice (u.marshal c) 418 420 = le16 u.violateLaw :=
    R2 (a := 418) (by simp [Userec.writes])
  have e28 : slice (u.marshal c) 420 422 = le16 u.five.win :=
    R2 (a := 420) (by simp [Userec.writes])
  have e29 : slice (u.marshal c) 422 424 = le16 u.five.lose :=
    R2 (a := 422) (by simp [Userec.writes])
  have e30 : slice (u.marshal c) 424 426 = le16 u.five.tie :=
    R2 (a := 424) (by simp [Userec.writes])
  have e31 : slice (u.marshal c) 426 428 = le16 u.chineseChess.win :=
    R2 (a := 426) (by simp [Userec.writes])
  have e32 : slice (u.marshal c) 428 430 = le16 u.chineseChess.lose :=
    R2 (a := 428) (by simp [Userec.writes])
  have e33 : slice (u.marshal c) 430 432 = le16 u.chineseChess.tie :=
    R2 (a := 430) (by simp [Userec.writes])
  have e34 : slice (u.marshal c) 432 434 = le16 u.conn6.win :=
    R2 (a := 432) (by simp [Userec.writes])
  have e35 : slice (u.marshal c) 434 436 = le16 u.conn6.lose :=
    R2 (a := 434) (by simp [Userec.writes])
  have e36 : slice (u.marshal c) 436 438 = le16 u.conn6.tie :=
    R2 (a := 436) (by simp [Userec.writes])
  have e37 : slice (u.marshal c) 440 442 = le16 u.goChess.win :=
    R2 (a := 440) (by simp [Userec.writes])
  have e38 : slice (u.marshal c) 442 444 = le16 u.goChess.lose :=
    R2 (a := 442) (by simp [Userec.writes])
  have e39 : slice (u.marshal c) 444 446 = le16 u.goChess.tie :=
    R2 (a := 444) (by simp [Userec.writes])
  have e40 : slice (u.marshal c) 446 448 = le16 u.darkChess.win :=
    R2 (a := 446) (by simp [Userec.writes])
  have e41 : slice (u.marshal c) 448 450 = le16 u.darkChess.lose :=
    R2 (a := 448) (by simp [Userec.writes])
  have e42 : byteAt (u.marshal c) 450 = u.uaVersion :=
    R1 (a := 450) (by simp [Userec.writes])
  have e43 : byteAt (u.marshal c) 451 = u.signature :=
    R1 (a := 451) (by simp [Userec.writes])
  have e44 : byteAt (u.marshal c) 453 = u.badPost :=
    R1 (a := 453) (by simp [Userec.writes])
  have e45 : slice (u.marshal c) 454 456 = le16 u.darkChess.tie :=
    R2 (a := 454) (by simp [Userec.writes])
  have e46 : slice (u.marshal c) 456 470 = padTo 14 (c.enc u.myAngel) :=
    R (a := 456) (by simp [Userec.writes])
  have e47 : slice (u.marshal c) 470 472 = le16 u.chessEloRating :=
    R2 (a := 470) (by simp [Userec.writes])
  have e48 : slice (u.marshal c) 472 476 = le32 u.withMe :=
    R4 (a := 472) (by simp [Userec.writes])
  have e49 : slice (u.marshal c) 476 480 = le32 (unixU32 u.timeRemoveBadPost) :=
    R4 (a := 476) (by simp [Userec.writes])
  have e50 : slice (u.marshal c) 480 484 = le32 (unixU32 u.timeViolateLaw) :=
    R4 (a := 480) (by simp [Userec.writes])
  have er : slice (u.marshal c) 392 396 = zeros 4 :=
    slice_runWrites_untouched hin (by omega) (by simp [Userec.writes, wCopy, w32, w16, w8])
  have ej : slice (u.marshal c) 266 267 = zeros 1 :=
    slice_runWrites_untouched hin (by omega) (by simp [Userec.writes, wCopy, w32, w16, w8])
  have ejj : cstrToBytes (slice (u.marshal c) 228 267) = cut 38 (c.enc u.justify) := by
    rw [slice_append_slice (b := 266) (by omega) (by omega), e15, ej, cstrToBytes_eq_takeWhile, takeWhile_append_zeros,
      takeWhile_padTo_cut]
  have hz : rd32 (zeros 4) = 0 := by decide
  simp only [Userec.parse, cstrToString, Codec.ofCstr, er, ejj, hz, e0, e1, e2, e3, e4, e5, e6, e7, e8, e9, e10, e11, e12, e13, e14, e16, e17, e18, e19, e20, e21, e22, e23, e24, e25, e26, e27, e28, e29, e30, e31, e32, e33, e34, e35, e36, e37, e38, e39, e40, e41, e42, e43, e44, e45, e46, e47, e48, e49, e50,
    cstr_padTo_cut, time_wrap, rd32_le32, rd16_le16, UInt32.toInt32_toUInt32, boolByte_ne_zero]
  rfl

/-- **C05, for any record at all**: 512 bytes, and what they contain. -/
theorem C05_exact (c : Codec) (u : Userec) :
    (u.marshal c).length = 512 ∧ Userec.unmarshal c (u.marshal c) = .ok (storedUser c u) := by
  have hl := u.marshal_length c
  refine ⟨hl, ?_⟩
  simp [Userec.unmarshal_def, hl, u.parse_marshal_exact c]

/-- A record that fits: every field survives, except `Role`, which becomes 0. -/
theorem C05_user_record_roundtrip_partial (c : Codec) (u : Userec) (h : u.Storable c) :
    (u.marshal c).length = 512 ∧ Userec.unmarshal c (u.marshal c) = .ok { u with role := 0 } := by
  refine ⟨(C05_exact c u).1, ?_⟩
  rw [(C05_exact c u).2]
  unfold storedUser
  simp only [h.userIDC, cut_of_fits h.userID, h.passwordC, cut_of_fits h.password, h.lastHostC, cut_of_fits h.lastHost, h.myAngelC, cut_of_fits h.myAngel,
    cut_of_fits h.realName, h.realNameC, cut_of_fits h.nickname, h.nicknameC, cut_of_fits h.email, h.emailC, cut_of_fits h.address, h.addressC, cut_of_fits h.justify, h.justifyC, cut_of_fits h.career, h.careerC,
    wrap32_of_fits h.firstLogin, wrap32_of_fits h.lastLogin, wrap32_of_fits h.lastSeen, wrap32_of_fits h.timeSetAngel,
    wrap32_of_fits h.timePlayAngel, wrap32_of_fits h.lastSong, wrap32_of_fits h.timeRemoveBadPost, wrap32_of_fits h.timeViolateLaw]

/-- The full claim of C05. -/
def Spec.UserRecordRoundtrip (c : Codec) : Prop :=
  ∀ u : Userec, u.Storable c →
    (u.marshal c).length = 512 ∧ Userec.unmarshal c (u.marshal c) = .ok u

/-- A concrete, fully populated record. -/
def sampleUser : Userec :=
  { Userec.zero with
    version := 4194, userID := ascii "SYSOP", realName := ascii "CodingMan", nickname := ascii "god",
    password := ascii "bhwvOJtfT1TAI", userFlag := 0x02000A60, userLevel := 0xFFFFFFFF, numLoginDays := 2,
    firstLogin := 1600681288, lastLogin := 1600756094, lastHost := ascii "59.124.167.226", money := -3,
    email := ascii "x@y", address := ascii "Taipei 123", justify := ascii "OK", over18 := true, pager := 1,
    career := ascii "none", role := 7, lastSeen := 1600681288, timeSetAngel := 0, timePlayAngel := 0,
    lastSong := 0, timeRemoveBadPost := 0, timeViolateLaw := 0, five := ⟨1, 2, 3⟩, darkChess := ⟨9, 8, 7⟩,
    myAngel := ascii "angel", chessEloRating := 1500 }

/-- An over-long id, a nickname with a NUL inside and a time before 1970. -/
example :
    let u := { sampleUser with userID := ascii "AVeryLongUserName", nickname := [65, 0, 66], lastLogin := -1, role := 7 }
    (storedUser asciiCodec u).userID = ascii "AVeryLongUser" ∧ (storedUser asciiCodec u).nickname = [65] ∧
      (storedUser asciiCodec u).lastLogin = 4294967295 ∧ (storedUser asciiCodec u).role = 0 := by decide

/-- Non-vacuity of C05. -/
theorem sampleUser_storable : sampleUser.Storable asciiCodec := by
  constructor <;> decide

/-- **C05 is false of the code**: `Role` is not written, so a non-zero role is lost. -/
theorem C05_user_record_roundtrip_refuted : ¬ Spec.UserRecordRoundtrip asciiCodec := by
  intro h
  have h1 := (h sampleUser sampleUser_storable).2
  rw [(C05_user_record_roundtrip_partial asciiCodec sampleUser sampleUser_storable).2] at h1
  have h2 := congrArg Userec.role (Res.ok.inj h1)
  revert h2
  decide

/-- Records with role 0 survive completely. -/
theorem C05_user_record_roundtrip_role_zero (c : Codec) (u : Userec) (h : u.Storable c) (hr : u.role = 0) :
    (u.marshal c).length = 512 ∧ Userec.unmarshal c (u.marshal c) = .ok u := by
  have := C05_user_record_roundtrip_partial c u h
  refine ⟨this.1, ?_⟩
  rw [this.2]
  cases u
  simp only [Res.ok.injEq] at *
  simp_all

end Verif
