import Verif.Proofs.RecordFile
import Verif.Proofs.Decode
import Verif.Model.UserInfo
/-!
# C86: records laid out by a C compiler

The files and the shared memory are shared with the C program, whose structures are declared in `pttstruct.h` (named in the
comments of /repo/pttbbs/file.go:19-20, board.go:33, passwd.go:88, userinfo.go:78). Here a structure is a list of members;
every member stands at the next multiple of its alignment. The Go code has its own table of positions. For every content of
a record: does the Go code read the members the compiler put there?
-/

namespace Verif

namespace Spec

/-- Types of members, with an array length. -/
inductive CType where
  | char (n : Nat)    -- `char x[n]`; also `unsigned char`
  | short             -- 16 bits
  | int (n : Nat)     -- 32 bits, `n` of them; also `time4_t`
  | msg (n : Nat)     -- `msgque_t`, 100 bytes, aligned to 4
  | long (n : Nat)    -- 64 bits
  deriving DecidableEq

def CType.size : CType → Nat
  | .char n => n
  | .short => 2
  | .int n => 4 * n
  | .msg n => 100 * n
  | .long n => 8 * n

def CType.align : CType → Nat
  | .char _ => 1
  | .short => 2
  | .int _ => 4
  | .msg _ => 4
  | .long _ => 8

/-- The next multiple of `a`. -/
def up (o a : Nat) : Nat := (o + a - 1) / a * a

/-- Name, position and size of the members, the first one at or behind `o`. -/
def place : List (String × CType) → Nat → List (String × Nat × Nat)
  | [], _ => []
  | (name, t) :: fs, o => (name, up o t.align, t.size) :: place fs (up o t.align + t.size)

/-- End of the last member. -/
def ending : List (String × CType) → Nat → Nat
  | [], o => o
  | (_, t) :: fs, o => ending fs (up o t.align + t.size)

/-- `sizeof`, for structures aligned to 4. -/
def structSize (S : List (String × CType)) : Nat := up (ending S 0) 4

/-- Position and size of a member. -/
def whereIs (S : List (String × CType)) (name : String) : Nat × Nat :=
  match (place S 0).find? (fun m => m.1 == name) with
  | some (_, o, n) => (o, n)
  | none => (0, 0)

/-- The bytes of a member in a record. -/
def member (S : List (String × CType)) (d : Bytes) (name : String) : Bytes :=
  (d.drop (whereIs S name).1).take (whereIs S name).2

/-- A C string: up to the first NUL. -/
def cstr (b : Bytes) : Bytes := b.takeWhile (· ≠ 0)

/-- An unsigned number, lowest byte first. -/
def num : Bytes → Nat
  | [] => 0
  | b :: bs => b.toNat + 256 * num bs

/-- A 32-bit number with sign. -/
def sgn (b : Bytes) : Int := if num b < 2 ^ 31 then num b else (num b : Int) - 2 ^ 32

/-- `fileheader_t`. -/
def fileheader : List (String × CType) :=
  [("filename", .char 28), ("modified", .int 1), ("pad", .char 1), ("recommend", .char 1), ("owner", .char 14),
   ("date", .char 6), ("title", .char 65), ("pad2", .char 1), ("multi", .int 1), ("filemode", .char 1), ("pad3", .char 3)]

/-- `boardheader_t`. -/
def boardheader : List (String × CType) :=
  [("brdname", .char 13), ("title", .char 49), ("BM", .char 39), ("pad1", .char 3), ("brdattr", .int 1),
   ("chesscountry", .char 1), ("vote_limit_posts", .char 1), ("vote_limit_logins", .char 1), ("pad2", .char 1),
   ("bupdate", .int 1), ("post_limit_posts", .char 1), ("post_limit_logins", .char 1), ("pad3", .char 1),
   ("bvote", .char 1), ("vtime", .int 1), ("level", .int 1), ("perm_reload", .int 1), ("gid", .int 1), ("next", .int 2),
   ("firstchild", .int 2), ("parent", .int 1), ("childcount", .int 1), ("nuser", .int 1), ("postexpire", .int 1),
   ("endgamble", .int 1), ("posttype", .char 33), ("posttype_f", .char 1), ("fastrecommend_pause", .char 1),
   ("vote_limit_badpost", .char 1), ("post_limit_badpost", .char 1), ("pad4", .char 3), ("SRexpire", .int 1),
   ("pad5", .char 40)]

/-- `userec_t`. -/
def userec : List (String × CType) :=
  [("version", .int 1), ("userid", .char 13), ("realname", .char 20), ("nickname", .char 24), ("passwd", .char 14),
   ("pad_1", .char 1), ("uflag", .int 1), ("unused1", .int 1), ("userlevel", .int 1), ("numlogindays", .int 1),
   ("numposts", .int 1), ("firstlogin", .int 1), ("lastlogin", .int 1), ("lasthost", .char 16), ("money", .int 1),
   ("unused2", .char 4), ("email", .char 50), ("address", .char 50), ("justify", .char 39), ("unused3", .char 3),
   ("over_18", .char 1), ("pager_ui_type", .char 1), ("pager", .char 1), ("invisible", .char 1), ("unused4", .char 2),
   ("exmailbox", .int 1), ("unused5", .char 4), ("career", .char 40), ("phone", .char 20), ("unused6", .int 1),
   ("chkpad1", .char 44), ("role", .int 1), ("lastseen", .int 1), ("timesetangel", .int 1), ("timeplayangel", .int 1),
   ("lastsong", .int 1), ("loginview", .int 1), ("unused8", .char 1), ("pad_2", .char 1), ("vl_count", .short),
   ("five_win", .short), ("five_lose", .short), ("five_tie", .short), ("chc_win", .short), ("chc_lose", .short),
   ("chc_tie", .short), ("conn6_win", .short), ("conn6_lose", .short), ("conn6_tie", .short), ("unused9", .char 2),
   ("go_win", .short), ("go_lose", .short), ("go_tie", .short), ("dark_win", .short), ("dark_lose", .short),
   ("ua_version", .char 1), ("signature", .char 1), ("unused10", .char 1), ("badpost", .char 1), ("dark_tie", .short),
   ("myangel", .char 13), ("pad_3", .char 1), ("chess_elo_rating", .short), ("withme", .int 1),
   ("timeremovebadpost", .int 1), ("timeviolatelaw", .int 1), ("pad_tail", .char 28)]

/-- `userinfo_t`, with `NOKILLWATERBALL` (/repo/pttbbs/cache.go:167). -/
def userinfo : List (String × CType) :=
  [("uid", .int 1), ("pid", .int 1), ("sockaddr", .int 1), ("userlevel", .int 1), ("userid", .char 13),
   ("nickname", .char 24), ("from", .char 27), ("fromip", .int 1), ("dark_win", .short), ("dark_lose", .short),
   ("gap_0", .char 1), ("angelpause", .char 1), ("dark_tie", .short), ("friendtotal", .int 1), ("nFriends", .short),
   ("unused3", .short), ("myfriend", .int 256), ("gap_1", .char 4), ("friend_online", .int 256), ("gap_2", .char 4),
   ("reject", .int 32), ("gap_3", .char 4), ("msgcount", .char 1), ("unused4", .char 3), ("msgs", .msg 10),
   ("gap_4", .char 100), ("birth", .char 1), ("active", .char 1), ("invisible", .char 1), ("mode", .char 1),
   ("pager", .char 1), ("unused5", .char 1), ("conn6_win", .short), ("lastact", .int 1), ("alerts", .char 1),
   ("unused_mind", .char 1), ("conn6_lose", .short), ("unused_mind2", .char 1), ("sig", .char 1), ("conn6_tie", .short),
   ("destuid", .int 1), ("destuip", .int 1), ("sockactive", .char 1), ("in_chat", .char 1), ("chatid", .char 11),
   ("lockmode", .char 1), ("turn", .char 1), ("mateid", .char 13), ("color", .char 1), ("five_win", .short),
   ("five_lose", .short), ("five_tie", .short), ("chc_win", .short), ("chc_lose", .short), ("chc_tie", .short),
   ("chess_elo_rating", .short), ("go_win", .short), ("go_lose", .short), ("go_tie", .short), ("withme", .int 1),
   ("brc_id", .int 1), ("wbtime", .int 1)]

end Spec
open Spec

/-- **C86**: the declared structures have the sizes of the records (/repo/pttbbs/const.go, cache.go:167). -/
theorem C86_sizes : structSize fileheader = 128 ∧ structSize boardheader = 256 ∧ structSize userec = 512 ∧
    structSize userinfo = 3484 := by
  decide +kernel

/-! ## Lemmas -/

theorem leNat_num (b : Bytes) : leNat b = num b := by
  induction b with
  | nil => rfl
  | cons a b ih => simp only [leNat, num, ih]

theorem num_lt (b : Bytes) : num b < 256 ^ b.length := by
  induction b with
  | nil => simp [num]
  | cons a b ih =>
    have := a.toNat_lt
    simp only [num, List.length_cons, Nat.pow_succ]
    omega

/-- A slice of the Go code is the member that the layout puts there. -/
theorem slice_member {S : List (String × CType)} {name : String} {a b : Nat} (d : Bytes)
    (h : whereIs S name = (a, b - a)) : slice d a b = member S d name := by
  unfold slice member
  rw [h, List.drop_take]

theorem byte_member {S : List (String × CType)} {name : String} {a : Nat} (d : Bytes)
    (h : whereIs S name = (a, 1)) : (byteAt d a).toNat = num (member S d name) := by
  unfold member
  rw [h]
  simp only
  unfold byteAt
  rw [List.getD_eq_getElem?_getD, ← List.head?_drop]
  cases d.drop a with
  | nil => rfl
  | cons x t => simp [num]

theorem rd32_num {b : Bytes} (h : b.length ≤ 4) : (rd32 b).toNat = num b := by
  unfold rd32
  rw [List.take_of_length_le h, leNat_num, UInt32.toNat_ofNat']
  have := num_lt b
  have h4 : 256 ^ b.length ≤ 256 ^ 4 := Nat.pow_le_pow_right (by decide) h
  exact Nat.mod_eq_of_lt (by omega)

theorem rd16_num {b : Bytes} (h : b.length ≤ 2) : (rd16 b).toNat = num b := by
  unfold rd16
  rw [List.take_of_length_le h, leNat_num, UInt16.toNat_ofNat']
  have := num_lt b
  have h4 : 256 ^ b.length ≤ 256 ^ 2 := Nat.pow_le_pow_right (by decide) h
  exact Nat.mod_eq_of_lt (by omega)

theorem member_length (S : List (String × CType)) (d : Bytes) (name : String) :
    (member S d name).length ≤ (whereIs S name).2 := by
  unfold member
  rw [List.length_take]
  omega

theorem u32_member {S : List (String × CType)} {name : String} {a b : Nat} (d : Bytes) (hb : b = a + 4)
    (h : whereIs S name = (a, 4)) : (rd32 (slice d a b)).toNat = num (member S d name) := by
  subst hb
  rw [slice_member d (by rw [h, Nat.add_sub_cancel_left])]
  exact rd32_num (by have := member_length S d name; rw [h] at this; exact this)

theorem u16_member {S : List (String × CType)} {name : String} {a b : Nat} (d : Bytes) (hb : b = a + 2)
    (h : whereIs S name = (a, 2)) : (rd16 (slice d a b)).toNat = num (member S d name) := by
  subst hb
  rw [slice_member d (by rw [h, Nat.add_sub_cancel_left])]
  exact rd16_num (by have := member_length S d name; rw [h] at this; exact this)

theorem int32_toInt (u : UInt32) : u.toInt32.toInt = if u.toNat < 2 ^ 31 then (u.toNat : Int) else (u.toNat : Int) - 2 ^ 32 := by
  have e : u.toInt32.toInt = (u.toNat : Int).bmod (2 ^ 32) := by
    show u.toInt32.toBitVec.toInt = _
    rw [UInt32.toBitVec_toInt32, BitVec.toInt_eq_toNat_bmod]
    rfl
  have := u.toNat_lt
  rw [e, Int.bmod_def]
  split <;> split <;> omega

theorem i32_member {S : List (String × CType)} {name : String} {a b : Nat} (d : Bytes) (hb : b = a + 4)
    (h : whereIs S name = (a, 4)) : (rd32 (slice d a b)).toInt32.toInt = sgn (member S d name) := by
  rw [int32_toInt, u32_member d hb h]
  unfold sgn
  split <;> simp

theorem time_member {S : List (String × CType)} {name : String} {a b : Nat} (d : Bytes) (hb : b = a + 4)
    (h : whereIs S name = (a, 4)) (h0 : 0 ≤ sgn (member S d name)) :
    timeOfU32 (rd32 (slice d a b)) = sgn (member S d name) := by
  unfold timeOfU32
  rw [u32_member d hb h]
  unfold sgn at h0 ⊢
  have := num_lt (member S d name)
  have hl : (member S d name).length ≤ 4 := by have := member_length S d name; rw [h] at this; exact this
  have h4 : 256 ^ (member S d name).length ≤ 256 ^ 4 := Nat.pow_le_pow_right (by decide) hl
  split
  · rfl
  · rename_i hn
    rw [if_neg hn] at h0
    omega

/-- The general reading of a time: modulo 2^32. -/
theorem time_member_mod {S : List (String × CType)} {name : String} {a b : Nat} (d : Bytes) (hb : b = a + 4)
    (h : whereIs S name = (a, 4)) : timeOfU32 (rd32 (slice d a b)) = sgn (member S d name) % 2 ^ 32 := by
  unfold timeOfU32
  rw [u32_member d hb h]
  unfold sgn
  have := num_lt (member S d name)
  have hl : (member S d name).length ≤ 4 := by have := member_length S d name; rw [h] at this; exact this
  have h4 : 256 ^ (member S d name).length ≤ 256 ^ 4 := Nat.pow_le_pow_right (by decide) hl
  split <;> omega

theorem cstrToBytes_cstr (b : Bytes) : cstrToBytes b = cstr b := by
  unfold cstrToBytes cstr indexByte
  induction b with
  | nil => rfl
  | cons a b ih =>
    by_cases h : a = 0
    · subst h
      rw [List.findIdx?_cons]
      simp
    · rw [List.takeWhile_cons, if_pos (by simpa using h), ← ih, List.findIdx?_cons]
      have : (a == 0) = false := by simpa using h
      rw [this]
      simp only [Bool.false_eq_true, if_false]
      cases List.findIdx? (fun x => x == 0) b <;> simp

theorem splitNulHead_cstr (b : Bytes) : splitNulHead b = cstr b := by
  unfold splitNulHead cstr
  congr 1
  funext x
  by_cases h : x = 0 <;> simp [h]

/-- No bytes are left over behind the terminator of a string. -/
def Spec.Clean (b : Bytes) : Prop := ∃ k, b = cstr b ++ List.replicate k 0

theorem cstr_no_zero (b : Bytes) : (0 : UInt8) ∉ cstr b := by
  intro h
  have := List.all_takeWhile (l := b) (p := (fun x : UInt8 => decide (x ≠ 0)))
  rw [List.all_eq_true] at this
  have := this 0 h
  simp at this

/-- Trimming NULs from both ends gives the C string iff nothing is left over behind it. -/
theorem trimNul_cstr (b : Bytes) : trimNul b = cstr b ↔ Clean b := by
  constructor
  · intro h
    -- what trimming removes is zeros on both sides
    have key : ∃ i j, b = List.replicate i 0 ++ trimNul b ++ List.replicate j 0 := by
      have tw : ∀ l : Bytes, ∃ i, l = List.replicate i 0 ++ l.dropWhile (· == 0) := by
        intro l
        refine ⟨(l.takeWhile (· == 0)).length, ?_⟩
        have e : List.replicate (l.takeWhile (· == (0 : UInt8))).length 0 = l.takeWhile (· == 0) := by
          refine (List.eq_replicate_iff.2 ⟨rfl, fun x hx => ?_⟩).symm
          have := List.all_takeWhile (l := l) (p := (· == (0 : UInt8)))
          rw [List.all_eq_true] at this
          exact eq_of_beq (this x hx)
        rw [e, List.takeWhile_append_dropWhile]
      obtain ⟨i, hi⟩ := tw b
      obtain ⟨j, hj⟩ := tw (b.dropWhile (· == 0)).reverse
      refine ⟨i, j, ?_⟩
      have hj' : b.dropWhile (· == 0) = trimNul b ++ List.replicate j 0 := by
        have := congrArg List.reverse hj
        rw [List.reverse_reverse, List.reverse_append, List.reverse_replicate] at this
        exact this
      rw [List.append_assoc, ← hj', ← hi]
    obtain ⟨i, j, hb⟩ := key
    rw [h] at hb
    cases i with
    | zero => exact ⟨j, by simpa using hb⟩
    | succ i =>
      have hc : cstr b = [] := by
        rw [hb, List.replicate_succ]
        simp [cstr]
      rw [hc] at hb
      refine ⟨i + 1 + j, ?_⟩
      rw [hc, List.nil_append, ← List.replicate_append_replicate]
      simpa using hb
  · rintro ⟨k, hk⟩
    have h0 := cstr_no_zero b
    have hnf : NulEndsFree (cstr b) := by
      constructor
      · intro h
        exact h0 (List.mem_of_mem_head? h)
      · intro h
        exact h0 (List.mem_of_mem_getLast? h)
    have := trimNul_append_zeros hnf k
    unfold zeros at this
    rw [← hk] at this
    exact this

theorem trimNul_one (b : Bytes) (h : b.length ≤ 1) : trimNul b = cstr b := by
  rw [trimNul_cstr]
  match b with
  | [] => exact ⟨0, rfl⟩
  | [a] =>
    by_cases ha : a = 0
    · subst ha; exact ⟨1, by decide⟩
    · exact ⟨0, by simp [cstr, ha]⟩
  | _ :: _ :: _ => simp at h

theorem bool_member {S : List (String × CType)} {name : String} {a : Nat} (d : Bytes)
    (h : whereIs S name = (a, 1)) : (byteAt d a != 0) = decide (num (member S d name) ≠ 0) := by
  rw [← byte_member d h]
  cases hb : byteAt d a != 0 with
  | false =>
    have : byteAt d a = 0 := by simpa using hb
    simp [this]
  | true =>
    have : byteAt d a ≠ 0 := by simpa using hb
    symm
    rw [decide_eq_true_eq]
    intro hz
    exact this (UInt8.toNat.inj (by rw [hz]; rfl))

/-! ## Articles -/

/-- The members of an article record, as the C program sees them. -/
structure Spec.ArticleAsC (c : Codec) (d : Bytes) (f : FileHeader) : Prop where
  filename : f.filename = cstr (member fileheader d "filename")
  modified : f.modified = sgn (member fileheader d "modified")
  recommend : f.recommend.toUInt8.toNat = num (member fileheader d "recommend")
  owner : f.owner = cstr (member fileheader d "owner")
  date : f.date = cstr (member fileheader d "date")
  title : f.title = c.dec (cstr (member fileheader d "title"))
  money : (f.money : Int) = sgn (member fileheader d "multi")
  annoUID : (f.annoUID : Int) = sgn (member fileheader d "multi")
  filemode : f.filemode.toNat = num (member fileheader d "filemode")
  vote : num (member fileheader d "filemode") / 64 % 2 = 1 →
    [f.voteLimits.posts, f.voteLimits.logins, f.voteLimits.regtime, f.voteLimits.badpost] = member fileheader d "multi"
  noVote : num (member fileheader d "filemode") / 64 % 2 = 0 → f.voteLimits = ⟨0, 0, 0, 0⟩

/-- The claim: every article record is read as the C program sees it. -/
def Spec.ReadsArticles : Prop :=
  ∀ (c : Codec) (d : Bytes), d.length = 128 → ∃ f, FileHeader.unmarshal c d = .ok f ∧ ArticleAsC c d f

theorem voteBit (b : UInt8) : isVotePost b = decide (b.toNat / 64 % 2 = 1) := by
  have : ∀ b : Fin 256, isVotePost (UInt8.ofNat b.val) = decide ((UInt8.ofNat b.val).toNat / 64 % 2 = 1) := by decide +kernel
  have := this ⟨b.toNat, b.toNat_lt⟩
  simpa only [UInt8.ofNat_toNat] using this

/-- Four bytes one by one. -/
theorem four_bytes (d : Bytes) (a : Nat) (h : a + 4 ≤ d.length) :
    [byteAt d a, byteAt d (a + 1), byteAt d (a + 2), byteAt d (a + 3)] = (d.drop a).take 4 := by
  have hl : ((d.drop a).take 4).length = 4 := by simp; omega
  refine List.ext_getElem (by rw [hl]; rfl) (fun i h1 h2 => ?_)
  rw [List.getElem_take, List.getElem_drop]
  have hi : i < 4 := by simpa using h1
  unfold byteAt
  match i, hi with
  | 0, _ => simp only [List.getElem_cons_zero]; rw [List.getD_eq_getElem?_getD, List.getElem?_eq_getElem (by omega)]; rfl
  | 1, _ => simp only [List.getElem_cons_zero, List.getElem_cons_succ]; rw [List.getD_eq_getElem?_getD, List.getElem?_eq_getElem (by omega)]; rfl
  | 2, _ => simp only [List.getElem_cons_zero, List.getElem_cons_succ]; rw [List.getD_eq_getElem?_getD, List.getElem?_eq_getElem (by omega)]; rfl
  | 3, _ => simp only [List.getElem_cons_zero, List.getElem_cons_succ]; rw [List.getD_eq_getElem?_getD, List.getElem?_eq_getElem (by omega)]; rfl

/-- **C86** for articles, every content: all members are found where the compiler put them. A name, owner or date is the C
string iff nothing is left over behind its terminator; numbers with a sign are read modulo 2^32; the title is decoded after
the same trimming. -/
theorem C86_article_exact (c : Codec) (d : Bytes) (hd : d.length = 128) :
    ∃ f, FileHeader.unmarshal c d = .ok f ∧
      (f.filename = cstr (member fileheader d "filename") ↔ Clean (member fileheader d "filename")) ∧
      (f.owner = cstr (member fileheader d "owner") ↔ Clean (member fileheader d "owner")) ∧
      (f.date = cstr (member fileheader d "date") ↔ Clean (member fileheader d "date")) ∧
      (Clean (member fileheader d "title") → f.title = c.dec (cstr (member fileheader d "title"))) ∧
      f.modified = sgn (member fileheader d "modified") % 2 ^ 32 ∧
      f.recommend.toUInt8.toNat = num (member fileheader d "recommend") ∧
      (f.money : Int) = sgn (member fileheader d "multi") % 2 ^ 32 ∧
      (f.annoUID : Int) = sgn (member fileheader d "multi") % 2 ^ 32 ∧
      f.filemode.toNat = num (member fileheader d "filemode") ∧
      (num (member fileheader d "filemode") / 64 % 2 = 1 →
        [f.voteLimits.posts, f.voteLimits.logins, f.voteLimits.regtime, f.voteLimits.badpost] = member fileheader d "multi") ∧
      (num (member fileheader d "filemode") / 64 % 2 = 0 → f.voteLimits = ⟨0, 0, 0, 0⟩) := by
  have hm := time_member_mod d (a := 120) (b := 124) rfl (show whereIs fileheader "multi" = (120, 4) by decide +kernel)
  unfold timeOfU32 at hm
  have hmode := byte_member d (show whereIs fileheader "filemode" = (124, 1) by decide +kernel)
  refine ⟨_, FileHeader.unmarshal_eq c d hd, ?_, ?_, ?_, ?_, ?_, ?_, hm, hm, hmode, ?_, ?_⟩
  · simp only [FileHeader.parse]
    rw [slice_member d (show whereIs fileheader "filename" = (0, 28 - 0) by decide +kernel)]
    exact trimNul_cstr _
  · simp only [FileHeader.parse]
    rw [slice_member d (show whereIs fileheader "owner" = (34, 48 - 34) by decide +kernel)]
    exact trimNul_cstr _
  · simp only [FileHeader.parse]
    rw [slice_member d (show whereIs fileheader "date" = (48, 54 - 48) by decide +kernel)]
    exact trimNul_cstr _
  · intro h
    simp only [FileHeader.parse]
    rw [slice_member d (show whereIs fileheader "title" = (54, 119 - 54) by decide +kernel), (trimNul_cstr _).2 h]
  · exact time_member_mod d (a := 28) (b := 32) rfl (show whereIs fileheader "modified" = (28, 4) by decide +kernel)
  · exact byte_member d (show whereIs fileheader "recommend" = (33, 1) by decide +kernel)
  · intro h
    rw [← hmode] at h
    have hv : isVotePost (byteAt d 124) = true := by rw [voteBit]; exact decide_eq_true h
    simp only [FileHeader.parse, hv, if_true]
    have hw : whereIs fileheader "multi" = (120, 4) := by decide +kernel
    unfold member
    rw [hw]
    exact four_bytes d 120 (by omega)
  · intro h
    rw [← hmode] at h
    have hv : isVotePost (byteAt d 124) = false := by rw [voteBit]; exact decide_eq_false (by omega)
    simp only [FileHeader.parse, hv, Bool.false_eq_true, if_false]

/-- **C86** for articles (partial: strings without leftovers, numbers without sign). -/
theorem C86_article_partial (c : Codec) (d : Bytes) (hd : d.length = 128)
    (hs : ∀ s ∈ ["filename", "owner", "date", "title"], Clean (member fileheader d s))
    (h1 : 0 ≤ sgn (member fileheader d "modified")) (h2 : 0 ≤ sgn (member fileheader d "multi")) :
    ∃ f, FileHeader.unmarshal c d = .ok f ∧ ArticleAsC c d f := by
  obtain ⟨f, h, a, b, e, g, i, j, k, l, m, n, o⟩ := C86_article_exact c d hd
  have small : ∀ x : Bytes, sgn x < 2 ^ 32 ∨ 2 ^ 32 ≤ num x := by
    intro x
    unfold sgn
    split <;> omega
  have lim : ∀ s, (whereIs fileheader s).2 = 4 → num (member fileheader d s) < 2 ^ 32 := by
    intro s hs
    have h3 := num_lt (member fileheader d s)
    have h4 := member_length fileheader d s
    rw [hs] at h4
    have h5 : 256 ^ (member fileheader d s).length ≤ 256 ^ 4 := Nat.pow_le_pow_right (by decide) h4
    omega
  have e1 : sgn (member fileheader d "modified") % 2 ^ 32 = sgn (member fileheader d "modified") := by
    have := lim "modified" (by decide +kernel)
    rcases small (member fileheader d "modified") with h | h <;> omega
  have e2 : sgn (member fileheader d "multi") % 2 ^ 32 = sgn (member fileheader d "multi") := by
    have := lim "multi" (by decide +kernel)
    rcases small (member fileheader d "multi") with h | h <;> omega
  rw [e1] at i
  rw [e2] at k l
  exact ⟨f, h, a.2 (hs _ (by decide)), i, j, b.2 (hs _ (by decide)), e.2 (hs _ (by decide)), g (hs _ (by decide)), k, l, m,
    n, o⟩

/-- An article whose owner was replaced by `-`, the way the C program marks a deleted article: `strcpy` leaves the tail of
the old owner behind the terminator. -/
def Spec.deletedArticle : Bytes :=
  padTo 128 (padTo 34 (ascii "M.1599059246.A.CF6") ++ padTo 14 (ascii "-" ++ [0] ++ ascii "ser01"))

/-- **C86** fails: its owner is read as `-\0ser01`. -/
theorem C86_article_refuted : ¬ Spec.ReadsArticles := by
  intro h
  obtain ⟨f, h1, h2⟩ := h asciiCodec deletedArticle (by decide +kernel)
  have e : FileHeader.unmarshal asciiCodec deletedArticle = .ok (FileHeader.parse asciiCodec deletedArticle) :=
    FileHeader.unmarshal_eq _ _ (by decide +kernel)
  rw [e] at h1
  have h3 := h2.owner
  rw [← Res.ok.inj h1] at h3
  revert h3
  decide +kernel

example : Clean (ascii "abc" ++ [0, 0]) ∧ ¬ Clean (ascii "-" ++ [0] ++ ascii "ser01") := by
  refine ⟨⟨2, by decide⟩, ?_⟩
  rw [← trimNul_cstr]
  decide

/-! ## Boards -/

/-- The members of a board record as the C program sees them, times as `T` of the stored number; moderators and post types aside. -/
structure Spec.BoardAsC (T : Int → Int) (c : Codec) (d : Bytes) (r : BoardHeader) : Prop where
  brdName : r.brdName = c.dec (cstr (member boardheader d "brdname"))
  title : r.title = c.dec (cstr (member boardheader d "title"))
  brdattr : r.brdattr.toNat = num (member boardheader d "brdattr")
  chessCountry : r.chessCountry = cstr (member boardheader d "chesscountry")
  voteLimitPosts : r.voteLimitPosts.toNat = num (member boardheader d "vote_limit_posts")
  voteLimitLogins : r.voteLimitLogins.toNat = num (member boardheader d "vote_limit_logins")
  bUpdate : r.bUpdate = T (sgn (member boardheader d "bupdate"))
  postLimitPosts : r.postLimitPosts.toNat = num (member boardheader d "post_limit_posts")
  postLimitLogins : r.postLimitLogins.toNat = num (member boardheader d "post_limit_logins")
  bVote : r.bVote.toNat = num (member boardheader d "bvote")
  vTime : r.vTime = T (sgn (member boardheader d "vtime"))
  level : r.level.toNat = num (member boardheader d "level")
  permReload : r.permReload = T (sgn (member boardheader d "perm_reload"))
  gid : r.gid.toInt = sgn (member boardheader d "gid")
  parent : r.parent.toInt = sgn (member boardheader d "parent")
  childCount : r.childCount.toInt = sgn (member boardheader d "childcount")
  nuser : r.nuser.toInt = sgn (member boardheader d "nuser")
  postExpire : r.postExpire.toInt = sgn (member boardheader d "postexpire")
  endGamble : r.endGamble = T (sgn (member boardheader d "endgamble"))
  postTypeF : r.postTypeF = c.dec (cstr (member boardheader d "posttype_f"))
  fastRecommendPause : r.fastRecommendPause.toNat = num (member boardheader d "fastrecommend_pause")
  voteLimitBadPost : r.voteLimitBadPost.toNat = num (member boardheader d "vote_limit_badpost")
  postLimitBadPost : r.postLimitBadPost.toNat = num (member boardheader d "post_limit_badpost")
  srExpire : r.srExpire = T (sgn (member boardheader d "SRexpire"))
  next : r.next.map Int32.toInt = [sgn ((member boardheader d "next").take 4), sgn ((member boardheader d "next").drop 4)]
  firstChild : r.firstChild.map Int32.toInt =
    [sgn ((member boardheader d "firstchild").take 4), sgn ((member boardheader d "firstchild").drop 4)]

theorem rd32_sgn {b : Bytes} (h : b.length ≤ 4) : (rd32 b).toInt32.toInt = sgn b := by
  rw [int32_toInt, rd32_num h]
  unfold sgn
  split <;> simp

/-- Element `i` of an array of numbers. -/
theorem slice_elem {S : List (String × CType)} {name : String} {a n i k : Nat} (d : Bytes)
    (h : whereIs S name = (a, n)) (hi : k * i + k ≤ n) :
    slice d (a + k * i) (a + k * i + k) = ((member S d name).drop (k * i)).take k := by
  unfold slice member
  rw [h, List.drop_take, List.drop_take, List.drop_drop, List.take_take, Nat.add_sub_cancel_left]
  congr 1
  omega

/-- **C86** for boards, every content: all members are found; times are read modulo 2^32; moderators and post types are the C
strings iff nothing is left over behind them. -/
theorem C86_board_exact (c : Codec) (d : Bytes) (hd : d.length = 256) :
    ∃ r, BoardHeader.unmarshal c d = .ok r ∧ BoardAsC (· % 2 ^ 32) c d r ∧
      (r.bm = cstr (member boardheader d "BM") ↔ Clean (member boardheader d "BM")) ∧
      (Clean (member boardheader d "posttype") → r.postType = c.dec (cstr (member boardheader d "posttype"))) := by
  refine ⟨BoardHeader.parse c d, BoardHeader.unmarshal_eq c d hd, {
    brdName := by
      show c.dec (splitNulHead (slice d 0 13)) = _
      rw [slice_member d (show whereIs boardheader "brdname" = (0, 13 - 0) by decide +kernel), splitNulHead_cstr]
    title := by
      show c.dec (splitNulHead (slice d 13 62)) = _
      rw [slice_member d (show whereIs boardheader "title" = (13, 62 - 13) by decide +kernel), splitNulHead_cstr]
    brdattr := u32_member d (a := 104) (b := 108) rfl (show whereIs boardheader "brdattr" = (104, 4) by decide +kernel)
    chessCountry := by
      show trimNul (slice d 108 109) = _
      rw [slice_member d (show whereIs boardheader "chesscountry" = (108, 109 - 108) by decide +kernel)]
      exact trimNul_one _ (member_length _ _ _)
    voteLimitPosts := byte_member d (show whereIs boardheader "vote_limit_posts" = (109, 1) by decide +kernel)
    voteLimitLogins := byte_member d (show whereIs boardheader "vote_limit_logins" = (110, 1) by decide +kernel)
    bUpdate := time_member_mod d (a := 112) (b := 116) rfl (show whereIs boardheader "bupdate" = (112, 4) by decide +kernel)
    postLimitPosts := byte_member d (show whereIs boardheader "post_limit_posts" = (116, 1) by decide +kernel)
    postLimitLogins := byte_member d (show whereIs boardheader "post_limit_logins" = (117, 1) by decide +kernel)
    bVote := byte_member d (show whereIs boardheader "bvote" = (119, 1) by decide +kernel)
    vTime := time_member_mod d (a := 120) (b := 124) rfl (show whereIs boardheader "vtime" = (120, 4) by decide +kernel)
    level := u32_member d (a := 124) (b := 128) rfl (show whereIs boardheader "level" = (124, 4) by decide +kernel)
    permReload := time_member_mod d (a := 128) (b := 132) rfl (show whereIs boardheader "perm_reload" = (128, 4) by decide +kernel)
    gid := i32_member d (a := 132) (b := 136) rfl (show whereIs boardheader "gid" = (132, 4) by decide +kernel)
    parent := i32_member d (a := 152) (b := 156) rfl (show whereIs boardheader "parent" = (152, 4) by decide +kernel)
    childCount := i32_member d (a := 156) (b := 160) rfl (show whereIs boardheader "childcount" = (156, 4) by decide +kernel)
    nuser := i32_member d (a := 160) (b := 164) rfl (show whereIs boardheader "nuser" = (160, 4) by decide +kernel)
    postExpire := i32_member d (a := 164) (b := 168) rfl (show whereIs boardheader "postexpire" = (164, 4) by decide +kernel)
    endGamble := time_member_mod d (a := 168) (b := 172) rfl (show whereIs boardheader "endgamble" = (168, 4) by decide +kernel)
    postTypeF := by
      show c.dec (trimNul (slice d 205 206)) = _
      rw [slice_member d (show whereIs boardheader "posttype_f" = (205, 206 - 205) by decide +kernel), trimNul_one _ (member_length _ _ _)]
    fastRecommendPause := byte_member d (show whereIs boardheader "fastrecommend_pause" = (206, 1) by decide +kernel)
    voteLimitBadPost := byte_member d (show whereIs boardheader "vote_limit_badpost" = (207, 1) by decide +kernel)
    postLimitBadPost := byte_member d (show whereIs boardheader "post_limit_badpost" = (208, 1) by decide +kernel)
    srExpire := time_member_mod d (a := 212) (b := 216) rfl (show whereIs boardheader "SRexpire" = (212, 4) by decide +kernel)
    next := by
      have hw : whereIs boardheader "next" = (136, 8) := by decide +kernel
      have e0 := slice_elem d (i := 0) (k := 4) hw (by decide)
      have e1 := slice_elem d (i := 1) (k := 4) hw (by decide)
      have l := member_length boardheader d "next"
      rw [hw] at l
      simp only [BoardHeader.parse, List.map_cons, List.map_nil]
      rw [show slice d 136 140 = _ from e0, show slice d 140 144 = _ from e1, rd32_sgn (by simp; omega),
        rd32_sgn (by simp; omega), Nat.mul_zero, List.drop_zero, List.take_of_length_le (l := (member boardheader d "next").drop (4 * 1))
        (by simp at l ⊢; omega)]
    firstChild := by
      have hw : whereIs boardheader "firstchild" = (144, 8) := by decide +kernel
      have e0 := slice_elem d (i := 0) (k := 4) hw (by decide)
      have e1 := slice_elem d (i := 1) (k := 4) hw (by decide)
      have l := member_length boardheader d "firstchild"
      rw [hw] at l
      simp only [BoardHeader.parse, List.map_cons, List.map_nil]
      rw [show slice d 144 148 = _ from e0, show slice d 148 152 = _ from e1, rd32_sgn (by simp; omega),
        rd32_sgn (by simp; omega), Nat.mul_zero, List.drop_zero,
        List.take_of_length_le (l := (member boardheader d "firstchild").drop (4 * 1)) (by simp at l ⊢; omega)] }, ?_, ?_⟩
  · simp only [BoardHeader.parse]
    rw [slice_member d (show whereIs boardheader "BM" = (62, 101 - 62) by decide +kernel)]
    exact trimNul_cstr _
  · intro h
    simp only [BoardHeader.parse]
    rw [slice_member d (show whereIs boardheader "posttype" = (172, 205 - 172) by decide +kernel), (trimNul_cstr _).2 h]

/-- The claim: every board record is read as the C program sees it. -/
def Spec.ReadsBoards : Prop :=
  ∀ (c : Codec) (d : Bytes), d.length = 256 → ∃ r, BoardHeader.unmarshal c d = .ok r ∧ BoardAsC id c d r ∧
    r.bm = cstr (member boardheader d "BM") ∧ r.postType = c.dec (cstr (member boardheader d "posttype"))

/-- A board from which one of two moderators was taken: the tail of the old list is left over. -/
def Spec.oneModerator : Bytes :=
  padTo 256 (padTo 62 (ascii "test") ++ ascii "user1" ++ [0] ++ ascii "user2")

/-- **C86** fails for boards: the moderators are read as `user1\0user2`. -/
theorem C86_board_refuted : ¬ Spec.ReadsBoards := by
  intro h
  obtain ⟨r, h1, -, h3, -⟩ := h asciiCodec oneModerator (by decide +kernel)
  rw [BoardHeader.unmarshal_eq _ _ (by decide +kernel)] at h1
  rw [← Res.ok.inj h1] at h3
  revert h3
  decide +kernel

/-- Times without sign are read as they are. -/
theorem mod_of_nonneg {x : Bytes} (hl : x.length ≤ 4) (h : 0 ≤ sgn x) : sgn x % 2 ^ 32 = sgn x := by
  have h3 := num_lt x
  have h5 : 256 ^ x.length ≤ 256 ^ 4 := Nat.pow_le_pow_right (by decide) hl
  unfold sgn at h ⊢
  split <;> omega

theorem mem_le (S : List (String × CType)) (d : Bytes) (s : String) (h : (whereIs S s).2 = 4) :
    (member S d s).length ≤ 4 := h ▸ member_length S d s

/-- **C86** for boards (partial: strings without leftovers, times without sign). -/
theorem C86_board_partial (c : Codec) (d : Bytes) (hd : d.length = 256)
    (hm : Clean (member boardheader d "BM")) (hp : Clean (member boardheader d "posttype"))
    (ht : ∀ s ∈ ["bupdate", "vtime", "perm_reload", "endgamble", "SRexpire"], 0 ≤ sgn (member boardheader d s)) :
    ∃ r, BoardHeader.unmarshal c d = .ok r ∧ BoardAsC id c d r ∧ r.bm = cstr (member boardheader d "BM") ∧
      r.postType = c.dec (cstr (member boardheader d "posttype")) := by
  obtain ⟨r, h0, h1, h2, h3⟩ := C86_board_exact c d hd
  have hT : ∀ s ∈ ["bupdate", "vtime", "perm_reload", "endgamble", "SRexpire"], sgn (member boardheader d s) % 2 ^ 32 = id (sgn (member boardheader d s)) := by
    intro s hs
    have h4 : ∀ s ∈ ["bupdate", "vtime", "perm_reload", "endgamble", "SRexpire"], (whereIs boardheader s).2 = 4 := by decide +kernel
    exact mod_of_nonneg (mem_le _ _ _ (h4 s hs)) (ht s hs)
  exact ⟨r, h0, { h1 with bUpdate := by rw [← hT "bupdate" (by decide)]; exact h1.bUpdate, vTime := by rw [← hT "vtime" (by decide)]; exact h1.vTime, permReload := by rw [← hT "perm_reload" (by decide)]; exact h1.permReload, endGamble := by rw [← hT "endgamble" (by decide)]; exact h1.endGamble, srExpire := by rw [← hT "SRexpire" (by decide)]; exact h1.srExpire }, h2.2 hm, h3 hp⟩

/-! ## Users -/

theorem cstr_append_of_mem {a b : Bytes} (h : (0 : UInt8) ∈ a) : cstr (a ++ b) = cstr a := by
  unfold cstr
  induction a with
  | nil => simp at h
  | cons x a ih =>
    rw [List.cons_append, List.takeWhile_cons, List.takeWhile_cons]
    by_cases hx : x = 0
    · subst hx; rfl
    · rw [ih (by simpa [Ne.symm hx] using h)]

theorem cstr_append_of_not_mem {a b : Bytes} (h : (0 : UInt8) ∉ a) : cstr (a ++ b) = a ++ cstr b := by
  unfold cstr
  induction a with
  | nil => rfl
  | cons x a ih =>
    simp only [List.mem_cons, not_or] at h
    rw [List.cons_append, List.takeWhile_cons, if_pos (by simpa using Ne.symm h.1), ih h.2, List.cons_append]

/-- The members of a user record as the C program sees them, times as `T` of the stored number; the angel aside. -/
structure Spec.UserAsC (T : Int → Int) (c : Codec) (d : Bytes) (r : Userec) : Prop where
  version : r.version.toNat = num (member userec d "version")
  userID : r.userID = cstr (member userec d "userid")
  realName : r.realName = c.dec (cstr (member userec d "realname"))
  nickname : r.nickname = c.dec (cstr (member userec d "nickname"))
  password : r.password = cstr (member userec d "passwd")
  userFlag : r.userFlag.toNat = num (member userec d "uflag")
  userLevel : r.userLevel.toNat = num (member userec d "userlevel")
  numLoginDays : r.numLoginDays.toNat = num (member userec d "numlogindays")
  numPosts : r.numPosts.toNat = num (member userec d "numposts")
  firstLogin : r.firstLogin = T (sgn (member userec d "firstlogin"))
  lastLogin : r.lastLogin = T (sgn (member userec d "lastlogin"))
  lastHost : r.lastHost = cstr (member userec d "lasthost")
  money : r.money.toInt = sgn (member userec d "money")
  email : r.email = c.dec (cstr (member userec d "email"))
  address : r.address = c.dec (cstr (member userec d "address"))
  justify : r.justify = c.dec (cstr (member userec d "justify"))
  over18 : r.over18 = decide (num (member userec d "over_18") ≠ 0)
  pagerUIType : r.pagerUIType.toNat = num (member userec d "pager_ui_type")
  pager : r.pager.toNat = num (member userec d "pager")
  invisible : r.invisible = decide (num (member userec d "invisible") ≠ 0)
  exMailBox : r.exMailBox.toNat = num (member userec d "exmailbox")
  career : r.career = c.dec (cstr (member userec d "career"))
  role : r.role.toNat = num (member userec d "role")
  lastSeen : r.lastSeen = T (sgn (member userec d "lastseen"))
  timeSetAngel : r.timeSetAngel = T (sgn (member userec d "timesetangel"))
  timePlayAngel : r.timePlayAngel = T (sgn (member userec d "timeplayangel"))
  lastSong : r.lastSong = T (sgn (member userec d "lastsong"))
  loginView : r.loginView.toNat = num (member userec d "loginview")
  violateLaw : r.violateLaw.toNat = num (member userec d "vl_count")
  five_win : r.five.win.toNat = num (member userec d "five_win")
  five_lose : r.five.lose.toNat = num (member userec d "five_lose")
  five_tie : r.five.tie.toNat = num (member userec d "five_tie")
  chineseChess_win : r.chineseChess.win.toNat = num (member userec d "chc_win")
  chineseChess_lose : r.chineseChess.lose.toNat = num (member userec d "chc_lose")
  chineseChess_tie : r.chineseChess.tie.toNat = num (member userec d "chc_tie")
  conn6_win : r.conn6.win.toNat = num (member userec d "conn6_win")
  conn6_lose : r.conn6.lose.toNat = num (member userec d "conn6_lose")
  conn6_tie : r.conn6.tie.toNat = num (member userec d "conn6_tie")
  goChess_win : r.goChess.win.toNat = num (member userec d "go_win")
  goChess_lose : r.goChess.lose.toNat = num (member userec d "go_lose")
  goChess_tie : r.goChess.tie.toNat = num (member userec d "go_tie")
  darkChess_win : r.darkChess.win.toNat = num (member userec d "dark_win")
  darkChess_lose : r.darkChess.lose.toNat = num (member userec d "dark_lose")
  darkChess_tie : r.darkChess.tie.toNat = num (member userec d "dark_tie")
  uaVersion : r.uaVersion.toNat = num (member userec d "ua_version")
  signature : r.signature.toNat = num (member userec d "signature")
  badPost : r.badPost.toNat = num (member userec d "badpost")
  chessEloRating : r.chessEloRating.toNat = num (member userec d "chess_elo_rating")
  withMe : r.withMe.toNat = num (member userec d "withme")
  timeRemoveBadPost : r.timeRemoveBadPost = T (sgn (member userec d "timeremovebadpost"))
  timeViolateLaw : r.timeViolateLaw = T (sgn (member userec d "timeviolatelaw"))

/-- **C86** for users, every content: all members are found; times are read modulo 2^32; the angel is read with the byte behind
it, so it is the C string iff it is terminated or that byte is 0. -/
theorem C86_user_exact (c : Codec) (d : Bytes) (hd : d.length = 512) :
    ∃ r, Userec.unmarshal c d = .ok r ∧ UserAsC (· % 2 ^ 32) c d r ∧
      (r.myAngel = cstr (member userec d "myangel") ↔
        (0 ∈ member userec d "myangel" ∨ member userec d "pad_3" = [0])) := by
  refine ⟨Userec.parse c d, Userec.unmarshal_eq c d hd, {
    version := u32_member d (a := 0) (b := 4) rfl (show whereIs userec "version" = (0, 4) by decide +kernel)
    userID := by
      show cstrToBytes (slice d 4 17) = _
      rw [slice_member d (show whereIs userec "userid" = (4, 17 - 4) by decide +kernel)]
      exact cstrToBytes_cstr _
    realName := by
      show c.dec (cstrToBytes (slice d 17 37)) = _
      rw [slice_member d (show whereIs userec "realname" = (17, 37 - 17) by decide +kernel), cstrToBytes_cstr]
    nickname := by
      show c.dec (cstrToBytes (slice d 37 61)) = _
      rw [slice_member d (show whereIs userec "nickname" = (37, 61 - 37) by decide +kernel), cstrToBytes_cstr]
    password := by
      show cstrToBytes (slice d 61 75) = _
      rw [slice_member d (show whereIs userec "passwd" = (61, 75 - 61) by decide +kernel)]
      exact cstrToBytes_cstr _
    userFlag := u32_member d (a := 76) (b := 80) rfl (show whereIs userec "uflag" = (76, 4) by decide +kernel)
    userLevel := u32_member d (a := 84) (b := 88) rfl (show whereIs userec "userlevel" = (84, 4) by decide +kernel)
    numLoginDays := u32_member d (a := 88) (b := 92) rfl (show whereIs userec "numlogindays" = (88, 4) by decide +kernel)
    numPosts := u32_member d (a := 92) (b := 96) rfl (show whereIs userec "numposts" = (92, 4) by decide +kernel)
    firstLogin := time_member_mod d (a := 96) (b := 100) rfl (show whereIs userec "firstlogin" = (96, 4) by decide +kernel)
    lastLogin := time_member_mod d (a := 100) (b := 104) rfl (show whereIs userec "lastlogin" = (100, 4) by decide +kernel)
    lastHost := by
      show cstrToBytes (slice d 104 120) = _
      rw [slice_member d (show whereIs userec "lasthost" = (104, 120 - 104) by decide +kernel)]
      exact cstrToBytes_cstr _
    money := i32_member d (a := 120) (b := 124) rfl (show whereIs userec "money" = (120, 4) by decide +kernel)
    email := by
      show c.dec (cstrToBytes (slice d 128 178)) = _
      rw [slice_member d (show whereIs userec "email" = (128, 178 - 128) by decide +kernel), cstrToBytes_cstr]
    address := by
      show c.dec (cstrToBytes (slice d 178 228)) = _
      rw [slice_member d (show whereIs userec "address" = (178, 228 - 178) by decide +kernel), cstrToBytes_cstr]
    justify := by
      show c.dec (cstrToBytes (slice d 228 267)) = _
      rw [slice_member d (show whereIs userec "justify" = (228, 267 - 228) by decide +kernel), cstrToBytes_cstr]
    over18 := bool_member d (show whereIs userec "over_18" = (270, 1) by decide +kernel)
    pagerUIType := byte_member d (show whereIs userec "pager_ui_type" = (271, 1) by decide +kernel)
    pager := byte_member d (show whereIs userec "pager" = (272, 1) by decide +kernel)
    invisible := bool_member d (show whereIs userec "invisible" = (273, 1) by decide +kernel)
    exMailBox := u32_member d (a := 276) (b := 280) rfl (show whereIs userec "exmailbox" = (276, 4) by decide +kernel)
    career := by
      show c.dec (cstrToBytes (slice d 284 324)) = _
      rw [slice_member d (show whereIs userec "career" = (284, 324 - 284) by decide +kernel), cstrToBytes_cstr]
    role := u32_member d (a := 392) (b := 396) rfl (show whereIs userec "role" = (392, 4) by decide +kernel)
    lastSeen := time_member_mod d (a := 396) (b := 400) rfl (show whereIs userec "lastseen" = (396, 4) by decide +kernel)
    timeSetAngel := time_member_mod d (a := 400) (b := 404) rfl (show whereIs userec "timesetangel" = (400, 4) by decide +kernel)
    timePlayAngel := time_member_mod d (a := 404) (b := 408) rfl (show whereIs userec "timeplayangel" = (404, 4) by decide +kernel)
    lastSong := time_member_mod d (a := 408) (b := 412) rfl (show whereIs userec "lastsong" = (408, 4) by decide +kernel)
    loginView := u32_member d (a := 412) (b := 416) rfl (show whereIs userec "loginview" = (412, 4) by decide +kernel)
    violateLaw := u16_member d (a := 418) (b := 420) rfl (show whereIs userec "vl_count" = (418, 2) by decide +kernel)
    five_win := u16_member d (a := 420) (b := 422) rfl (show whereIs userec "five_win" = (420, 2) by decide +kernel)
    five_lose := u16_member d (a := 422) (b := 424) rfl (show whereIs userec "five_lose" = (422, 2) by decide +kernel)
    five_tie := u16_member d (a := 424) (b := 426) rfl (show whereIs userec "five_tie" = (424, 2) by decide +kernel)
    chineseChess_win := u16_member d (a := 426) (b := 428) rfl (show whereIs userec "chc_win" = (426, 2) by decide +kernel)
    chineseChess_lose := u16_member d (a := 428) (b := 430) rfl (show whereIs userec "chc_lose" = (428, 2) by decide +kernel)
    chineseChess_tie := u16_member d (a := 430) (b := 432) rfl (show whereIs userec "chc_tie" = (430, 2) by decide +kernel)
    conn6_win := u16_member d (a := 432) (b := 434) rfl (show whereIs userec "conn6_win" = (432, 2) by decide +kernel)
    conn6_lose := u16_member d (a := 434) (b := 436) rfl (show whereIs userec "conn6_lose" = (434, 2) by decide +kernel)
    conn6_tie := u16_member d (a := 436) (b := 438) rfl (show whereIs userec "conn6_tie" = (436, 2) by decide +kernel)
    goChess_win := u16_member d (a := 440) (b := 442) rfl (show whereIs userec "go_win" = (440, 2) by decide +kernel)
    goChess_lose := u16_member d (a := 442) (b := 444) rfl (show whereIs userec "go_lose" = (442, 2) by decide +kernel)
    goChess_tie := u16_member d (a := 444) (b := 446) rfl (show whereIs userec "go_tie" = (444, 2) by decide +kernel)
    darkChess_win := u16_member d (a := 446) (b := 448) rfl (show whereIs userec "dark_win" = (446, 2) by decide +kernel)
    darkChess_lose := u16_member d (a := 448) (b := 450) rfl (show whereIs userec "dark_lose" = (448, 2) by decide +kernel)
    darkChess_tie := u16_member d (a := 454) (b := 456) rfl (show whereIs userec "dark_tie" = (454, 2) by decide +kernel)
    uaVersion := byte_member d (show whereIs userec "ua_version" = (450, 1) by decide +kernel)
    signature := byte_member d (show whereIs userec "signature" = (451, 1) by decide +kernel)
    badPost := byte_member d (show whereIs userec "badpost" = (453, 1) by decide +kernel)
    chessEloRating := u16_member d (a := 470) (b := 472) rfl (show whereIs userec "chess_elo_rating" = (470, 2) by decide +kernel)
    withMe := u32_member d (a := 472) (b := 476) rfl (show whereIs userec "withme" = (472, 4) by decide +kernel)
    timeRemoveBadPost := time_member_mod d (a := 476) (b := 480) rfl (show whereIs userec "timeremovebadpost" = (476, 4) by decide +kernel)
    timeViolateLaw := time_member_mod d (a := 480) (b := 484) rfl (show whereIs userec "timeviolatelaw" = (480, 4) by decide +kernel) }, ?_⟩
  have hw : whereIs userec "myangel" = (456, 13) := by decide +kernel
  have hp : whereIs userec "pad_3" = (469, 1) := by decide +kernel
  have hl : (member userec d "myangel").length = 13 := by unfold member; rw [hw]; simp; omega
  have hq : (member userec d "pad_3").length = 1 := by unfold member; rw [hp]; simp; omega
  have e : slice d 456 470 = member userec d "myangel" ++ member userec d "pad_3" := by
    unfold slice member
    rw [hw, hp, List.drop_take, show 470 - 456 = 13 + 1 from rfl, List.take_add, List.drop_drop]
  show cstrToBytes (slice d 456 470) = _ ↔ _
  rw [cstrToBytes_cstr, e]
  obtain ⟨p, hp'⟩ : ∃ p, member userec d "pad_3" = [p] := List.length_eq_one_iff.1 hq
  rw [hp']
  generalize member userec d "myangel" = a
  by_cases h0 : (0 : UInt8) ∈ a
  · refine iff_of_true ?_ (Or.inl h0)
    exact cstr_append_of_mem h0
  · have e1 : cstr a = a := by
      have := cstr_append_of_not_mem (b := []) h0
      rw [List.append_nil] at this
      exact this.trans (List.append_nil a)
    have e2 : cstr (a ++ [p]) = a ++ cstr [p] := cstr_append_of_not_mem h0
    rw [e1, e2]
    by_cases hp0 : p = 0
    · subst hp0
      simp [cstr]
    · simp [cstr, hp0, h0]

/-- The claim: every user record is read as the C program sees it. -/
def Spec.ReadsUsers : Prop :=
  ∀ (c : Codec) (d : Bytes), d.length = 512 → ∃ r, Userec.unmarshal c d = .ok r ∧ UserAsC id c d r ∧
    r.myAngel = cstr (member userec d "myangel")

/-- **C86** fails for users: a time before 1970 is read as one after 2038. -/
theorem C86_user_refuted : ¬ Spec.ReadsUsers := by
  intro h
  obtain ⟨r, h1, h2, -⟩ := h asciiCodec (padTo 512 (padTo 96 [] ++ [255, 255, 255, 255])) (by decide +kernel)
  rw [Userec.unmarshal_eq _ _ (by decide +kernel)] at h1
  have h3 := h2.firstLogin
  rw [← Res.ok.inj h1] at h3
  revert h3
  decide +kernel

/-- **C86** for users (partial: times without sign, angel terminated). -/
theorem C86_user_partial (c : Codec) (d : Bytes) (hd : d.length = 512)
    (ha : 0 ∈ member userec d "myangel")
    (ht : ∀ s ∈ ["firstlogin", "lastlogin", "lastseen", "timesetangel", "timeplayangel", "lastsong", "timeremovebadpost", "timeviolatelaw"], 0 ≤ sgn (member userec d s)) :
    ∃ r, Userec.unmarshal c d = .ok r ∧ UserAsC id c d r ∧ r.myAngel = cstr (member userec d "myangel") := by
  obtain ⟨r, h0, h1, h2⟩ := C86_user_exact c d hd
  have hT : ∀ s ∈ ["firstlogin", "lastlogin", "lastseen", "timesetangel", "timeplayangel", "lastsong", "timeremovebadpost", "timeviolatelaw"], sgn (member userec d s) % 2 ^ 32 = id (sgn (member userec d s)) := by
    intro s hs
    have h4 : ∀ s ∈ ["firstlogin", "lastlogin", "lastseen", "timesetangel", "timeplayangel", "lastsong", "timeremovebadpost", "timeviolatelaw"], (whereIs userec s).2 = 4 := by decide +kernel
    exact mod_of_nonneg (mem_le _ _ _ (h4 s hs)) (ht s hs)
  exact ⟨r, h0, { h1 with firstLogin := by rw [← hT "firstlogin" (by decide)]; exact h1.firstLogin, lastLogin := by rw [← hT "lastlogin" (by decide)]; exact h1.lastLogin, lastSeen := by rw [← hT "lastseen" (by decide)]; exact h1.lastSeen, timeSetAngel := by rw [← hT "timesetangel" (by decide)]; exact h1.timeSetAngel, timePlayAngel := by rw [← hT "timeplayangel" (by decide)]; exact h1.timePlayAngel, lastSong := by rw [← hT "lastsong" (by decide)]; exact h1.lastSong, timeRemoveBadPost := by rw [← hT "timeremovebadpost" (by decide)]; exact h1.timeRemoveBadPost, timeViolateLaw := by rw [← hT "timeviolatelaw" (by decide)]; exact h1.timeViolateLaw }, h2.2 (.inl ha)⟩

/-! ## Users online -/

theorem UserInfo.unmarshal_eq (c : Codec) (d : Bytes) (h : d.length = 3484) :
    UserInfo.unmarshal c d = .ok (UserInfo.parse c d) := by
  rw [UserInfo.unmarshal_def]
  simp [h]

/-- The members of an online user as the C program sees them, from the start up to the colour. -/
structure Spec.OnlineAsC (T : Int → Int) (c : Codec) (d : Bytes) (r : UserInfo) : Prop where
  uid : r.uid.toInt = sgn (member userinfo d "uid")
  pid : r.pid.toInt = sgn (member userinfo d "pid")
  sockAddr : r.sockAddr.toInt = sgn (member userinfo d "sockaddr")
  userLevel : r.userLevel.toNat = num (member userinfo d "userlevel")
  userID : r.userID = cstr (member userinfo d "userid")
  nickname : r.nickname = c.dec (cstr (member userinfo d "nickname"))
  fromHost : r.fromHost = cstr (member userinfo d "from")
  fromIP : r.fromIP.toNat = num (member userinfo d "fromip")
  darkChess_win : r.darkChess.win.toNat = num (member userinfo d "dark_win")
  darkChess_lose : r.darkChess.lose.toNat = num (member userinfo d "dark_lose")
  angelPause : r.angelPause.toNat = num (member userinfo d "angelpause")
  darkChess_tie : r.darkChess.tie.toNat = num (member userinfo d "dark_tie")
  friendTotal : r.friendTotal.toInt = sgn (member userinfo d "friendtotal")
  msgCount : r.msgCount.toNat = num (member userinfo d "msgcount")
  birth : r.birth = decide (num (member userinfo d "birth") ≠ 0)
  active : r.active = decide (num (member userinfo d "active") ≠ 0)
  invisible : r.invisible = decide (num (member userinfo d "invisible") ≠ 0)
  mode : r.mode.toNat = num (member userinfo d "mode")
  pager : r.pager = decide (num (member userinfo d "pager") ≠ 0)
  conn6_win : r.conn6.win.toNat = num (member userinfo d "conn6_win")
  lastAct : r.lastAct = T (sgn (member userinfo d "lastact"))
  alerts : r.alerts.toNat = num (member userinfo d "alerts")
  conn6_lose : r.conn6.lose.toNat = num (member userinfo d "conn6_lose")
  signature : r.signature.toNat = num (member userinfo d "sig")
  conn6_tie : r.conn6.tie.toNat = num (member userinfo d "conn6_tie")
  destUID : r.destUID.toInt = sgn (member userinfo d "destuid")
  destUIP : r.destUIP.toInt = sgn (member userinfo d "destuip")
  sockActive : r.sockActive.toNat = num (member userinfo d "sockactive")
  inChat : r.inChat.toNat = num (member userinfo d "in_chat")
  chatID : r.chatID = cstr (member userinfo d "chatid")
  lockMode : r.lockMode.toNat = num (member userinfo d "lockmode")
  turn : r.turn = decide (num (member userinfo d "turn") ≠ 0)
  mateID : r.mateID = c.dec (cstr (member userinfo d "mateid"))
  color : r.color.toNat = num (member userinfo d "color")
  numFriends : r.numFriends.toUInt16.toNat = num (member userinfo d "nFriends")
  myFriend : ∀ i (h : i < 256), (r.myFriend[i]).toInt = sgn (((member userinfo d "myfriend").drop (4 * i)).take 4)
  friendOnline : ∀ i (h : i < 256), (r.friendOnline[i]).toNat = num (((member userinfo d "friend_online").drop (4 * i)).take 4)
  reject : ∀ i (h : i < 32), (r.reject[i]).toInt = sgn (((member userinfo d "reject").drop (4 * i)).take 4)
  msgs : ∀ i (h : i < 10), r.msgs[i] = ((member userinfo d "msgs").drop (100 * i)).take 100

/-- The bytes `k` before a member, as many as it has. -/
def Spec.before (S : List (String × CType)) (d : Bytes) (name : String) (k : Nat) : Bytes :=
  (d.drop ((whereIs S name).1 - k)).take (whereIs S name).2

/-- The last members, as the C program sees them. -/
structure Spec.OnlineTailAsC (back : String → Nat) (T : Int → Int) (d : Bytes) (r : UserInfo) : Prop where
  five_win : r.five.win.toNat = num (before userinfo d "five_win" (back "five_win"))
  five_lose : r.five.lose.toNat = num (before userinfo d "five_lose" (back "five_lose"))
  five_tie : r.five.tie.toNat = num (before userinfo d "five_tie" (back "five_tie"))
  chineseChess_win : r.chineseChess.win.toNat = num (before userinfo d "chc_win" (back "chc_win"))
  chineseChess_lose : r.chineseChess.lose.toNat = num (before userinfo d "chc_lose" (back "chc_lose"))
  chineseChess_tie : r.chineseChess.tie.toNat = num (before userinfo d "chc_tie" (back "chc_tie"))
  chessEloRating : r.chessEloRating.toNat = num (before userinfo d "chess_elo_rating" (back "chess_elo_rating"))
  goChess_win : r.goChess.win.toNat = num (before userinfo d "go_win" (back "go_win"))
  goChess_lose : r.goChess.lose.toNat = num (before userinfo d "go_lose" (back "go_lose"))
  goChess_tie : r.goChess.tie.toNat = num (before userinfo d "go_tie" (back "go_tie"))
  withMe : r.withMe.toNat = num (before userinfo d "withme" (back "withme"))
  brcID : r.brcID.toNat = num (before userinfo d "brc_id" (back "brc_id"))
  wbTime : r.wbTime = T (sgn (before userinfo d "wbtime" (back "wbtime")))

/-- The claim: every online user is read as the C program sees them. -/
def Spec.ReadsOnline : Prop :=
  ∀ (c : Codec) (d : Bytes), d.length = 3484 → ∃ r, UserInfo.unmarshal c d = .ok r ∧ OnlineAsC id c d r ∧
    OnlineTailAsC (fun _ => 0) id d r

/-- How far before its place a member of the tail is read. -/
def Spec.backBy (s : String) : Nat :=
  if s ∈ ["five_win", "five_lose", "five_tie", "chc_win", "chc_lose"] then 1
  else if s ∈ ["chc_tie", "chess_elo_rating", "go_win", "go_lose", "go_tie"] then 7 else 9

theorem u16_before {S : List (String × CType)} {name : String} {a b k : Nat} (d : Bytes) (hb : b = a + 2)
    (h : (whereIs S name).1 - k = a ∧ (whereIs S name).2 = 2) : (rd16 (slice d a b)).toNat = num (before S d name k) := by
  subst hb
  have e : slice d a (a + 2) = before S d name k := by
    unfold slice before
    rw [h.1, h.2, List.drop_take, Nat.add_sub_cancel_left]
  rw [e]
  exact rd16_num (by unfold before; rw [h.2]; simp; omega)

theorem u32_before {S : List (String × CType)} {name : String} {a b k : Nat} (d : Bytes) (hb : b = a + 4)
    (h : (whereIs S name).1 - k = a ∧ (whereIs S name).2 = 4) : (rd32 (slice d a b)).toNat = num (before S d name k) := by
  subst hb
  have e : slice d a (a + 4) = before S d name k := by
    unfold slice before
    rw [h.1, h.2, List.drop_take, Nat.add_sub_cancel_left]
  rw [e]
  exact rd32_num (by unfold before; rw [h.2]; simp; omega)

theorem time_before {S : List (String × CType)} {name : String} {a b k : Nat} (d : Bytes) (hb : b = a + 4)
    (h : (whereIs S name).1 - k = a ∧ (whereIs S name).2 = 4) :
    timeOfU32 (rd32 (slice d a b)) = sgn (before S d name k) % 2 ^ 32 := by
  unfold timeOfU32
  rw [u32_before d hb h]
  unfold sgn
  have := num_lt (before S d name k)
  have hl : (before S d name k).length ≤ 4 := by unfold before; rw [h.2]; simp; omega
  have h4 : 256 ^ (before S d name k).length ≤ 256 ^ 4 := Nat.pow_le_pow_right (by decide) hl
  split <;> omega

/-- **C86** for online users, every content: everything up to the colour is found (times modulo 2^32); every member behind it is
read 1, 7 or 9 bytes before its place. -/
theorem C86_online_exact (c : Codec) (d : Bytes) (hd : d.length = 3484) :
    ∃ r, UserInfo.unmarshal c d = .ok r ∧ OnlineAsC (· % 2 ^ 32) c d r ∧ OnlineTailAsC backBy (· % 2 ^ 32) d r := by
  refine ⟨UserInfo.parse c d, UserInfo.unmarshal_eq c d hd, {
    uid := i32_member d (a := 0) (b := 4) rfl (show whereIs userinfo "uid" = (0, 4) by decide +kernel)
    pid := i32_member d (a := 4) (b := 8) rfl (show whereIs userinfo "pid" = (4, 4) by decide +kernel)
    sockAddr := i32_member d (a := 8) (b := 12) rfl (show whereIs userinfo "sockaddr" = (8, 4) by decide +kernel)
    userLevel := u32_member d (a := 12) (b := 16) rfl (show whereIs userinfo "userlevel" = (12, 4) by decide +kernel)
    userID := by
      show cstrToBytes (slice d 16 29) = _
      rw [slice_member d (show whereIs userinfo "userid" = (16, 29 - 16) by decide +kernel)]
      exact cstrToBytes_cstr _
    nickname := by
      show c.dec (cstrToBytes (slice d 29 53)) = _
      rw [slice_member d (show whereIs userinfo "nickname" = (29, 53 - 29) by decide +kernel), cstrToBytes_cstr]
    fromHost := by
      show cstrToBytes (slice d 53 80) = _
      rw [slice_member d (show whereIs userinfo "from" = (53, 80 - 53) by decide +kernel)]
      exact cstrToBytes_cstr _
    fromIP := u32_member d (a := 80) (b := 84) rfl (show whereIs userinfo "fromip" = (80, 4) by decide +kernel)
    darkChess_win := u16_member d (a := 84) (b := 86) rfl (show whereIs userinfo "dark_win" = (84, 2) by decide +kernel)
    darkChess_lose := u16_member d (a := 86) (b := 88) rfl (show whereIs userinfo "dark_lose" = (86, 2) by decide +kernel)
    angelPause := byte_member d (show whereIs userinfo "angelpause" = (89, 1) by decide +kernel)
    darkChess_tie := u16_member d (a := 90) (b := 92) rfl (show whereIs userinfo "dark_tie" = (90, 2) by decide +kernel)
    friendTotal := i32_member d (a := 92) (b := 96) rfl (show whereIs userinfo "friendtotal" = (92, 4) by decide +kernel)
    msgCount := byte_member d (show whereIs userinfo "msgcount" = (2288, 1) by decide +kernel)
    birth := bool_member d (show whereIs userinfo "birth" = (3392, 1) by decide +kernel)
    active := bool_member d (show whereIs userinfo "active" = (3393, 1) by decide +kernel)
    invisible := bool_member d (show whereIs userinfo "invisible" = (3394, 1) by decide +kernel)
    mode := byte_member d (show whereIs userinfo "mode" = (3395, 1) by decide +kernel)
    pager := bool_member d (show whereIs userinfo "pager" = (3396, 1) by decide +kernel)
    conn6_win := u16_member d (a := 3398) (b := 3400) rfl (show whereIs userinfo "conn6_win" = (3398, 2) by decide +kernel)
    lastAct := time_member_mod d (a := 3400) (b := 3404) rfl (show whereIs userinfo "lastact" = (3400, 4) by decide +kernel)
    alerts := byte_member d (show whereIs userinfo "alerts" = (3404, 1) by decide +kernel)
    conn6_lose := u16_member d (a := 3406) (b := 3408) rfl (show whereIs userinfo "conn6_lose" = (3406, 2) by decide +kernel)
    signature := byte_member d (show whereIs userinfo "sig" = (3409, 1) by decide +kernel)
    conn6_tie := u16_member d (a := 3410) (b := 3412) rfl (show whereIs userinfo "conn6_tie" = (3410, 2) by decide +kernel)
    destUID := i32_member d (a := 3412) (b := 3416) rfl (show whereIs userinfo "destuid" = (3412, 4) by decide +kernel)
    destUIP := i32_member d (a := 3416) (b := 3420) rfl (show whereIs userinfo "destuip" = (3416, 4) by decide +kernel)
    sockActive := byte_member d (show whereIs userinfo "sockactive" = (3420, 1) by decide +kernel)
    inChat := byte_member d (show whereIs userinfo "in_chat" = (3421, 1) by decide +kernel)
    chatID := by
      show cstrToBytes (slice d 3422 3433) = _
      rw [slice_member d (show whereIs userinfo "chatid" = (3422, 3433 - 3422) by decide +kernel)]
      exact cstrToBytes_cstr _
    lockMode := byte_member d (show whereIs userinfo "lockmode" = (3433, 1) by decide +kernel)
    turn := bool_member d (show whereIs userinfo "turn" = (3434, 1) by decide +kernel)
    mateID := by
      show c.dec (cstrToBytes (slice d 3435 3448)) = _
      rw [slice_member d (show whereIs userinfo "mateid" = (3435, 3448 - 3435) by decide +kernel), cstrToBytes_cstr]
    color := byte_member d (show whereIs userinfo "color" = (3448, 1) by decide +kernel)
    numFriends := by
      show ((rd16 (slice d 96 98)).toInt16).toUInt16.toNat = _
      rw [UInt16.toUInt16_toInt16]
      exact u16_member d (a := 96) (b := 98) rfl (show whereIs userinfo "nFriends" = (96, 2) by decide +kernel)
    myFriend := by
      intro i hi
      simp only [UserInfo.parse, Vector.getElem_ofFn]
      rw [slice_elem d (show whereIs userinfo "myfriend" = (100, 1024) by decide +kernel) (by omega)]
      exact rd32_sgn (by simp; omega)
    friendOnline := by
      intro i hi
      simp only [UserInfo.parse, Vector.getElem_ofFn]
      rw [slice_elem d (show whereIs userinfo "friend_online" = (1128, 1024) by decide +kernel) (by omega)]
      exact rd32_num (by simp; omega)
    reject := by
      intro i hi
      simp only [UserInfo.parse, Vector.getElem_ofFn]
      rw [slice_elem d (show whereIs userinfo "reject" = (2156, 128) by decide +kernel) (by omega)]
      exact rd32_sgn (by simp; omega)
    msgs := by
      intro i hi
      simp only [UserInfo.parse, Vector.getElem_ofFn]
      exact slice_elem d (show whereIs userinfo "msgs" = (2292, 1000) by decide +kernel) (by omega) }, {
    five_win := u16_before d (a := 3449) (b := 3451) rfl (show (whereIs userinfo "five_win").1 - backBy "five_win" = 3449 ∧ (whereIs userinfo "five_win").2 = 2 by decide +kernel)
    five_lose := u16_before d (a := 3451) (b := 3453) rfl (show (whereIs userinfo "five_lose").1 - backBy "five_lose" = 3451 ∧ (whereIs userinfo "five_lose").2 = 2 by decide +kernel)
    five_tie := u16_before d (a := 3453) (b := 3455) rfl (show (whereIs userinfo "five_tie").1 - backBy "five_tie" = 3453 ∧ (whereIs userinfo "five_tie").2 = 2 by decide +kernel)
    chineseChess_win := u16_before d (a := 3455) (b := 3457) rfl (show (whereIs userinfo "chc_win").1 - backBy "chc_win" = 3455 ∧ (whereIs userinfo "chc_win").2 = 2 by decide +kernel)
    chineseChess_lose := u16_before d (a := 3457) (b := 3459) rfl (show (whereIs userinfo "chc_lose").1 - backBy "chc_lose" = 3457 ∧ (whereIs userinfo "chc_lose").2 = 2 by decide +kernel)
    chineseChess_tie := u16_before d (a := 3453) (b := 3455) rfl (show (whereIs userinfo "chc_tie").1 - backBy "chc_tie" = 3453 ∧ (whereIs userinfo "chc_tie").2 = 2 by decide +kernel)
    chessEloRating := u16_before d (a := 3455) (b := 3457) rfl (show (whereIs userinfo "chess_elo_rating").1 - backBy "chess_elo_rating" = 3455 ∧ (whereIs userinfo "chess_elo_rating").2 = 2 by decide +kernel)
    goChess_win := u16_before d (a := 3457) (b := 3459) rfl (show (whereIs userinfo "go_win").1 - backBy "go_win" = 3457 ∧ (whereIs userinfo "go_win").2 = 2 by decide +kernel)
    goChess_lose := u16_before d (a := 3459) (b := 3461) rfl (show (whereIs userinfo "go_lose").1 - backBy "go_lose" = 3459 ∧ (whereIs userinfo "go_lose").2 = 2 by decide +kernel)
    goChess_tie := u16_before d (a := 3461) (b := 3463) rfl (show (whereIs userinfo "go_tie").1 - backBy "go_tie" = 3461 ∧ (whereIs userinfo "go_tie").2 = 2 by decide +kernel)
    withMe := u32_before d (a := 3463) (b := 3467) rfl (show (whereIs userinfo "withme").1 - backBy "withme" = 3463 ∧ (whereIs userinfo "withme").2 = 4 by decide +kernel)
    brcID := u32_before d (a := 3467) (b := 3471) rfl (show (whereIs userinfo "brc_id").1 - backBy "brc_id" = 3467 ∧ (whereIs userinfo "brc_id").2 = 4 by decide +kernel)
    wbTime := time_before d (a := 3471) (b := 3475) rfl (show (whereIs userinfo "wbtime").1 - backBy "wbtime" = 3471 ∧ (whereIs userinfo "wbtime").2 = 4 by decide +kernel) }⟩

/-- **C86** fails for online users: one game of five-in-a-row won is read as 256. -/
theorem C86_online_refuted : ¬ Spec.ReadsOnline := by
  intro h
  obtain ⟨r, h1, -, h2⟩ := h asciiCodec (padTo 3484 (padTo 3450 [] ++ [1])) (by decide +kernel)
  rw [UserInfo.unmarshal_eq _ _ (by decide +kernel)] at h1
  have h3 := h2.five_win
  rw [← Res.ok.inj h1] at h3
  revert h3
  decide +kernel

/-! ## The hypotheses are met -/

/-- A usual article. -/
example : let d := padTo 128 (padTo 28 (ascii "M.1599059246.A.CF6") ++ [0x2e, 0xb7, 0x4f, 0x5f, 0, 3] ++ padTo 14 (ascii "user1") ++
      padTo 6 (ascii " 9/02") ++ ascii "title")
    (∀ s ∈ ["filename", "owner", "date", "title"], Clean (member fileheader d s)) ∧
    0 ≤ sgn (member fileheader d "modified") ∧ 0 ≤ sgn (member fileheader d "multi") := by
  refine ⟨?_, by decide +kernel⟩
  simp only [← trimNul_cstr]
  decide +kernel

/-- A board with two moderators. -/
example : let d := padTo 256 (padTo 13 (ascii "test") ++ padTo 49 (ascii "a board") ++ ascii "user1/user2")
    d.length = 256 ∧ Clean (member boardheader d "BM") ∧ Clean (member boardheader d "posttype") ∧
    member boardheader d "BM" ≠ [] ∧ (∀ s ∈ ["bupdate", "vtime"], 0 ≤ sgn (member boardheader d s)) := by
  simp only [← trimNul_cstr]
  decide +kernel

/-- A user without an angel; and one whose angel fills the array: then the byte behind it matters. -/
example : (0 : UInt8) ∈ member userec (padTo 512 (ascii "xxxxuser1")) "myangel" ∧
    (let d := padTo 512 (padTo 456 [] ++ ascii "thirteenbytes" ++ [65])
     (0 : UInt8) ∉ member userec d "myangel" ∧ member userec d "pad_3" ≠ [0]) := by
  decide +kernel

end Verif
