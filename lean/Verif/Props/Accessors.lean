import Verif.Model.Accessors
import Verif.Props.CLayout
import Verif.Props.ArticleRecord
import Verif.Props.BoardRecord
import Verif.Props.UserRecord
import Verif.Props.Flags
import Verif.Props.Lists
import Verif.Props.Comment
/-!
# C142: what the methods of a record tell

A record is read from its bytes, changed by any number of calls of its methods, saved, and read again. What its methods tell is compared with the members
of the C structure the bytes held (`Verif.Props.CLayout`) and the values given to the methods.
-/

namespace Verif
open Spec

/-! ## The last value -/

/-- The last value that `pick` finds among the edits, else the old one. -/
def Spec.lastSet {E α : Type} (pick : E → Option α) (es : List E) (old : α) : α := ((es.filterMap pick).getLast?).getD old

theorem lastSet_nil {E α : Type} (pick : E → Option α) (old : α) : lastSet pick [] old = old := rfl

theorem lastSet_cons {E α : Type} (pick : E → Option α) (e : E) (es : List E) (old : α) :
    lastSet pick (e :: es) old = lastSet pick es ((pick e).getD old) := by
  unfold lastSet
  cases h : pick e with
  | none => rw [List.filterMap_cons_none h]; rfl
  | some a =>
    rw [List.filterMap_cons_some h, List.getLast?_cons]
    cases (es.filterMap pick).getLast? <;> rfl

/-! ## Articles -/

namespace Spec

def ofFilename : ArticleEdit → Option Bytes | .filename s => some s | _ => none
def ofModified : ArticleEdit → Option Int | .modified t => some t | _ => none
def ofRecommend : ArticleEdit → Option Int8 | .recommend u => some u | _ => none
def ofOwner : ArticleEdit → Option Bytes | .owner s => some s | _ => none
def ofDate : ArticleEdit → Option Bytes | .date s => some s | _ => none
def ofTitle : ArticleEdit → Option Bytes | .title s => some s | _ => none

/-- What the methods of an article record should tell after `es`, when the bytes were `d`: the last value given, or what the C program sees. -/
def articleTold (c : Codec) (d : Bytes) (es : List ArticleEdit) : ArticleView :=
  { filename := lastSet ofFilename es (cstr (member fileheader d "filename"))
    modified := lastSet ofModified es (sgn (member fileheader d "modified"))
    recommend := (num (member fileheader d "recommend") : Int).bmod 256 + ((es.filterMap ofRecommend).map Int8.toInt).sum
    date := lastSet ofDate es (cstr (member fileheader d "date"))
    title := lastSet ofTitle es (c.dec (cstr (member fileheader d "title")))
    money := sgn (member fileheader d "multi")
    owner := lastSet ofOwner es (cstr (member fileheader d "owner")) }

/-- The texts of the record have nothing behind their terminators, its numbers have no sign. -/
structure ArticleClean (d : Bytes) : Prop where
  size : d.length = 128
  texts : ∀ s ∈ ["filename", "owner", "date", "title"], Clean (member fileheader d s)
  modified : 0 ≤ sgn (member fileheader d "modified")
  multi : 0 ≤ sgn (member fileheader d "multi")

/-- What the methods tell fits the record. -/
structure ArticleFits (c : Codec) (v : ArticleView) : Prop where
  filename : FitsTrim 28 v.filename
  modified : FitsTime v.modified
  low : -128 ≤ v.recommend
  high : v.recommend ≤ 127
  date : FitsTrim 6 v.date
  title : FitsTrim 65 (c.enc v.title)
  faithful : c.dec (c.enc v.title) = v.title
  owner : FitsTrim 14 v.owner

/-- **C142** for articles: after any edits, and again after saving, the methods tell the last values given and the old ones elsewhere. -/
def C142_articles : Prop :=
  ∀ (c : Codec) (d : Bytes) (es : List ArticleEdit), ArticleClean d → ArticleFits c (articleTold c d es) →
    ∃ f g, FileHeader.unmarshal c d = .ok f ∧ (es.foldl FileHeader.edit f).told = articleTold c d es ∧
      FileHeader.unmarshal c ((es.foldl FileHeader.edit f).marshal c) = .ok g ∧ g.told = articleTold c d es

end Spec

/-- What is in every field after the edits, whatever was there before. -/
theorem C142_edits (es : List ArticleEdit) : ∀ f : FileHeader,
    let g := es.foldl FileHeader.edit f
    g.filename = lastSet ofFilename es f.filename ∧ g.modified = lastSet ofModified es f.modified ∧
      g.recommendInt = (f.recommendInt + ((es.filterMap ofRecommend).map Int8.toInt).sum).bmod 256 ∧
      g.owner = lastSet ofOwner es f.owner ∧ g.date = lastSet ofDate es f.date ∧ g.title = lastSet ofTitle es f.title ∧
      g.money = f.money ∧ g.annoUID = f.annoUID ∧ g.voteLimits = f.voteLimits ∧ g.filemode = f.filemode := by
  induction es with
  | nil =>
    intro f
    refine ⟨rfl, rfl, ?_, rfl, rfl, rfl, rfl, rfl, rfl, rfl⟩
    have h1 := f.recommend.toInt_lt
    have h2 := f.recommend.le_toInt
    simp only [List.foldl_nil, List.filterMap_nil, List.map_nil, List.sum_nil, FileHeader.recommendInt, Int.add_zero]
    rw [Int.bmod_eq_of_le] <;> omega
  | cons e es ih =>
    intro f
    have := ih (f.edit e)
    simp only [List.foldl_cons, lastSet_cons] at this ⊢
    obtain ⟨h1, h2, h3, h4, h5, h6, h7, h8, h9, h10⟩ := this
    cases e with
    | recommend u =>
      refine ⟨h1, h2, ?_, h4, h5, h6, h7, h8, h9, h10⟩
      rw [h3]
      simp only [FileHeader.edit, FileHeader.recommendInt, FileHeader.addRecommend, Int8.toInt_add, Nat.reducePow,
        List.filterMap_cons, ofRecommend, List.map_cons, List.sum_cons]
      rw [Int.bmod_add_bmod]
      congr 1
      omega
    | filename s => exact ⟨h1, h2, h3, h4, h5, h6, h7, h8, h9, h10⟩
    | modified t => exact ⟨h1, h2, h3, h4, h5, h6, h7, h8, h9, h10⟩
    | owner s => exact ⟨h1, h2, h3, h4, h5, h6, h7, h8, h9, h10⟩
    | date s => exact ⟨h1, h2, h3, h4, h5, h6, h7, h8, h9, h10⟩
    | title s => exact ⟨h1, h2, h3, h4, h5, h6, h7, h8, h9, h10⟩

theorem byte_int8 {b : UInt8} {n : Nat} (h : b.toNat = n) : b.toInt8.toInt = (n : Int).bmod 256 := by
  subst h
  have : ∀ b : Fin 256, (UInt8.ofNat b.val).toInt8.toInt = ((UInt8.ofNat b.val).toNat : Int).bmod 256 := by decide +kernel
  simpa only [UInt8.ofNat_toNat] using this ⟨b.toNat, b.toNat_lt⟩

/-- What the methods tell of an article that was read and edited, before and after saving: the last value of every field that can be set, or else what
the C program sees; the money is lost when the record is saved. -/
theorem C142_partial (c : Codec) (d : Bytes) (es : List ArticleEdit) (hd : ArticleClean d) (hv : ArticleFits c (articleTold c d es)) :
    ∃ f g, FileHeader.unmarshal c d = .ok f ∧ (es.foldl FileHeader.edit f).told = articleTold c d es ∧
      FileHeader.unmarshal c ((es.foldl FileHeader.edit f).marshal c) = .ok g ∧ g.told = { articleTold c d es with money := 0 } := by
  obtain ⟨f, hf, ha⟩ := C86_article_partial c d hd.size hd.texts hd.modified hd.multi
  obtain ⟨h1, h2, h3, h4, h5, h6, h7, -⟩ := C142_edits es f
  have hr : f.recommendInt = (num (member fileheader d "recommend") : Int).bmod 256 := by
    unfold FileHeader.recommendInt
    rw [← byte_int8 ha.recommend]
    rfl
  have hrec : (es.foldl FileHeader.edit f).recommendInt = (articleTold c d es).recommend := by
    have hl := hv.low
    have hh := hv.high
    rw [h3, hr]
    show _ = (articleTold c d es).recommend
    rw [Int.bmod_eq_of_le]
    · rfl
    · unfold articleTold at hl; simp only at hl; omega
    · unfold articleTold at hh; simp only at hh; omega
  rw [ha.filename] at h1
  rw [ha.modified] at h2
  rw [ha.owner] at h4
  rw [ha.date] at h5
  rw [ha.title] at h6
  have hm : ((es.foldl FileHeader.edit f).money : Int) = (articleTold c d es).money := by rw [h7]; exact ha.money
  have ht : (es.foldl FileHeader.edit f).told = articleTold c d es := by
    unfold FileHeader.told FileHeader.tellFilename FileHeader.tellModified FileHeader.tellDate FileHeader.tellTitle FileHeader.tellMoney
      FileHeader.tellOwner
    rw [h1, h2, hrec, h4, h5, h6, hm]
    rfl
  refine ⟨f, _, hf, ht, (C02_exact c _).2, ?_⟩
  generalize es.foldl FileHeader.edit f = g at *
  rw [← ht] at hv ⊢
  have e1 : cutTrim 28 g.filename = g.filename := cutTrim_of_fits hv.filename
  have e2 : wrap32 g.modified = g.modified := wrap32_of_fits hv.modified
  have e3 : cutTrim 14 g.owner = g.owner := cutTrim_of_fits hv.owner
  have e4 : cutTrim 6 g.date = g.date := cutTrim_of_fits hv.date
  have e5 : c.dec (cutTrim 65 (c.enc g.title)) = g.title := by rw [show cutTrim 65 (c.enc g.title) = c.enc g.title from cutTrim_of_fits hv.title]; exact hv.faithful
  unfold storedArticle
  rw [e1, e2, e3, e4, e5]
  rfl

/-- For every content of the bytes and every edit, nothing assumed: what is told after saving. -/
theorem C142_exact (c : Codec) (d : Bytes) (es : List ArticleEdit) (hd : d.length = 128) :
    ∃ f g, FileHeader.unmarshal c d = .ok f ∧ FileHeader.unmarshal c ((es.foldl FileHeader.edit f).marshal c) = .ok g ∧
      g.told =
        { filename := cutTrim 28 (lastSet ofFilename es (trimNul (member fileheader d "filename")))
          modified := wrap32 (lastSet ofModified es (sgn (member fileheader d "modified")))
          recommend := ((num (member fileheader d "recommend") : Int) + ((es.filterMap ofRecommend).map Int8.toInt).sum).bmod 256
          date := cutTrim 6 (lastSet ofDate es (trimNul (member fileheader d "date")))
          title := c.dec (cutTrim 65 (c.enc (lastSet ofTitle es (c.dec (trimNul (member fileheader d "title"))))))
          money := 0
          owner := cutTrim 14 (lastSet ofOwner es (trimNul (member fileheader d "owner"))) } := by
  obtain ⟨h1, h2, h3, h4, h5, h6, -⟩ := C142_edits es (FileHeader.parse c d)
  refine ⟨_, _, FileHeader.unmarshal_eq c d hd, (C02_exact c _).2, ?_⟩
  have k1 : (FileHeader.parse c d).filename = trimNul (member fileheader d "filename") := by
    show trimNul (slice d 0 28) = _
    rw [slice_member d (show whereIs fileheader "filename" = (0, 28 - 0) by decide +kernel)]
  have k2 : (FileHeader.parse c d).modified = wrap32 (sgn (member fileheader d "modified")) :=
    time_member_mod d (a := 28) (b := 32) rfl (show whereIs fileheader "modified" = (28, 4) by decide +kernel)
  have k3 : (FileHeader.parse c d).recommendInt = (num (member fileheader d "recommend") : Int).bmod 256 :=
    byte_int8 (byte_member d (show whereIs fileheader "recommend" = (33, 1) by decide +kernel))
  have k4 : (FileHeader.parse c d).owner = trimNul (member fileheader d "owner") := by
    show trimNul (slice d 34 48) = _
    rw [slice_member d (show whereIs fileheader "owner" = (34, 48 - 34) by decide +kernel)]
  have k5 : (FileHeader.parse c d).date = trimNul (member fileheader d "date") := by
    show trimNul (slice d 48 54) = _
    rw [slice_member d (show whereIs fileheader "date" = (48, 54 - 48) by decide +kernel)]
  have k6 : (FileHeader.parse c d).title = c.dec (trimNul (member fileheader d "title")) := by
    show c.dec (trimNul (slice d 54 119)) = _
    rw [slice_member d (show whereIs fileheader "title" = (54, 119 - 54) by decide +kernel)]
  have k7 : wrap32 (lastSet ofModified es (wrap32 (sgn (member fileheader d "modified")))) =
      wrap32 (lastSet ofModified es (sgn (member fileheader d "modified"))) := by
    unfold lastSet
    cases (es.filterMap ofModified).getLast? with
    | some _ => rfl
    | none => exact Int.emod_emod_of_dvd _ (Int.dvd_refl _)
  rw [k1] at h1
  rw [k2] at h2
  rw [k3, Int.bmod_add_bmod] at h3
  rw [k4] at h4
  rw [k5] at h5
  rw [k6] at h6
  rw [← k7, ← h1, ← h2, ← h3, ← h4, ← h5, ← h6]
  rfl

/-- An article worth five coins. -/
def Spec.paidArticle : Bytes := padTo 120 (padTo 34 (ascii "M.1599059246.A.CF6") ++ padTo 14 (ascii "SYSOP")) ++ [5, 0, 0, 0] ++ zeros 4

theorem paidArticle_clean : ArticleClean paidArticle := by
  refine ⟨by decide +kernel, ?_, by decide +kernel, by decide +kernel⟩
  intro s hs
  simp only [List.mem_cons, List.not_mem_nil, or_false] at hs
  rcases hs with rfl | rfl | rfl | rfl <;> rw [← trimNul_cstr] <;> decide +kernel

/-- Two titles, two votes. -/
def Spec.someEdits : List ArticleEdit := [.title (ascii "old"), .recommend 7, .title (ascii "new"), .recommend (-2)]

theorem paidArticle_fits : ArticleFits asciiCodec (articleTold asciiCodec paidArticle someEdits) :=
  ⟨by decide +kernel, by decide +kernel, by decide +kernel, by decide +kernel, by decide +kernel, by decide +kernel, by decide +kernel, by decide +kernel⟩

/-- **C142** fails for the money of an article. -/
theorem C142_refuted : ¬ Spec.C142_articles := by
  intro h
  obtain ⟨f, g, h1, -, h3, h4⟩ := h asciiCodec paidArticle someEdits paidArticle_clean paidArticle_fits
  obtain ⟨f', g', k1, -, k3, k4⟩ := C142_partial asciiCodec paidArticle someEdits paidArticle_clean paidArticle_fits
  cases h1.symm.trans k1
  cases h3.symm.trans k3
  have : (articleTold asciiCodec paidArticle someEdits).money = 0 := by
    rw [← h4, k4]
  revert this
  decide +kernel

/-- The second title given and the sum of the votes are told. -/
example : articleTold asciiCodec paidArticle someEdits =
    ⟨ascii "M.1599059246.A.CF6", 0, 5, [], ascii "new", 5, ascii "SYSOP"⟩ := by decide +kernel

/-! ## Boards -/

namespace Spec

def ofBoardID : BoardEdit → Option Bytes | .boardID s => some s | _ => none
def ofBoardTitle : BoardEdit → Option Bytes | .title s => some s | _ => none

/-- What the methods of a board record should tell after `es`, when the bytes were `d`. -/
def boardTold (c : Codec) (d : Bytes) (es : List BoardEdit) : BoardView :=
  { boardID := lastSet ofBoardID es (c.dec (cstr (member boardheader d "brdname")))
    title := lastSet ofBoardTitle es (c.dec (cstr (member boardheader d "title")))
    isClass := (num (member boardheader d "brdattr")).testBit 3
    classID := decInt (sgn (member boardheader d "gid"))
    bm := if cstr (member boardheader d "BM") = [] then [] else splitByte slash (cstr (member boardheader d "BM"))
    postLimitPosts := UInt8.ofNat (num (member boardheader d "post_limit_posts"))
    postLimitLogins := UInt8.ofNat (num (member boardheader d "post_limit_logins"))
    postLimitBadPost := UInt8.ofNat (num (member boardheader d "post_limit_badpost")) }

/-- The name and the title fit the record. -/
structure BoardFits (c : Codec) (v : BoardView) : Prop where
  boardID : FitsCstr 13 (c.enc v.boardID)
  faithfulID : c.dec (c.enc v.boardID) = v.boardID
  title : FitsCstr 49 (c.enc v.title)
  faithful : c.dec (c.enc v.title) = v.title

end Spec

theorem board_edits (es : List BoardEdit) : ∀ b : BoardHeader,
    es.foldl BoardHeader.edit b = { b with brdName := lastSet ofBoardID es b.brdName, title := lastSet ofBoardTitle es b.title } := by
  induction es with
  | nil => intro b; rfl
  | cons e es ih =>
    intro b
    rw [List.foldl_cons, ih, lastSet_cons, lastSet_cons]
    cases e <;> rfl

/-- **C142** for boards: what is told of a board that was read and edited, before and after saving. -/
theorem C142_boards (c : Codec) (d : Bytes) (es : List BoardEdit) (hd : d.length = 256) (hbm : Clean (member boardheader d "BM")) :
    ∃ b, BoardHeader.unmarshal c d = .ok b ∧ (es.foldl BoardHeader.edit b).told = boardTold c d es ∧
      (BoardFits c (boardTold c d es) →
        ∃ g, BoardHeader.unmarshal c ((es.foldl BoardHeader.edit b).marshal c) = .ok g ∧ g.told = boardTold c d es) := by
  obtain ⟨b, hb, ha, hm, -⟩ := C86_board_exact c d hd
  have hm := hm.2 hbm
  have ht : (es.foldl BoardHeader.edit b).told = boardTold c d es := by
    rw [board_edits]
    unfold BoardHeader.told boardTold BoardHeader.tellID BoardHeader.tellTitle BoardHeader.tellClassID BoardHeader.tellPostLimitPosts
      BoardHeader.tellPostLimitLogins BoardHeader.tellPostLimitBadPost BoardHeader.moderators
    simp only [ha.brdName, ha.title, ha.gid, hm, ← ha.postLimitPosts, ← ha.postLimitLogins, ← ha.postLimitBadPost, UInt8.ofNat_toNat, ← ha.brdattr]
    congr 1
    exact C47_class _
  refine ⟨b, hb, ht, fun hv => ⟨_, (C04_exact c _).2, ?_⟩⟩
  have hbm39 : cutTrim 39 (es.foldl BoardHeader.edit b).bm = (es.foldl BoardHeader.edit b).bm := by
    rw [board_edits]
    show cutTrim 39 b.bm = b.bm
    rw [hm]
    refine cutTrim_of_fits ⟨?_, nulEndsFree_of_not_mem (cstr_no_zero _)⟩
    have h1 : (cstr (member boardheader d "BM")).length ≤ (member boardheader d "BM").length := (List.takeWhile_sublist _).length_le
    have h2 := member_length boardheader d "BM"
    rw [show (whereIs boardheader "BM").2 = 39 by decide +kernel] at h2
    omega
  generalize es.foldl BoardHeader.edit b = g at *
  rw [← ht] at hv ⊢
  have e1 : c.dec (cut 13 (c.enc g.brdName)) = g.brdName := by
    rw [show cut 13 (c.enc g.brdName) = c.enc g.brdName from cut_of_fits hv.boardID]; exact hv.faithfulID
  have e2 : c.dec (cut 49 (c.enc g.title)) = g.title := by
    rw [show cut 49 (c.enc g.title) = c.enc g.title from cut_of_fits hv.title]; exact hv.faithful
  unfold BoardHeader.told BoardHeader.tellID BoardHeader.tellTitle BoardHeader.moderators storedBoard
  simp only [e1, e2, hbm39]
  rfl

/-- A board record: the name of the board is replaced, the title and the moderators stay. -/
example :
    let d := sampleBoard.marshal asciiCodec
    d.length = 256 ∧ boardTold asciiCodec d [.boardID (ascii "Temp"), .boardID (ascii "Gossiping")] =
      ⟨ascii "Gossiping", ascii "chat board", false, ascii "2", [ascii "alice", ascii "bob"], 0, 0, 11⟩ := by decide +kernel

example : BoardFits asciiCodec (boardTold asciiCodec (sampleBoard.marshal asciiCodec) [.boardID (ascii "Gossiping")]) :=
  ⟨by decide +kernel, by decide +kernel, by decide +kernel, by decide +kernel⟩

/-! ## Users -/

/-- What the methods of a user record should tell. -/
def Spec.userTold (c : Codec) (d : Bytes) : UserView :=
  { userID := cstr (member userec d "userid")
    hashedPassword := cstr (member userec d "passwd")
    nickname := c.dec (cstr (member userec d "nickname"))
    realName := c.dec (cstr (member userec d "realname"))
    numLoginDays := num (member userec d "numlogindays")
    numPosts := num (member userec d "numposts")
    money := sgn (member userec d "money")
    lastLogin := sgn (member userec d "lastlogin") % 2 ^ 32
    lastHost := cstr (member userec d "lasthost")
    userFlag := UInt32.ofNat (num (member userec d "uflag")) }

/-- The texts are as many bytes as they were when they are encoded again, and mean the same. -/
structure Spec.UserFits (c : Codec) (v : UserView) : Prop where
  userID : c.enc v.userID = v.userID
  hashedPassword : c.enc v.hashedPassword = v.hashedPassword
  lastHost : c.enc v.lastHost = v.lastHost
  nickname : FitsCstr 24 (c.enc v.nickname)
  faithfulNickname : c.dec (c.enc v.nickname) = v.nickname
  realName : FitsCstr 20 (c.enc v.realName)
  faithfulRealName : c.dec (c.enc v.realName) = v.realName

theorem cstr_member_fits {S : List (String × CType)} (d : Bytes) {s : String} {n : Nat} (h : (whereIs S s).2 = n) :
    FitsCstr n (cstr (member S d s)) := by
  refine ⟨?_, cstr_no_zero _⟩
  have h1 : (cstr (member S d s)).length ≤ (member S d s).length := (List.takeWhile_sublist _).length_le
  have h2 := member_length S d s
  omega

/-- **C142** for users: what is told of a user record, and told again after it has been saved. -/
theorem C142_users (c : Codec) (d : Bytes) (hd : d.length = 512) :
    ∃ u, Userec.unmarshal c d = .ok u ∧ u.told = userTold c d ∧
      (UserFits c (userTold c d) → ∃ g, Userec.unmarshal c (u.marshal c) = .ok g ∧ g.told = userTold c d) := by
  obtain ⟨u, hu, ha, -⟩ := C86_user_exact c d hd
  have ht : u.told = userTold c d := by
    unfold Userec.told userTold Userec.tellUserID Userec.tellHashedPassword Userec.tellNickname Userec.tellRealName Userec.tellNumLoginDays
      Userec.tellNumPosts Userec.tellMoney Userec.tellLastLogin Userec.tellLastHost Userec.tellUserFlag
    simp only [ha.userID, ha.password, ha.nickname, ha.realName, ha.numLoginDays, ha.numPosts, ha.money, ha.lastLogin, ha.lastHost, ← ha.userFlag,
      UInt32.ofNat_toNat]
  refine ⟨u, hu, ht, fun hv => ⟨_, (C05_exact c _).2, ?_⟩⟩
  have f1 : FitsCstr 13 u.userID := by rw [ha.userID]; exact cstr_member_fits d (by decide +kernel)
  have f2 : FitsCstr 14 u.password := by rw [ha.password]; exact cstr_member_fits d (by decide +kernel)
  have f3 : FitsCstr 16 u.lastHost := by rw [ha.lastHost]; exact cstr_member_fits d (by decide +kernel)
  have f4 : wrap32 u.lastLogin = u.lastLogin := by
    rw [ha.lastLogin]
    exact Int.emod_emod_of_dvd _ (Int.dvd_refl _)
  rw [← ht] at hv ⊢
  have e1 : c.enc u.userID = u.userID := hv.userID
  have e2 : c.enc u.password = u.password := hv.hashedPassword
  have e3 : c.enc u.lastHost = u.lastHost := hv.lastHost
  have e4 : c.dec (cut 24 (c.enc u.nickname)) = u.nickname := by
    rw [show cut 24 (c.enc u.nickname) = c.enc u.nickname from cut_of_fits hv.nickname]; exact hv.faithfulNickname
  have e5 : c.dec (cut 20 (c.enc u.realName)) = u.realName := by
    rw [show cut 20 (c.enc u.realName) = c.enc u.realName from cut_of_fits hv.realName]; exact hv.faithfulRealName
  unfold Userec.told Userec.tellUserID Userec.tellHashedPassword Userec.tellNickname Userec.tellRealName Userec.tellLastLogin Userec.tellLastHost storedUser
  simp only [e1, e2, e3, e4, e5, cut_of_fits f1, cut_of_fits f2, cut_of_fits f3, f4]
  rfl

example : UserFits asciiCodec (userTold asciiCodec (sampleUser.marshal asciiCodec)) ∧
    (userTold asciiCodec (sampleUser.marshal asciiCodec)).userID = sampleUser.userID ∧ sampleUser.userID ≠ [] := by
  refine ⟨⟨by decide +kernel, by decide +kernel, by decide +kernel, by decide +kernel, by decide +kernel, by decide +kernel, by decide +kernel⟩, ?_, ?_⟩ <;>
    decide +kernel

/-! ## What searches find -/

/-- The four methods of an article that was found tell the board, the title, the owner and the name of its file. -/
theorem C142_found (b : BoardHeader) (ar : FileHeader) :
    (articleMap b ar).told = ⟨b.brdName, ar.title, ar.owner, ar.filename⟩ := by
  unfold articleMap ArticleMap.told ArticleMap.at
  have h1 : (ascii "board_id" == ascii "title") = false := by decide
  have h2 : (ascii "board_id" == ascii "owner") = false := by decide
  have h3 : (ascii "board_id" == ascii "article_id") = false := by decide
  have h4 : (ascii "title" == ascii "owner") = false := by decide
  have h5 : (ascii "title" == ascii "article_id") = false := by decide
  have h6 : (ascii "owner" == ascii "article_id") = false := by decide
  simp only [List.find?_cons, beq_self_eq_true, h1, h2, h3, h4, h5, h6, Option.map_some, Option.getD_some]
  rfl

/-- What `Verif.Model.Lists` puts in the list of a user are these answers. -/
theorem C142_found_list (db : DB) (c : Codec) (fs : FS) (user : Bytes) (b : BoardHeader) (bs : List BoardHeader) (ars : List FileHeader)
    (rest : List UserArticle) (hb : b.brdName ≠ ascii "ALLPOST") (h1 : db.readArticleRecords c fs b.brdName = .ok ars)
    (h2 : db.userArticleLoop c fs user bs = .ok rest) :
    db.userArticleLoop c fs user (b :: bs) =
      .ok (((ars.filter fun ar => ar.tellOwner = user).map fun ar => (articleMap b ar).told) ++ rest) := by
  unfold DB.userArticleLoop DB.shouldSkip
  rw [if_neg (by simpa using hb), h1]
  show (do let rest ← db.userArticleLoop c fs user bs; Res.ok (_ ++ rest)) = _
  rw [h2]
  simp only [C142_found]
  rfl

/-- Board `S` holds one article, by `lex`. -/
example : (listBoards.head?.map BoardHeader.tellID) = some (ascii "S") ∧ ascii "S" ≠ ascii "ALLPOST" ∧
    sampleDB.readArticleRecords asciiCodec listFS (ascii "S") = .ok (listIndex (ascii "S")) ∧
    (listIndex (ascii "S")).filter (fun ar => ar.tellOwner = ascii "lex") ≠ [] ∧ sampleDB.userArticleLoop asciiCodec listFS (ascii "lex") [] = .ok [] := by
  decide +kernel

/-- The methods of a comment tell what was read in its line, and never an address. -/
theorem C142_comment (order : UInt32) (data board filename : Bytes) (r : UserComment) (h : newUserComment order data board filename = .ok r) :
    ∃ owner t text, parseUserComment data = .ok (owner, t, text) ∧ r.told = ⟨order, t, owner, [], text, board, filename⟩ := by
  unfold newUserComment at h
  obtain ⟨⟨owner, t, text⟩, h1, h2⟩ := (Res.bind_eq_ok ..).1 h
  cases h2
  exact ⟨owner, t, text, h1, rfl⟩

example : ∃ r, newUserComment 1 (commentLine (ascii "Push") (ascii "lex") (ascii "a:b") ⟨0, 2, 29, 23, 59, 0⟩) (ascii "S") (ascii "M.1.A.1") = .ok r := by
  unfold newUserComment
  rw [C39_witness]
  exact ⟨_, rfl⟩

end Verif
