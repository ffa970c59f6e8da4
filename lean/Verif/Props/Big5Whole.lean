import Verif.Props.FavTitles
import Verif.Props.UserRecord
import Verif.Props.OnlineRecord
import Verif.Props.ToolWork
/-!
# C98: texts of Big5 characters in user and online records, and in articles

With the codec that the code uses (`big5Codec`), no hypothesis about the codec remains: texts are lists of characters.
-/

namespace Verif
open Spec

variable {T : Big5Tables}

/-- A text of Big5 characters that fits has a Big5 form that fits. -/
theorem plain_enc (w : Fit T) {n : Nat} {t : Bytes} (h : PlainTitle T n t) :
    cut n (T.enc t) = T.enc t ∧ T.dec (T.enc t) = t := by
  obtain ⟨cs, h1, h2, h3, rfl⟩ := h
  have hz : (0 : UInt8) ∉ T.enc (utf8Text cs) := by
    rw [C94_loses_partial T cs h1, (C95_shape w cs h1).2]
    exact h2
  have hl : (T.enc (utf8Text cs)).length ≤ n := by
    rw [C94_loses_partial T cs h1, (C95_shape w cs h1).1]
    exact h3
  exact ⟨cut_of_fits ⟨hl, hz⟩, C95_roundtrip w cs h1⟩

theorem plain_field (w : Fit T) {n : Nat} {t : Bytes} (h : PlainTitle T n t) : T.dec (cut n (T.enc t)) = t := by
  rw [(plain_enc w h).1, (plain_enc w h).2]

/-- The full claim of C98 for records: every text of a user record or an online record that consists of Big5 characters and fits its
field comes back. -/
def Spec.TextsSurvive (T : Big5Tables) : Prop :=
  (∀ u : Userec, ∃ v, Userec.unmarshal (big5Codec T) (u.marshal (big5Codec T)) = .ok v ∧
    (PlainTitle T 13 u.userID → v.userID = u.userID) ∧ (PlainTitle T 14 u.password → v.password = u.password) ∧
    (PlainTitle T 16 u.lastHost → v.lastHost = u.lastHost) ∧ (PlainTitle T 14 u.myAngel → v.myAngel = u.myAngel) ∧
    (PlainTitle T 20 u.realName → v.realName = u.realName) ∧ (PlainTitle T 24 u.nickname → v.nickname = u.nickname) ∧
    (PlainTitle T 50 u.email → v.email = u.email) ∧ (PlainTitle T 50 u.address → v.address = u.address) ∧
    (PlainTitle T 38 u.justify → v.justify = u.justify) ∧ (PlainTitle T 40 u.career → v.career = u.career)) ∧
  (∀ u : UserInfo, ∃ v, UserInfo.unmarshal (big5Codec T) (u.marshal (big5Codec T)) = .ok v ∧
    (PlainTitle T 13 u.userID → v.userID = u.userID) ∧ (PlainTitle T 24 u.nickname → v.nickname = u.nickname) ∧
    (PlainTitle T 27 u.fromHost → v.fromHost = u.fromHost) ∧ (PlainTitle T 11 u.chatID → v.chatID = u.chatID) ∧
    (PlainTitle T 13 u.mateID → v.mateID = u.mateID))

/-- **C98 is false of the code** as soon as Big5 has a character beyond U+07FF: the chat name is encoded on writing but not decoded on
reading, so a chat name of one such character comes back as two bytes that are not UTF-8. -/
theorem C98_texts_refuted (w : Fit T) (c : Nat) (hc : T.encode c ≠ 0) (h8 : 0x800 ≤ c) : ¬ Spec.TextsSurvive T := by
  intro h
  have hw := w.wide c hc
  have he : Encodable T c := ⟨hw.1, Or.inr hc⟩
  have hl : ¬ c < 0x80 := by omega
  have hp : PlainTitle T 11 (utf8Text [c]) :=
    ⟨[c], by simpa using he, by simp only [List.mem_singleton]; omega, by simp [hl], rfl⟩
  obtain ⟨v, hv, _, _, _, h4, _⟩ := h.2 { sampleOnline with chatID := utf8Text [c] }
  rw [(C06_exact _ _).2] at hv
  cases hv
  have h5 := h4 hp
  simp only [storedOnline, big5Codec] at h5
  rw [(plain_enc w hp).1] at h5
  have e1 : T.enc (utf8Text [c]) = big5Text T [c] := C94_loses_partial T [c] (by simpa using he)
  have e2 := (C95_shape w [c] (by simpa using he)).1
  rw [← e1, h5] at e2
  simp only [List.map_cons, List.map_nil, List.sum_cons, List.sum_nil, if_neg hl, utf8Text, List.flatMap_cons, List.flatMap_nil,
    List.append_nil, Nat.add_zero] at e2
  unfold utf8Char at e2
  rw [if_neg hl, if_neg (by omega)] at e2
  split at e2 <;> simp at e2

/-- **C98**, exactly, for user records: the six decoded texts come back; the four others come back as the bytes of their Big5 form. -/
theorem C98_user_exact (w : Fit T) (u : Userec) : ∃ v, Userec.unmarshal (big5Codec T) (u.marshal (big5Codec T)) = .ok v ∧
    (PlainTitle T 20 u.realName → v.realName = u.realName) ∧ (PlainTitle T 24 u.nickname → v.nickname = u.nickname) ∧
    (PlainTitle T 50 u.email → v.email = u.email) ∧ (PlainTitle T 50 u.address → v.address = u.address) ∧
    (PlainTitle T 38 u.justify → v.justify = u.justify) ∧ (PlainTitle T 40 u.career → v.career = u.career) ∧
    (PlainTitle T 13 u.userID → v.userID = T.enc u.userID) ∧ (PlainTitle T 14 u.password → v.password = T.enc u.password) ∧
    (PlainTitle T 16 u.lastHost → v.lastHost = T.enc u.lastHost) ∧ (PlainTitle T 14 u.myAngel → v.myAngel = T.enc u.myAngel) := by
  refine ⟨_, (C05_exact _ u).2, ?_⟩
  simp only [storedUser, big5Codec]
  exact ⟨plain_field w, plain_field w, plain_field w, plain_field w, plain_field w, plain_field w,
    fun h => (plain_enc w h).1, fun h => (plain_enc w h).1, fun h => (plain_enc w h).1, fun h => (plain_enc w h).1⟩

/-- **C98**, exactly, for online records: nickname and mate come back; id, host and chat name come back as the bytes of their Big5 form. -/
theorem C98_online_exact (w : Fit T) (u : UserInfo) :
    ∃ v, UserInfo.unmarshal (big5Codec T) (u.marshal (big5Codec T)) = .ok v ∧
    (PlainTitle T 24 u.nickname → v.nickname = u.nickname) ∧ (PlainTitle T 13 u.mateID → v.mateID = u.mateID) ∧
    (PlainTitle T 13 u.userID → v.userID = T.enc u.userID) ∧ (PlainTitle T 27 u.fromHost → v.fromHost = T.enc u.fromHost) ∧
    (PlainTitle T 11 u.chatID → v.chatID = T.enc u.chatID) := by
  refine ⟨_, (C06_exact _ u).2, ?_⟩
  simp only [storedOnline, big5Codec]
  exact ⟨plain_field w, plain_field w, fun h => (plain_enc w h).1, fun h => (plain_enc w h).1, fun h => (plain_enc w h).1⟩

/-- **C98** (partial: the texts that are not decoded are ASCII): every text comes back. -/
theorem C98_texts_partial (w : Fit T) :
    (∀ u : Userec, (∀ t ∈ [u.userID, u.password, u.lastHost, u.myAngel], ∀ b ∈ t, b < 0x80) →
      ∃ v, Userec.unmarshal (big5Codec T) (u.marshal (big5Codec T)) = .ok v ∧
      (PlainTitle T 13 u.userID → v.userID = u.userID) ∧ (PlainTitle T 14 u.password → v.password = u.password) ∧
      (PlainTitle T 16 u.lastHost → v.lastHost = u.lastHost) ∧ (PlainTitle T 14 u.myAngel → v.myAngel = u.myAngel) ∧
      (PlainTitle T 20 u.realName → v.realName = u.realName) ∧ (PlainTitle T 24 u.nickname → v.nickname = u.nickname) ∧
      (PlainTitle T 50 u.email → v.email = u.email) ∧ (PlainTitle T 50 u.address → v.address = u.address) ∧
      (PlainTitle T 38 u.justify → v.justify = u.justify) ∧ (PlainTitle T 40 u.career → v.career = u.career)) ∧
    (∀ u : UserInfo, (∀ t ∈ [u.userID, u.fromHost, u.chatID], ∀ b ∈ t, b < 0x80) →
      ∃ v, UserInfo.unmarshal (big5Codec T) (u.marshal (big5Codec T)) = .ok v ∧
      (PlainTitle T 13 u.userID → v.userID = u.userID) ∧ (PlainTitle T 24 u.nickname → v.nickname = u.nickname) ∧
      (PlainTitle T 27 u.fromHost → v.fromHost = u.fromHost) ∧ (PlainTitle T 11 u.chatID → v.chatID = u.chatID) ∧
      (PlainTitle T 13 u.mateID → v.mateID = u.mateID)) := by
  constructor
  · intro u ha
    obtain ⟨v, hv, r1, r2, r3, r4, r5, r6, r7, r8, r9, r10⟩ := C98_user_exact w u
    have e : ∀ t ∈ [u.userID, u.password, u.lastHost, u.myAngel], T.enc t = t := fun t ht => (C93_ascii_text T t (ha t ht)).1
    exact ⟨v, hv, fun h => by rw [r7 h, e _ (by simp)], fun h => by rw [r8 h, e _ (by simp)], fun h => by rw [r9 h, e _ (by simp)],
      fun h => by rw [r10 h, e _ (by simp)], r1, r2, r3, r4, r5, r6⟩
  · intro u ha
    obtain ⟨v, hv, r1, r2, r3, r4, r5⟩ := C98_online_exact w u
    have e : ∀ t ∈ [u.userID, u.fromHost, u.chatID], T.enc t = t := fun t ht => (C93_ascii_text T t (ha t ht)).1
    exact ⟨v, hv, fun h => by rw [r3 h, e _ (by simp)], r1, fun h => by rw [r4 h, e _ (by simp)],
      fun h => by rw [r5 h, e _ (by simp)], r2⟩

/-- 新的目錄 is a nickname, and `chat` a chat name, that meet the conditions. -/
example : PlainTitle sampleTables 24 (utf8Text [0x65B0, 0x7684, 0x76EE, 0x9304]) ∧ (∀ b ∈ ascii "chat", b < 0x80) ∧
    PlainTitle sampleTables 11 (ascii "chat") ∧ sampleTables.encode 0x65B0 ≠ 0 :=
  ⟨⟨_, by decide +kernel, by decide, by decide, rfl⟩, by decide, ⟨[99, 104, 97, 116], by decide +kernel, by decide, by decide, by decide⟩,
    by decide⟩

/-! ## Articles posted with the tool -/

/-- What an article shows of the text typed: everything before the first character that Big5 lacks, or invalid byte. -/
theorem C98_post_exact (w : Fit T) (cwd : Path) (fs : FS) (o : ToolOptions) (args : List Bytes) (draw : Nat → Int × Fin 4096)
    (fuel : Nat) (name : Bytes) (hc : args.head? = some (ascii "add_board_article"))
    (h : newLine name ∈ (toolCommand (big5Codec T) cwd fs o args draw fuel).out) (fs' : FS)
    (hfs : fs' = (toolCommand (big5Codec T) cwd fs o args draw fuel).fs) :
    ∃ board cs rest, Given args "board" board ∧ ContentIs fs cwd args (utf8Text cs ++ rest) ∧ (∀ c ∈ cs, Encodable T c) ∧ Stuck T rest ∧
      ∀ args' draw' fuel', args'.head? = some (ascii "show_board_article") → Given args' "board" board → Given args' "filename" name →
        toolCommand (big5Codec T) cwd fs' o args' draw' fuel' =
          ⟨parseArgsNotice args' 1 ++ [.text (ascii "filecontent: \n" ++ utf8Text cs ++ ascii "\n")], fs', .status 0⟩ := by
  obtain ⟨db, board, owner, date, title, text, _, _, hb, _, _, _, htx, _, hshow, _⟩ :=
    C79_post (big5Codec T) cwd fs o args draw fuel name hc h fs' hfs
  obtain ⟨cs, rest, ⟨h1, h2, h3⟩, _⟩ := C94_split T text
  refine ⟨board, cs, rest, hb, h3 ▸ htx, h1, h2, ?_⟩
  intro args' draw' fuel' k1 k2 k3
  rw [hshow args' draw' fuel' k1 k2 k3]
  have e : (big5Codec T).dec ((big5Codec T).enc text) = utf8Text cs := by
    show T.dec (T.enc text) = _
    rw [h3, C94_exact T w.noError cs h1 rest h2, ← C94_loses_partial T cs h1]
    exact C95_roundtrip w cs h1
  rw [e]

/-- The claim that an article is shown as it was typed. -/
def Spec.ShownAsTyped (T : Big5Tables) : Prop :=
  ∀ (cwd : Path) (fs : FS) (o : ToolOptions) (args : List Bytes) (draw : Nat → Int × Fin 4096) (fuel : Nat) (name board text : Bytes),
    args.head? = some (ascii "add_board_article") → newLine name ∈ (toolCommand (big5Codec T) cwd fs o args draw fuel).out →
    Given args "board" board → Given args "content" text →
    ∀ args' draw' fuel', args'.head? = some (ascii "show_board_article") → Given args' "board" board → Given args' "filename" name →
      Out.text (ascii "filecontent: \n" ++ text ++ ascii "\n") ∈
        (toolCommand (big5Codec T) cwd (toolCommand (big5Codec T) cwd fs o args draw fuel).fs o args' draw' fuel').out

/-- `hi😀 there`. -/
def typed : Bytes := ascii "hi" ++ utf8Char 0x1F600 ++ ascii " there"

/-- Posting `hi😀 there`. -/
def postEmoji : List Bytes :=
  [ascii "add_board_article", ascii "--board", ascii "S", ascii "--owner", ascii "pichu", ascii "--date", ascii "11/16",
    ascii "--title", ascii "hi", ascii "--content", typed]

/-- Looking at it. -/
def showEmoji : List Bytes :=
  [ascii "show_board_article", ascii "--board", ascii "S", ascii "--filename", ascii "M.1600000000.A.ABC"]

theorem postEmoji_new : newLine (ascii "M.1600000000.A.ABC") ∈ (toolCommand (big5Codec sampleTables) [] sampleFS
    ⟨ascii "pttbbs", ascii "/bbs"⟩ postEmoji (fun _ => (1600000000, 0xABC)) 1).out := by
  decide +kernel

/-- **C98 is false of the code** for articles: of `hi😀 there` only `hi` is shown (with tables that lack 😀). -/
theorem C98_post_refuted : ¬ ∀ T, Fit T → Spec.ShownAsTyped T := by
  intro h
  have h1 := h sampleTables sampleTables_fit [] sampleFS ⟨ascii "pttbbs", ascii "/bbs"⟩ postEmoji (fun _ => (1600000000, 0xABC)) 1
    (ascii "M.1600000000.A.ABC") (ascii "S") typed rfl postEmoji_new (by unfold Given; decide +kernel) (by unfold Given; decide +kernel)
    showEmoji (fun _ => (0, 0)) 1 rfl (by unfold Given; decide +kernel) (by unfold Given; decide +kernel)
  revert h1
  decide +kernel

/-- C98 for articles (partial: the text typed consists of Big5 characters). -/
theorem C98_post_partial (w : Fit T) (cwd : Path) (fs : FS) (o : ToolOptions) (args : List Bytes) (draw : Nat → Int × Fin 4096)
    (fuel : Nat) (name board : Bytes) (cs : List Nat) (hcs : ∀ c ∈ cs, Encodable T c)
    (hc : args.head? = some (ascii "add_board_article"))
    (h : newLine name ∈ (toolCommand (big5Codec T) cwd fs o args draw fuel).out) (hb : Given args "board" board)
    (ht : Given args "content" (utf8Text cs)) (args' : List Bytes) (draw' : Nat → Int × Fin 4096) (fuel' : Nat)
    (hc' : args'.head? = some (ascii "show_board_article")) (hb' : Given args' "board" board) (hn' : Given args' "filename" name) :
    Out.text (ascii "filecontent: \n" ++ utf8Text cs ++ ascii "\n") ∈
      (toolCommand (big5Codec T) cwd (toolCommand (big5Codec T) cwd fs o args draw fuel).fs o args' draw' fuel').out := by
  obtain ⟨board1, cs1, rest, h1, h2, h3, h4, h5⟩ := C98_post_exact w cwd fs o args draw fuel name hc h _ rfl
  have e1 : board1 = board := by
    unfold Given at h1 hb
    rw [hb] at h1
    exact (Option.some.inj h1).symm
  subst e1
  have e2 : utf8Text cs = utf8Text cs1 ++ rest := by
    rcases h2 with h2 | h2
    · unfold Given at h2 ht
      rw [ht] at h2
      exact Option.some.inj h2
    · exact absurd ht (h2.1 _)
  obtain ⟨cs2, rest2, _, huniq⟩ := C94_split T (utf8Text cs)
  have stuck_nil : Stuck T [] := by
    rintro ⟨d, u, _, e⟩
    have := utf8Char_ne_nil d
    rw [eq_comm, List.append_eq_nil_iff] at e
    exact this e.1
  obtain ⟨a1, a2⟩ := huniq cs [] hcs stuck_nil (by simp)
  obtain ⟨b1, b2⟩ := huniq cs1 rest h3 h4 e2
  rw [h5 args' draw' fuel' hc' hb' hn', b1.trans a1.symm]
  simp

end Verif
