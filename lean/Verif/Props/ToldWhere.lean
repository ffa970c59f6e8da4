import Verif.Props.ToldSearch
/-!
# C165: the end of the log of a failed search
-/

namespace Verif
open Spec

/-! ## How a log ends -/

theorem ends_complain {m : Told α} {e : String} {s : List LogWord} (h : m.result = .err e) (hs : s <:+ m.lines) (who : String) :
    s ++ [.trouble who e] <:+ (m.complain who).lines := by
  unfold Told.complain
  rw [h]
  obtain ⟨t, ht⟩ := hs
  exact ⟨t, by show _ = m.lines ++ _; rw [← ht, List.append_assoc]⟩

theorem ends_andThen_err {m : Told α} {e : String} (h : m.result = .err e) (f : α → Told β) : (m.andThen f).lines = m.lines := by
  unfold Told.andThen
  rw [h]

theorem ends_andThen_ok {m : Told α} {a : α} {f : α → Told β} {s : List LogWord} (h : m.result = .ok a) (hs : s <:+ (f a).lines) :
    s <:+ (m.andThen f).lines := by
  unfold Told.andThen
  rw [h]
  obtain ⟨t, ht⟩ := hs
  exact ⟨m.lines ++ t, by show _ = m.lines ++ (f a).lines; rw [← ht, List.append_assoc]⟩

theorem boards_end {db : DB} {c : Codec} {fs : FS} {e : String} (h : db.readBoardRecords c fs = .err e) :
    (db.boardsTold c fs).lines = [.path (db.home ++ ascii "/.BRD"), .trouble "" e, .trouble "bbs: get user rec error:" e] := by
  unfold DB.readBoardRecords at h
  have h' : db.openBoardList c fs (db.home ++ ascii "/.BRD") = .err e := h
  rw [DB.boardsTold, told_path_ok (r := getBoardPath db.home) (p := db.home ++ ascii "/.BRD") rfl, h']
  rfl

theorem index_path {home b p : Bytes} (h : getBoardArticlesDirectoryPath home b = .ok p) : p = indexPath home b := by
  cases b with
  | nil => cases h
  | cons x b => cases h; rfl

theorem article_path {home b f p : Bytes} (h : getBoardArticleFilePath home b f = .ok p) : p = articlePath home b f := by
  cases b with
  | nil => cases h
  | cons x b => cases h; rfl

theorem articles_end {db : DB} {c : Codec} {fs : FS} {b : Bytes} {e : String} (h : db.readArticleRecords c fs b = .err e) :
    (db.articlesTold c fs b).lines = [.path (indexPath db.home b), .trouble "" e, .trouble "bbs: ReadArticleRecordsFile error:" e] := by
  unfold DB.readArticleRecords at h
  cases b with
  | nil => cases h
  | cons x b =>
    have hp : getBoardArticlesDirectoryPath db.home (x :: b) = .ok (indexPath db.home (x :: b)) := rfl
    rw [hp, Res.ok_bind] at h
    rw [DB.articlesTold, told_path_ok hp]
    cases ho : db.openArticleList c fs (indexPath db.home (x :: b)) with
    | err e' =>
      rw [ho] at h
      have h : (if e' = "no such file or directory" then (.ok [] : Res (List FileHeader)) else .err e') = .err e := h
      split at h
      · cases h
      · next hne =>
        cases h
        show _ :: (if e = "no such file or directory" then _ else _ : Told (List FileHeader)).lines = _
        rw [if_neg hne]
        rfl
    | _ => rw [ho] at h; cases h

theorem article_end {db : DB} {fs : FS} {b f : Bytes} {e : String} (h : db.readBoardArticleFile fs b f = .err e) :
    (db.articleTold fs b f).lines = [.path (articlePath db.home b f), .trouble "bbs: get user rec error:" e] := by
  unfold DB.readBoardArticleFile at h
  cases b with
  | nil => cases h
  | cons x b =>
    have hp : getBoardArticleFilePath db.home (x :: b) f = .ok (articlePath db.home (x :: b) f) := rfl
    rw [hp, Res.ok_bind] at h
    rw [DB.articleTold, told_path_ok hp, h]
    rfl

theorem article_end_ok {db : DB} {fs : FS} {b f content : Bytes} (h : db.readBoardArticleFile fs b f = .ok content) :
    (db.articleTold fs b f).lines = [.path (articlePath db.home b f)] := by
  unfold DB.readBoardArticleFile at h
  obtain ⟨p, hp, hr⟩ := Res.bind_eq_ok.mp h
  rw [DB.articleTold, told_path_ok hp, hr, article_path hp]
  rfl

/-! ## Where a search stopped -/

/-- The search stopped at a board, all before it having been searched. -/
def Spec.StoppedAt (db : DB) (c : Codec) (fs : FS) (loop : List BoardHeader → Res α) (b : Bytes) : Prop :=
  ∃ pre h post found, db.readBoardRecords c fs = .ok (pre ++ h :: post) ∧ loop pre = .ok found ∧ h.brdName = b ∧ b ≠ ascii "ALLPOST"

/-- Within a board, at an article, all before it having been read. -/
def Spec.StoppedIn (db : DB) (c : Codec) (fs : FS) (user b f : Bytes) : Prop :=
  ∃ pre h post found, db.readArticleRecords c fs b = .ok (pre ++ h :: post) ∧ db.boardUserCommentLoop fs b user pre = .ok found ∧ h.filename = f

theorem articleLoop_end {db : DB} {c : Codec} {fs : FS} {user : Bytes} {e : String} (n : Nat) {bs : List BoardHeader}
    (h : db.userArticleLoop c fs user bs = .err e) :
    ∃ pre b post found, bs = pre ++ b :: post ∧ db.userArticleLoop c fs user pre = .ok found ∧ b.brdName ≠ ascii "ALLPOST" ∧
      db.readArticleRecords c fs b.brdName = .err e ∧
      [.path (indexPath db.home b.brdName), .trouble "" e, .trouble "bbs: ReadArticleRecordsFile error:" e,
        .trouble "bbs: ReadBoardArticleRecordsFile error:" e] <:+ (db.userArticleLoopTold c fs user n bs).lines := by
  induction bs generalizing n with
  | nil => cases h
  | cons b bs ih =>
    rw [DB.userArticleLoop] at h
    rw [DB.userArticleLoopTold]
    by_cases hs : DB.shouldSkip b.brdName = true
    · rw [if_pos hs] at h
      rw [if_pos hs]
      obtain ⟨pre, b', post, found, h1, h2, h3⟩ := ih n h
      exact ⟨b :: pre, b', post, found, by rw [h1]; rfl, by rw [DB.userArticleLoop, if_pos hs, h2], h3⟩
    · rw [if_neg hs] at h
      rw [if_neg hs]
      rcases bind_eq_err.mp h with h1 | ⟨ars, h1, h2⟩
      · have hr : (db.articlesTold c fs b.brdName).result = .err e := (articlesTold_result ..).trans h1
        refine ⟨[], b, bs, [], rfl, rfl, fun he => hs ((skips_iff _).mpr he), h1, ?_⟩
        rw [ends_andThen_err ((told_complain_result ..).trans hr)]
        exact ends_complain hr (by rw [articles_end h1]; exact List.suffix_refl _) _
      · rcases bind_eq_err.mp h2 with h2 | ⟨_, -, h2⟩
        · obtain ⟨pre, b', post, found, h3, h4, h5, h6, h7⟩ :=
            ih (n + ((ars.filter (fun ar => ar.owner = user)).map (fun ar => (⟨b.brdName, ar.title, ar.owner, ar.filename⟩ : UserArticle))).length) h2
          refine ⟨b :: pre, b', post, (ars.filter (fun ar => ar.owner = user)).map (fun ar => ⟨b.brdName, ar.title, ar.owner, ar.filename⟩) ++ found,
            by rw [h3]; rfl, ?_, h5, h6, ?_⟩
          · rw [DB.userArticleLoop, if_neg hs, h1, Res.ok_bind, h4, Res.ok_bind]
          · refine ends_andThen_ok ((told_complain_result ..).trans ((articlesTold_result ..).trans h1)) (ends_andThen_ok rfl ?_)
            rw [ends_andThen_err ((userArticleLoopTold_result ..).trans h2)]
            exact h7
        · cases h2

/-- **C165.** The log of a search for articles that failed ends with the path of the file that could not be read and the failure, as each call saw it:
the list of boards, or the list of articles of the board at which the search stopped. -/
theorem C165_articles (db : DB) (c : Codec) (fs : FS) (user : Bytes) (e : String) (h : db.userArticles c fs user = .err e) :
    (db.readBoardRecords c fs = .err e ∧ (db.userArticlesTold c fs user).lines = [.path (db.home ++ ascii "/.BRD"), .trouble "" e,
      .trouble "bbs: get user rec error:" e, .trouble "bbs: ReadBoardRecords error:" e]) ∨
    (∃ b, StoppedAt db c fs (db.userArticleLoop c fs user) b ∧ db.readArticleRecords c fs b = .err e ∧
      [.path (indexPath db.home b), .trouble "" e, .trouble "bbs: ReadArticleRecordsFile error:" e,
        .trouble "bbs: ReadBoardArticleRecordsFile error:" e] <:+ (db.userArticlesTold c fs user).lines) := by
  unfold DB.userArticles at h
  rcases bind_eq_err.mp h with h | ⟨bs, hb, h⟩
  · refine .inl ⟨h, ?_⟩
    have hr : (db.boardsTold c fs).result = .err e := (boardsTold_result ..).trans h
    rw [DB.userArticlesTold, ends_andThen_err ((told_complain_result ..).trans hr), Told.complain, hr, boards_end h]
    rfl
  · obtain ⟨pre, b, post, found, h1, h2, h3, h4, h5⟩ := articleLoop_end 0 h
    exact .inr ⟨b.brdName, ⟨pre, b, post, found, by rw [hb, h1], h2, rfl, h3⟩, h4,
      ends_andThen_ok ((told_complain_result ..).trans ((boardsTold_result ..).trans hb)) h5⟩

/-! ## Comments -/

theorem comments_end {db : DB} {fs : FS} {b f : Bytes} {e : String} (h : db.boardArticleComments fs b f = .err e) :
    (db.readBoardArticleFile fs b f = .err e ∧ (db.boardArticleCommentsTold fs b f).lines =
      [.path (articlePath db.home b f), .trouble "bbs: get user rec error:" e, .trouble "bbs: ReadBoardArticleFile error:" e]) ∨
    (∃ content, db.readBoardArticleFile fs b f = .ok content ∧ articleComments b f content = .err e ∧ (db.boardArticleCommentsTold fs b f).lines =
      [.path (articlePath db.home b f), .trouble "bbs: NewUserCommentRecord error:" e]) := by
  unfold DB.boardArticleComments at h
  rcases bind_eq_err.mp h with h | ⟨content, hc, h⟩
  · have hr : (db.articleTold fs b f).result = .err e := (articleTold_result ..).trans h
    refine .inl ⟨h, ?_⟩
    rw [DB.boardArticleCommentsTold, ends_andThen_err ((told_complain_result ..).trans hr), Told.complain, hr, article_end h]
    rfl
  · have hr : (db.articleTold fs b f).result = .ok content := (articleTold_result ..).trans hc
    refine .inr ⟨content, hc, h, ?_⟩
    rw [DB.boardArticleCommentsTold, Told.andThen, told_complain_result, hr]
    show _ ++ _ = _
    rw [ends_andThen_err ((told_complain_result ..).trans h), Told.complain, hr, article_end_ok hc, h]
    rfl

theorem boardLoop_end {db : DB} {fs : FS} {b user : Bytes} {e : String} {ars : List FileHeader} (h : db.boardUserCommentLoop fs b user ars = .err e) :
    ∃ pre a post found, ars = pre ++ a :: post ∧ db.boardUserCommentLoop fs b user pre = .ok found ∧ db.boardArticleComments fs b a.filename = .err e ∧
      (db.boardArticleCommentsTold fs b a.filename).lines ++ [.trouble "bbs: GetBoardArticleCommentRecords error:" e] <:+
        (db.boardUserCommentLoopTold fs b user ars).lines := by
  induction ars with
  | nil => cases h
  | cons a ars ih =>
    rw [DB.boardUserCommentLoop] at h
    rw [DB.boardUserCommentLoopTold]
    rcases bind_eq_err.mp h with h1 | ⟨crs, h1, h2⟩
    · have hr : (db.boardArticleCommentsTold fs b a.filename).result = .err e := (boardArticleCommentsTold_result ..).trans h1
      refine ⟨[], a, ars, [], rfl, rfl, h1, ?_⟩
      rw [ends_andThen_err ((told_complain_result ..).trans hr)]
      exact ends_complain hr (List.suffix_refl _) _
    · rcases bind_eq_err.mp h2 with h2 | ⟨_, -, h2⟩
      · obtain ⟨pre, a', post, found, h3, h4, h5, h6⟩ := ih h2
        refine ⟨a :: pre, a', post, crs.filter (fun cr => cr.owner = user) ++ found, by rw [h3]; rfl, ?_, h5, ?_⟩
        · rw [DB.boardUserCommentLoop, h1, Res.ok_bind, h4, Res.ok_bind]
        · refine ends_andThen_ok ((told_complain_result ..).trans ((boardArticleCommentsTold_result ..).trans h1)) ?_
          rw [ends_andThen_err ((boardUserCommentLoopTold_result ..).trans h2)]
          exact h6
      · cases h2

/-- How the log of a search within a board ends: at its list, at an article that cannot be read, or at one whose comments cannot. -/
def Spec.BoardEnds (db : DB) (c : Codec) (fs : FS) (user b : Bytes) (e : String) (lines : List LogWord) : Prop :=
  (db.readArticleRecords c fs b = .err e ∧
    [.path (indexPath db.home b), .trouble "" e, .trouble "bbs: ReadArticleRecordsFile error:" e, .trouble "bbs: ReadBoardArticleRecordsFile error:" e,
      .trouble "bbs: GetUserCommentRecordOfBoard error:" e] <:+ lines) ∨
  ∃ f, StoppedIn db c fs user b f ∧
    ((db.readBoardArticleFile fs b f = .err e ∧
      [.path (articlePath db.home b f), .trouble "bbs: get user rec error:" e, .trouble "bbs: ReadBoardArticleFile error:" e,
        .trouble "bbs: GetBoardArticleCommentRecords error:" e, .trouble "bbs: GetUserCommentRecordOfBoard error:" e] <:+ lines) ∨
    (∃ content, db.readBoardArticleFile fs b f = .ok content ∧ articleComments b f content = .err e ∧
      [.path (articlePath db.home b f), .trouble "bbs: NewUserCommentRecord error:" e,
        .trouble "bbs: GetBoardArticleCommentRecords error:" e, .trouble "bbs: GetUserCommentRecordOfBoard error:" e] <:+ lines))

theorem boardEnds_more {db : DB} {c : Codec} {fs : FS} {user b : Bytes} {e : String} {l l' : List LogWord} (h : BoardEnds db c fs user b e l)
    (hl : l <:+ l') : BoardEnds db c fs user b e l' := by
  rcases h with ⟨h1, h2⟩ | ⟨f, h1, ⟨h2, h3⟩ | ⟨content, h2, h3, h4⟩⟩
  · exact .inl ⟨h1, h2.trans hl⟩
  · exact .inr ⟨f, h1, .inl ⟨h2, h3.trans hl⟩⟩
  · exact .inr ⟨f, h1, .inr ⟨content, h2, h3, h4.trans hl⟩⟩

theorem boardComments_end {db : DB} {c : Codec} {fs : FS} {b user : Bytes} {e : String} (h : db.boardUserComments c fs b user = .err e) :
    BoardEnds db c fs user b e ((db.boardUserCommentsTold c fs b user).complain "bbs: GetUserCommentRecordOfBoard error:").lines := by
  have hr : (db.boardUserCommentsTold c fs b user).result = .err e := (boardUserCommentsTold_result ..).trans h
  unfold DB.boardUserComments at h
  rcases bind_eq_err.mp h with h | ⟨ars, ha, h⟩
  · have hr' : (db.articlesTold c fs b).result = .err e := (articlesTold_result ..).trans h
    refine .inl ⟨h, ends_complain (s := [_, _, _, _]) hr ?_ _⟩
    rw [DB.boardUserCommentsTold, ends_andThen_err ((told_complain_result ..).trans hr')]
    exact ends_complain (s := [_, _, _]) hr' (by rw [articles_end h]; exact List.suffix_refl _) _
  · obtain ⟨pre, a, post, found, h1, h2, h3, h4⟩ := boardLoop_end h
    have key : (db.boardArticleCommentsTold fs b a.filename).lines ++ [.trouble "bbs: GetBoardArticleCommentRecords error:" e] ++
        [.trouble "bbs: GetUserCommentRecordOfBoard error:" e] <:+
        ((db.boardUserCommentsTold c fs b user).complain "bbs: GetUserCommentRecordOfBoard error:").lines :=
      ends_complain hr (ends_andThen_ok ((told_complain_result ..).trans ((articlesTold_result ..).trans ha)) h4) _
    refine .inr ⟨a.filename, ⟨pre, a, post, found, by rw [ha, h1], h2, rfl⟩, ?_⟩
    rcases comments_end h3 with ⟨h5, h6⟩ | ⟨content, h5, h6, h7⟩
    · rw [h6] at key
      exact .inl ⟨h5, key⟩
    · rw [h7] at key
      exact .inr ⟨content, h5, h6, key⟩

theorem commentLoop_end {db : DB} {c : Codec} {fs : FS} {user : Bytes} {e : String} {bs : List BoardHeader}
    (h : db.userCommentLoop c fs user bs = .err e) :
    ∃ pre b post found, bs = pre ++ b :: post ∧ db.userCommentLoop c fs user pre = .ok found ∧ b.brdName ≠ ascii "ALLPOST" ∧
      BoardEnds db c fs user b.brdName e (db.userCommentLoopTold c fs user bs).lines := by
  induction bs with
  | nil => cases h
  | cons b bs ih =>
    rw [DB.userCommentLoop] at h
    rw [DB.userCommentLoopTold]
    by_cases hs : DB.shouldSkip b.brdName = true
    · rw [if_pos hs] at h
      rw [if_pos hs]
      obtain ⟨pre, b', post, found, h1, h2, h3⟩ := ih h
      exact ⟨b :: pre, b', post, found, by rw [h1]; rfl, by rw [DB.userCommentLoop, if_pos hs, h2], h3⟩
    · rw [if_neg hs] at h
      rw [if_neg hs]
      rcases bind_eq_err.mp h with h1 | ⟨crs, h1, h2⟩
      · refine ⟨[], b, bs, [], rfl, rfl, fun he => hs ((skips_iff _).mpr he), ?_⟩
        rw [ends_andThen_err ((told_complain_result ..).trans ((boardUserCommentsTold_result ..).trans h1))]
        exact boardComments_end h1
      · rcases bind_eq_err.mp h2 with h2 | ⟨_, -, h2⟩
        · obtain ⟨pre, b', post, found, h3, h4, h5, h6⟩ := ih h2
          refine ⟨b :: pre, b', post, crs ++ found, by rw [h3]; rfl, ?_, h5, ?_⟩
          · rw [DB.userCommentLoop, if_neg hs, h1, Res.ok_bind, h4, Res.ok_bind]
          · refine boardEnds_more h6 (ends_andThen_ok ((told_complain_result ..).trans ((boardUserCommentsTold_result ..).trans h1)) ?_)
            rw [ends_andThen_err ((userCommentLoopTold_result ..).trans h2)]
            exact List.suffix_refl _
        · cases h2

/-- **C165.** The log of a search for comments that failed ends with the path of the file at which it stopped and the failure, as each call saw it: the
list of boards, the list of articles of a board, an article that cannot be read, or one with a comment that cannot. -/
theorem C165_comments (db : DB) (c : Codec) (fs : FS) (user : Bytes) (e : String) (h : db.userComments c fs user = .err e) :
    (db.readBoardRecords c fs = .err e ∧ (db.userCommentsTold c fs user).lines = [.path (db.home ++ ascii "/.BRD"), .trouble "" e,
      .trouble "bbs: get user rec error:" e, .trouble "bbs: ReadBoardRecords error:" e]) ∨
    (∃ b, StoppedAt db c fs (db.userCommentLoop c fs user) b ∧ BoardEnds db c fs user b e (db.userCommentsTold c fs user).lines) := by
  unfold DB.userComments at h
  rcases bind_eq_err.mp h with h | ⟨bs, hb, h⟩
  · refine .inl ⟨h, ?_⟩
    have hr : (db.boardsTold c fs).result = .err e := (boardsTold_result ..).trans h
    rw [DB.userCommentsTold, ends_andThen_err ((told_complain_result ..).trans hr), Told.complain, hr, boards_end h]
    rfl
  · obtain ⟨pre, b, post, found, h1, h2, h3, h4⟩ := commentLoop_end h
    exact .inr ⟨b.brdName, ⟨pre, b, post, found, by rw [hb, h1], h2, rfl, h3⟩,
      boardEnds_more h4 (ends_andThen_ok ((told_complain_result ..).trans ((boardsTold_result ..).trans hb)) (List.suffix_refl _))⟩

/-! ## Cases -/

example : sampleDB.userArticles asciiCodec ⟨[]⟩ (ascii "Ab") = .err "no such file or directory" := by decide +kernel
example : (sampleDB.userCommentsTold asciiCodec ⟨[]⟩ (ascii "Ab")).lines = [.path (ascii "/bbs/.BRD"), .trouble "" "no such file or directory",
    .trouble "bbs: get user rec error:" "no such file or directory", .trouble "bbs: ReadBoardRecords error:" "no such file or directory"] := by
  rcases C165_comments sampleDB asciiCodec ⟨[]⟩ (ascii "Ab") "no such file or directory" (by decide +kernel) with ⟨-, h⟩ | ⟨b, ⟨pre, x, post, found, h, -⟩, -⟩
  · exact h
  · rw [show sampleDB.readBoardRecords asciiCodec ⟨[]⟩ = .err "no such file or directory" by decide +kernel] at h
    cases h

/-- An article that is listed but is not there. -/
def goneFS : FS := (shelfFS []).del (at_ sampleDB (.article (ascii "S") shelfName))

example : (sampleDB.userCommentsTold asciiCodec goneFS (ascii "Ab")).lines = [.path (ascii "/bbs/.BRD"), .path (ascii "/bbs/boards/S/S/.DIR"),
    .path (ascii "/bbs/boards/S/S/" ++ shelfName), .trouble "bbs: get user rec error:" "no such file or directory",
    .trouble "bbs: ReadBoardArticleFile error:" "no such file or directory",
    .trouble "bbs: GetBoardArticleCommentRecords error:" "no such file or directory",
    .trouble "bbs: GetUserCommentRecordOfBoard error:" "no such file or directory"] := by decide +kernel
example : ∃ b, StoppedAt sampleDB asciiCodec goneFS (sampleDB.userCommentLoop asciiCodec goneFS (ascii "Ab")) b := by
  rcases C165_comments sampleDB asciiCodec goneFS (ascii "Ab") "no such file or directory" (by decide +kernel) with ⟨h, -⟩ | ⟨b, h, -⟩
  · exact absurd h (by decide +kernel)
  · exact ⟨b, h⟩

/-- The directory of the board is a file. -/
def wallFS : FS := lonelyFS.set [ascii "bbs", ascii "boards", ascii "S", ascii "S"] (.file [])

example : [.path (ascii "/bbs/boards/S/S/.DIR"), .trouble "" "not a directory", .trouble "bbs: ReadArticleRecordsFile error:" "not a directory",
    .trouble "bbs: ReadBoardArticleRecordsFile error:" "not a directory"] <:+ (sampleDB.userArticlesTold asciiCodec wallFS (ascii "Ab")).lines := by
  rcases C165_articles sampleDB asciiCodec wallFS (ascii "Ab") "not a directory" (by decide +kernel) with
    ⟨h, -⟩ | ⟨b, ⟨pre, x, post, found, h, h1, h2, -⟩, -, h3⟩
  · exact absurd h (by decide +kernel)
  · have hb : sampleDB.readBoardRecords asciiCodec wallFS = .ok [storedBoard asciiCodec shelfBoard] := by decide +kernel
    rw [hb] at h
    have hx : x = storedBoard asciiCodec shelfBoard := by
      have : x ∈ [storedBoard asciiCodec shelfBoard] := by rw [Res.ok.inj h]; exact List.mem_append_right _ List.mem_cons_self
      exact List.mem_singleton.mp this
    rw [← h2, hx, show (storedBoard asciiCodec shelfBoard).brdName = ascii "S" by decide +kernel] at h3
    exact h3

end Verif
