import Verif.Props.ToolWork
/-!
# C123: what the tool prints
-/

namespace Verif
open Spec

/-- The arguments a subcommand needs, in the order in which it looks for them — /repo/cmd/bbstool/articles.go:19-23, 44-64, 111-121. -/
def Spec.needs (cmd : Bytes) : List String :=
  if cmd = ascii "show_board_article_list" then ["board"]
  else if cmd = ascii "add_board_article" then ["board", "owner", "date", "title"]
  else if cmd = ascii "show_board_article" then ["board", "filename"]
  else []

/-- What is printed when the directory given is no bulletin board. -/
def Spec.openComplaint (fs : FS) (cwd : Path) (o : ToolOptions) : List Out :=
  match openDB fs cwd o with
  | .err e => [.complaint "openDB:" e]
  | _ => []

theorem withDB_out {fs : FS} {cwd : Path} {o : ToolOptions} {k : Option DB → Run} {r : Run} (h : ∀ x, k x = r) :
    withDB fs cwd o k = r.after (openComplaint fs cwd o) := by
  unfold withDB openComplaint
  rcases openDB_cases fs cwd o with ⟨db, e⟩ | ⟨e', e⟩
  · rw [e]
    simp only [h, Run.after, List.nil_append]
  · rw [e]
    simp only [h]

theorem orAsk_none {fs : FS} {args : List Bytes} {key : String} {msg : Bytes} (h : ∀ v, ¬ Given args key v) (k : Bytes → Run) :
    orAsk fs (parseArgsToMap args) (ascii key) msg k = ⟨[.text (msg ++ newline)], fs, .status 0⟩ := by
  unfold orAsk
  rw [(none_given _ _).mpr h]

theorem ask_board : ascii "please provide " ++ ascii "board" ++ ascii " argument\n" = ascii "please provide board argument" ++ newline := by
  decide
theorem ask_owner : ascii "please provide " ++ ascii "owner" ++ ascii " argument\n" = ascii "please provide owner argument" ++ newline := by
  decide
theorem ask_date : ascii "please provide " ++ ascii "date" ++ ascii " argument\n" = ascii "please provide date argument" ++ newline := by
  decide
theorem ask_title : ascii "please provide " ++ ascii "title" ++ ascii " argument\n" = ascii "please provide title argument" ++ newline := by
  decide
theorem ask_filename : ascii "please provide " ++ ascii "filename" ++ ascii " argument\n" = ascii "please provide filename argument" ++ newline := by
  decide

theorem split_cons {α : Type} {x key : α} {l before after : List α} (h : x :: l = before ++ key :: after) :
    (before = [] ∧ key = x) ∨ ∃ b, before = x :: b ∧ l = b ++ key :: after := by
  cases before with
  | nil => exact Or.inl ⟨rfl, (List.cons.inj h).1.symm⟩
  | cons y b =>
    obtain ⟨h1, h2⟩ := List.cons.inj h
    exact Or.inr ⟨b, by rw [h1], h2⟩

/-- **C123**, arguments: a subcommand that lacks an argument asks for the first one it lacks, and does nothing else. -/
theorem C123_asks (c : Codec) (cwd : Path) (fs : FS) (o : ToolOptions) (args : List Bytes) (draw : Nat → Int × Fin 4096) (fuel : Nat)
    (before after : List String) (key : String) (hn : needs (args.headD []) = before ++ key :: after)
    (hb : ∀ k, k ∈ before → ∃ v, Given args k v) (hk : ∀ v, ¬ Given args key v) :
    toolCommand c cwd fs o args draw fuel = ⟨openComplaint fs cwd o ++ (parseArgsNotice args 1 ++
      [.text (ascii "please provide " ++ ascii key ++ ascii " argument\n")]), fs, .status 0⟩ := by
  unfold needs at hn
  split at hn
  · rename_i hc
    have e : toolCommand c cwd fs o args draw fuel = showBoardArticleList c cwd fs o args := by
      unfold toolCommand
      simp only [hc]
      rfl
    rw [e]
    unfold showBoardArticleList
    rcases split_cons hn with ⟨rfl, rfl⟩ | ⟨b, rfl, hn⟩
    · rw [withDB_out (fun x => by rw [orAsk_none hk]), ask_board]
      rfl
    · simp at hn
  split at hn
  · rename_i hc
    have e : toolCommand c cwd fs o args draw fuel = addBoardArticle c cwd fs o args draw fuel := by
      unfold toolCommand
      simp only [hc]
      rfl
    rw [e]
    unfold addBoardArticle
    simp only
    rcases split_cons hn with ⟨rfl, rfl⟩ | ⟨b1, rfl, hn1⟩
    · rw [withDB_out (fun x => by rw [orAsk_none hk]), ask_board]
      rfl
    obtain ⟨v1, h1⟩ := hb "board" (by simp)
    rcases split_cons hn1 with ⟨rfl, rfl⟩ | ⟨b2, rfl, hn2⟩
    · rw [withDB_out (fun x => by rw [orAsk_some h1, orAsk_none hk]), ask_owner]
      rfl
    obtain ⟨v2, h2⟩ := hb "owner" (by simp)
    rcases split_cons hn2 with ⟨rfl, rfl⟩ | ⟨b3, rfl, hn3⟩
    · rw [withDB_out (fun x => by rw [orAsk_some h1, orAsk_some h2, orAsk_none hk]), ask_date]
      rfl
    obtain ⟨v3, h3⟩ := hb "date" (by simp)
    rcases split_cons hn3 with ⟨rfl, rfl⟩ | ⟨b4, rfl, hn4⟩
    · rw [withDB_out (fun x => by rw [orAsk_some h1, orAsk_some h2, orAsk_some h3, orAsk_none hk]), ask_title]
      rfl
    simp at hn4
  split at hn
  · rename_i hc
    have e : toolCommand c cwd fs o args draw fuel = showBoardArticle c cwd fs o args := by
      unfold toolCommand
      simp only [hc]
      rfl
    rw [e]
    unfold showBoardArticle
    simp only
    rcases split_cons hn with ⟨rfl, rfl⟩ | ⟨b1, rfl, hn1⟩
    · rw [withDB_out (fun x => by rw [orAsk_none hk]), ask_board]
      rfl
    obtain ⟨v1, h1⟩ := hb "board" (by simp)
    rcases split_cons hn1 with ⟨rfl, rfl⟩ | ⟨b2, rfl, hn2⟩
    · rw [withDB_out (fun x => by rw [orAsk_some h1, orAsk_none hk]), ask_filename]
      rfl
    simp at hn2
  · simp at hn

/-- **C123**: the titles of all boards, in the order of the list; or one complaint. -/
theorem C123_boards (c : Codec) (cwd : Path) (fs : FS) (o : ToolOptions) (args : List Bytes) (draw : Nat → Int × Fin 4096) (fuel : Nat)
    (db : DB) (hc : args.head? = some (ascii "show_board_list")) (ho : openDB fs cwd o = .ok db) :
    (∀ recs, db.readBoardRecords c fs = .ok recs → toolCommand c cwd fs o args draw fuel =
      ⟨recs.map (fun r => .text (ascii "title: " ++ r.title ++ ascii "\n")), fs, .status 0⟩) ∧
    (∀ e, db.readBoardRecords c fs = .err e → toolCommand c cwd fs o args draw fuel =
      ⟨[.complaint "showboardlist: ReadBoardRecords" e], fs, .status 0⟩) := by
  have e : toolCommand c cwd fs o args draw fuel = showBoardList c cwd fs o := by
    unfold toolCommand
    simp only [command_eq hc]
    rfl
  rw [e]
  unfold showBoardList
  rw [opened_ok ho]
  have e2 : ascii "\n" = newline := by decide
  constructor
  · intro recs hr
    rw [hr, e2]
    rfl
  · intro x hr
    rw [hr]
    rfl

/-- **C123**: the ids of all users that have one, in the order of the list; or one complaint. -/
theorem C123_users (c : Codec) (cwd : Path) (fs : FS) (o : ToolOptions) (args : List Bytes) (draw : Nat → Int × Fin 4096) (fuel : Nat)
    (db : DB) (hc : args.head? = some (ascii "show_user_list")) (ho : openDB fs cwd o = .ok db) :
    (∀ recs, db.readUserRecords c fs = .ok recs → toolCommand c cwd fs o args draw fuel =
      ⟨(recs.filter (fun r => r.userID ≠ [])).map (fun r => .text (ascii "user id: " ++ r.userID ++ ascii "\n")), fs, .status 0⟩) ∧
    (∀ e, db.readUserRecords c fs = .err e → toolCommand c cwd fs o args draw fuel =
      ⟨[.complaint "showuserlist: ReadUserRecords" e], fs, .status 0⟩) := by
  have e : toolCommand c cwd fs o args draw fuel = showUserList c cwd fs o := by
    unfold toolCommand
    simp only [command_eq hc]
    rfl
  rw [e]
  unfold showUserList
  rw [opened_ok ho]
  have e2 : ascii "\n" = newline := by decide
  constructor
  · intro recs hr
    rw [hr, e2]
    rfl
  · intro x hr
    rw [hr]
    rfl

/-- **C123**: the titles of all articles of the user; or one complaint. -/
theorem C123_articles (c : Codec) (cwd : Path) (fs : FS) (o : ToolOptions) (args : List Bytes) (draw : Nat → Int × Fin 4096) (fuel : Nat)
    (db : DB) (user : Bytes) (hc : args.head? = some (ascii "show_user_article_list")) (ho : openDB fs cwd o = .ok db)
    (hu : Given args "user_id" user) :
    (∀ recs, db.userArticles c fs user = .ok recs → toolCommand c cwd fs o args draw fuel =
      ⟨parseArgsNotice args 1 ++ recs.map (fun r => .text (ascii "titlex: " ++ r.title ++ ascii "\n")), fs, .status 0⟩) ∧
    (∀ e, db.userArticles c fs user = .err e → toolCommand c cwd fs o args draw fuel =
      ⟨parseArgsNotice args 1 ++ [.complaint "showuserarticlelist: GetUserArticleRecordFile" e], fs, .status 0⟩) := by
  have e : toolCommand c cwd fs o args draw fuel = showUserArticleList c cwd fs o args := by
    unfold toolCommand
    simp only [command_eq hc]
    rfl
  rw [e]
  unfold showUserArticleList
  rw [opened_ok ho, (must_ok _ _ _).mpr hu]
  have e2 : ascii "\n" = newline := by decide
  constructor
  · intro recs hr
    simp only [orComplain, hr, e2, Run.after]
  · intro x hr
    simp only [orComplain, hr, Run.after]

/-- **C123**: the comments of a user cannot be collected. -/
theorem C123_comments (c : Codec) (cwd : Path) (fs : FS) (o : ToolOptions) (args : List Bytes) (draw : Nat → Int × Fin 4096) (fuel : Nat)
    (db : DB) (user : Bytes) (hc : args.head? = some (ascii "show_user_comment_list")) (ho : openDB fs cwd o = .ok db)
    (hu : Given args "user_id" user) (e : String) (hr : db.userComments c fs user = .err e) :
    toolCommand c cwd fs o args draw fuel =
      ⟨parseArgsNotice args 1 ++ [.complaint "showusercommentlist: GetUserCommentRecordFile" e], fs, .status 0⟩ := by
  have e1 : toolCommand c cwd fs o args draw fuel = showUserCommentList c cwd fs o args := by
    unfold toolCommand
    simp only [command_eq hc]
    rfl
  rw [e1]
  unfold showUserCommentList
  rw [opened_ok ho, (must_ok _ _ _).mpr hu]
  simp only [orComplain, hr, Run.after]

/-- **C123**: the text of an article, or one complaint. -/
theorem C123_article (c : Codec) (cwd : Path) (fs : FS) (o : ToolOptions) (args : List Bytes) (draw : Nat → Int × Fin 4096) (fuel : Nat)
    (db : DB) (board file : Bytes) (hc : args.head? = some (ascii "show_board_article")) (ho : openDB fs cwd o = .ok db)
    (hb : Given args "board" board) (hf : Given args "filename" file) :
    (∀ d, db.readBoardArticleFile fs board file = .ok d → toolCommand c cwd fs o args draw fuel =
      ⟨parseArgsNotice args 1 ++ [.text (ascii "filecontent: \n" ++ c.dec d ++ ascii "\n")], fs, .status 0⟩) ∧
    (∀ e, db.readBoardArticleFile fs board file = .err e → toolCommand c cwd fs o args draw fuel =
      ⟨parseArgsNotice args 1 ++ [.complaint "ReadrBoardArticleFile error: %w" e], fs, .status 0⟩) := by
  have e : toolCommand c cwd fs o args draw fuel = showBoardArticle c cwd fs o args := by
    unfold toolCommand
    simp only [command_eq hc]
    rfl
  rw [e]
  unfold showBoardArticle
  simp only
  rw [withDB_ok ho, orAsk_some hb, orAsk_some hf]
  have e1 : ascii "filecontent: \n" = ascii "filecontent: " ++ newline := by decide
  have e2 : ascii "\n" = newline := by decide
  constructor
  · intro d hr
    simp only [onDB, hr, e1, e2]
    rfl
  · intro x hr
    simp only [onDB, hr]
    rfl

/-- What the five subcommands of main.go say when they cannot open the directory. -/
def Spec.openWord (cmd : Bytes) : Option (String × String) :=
  if cmd = ascii "show_board_list" then some ("showboardlist: error", "showboardlist: open db")
  else if cmd = ascii "add_board" then some ("addboard: error", "addboard: open db")
  else if cmd = ascii "show_user_list" then some ("showuserlist: error", "showuserlist: open db")
  else if cmd = ascii "show_user_article_list" then some ("showuserarticlelist: error", "showuserarticlelist: open db")
  else if cmd = ascii "show_user_comment_list" then some ("showusercommentlist: error", "showusercommentlist: open db")
  else none

theorem opened_err {fs : FS} {cwd : Path} {o : ToolOptions} {e : String} (h : openDB fs cwd o = .err e) (p q : String) (k : DB → Run) :
    (IsDir fs cwd o.home → (orComplain fs p (chkIsDir fs cwd o.home) fun _ => orComplain fs q (toolOpen cwd o) k) =
      ⟨[.complaint q e], fs, .status 0⟩) ∧
    (¬ IsDir fs cwd o.home → (orComplain fs p (chkIsDir fs cwd o.home) fun _ => orComplain fs q (toolOpen cwd o) k) =
      ⟨[.complaint p e], fs, .status 0⟩) := by
  unfold openDB at h
  constructor
  · intro hd
    have h1 := (chkIsDir_ok _ _ _).mpr hd
    rw [h1] at h ⊢
    replace h : toolOpen cwd o = .err e := h
    rw [h]
    rfl
  · intro hd
    have h1 : chkIsDir fs cwd o.home ≠ .ok () := fun x => hd ((chkIsDir_ok _ _ _).mp x)
    revert h
    generalize chkIsDir fs cwd o.home = r at h1
    cases r with
    | ok u => exact absurd rfl h1
    | err x => intro h; cases h; rfl
    | panic => intro h; cases h
    | diverge => intro h; cases h

/-- **C123**: a directory that cannot be opened is complained about, once, and nothing is done. -/
theorem C123_not_opened (c : Codec) (cwd : Path) (fs : FS) (o : ToolOptions) (args : List Bytes) (draw : Nat → Int × Fin 4096) (fuel : Nat)
    (p q e : String) (hw : openWord (args.headD []) = some (p, q)) (he : openDB fs cwd o = .err e) :
    (IsDir fs cwd o.home → toolCommand c cwd fs o args draw fuel = ⟨[.complaint q e], fs, .status 0⟩) ∧
    (¬ IsDir fs cwd o.home → toolCommand c cwd fs o args draw fuel = ⟨[.complaint p e], fs, .status 0⟩) := by
  unfold openWord at hw
  split at hw
  · rename_i hc
    cases hw
    have : toolCommand c cwd fs o args draw fuel = showBoardList c cwd fs o := by
      unfold toolCommand; simp only [hc]; rfl
    rw [this]; unfold showBoardList; exact opened_err he _ _ _
  split at hw
  · rename_i hc
    cases hw
    have : toolCommand c cwd fs o args draw fuel = addBoard c cwd fs o args := by
      unfold toolCommand; simp only [hc]; rfl
    rw [this]; unfold addBoard; exact opened_err he _ _ _
  split at hw
  · rename_i hc
    cases hw
    have : toolCommand c cwd fs o args draw fuel = showUserList c cwd fs o := by
      unfold toolCommand; simp only [hc]; rfl
    rw [this]; unfold showUserList; exact opened_err he _ _ _
  split at hw
  · rename_i hc
    cases hw
    have : toolCommand c cwd fs o args draw fuel = showUserArticleList c cwd fs o args := by
      unfold toolCommand; simp only [hc]; rfl
    rw [this]; unfold showUserArticleList; exact opened_err he _ _ _
  split at hw
  · rename_i hc
    cases hw
    have : toolCommand c cwd fs o args draw fuel = showUserCommentList c cwd fs o args := by
      unfold toolCommand; simp only [hc]; rfl
    rw [this]; unfold showUserCommentList; exact opened_err he _ _ _
  · cases hw

/-- **C123**: a subcommand that does not exist is named, and nothing is done. -/
theorem C123_unknown (c : Codec) (cwd : Path) (fs : FS) (o : ToolOptions) (args : List Bytes) (draw : Nat → Int × Fin 4096) (fuel : Nat)
    (hn : needs (args.headD []) = []) (hw : openWord (args.headD []) = none) :
    toolCommand c cwd fs o args draw fuel = ⟨[.text (ascii "unknown subcommand: " ++ args.headD [] ++ ascii "\n")], fs, .status 0⟩ := by
  unfold needs at hn
  unfold openWord at hw
  unfold toolCommand
  have e2 : ascii "\n" = newline := by decide
  rw [e2]
  generalize args.headD [] = cmd at *
  split at hn
  · cases hn
  rename_i n1
  split at hn
  · cases hn
  rename_i n2
  split at hn
  · cases hn
  rename_i n3
  split at hw
  · cases hw
  rename_i n4
  split at hw
  · cases hw
  rename_i n5
  split at hw
  · cases hw
  rename_i n6
  split at hw
  · cases hw
  rename_i n7
  split at hw
  · cases hw
  rename_i n8
  simp only [if_neg n1, if_neg n2, if_neg n3, if_neg n4, if_neg n5, if_neg n6, if_neg n7, if_neg n8]

/-- **C123**, the whole program: three lines about the options, then what the subcommand prints. -/
theorem C123_whole (c : Codec) (cwd : Path) (fs : FS) (argv : List Bytes) (draw : Nat → Int × Fin 4096) (fuel : Nat) (o : ToolOptions)
    (args : List Bytes) (hp : Flags .default argv (.parsed o args)) :
    toolMain c cwd fs argv draw fuel =
      ⟨[.text (ascii "driver name: " ++ o.driver ++ ascii "\n"), .text (ascii "bbshome: " ++ o.home ++ ascii "\n"),
        .text (ascii "args: [" ++ (List.intersperse (ascii " ") args).flatten ++ ascii "]\n")] ++
        (toolCommand c cwd fs o args draw fuel).out, (toolCommand c cwd fs o args draw fuel).fs,
        (toolCommand c cwd fs o args draw fuel).exit⟩ := by
  rw [toolMain_parsed hp]
  have m1 : ascii "\n" = newline := by decide
  have m2 : ascii "args: [" = ascii "args: " ++ ascii "[" := by decide
  have m3 : ascii "]\n" = ascii "]" ++ newline := by decide
  have m4 : ascii " " = [0x20] := by decide
  simp only [Run.after, toolBanner, showStrings, m1, m2, m3, m4, List.append_assoc]

/-- The file name is missing. -/
example : toolCommand asciiCodec [] sampleFS ⟨ascii "pttbbs", ascii "/bbs"⟩ [ascii "show_board_article", ascii "--board", ascii "S"]
    (fun _ => (0, 0)) 0 = ⟨[.text (ascii "please provide filename argument\n")], sampleFS, .status 0⟩ := by
  rw [C123_asks (before := ["board"]) (key := "filename") (after := [])]
  · decide +kernel
  · decide +kernel
  · intro k hk
    rcases List.mem_singleton.mp hk with rfl
    exact ⟨ascii "S", by unfold Given; decide +kernel⟩
  · intro v
    unfold Given
    have : parseArgsToMap [ascii "show_board_article", ascii "--board", ascii "S"] (ascii "filename") = none := by decide +kernel
    rw [this]
    exact fun h => nomatch h

/-- The directory does not exist. -/
example : toolCommand asciiCodec [] sampleFS ⟨ascii "pttbbs", ascii "/nowhere"⟩ [ascii "show_user_list"] (fun _ => (0, 0)) 0 =
    ⟨[.complaint "showuserlist: error" "no such file or directory"], sampleFS, .status 0⟩ := by decide +kernel

/-- A subcommand that does not exist. -/
example : toolCommand asciiCodec [] sampleFS ⟨ascii "pttbbs", ascii "/bbs"⟩ [ascii "show"] (fun _ => (0, 0)) 0 =
    ⟨[.text (ascii "unknown subcommand: show\n")], sampleFS, .status 0⟩ := by decide +kernel

/-- Reading options from left to right, each with its value, the last argument is an option without one. -/
inductive Spec.Dangling : List Bytes → Bytes → Prop where
  | last {a : Bytes} (h : ascii "--" <+: a) : Dangling [a] a
  | pair {a v : Bytes} {t : List Bytes} {x : Bytes} (h : ascii "--" <+: a) (ht : Dangling t x) : Dangling (a :: v :: t) x
  | word {a : Bytes} {t : List Bytes} {x : Bytes} (h : ¬ ascii "--" <+: a) (ht : Dangling t x) : Dangling (a :: t) x

/-- **C123, an option without a value.** The tool tells of an option at the end of the command line that has no value, and of nothing else. -/
theorem C123_notice (args : List Bytes) :
    (∀ x, Dangling (args.drop 1) x → parseArgsNotice args 1 = [.text (ascii "flag with no args " ++ x ++ ascii "\n")]) ∧
    ((∀ x, ¬ Dangling (args.drop 1) x) → parseArgsNotice args 1 = []) := by
  suffices H : ∀ n index, args.length - index = n →
      (∀ x, Dangling (args.drop index) x → parseArgsNotice args index = [.text (ascii "flag with no args " ++ x ++ ascii "\n")]) ∧
      ((∀ x, ¬ Dangling (args.drop index) x) → parseArgsNotice args index = []) from H _ 1 rfl
  intro n
  induction n using Nat.strongRecOn with
  | ind n ih =>
    intro index hn
    by_cases hi : args.length ≤ index
    · rw [parseArgsNotice, dif_pos hi, List.drop_eq_nil_of_le hi]
      exact ⟨fun x h => (by cases h), fun _ => rfl⟩
    · rw [parseArgsNotice, dif_neg hi, List.drop_eq_getElem_cons (by omega)]
      simp only
      by_cases hp : (ascii "--").isPrefixOf args[index] = true
      · have hp' : ascii "--" <+: args[index] := List.isPrefixOf_iff_prefix.mp hp
        rw [if_pos hp]
        by_cases hl : args.length ≤ index + 1
        · rw [if_pos hl, List.drop_eq_nil_of_le hl]
          refine ⟨fun x h => ?_, fun h => absurd (.last hp') (h _)⟩
          cases h with
          | last _ => rfl
          | word h _ => exact absurd hp' h
        · rw [if_neg hl, List.drop_eq_getElem_cons (by omega)]
          obtain ⟨h1, h2⟩ := ih (args.length - (index + 2)) (by omega) (index + 2) rfl
          refine ⟨fun x h => ?_, fun h => h2 fun x hx => h x (.pair hp' hx)⟩
          cases h with
          | pair _ ht => exact h1 x ht
          | word h _ => exact absurd hp' h
      · have hp' : ¬ ascii "--" <+: args[index] := fun h => hp (List.isPrefixOf_iff_prefix.mpr h)
        rw [if_neg hp]
        obtain ⟨h1, h2⟩ := ih (args.length - (index + 1)) (by omega) (index + 1) rfl
        refine ⟨fun x h => ?_, fun h => h2 fun x hx => h x (.word hp' hx)⟩
        generalize args[index] = a at hp' h
        generalize args.drop (index + 1) = t at h h1
        cases h with
        | last h => exact absurd h hp'
        | pair h _ => exact absurd h hp'
        | word _ ht => exact h1 x ht

/-- An option that has a value, and one that has none. -/
example : Dangling [ascii "--board", ascii "--S", ascii "x", ascii "--owner"] (ascii "--owner") :=
  .pair (by decide) (.word (by decide) (.last (by decide)))

end Verif
