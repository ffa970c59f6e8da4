import Verif.Model.ToldSearch
import Verif.Props.Told
import Verif.Props.Search
/-!
# C164: the log of a search
-/

namespace Verif
open Spec

/-! ## Results -/

theorem boardsTold_result (db : DB) (c : Codec) (fs : FS) : (db.boardsTold c fs).result = db.readBoardRecords c fs := by
  rw [DB.boardsTold, told_path_result]
  simp only [told_complain_result]
  rfl

theorem articlesTold_result (db : DB) (c : Codec) (fs : FS) (b : Bytes) : (db.articlesTold c fs b).result = db.readArticleRecords c fs b := by
  rw [DB.articlesTold, told_path_result]
  unfold DB.readArticleRecords
  congr 1
  funext p
  cases db.openArticleList c fs p with
  | ok l => rfl
  | err e =>
    show (if e = "no such file or directory" then _ else _ : Told (List FileHeader)).result = if e = "no such file or directory" then _ else _
    by_cases he : e = "no such file or directory"
    · simp only [if_pos he]
    · simp only [if_neg he]
  | panic => rfl
  | diverge => rfl

theorem articleTold_result (db : DB) (fs : FS) (b f : Bytes) : (db.articleTold fs b f).result = db.readBoardArticleFile fs b f := by
  rw [DB.articleTold, told_path_result]
  simp only [told_complain_result]
  rfl

theorem userArticleLoopTold_result (db : DB) (c : Codec) (fs : FS) (user : Bytes) (n : Nat) (bs : List BoardHeader) :
    (db.userArticleLoopTold c fs user n bs).result = db.userArticleLoop c fs user bs := by
  induction bs generalizing n with
  | nil => rfl
  | cons b bs ih =>
    unfold DB.userArticleLoopTold DB.userArticleLoop
    split
    · exact ih n
    · simp only [told_andThen_result, told_complain_result, articlesTold_result, Res.ok_bind, ih, Told.of]

theorem boardArticleCommentsTold_result (db : DB) (fs : FS) (b f : Bytes) :
    (db.boardArticleCommentsTold fs b f).result = db.boardArticleComments fs b f := by
  unfold DB.boardArticleCommentsTold DB.boardArticleComments
  simp only [told_andThen_result, told_complain_result, articleTold_result, Told.of]
  congr 1
  funext x
  cases articleComments b f x <;> rfl

theorem boardUserCommentLoopTold_result (db : DB) (fs : FS) (board user : Bytes) (ars : List FileHeader) :
    (db.boardUserCommentLoopTold fs board user ars).result = db.boardUserCommentLoop fs board user ars := by
  induction ars with
  | nil => rfl
  | cons a ars ih =>
    unfold DB.boardUserCommentLoopTold DB.boardUserCommentLoop
    simp only [told_andThen_result, told_complain_result, boardArticleCommentsTold_result, ih, Told.of]

theorem boardUserCommentsTold_result (db : DB) (c : Codec) (fs : FS) (board user : Bytes) :
    (db.boardUserCommentsTold c fs board user).result = db.boardUserComments c fs board user := by
  unfold DB.boardUserCommentsTold DB.boardUserComments
  simp only [told_andThen_result, told_complain_result, articlesTold_result, boardUserCommentLoopTold_result]

theorem userCommentLoopTold_result (db : DB) (c : Codec) (fs : FS) (user : Bytes) (bs : List BoardHeader) :
    (db.userCommentLoopTold c fs user bs).result = db.userCommentLoop c fs user bs := by
  induction bs with
  | nil => rfl
  | cons b bs ih =>
    unfold DB.userCommentLoopTold DB.userCommentLoop
    split
    · exact ih
    · simp only [told_andThen_result, told_complain_result, boardUserCommentsTold_result, ih, Told.of]

/-- **C164.** With all that is written the searches find as before. -/
theorem C164_same (db : DB) (c : Codec) (fs : FS) (user : Bytes) :
    (db.userArticlesTold c fs user).result = db.userArticles c fs user ∧ (db.userCommentsTold c fs user).result = db.userComments c fs user := by
  unfold DB.userArticlesTold DB.userArticles DB.userCommentsTold DB.userComments
  simp only [told_andThen_result, told_complain_result, boardsTold_result, userArticleLoopTold_result, userCommentLoopTold_result, and_self]

/-! ## Trouble -/

/-- The reason is written. -/
def Spec.Told.Writes (m : Told α) (e : String) : Prop := ∃ who, LogWord.trouble who e ∈ m.lines

open Spec.Told

theorem writes_of (r : Res α) (e : String) : ¬ Writes (.of r) e := fun ⟨_, h⟩ => absurd h List.not_mem_nil

theorem of_result (r : Res α) : (Told.of r).result = r := rfl

theorem writes_complain (m : Told α) (who : String) (e : String) : Writes (m.complain who) e ↔ Writes m e ∨ m.result = .err e := by
  unfold Writes Told.complain
  split
  · next e' he' =>
    constructor
    · rintro ⟨w, h⟩
      rcases List.mem_append.mp h with h | h
      · exact .inl ⟨w, h⟩
      · cases List.mem_singleton.mp h; exact .inr he'
    · rintro (⟨w, h⟩ | h)
      · exact ⟨w, List.mem_append_left _ h⟩
      · cases he'.symm.trans h
        exact ⟨who, List.mem_append_right _ (List.mem_singleton.mpr rfl)⟩
  · next hn => exact ⟨.inl, fun h => h.elim id fun h => absurd h (hn e)⟩

theorem writes_andThen (m : Told α) (f : α → Told β) (e : String) : Writes (m.andThen f) e ↔ Writes m e ∨ ∃ a, m.result = .ok a ∧ Writes (f a) e := by
  unfold Writes Told.andThen
  split
  · next a ha =>
    constructor
    · rintro ⟨w, h⟩
      exact (List.mem_append.mp h).imp (fun h => ⟨w, h⟩) fun h => ⟨a, ha, w, h⟩
    · rintro (⟨w, h⟩ | ⟨a', ha', w, h⟩)
      · exact ⟨w, List.mem_append_left _ h⟩
      · cases ha.symm.trans ha'
        exact ⟨w, List.mem_append_right _ h⟩
  all_goals
    next h' => exact ⟨.inl, fun h => h.elim id fun ⟨a, ha, _⟩ => by cases h'.symm.trans ha⟩

theorem writes_path (r : Res Bytes) (who : String) (f : Bytes → Told α) (e : String) :
    Writes (Told.path r who f) e ↔ r = .err e ∨ ∃ p, r = .ok p ∧ Writes (f p) e := by
  have h1 : ∀ p e, ¬ Writes (⟨[.path p], .ok ()⟩ : Told Unit) e := fun p e ⟨w, h⟩ => by cases List.mem_singleton.mp h
  unfold Told.path
  rw [writes_andThen, writes_complain, told_complain_result]
  simp only [writes_of, false_or, writes_andThen, h1, of_result]
  constructor
  · rintro (h | ⟨p, hp, _, _, h⟩)
    · exact .inl h
    · exact .inr ⟨p, hp, h⟩
  · rintro (h | ⟨p, hp, h⟩)
    · exact .inl h
    · exact .inr ⟨p, hp, (), trivial, h⟩

/-- A board without a list of articles. -/
def Spec.Missing (db : DB) (c : Codec) (fs : FS) (board : Bytes) : Prop :=
  ∃ p, getBoardArticlesDirectoryPath db.home board = .ok p ∧ db.openArticleList c fs p = .err "no such file or directory"

theorem writes_articles (db : DB) (c : Codec) (fs : FS) (b : Bytes) (e : String) :
    Writes (db.articlesTold c fs b) e ↔ db.readArticleRecords c fs b = .err e ∨ (e = "no such file or directory" ∧ Missing db c fs b) := by
  rw [DB.articlesTold, writes_path]
  unfold DB.readArticleRecords Missing
  cases getBoardArticlesDirectoryPath db.home b with
  | err e' =>
    constructor
    · rintro (h | ⟨p, h, _⟩)
      · cases h; exact .inl rfl
      · cases h
    · rintro (h | ⟨_, p, h, _⟩)
      · cases h; exact .inl rfl
      · cases h
  | panic => exact ⟨fun h => (by rcases h with h | ⟨p, h, _⟩ <;> cases h), fun h => (by rcases h with h | ⟨_, p, h, _⟩ <;> cases h)⟩
  | diverge => exact ⟨fun h => (by rcases h with h | ⟨p, h, _⟩ <;> cases h), fun h => (by rcases h with h | ⟨_, p, h, _⟩ <;> cases h)⟩
  | ok p =>
    simp only [Res.ok_bind, Res.ok.injEq, exists_eq_left', reduceCtorEq, false_or]
    cases db.openArticleList c fs p with
    | ok l => exact ⟨fun ⟨_, h⟩ => absurd h List.not_mem_nil, fun h => (by rcases h with h | ⟨_, h⟩ <;> cases h)⟩
    | panic => exact ⟨fun ⟨_, h⟩ => absurd h List.not_mem_nil, fun h => (by rcases h with h | ⟨_, h⟩ <;> cases h)⟩
    | diverge => exact ⟨fun ⟨_, h⟩ => absurd h List.not_mem_nil, fun h => (by rcases h with h | ⟨_, h⟩ <;> cases h)⟩
    | err e' =>
      show Writes (if e' = "no such file or directory" then (⟨[.trouble "" e'], .ok []⟩ : Told (List FileHeader))
        else ⟨[.trouble "" e'] ++ [.trouble "bbs: ReadArticleRecordsFile error:" e'], .err e'⟩) e ↔
        (if e' = "no such file or directory" then (.ok [] : Res (List FileHeader)) else .err e') = .err e ∨ _
      by_cases he : e' = "no such file or directory"
      · rw [if_pos he, if_pos he]
        constructor
        · rintro ⟨w, h⟩
          cases List.mem_singleton.mp h
          exact .inr ⟨he, by rw [he]⟩
        · rintro (h | ⟨h, h'⟩)
          · cases h
          · exact ⟨"", List.mem_singleton.mpr (by rw [he, h])⟩
      · rw [if_neg he, if_neg he]
        constructor
        · rintro ⟨w, h⟩
          rcases List.mem_append.mp h with h | h <;> (cases List.mem_singleton.mp h; exact .inl rfl)
        · rintro (h | ⟨h, h'⟩)
          · cases h; exact ⟨"", List.mem_append_left _ (List.mem_singleton.mpr rfl)⟩
          · cases h'; exact absurd rfl he

theorem writes_boards (db : DB) (c : Codec) (fs : FS) (e : String) : Writes (db.boardsTold c fs) e ↔ db.readBoardRecords c fs = .err e := by
  rw [DB.boardsTold, writes_path]
  simp only [writes_complain, writes_of, told_complain_result, false_or, or_self, of_result]
  constructor
  · rintro (h | ⟨p, hp, h⟩)
    · cases h
    · unfold DB.readBoardRecords; rw [hp]; exact h
  · intro h
    exact .inr ⟨_, rfl, h⟩

theorem writes_article (db : DB) (fs : FS) (b f : Bytes) (e : String) : Writes (db.articleTold fs b f) e ↔ db.readBoardArticleFile fs b f = .err e := by
  rw [DB.articleTold, writes_path]
  simp only [writes_complain, writes_of, false_or, of_result]
  unfold DB.readBoardArticleFile
  cases getBoardArticleFilePath db.home b f with
  | ok p => simp [Res.ok_bind]
  | err e' => exact ⟨fun h => (by rcases h with h | ⟨p, h, _⟩; exact (by cases h; rfl); cases h), fun h => .inl (by cases h; rfl)⟩
  | panic => exact ⟨fun h => (by rcases h with h | ⟨p, h, _⟩ <;> cases h), fun h => by cases h⟩
  | diverge => exact ⟨fun h => (by rcases h with h | ⟨p, h, _⟩ <;> cases h), fun h => by cases h⟩

/-- A board without a list is come to before the search of `bs` fails, if it does. -/
def Spec.MetMissing (db : DB) (c : Codec) (fs : FS) (loop : List BoardHeader → Res (List α)) (bs : List BoardHeader) : Prop :=
  ∃ pre b post l, bs = pre ++ b :: post ∧ b.brdName ≠ ascii "ALLPOST" ∧ loop pre = .ok l ∧ Missing db c fs b.brdName

theorem skips_iff (b : Bytes) : DB.shouldSkip b = true ↔ b = ascii "ALLPOST" := by
  unfold DB.shouldSkip
  exact decide_eq_true_iff

theorem missing_read {db : DB} {c : Codec} {fs : FS} {b : Bytes} (h : Missing db c fs b) : db.readArticleRecords c fs b = .ok [] := by
  obtain ⟨p, hp, ho⟩ := h
  unfold DB.readArticleRecords
  rw [hp, Res.ok_bind, ho]
  rfl

theorem met_skip {db : DB} {c : Codec} {fs : FS} {loop : List BoardHeader → Res (List α)} {b : BoardHeader} {bs : List BoardHeader}
    (hs : b.brdName = ascii "ALLPOST") (hl : ∀ bs, loop (b :: bs) = loop bs) : MetMissing db c fs loop (b :: bs) ↔ MetMissing db c fs loop bs := by
  constructor
  · rintro ⟨pre, b', post, l, h1, h2, h3, h4⟩
    cases pre with
    | nil => cases h1; exact absurd hs h2
    | cons x pre =>
      cases h1
      exact ⟨pre, b', post, l, rfl, h2, by rw [← hl]; exact h3, h4⟩
  · rintro ⟨pre, b', post, l, rfl, h2, h3, h4⟩
    exact ⟨b :: pre, b', post, l, rfl, h2, by rw [hl]; exact h3, h4⟩

theorem met_step {db : DB} {c : Codec} {fs : FS} {loop : List BoardHeader → Res (List α)} {b : BoardHeader} {bs : List BoardHeader} (r : Res (List α))
    (hs : b.brdName ≠ ascii "ALLPOST") (hl : ∀ bs, loop (b :: bs) = r >>= fun x => loop bs >>= fun y => .ok (x ++ y)) (h0 : loop [] = .ok []) :
    MetMissing db c fs loop (b :: bs) ↔ Missing db c fs b.brdName ∨ (∃ x, r = .ok x) ∧ MetMissing db c fs loop bs := by
  constructor
  · rintro ⟨pre, b', post, l, h1, h2, h3, h4⟩
    cases pre with
    | nil => cases h1; exact .inl h4
    | cons x pre =>
      cases h1
      rw [hl] at h3
      obtain ⟨x, hx, h3⟩ := Res.bind_eq_ok.mp h3
      obtain ⟨y, hy, -⟩ := Res.bind_eq_ok.mp h3
      exact .inr ⟨⟨x, hx⟩, pre, b', post, y, rfl, h2, hy, h4⟩
  · rintro (h | ⟨⟨x, hx⟩, pre, b', post, l, rfl, h2, h3, h4⟩)
    · exact ⟨[], b, bs, [], rfl, hs, h0, h⟩
    · exact ⟨b :: pre, b', post, x ++ l, rfl, h2, by rw [hl, hx, Res.ok_bind, h3]; rfl, h4⟩

theorem bind_eq_err {r : Res α} {f : α → Res β} {e : String} : (r >>= f) = .err e ↔ r = .err e ∨ ∃ a, r = .ok a ∧ f a = .err e := by
  cases r with
  | ok a => exact ⟨fun h => .inr ⟨a, rfl, h⟩, fun h => (by rcases h with h | ⟨_, h, h'⟩ <;> cases h; exact h')⟩
  | err e' => exact ⟨fun h => .inl (by cases h; rfl), fun h => (by rcases h with h | ⟨_, h, _⟩ <;> cases h; rfl)⟩
  | panic => exact ⟨fun h => (by cases h), fun h => (by rcases h with h | ⟨_, h, _⟩ <;> cases h)⟩
  | diverge => exact ⟨fun h => (by cases h), fun h => (by rcases h with h | ⟨_, h, _⟩ <;> cases h)⟩

theorem writes_articleLoop (db : DB) (c : Codec) (fs : FS) (user : Bytes) (n : Nat) (bs : List BoardHeader) (e : String) :
    Writes (db.userArticleLoopTold c fs user n bs) e ↔
      db.userArticleLoop c fs user bs = .err e ∨ (e = "no such file or directory" ∧ MetMissing db c fs (db.userArticleLoop c fs user) bs) := by
  induction bs generalizing n with
  | nil =>
    refine ⟨fun ⟨_, h⟩ => absurd h List.not_mem_nil, ?_⟩
    rintro (h | ⟨-, pre, b, post, l, h, -⟩)
    · cases h
    · cases pre <;> cases h
  | cons b bs ih =>
    by_cases hs : DB.shouldSkip b.brdName = true
    · have hl : ∀ bs, db.userArticleLoop c fs user (b :: bs) = db.userArticleLoop c fs user bs := fun bs => by
        rw [DB.userArticleLoop, if_pos hs]
      rw [met_skip ((skips_iff _).mp hs) hl, hl, DB.userArticleLoopTold, if_pos hs, ih]
    · have hl : ∀ bs, db.userArticleLoop c fs user (b :: bs) =
          (db.readArticleRecords c fs b.brdName >>= fun ars => .ok ((ars.filter (fun ar => ar.owner = user)).map fun ar =>
            (⟨b.brdName, ar.title, ar.owner, ar.filename⟩ : UserArticle))) >>= fun x => db.userArticleLoop c fs user bs >>= fun y => .ok (x ++ y) := by
        intro bs
        rw [DB.userArticleLoop, if_neg hs]
        simp only [bind_assoc_res, Res.ok_bind]
      have hw : ∀ (b : Bytes) (n k : Nat) (e : String),
          ¬ Writes (⟨(List.range k).map fun i => LogWord.hit b (n + i), .ok ()⟩ : Told Unit) e := by
        rintro b n k e ⟨w, h⟩
        obtain ⟨i, -, h⟩ := List.mem_map.mp h
        cases h
      rw [met_step _ (fun h => hs ((skips_iff _).mpr h)) hl rfl, hl, DB.userArticleLoopTold, if_neg hs]
      simp only [writes_andThen, writes_complain, told_complain_result, articlesTold_result, writes_articles, hw, false_or, Res.ok.injEq,
        exists_const, writes_of, and_false, or_false, bind_eq_err, ih, Res.bind_eq_ok, reduceCtorEq]
      constructor
      · rintro (((h | ⟨he, h⟩) | h) | ⟨a, ha, -, h | ⟨he, h⟩⟩)
        · exact .inl (.inl h)
        · exact .inr ⟨he, .inl h⟩
        · exact .inl (.inl h)
        · exact .inl (.inr ⟨_, ⟨a, ha, rfl⟩, h⟩)
        · exact .inr ⟨he, .inr ⟨⟨_, a, ha, rfl⟩, h⟩⟩
      · rintro ((h | ⟨_, ⟨a, ha, -⟩, h⟩) | ⟨he, h | ⟨⟨_, a, ha, -⟩, h⟩⟩)
        · exact .inl (.inr h)
        · exact .inr ⟨a, ha, trivial, .inl h⟩
        · exact .inl (.inl (.inr ⟨he, h⟩))
        · exact .inr ⟨a, ha, trivial, .inr ⟨he, h⟩⟩

theorem writes_articleComments (db : DB) (fs : FS) (b f : Bytes) (e : String) :
    Writes (db.boardArticleCommentsTold fs b f) e ↔ db.boardArticleComments fs b f = .err e := by
  have hw : ∀ (x : Bytes) (crs : List UserComment), ¬ Writes (⟨if crs.length > 1 then [.content x] else [], .ok crs⟩ : Told (List UserComment)) e := by
    rintro x crs ⟨w, h⟩
    split at h
    · cases List.mem_singleton.mp h
    · cases h
  unfold DB.boardArticleCommentsTold DB.boardArticleComments
  simp only [writes_andThen, writes_complain, writes_of, told_complain_result, articleTold_result, writes_article, of_result, hw, bind_eq_err, false_or,
    and_false, exists_false, or_false, or_self]

theorem writes_boardLoop (db : DB) (fs : FS) (b user : Bytes) (ars : List FileHeader) (e : String) :
    Writes (db.boardUserCommentLoopTold fs b user ars) e ↔ db.boardUserCommentLoop fs b user ars = .err e := by
  induction ars with
  | nil => exact ⟨fun ⟨_, h⟩ => absurd h List.not_mem_nil, fun h => (by cases h)⟩
  | cons a ars ih =>
    unfold DB.boardUserCommentLoopTold DB.boardUserCommentLoop
    simp only [writes_andThen, writes_complain, writes_of, told_complain_result, boardArticleCommentsTold_result, writes_articleComments, ih, bind_eq_err,
      and_false, exists_false, or_false, or_self, reduceCtorEq]

theorem writes_boardComments (db : DB) (c : Codec) (fs : FS) (b user : Bytes) (e : String) :
    Writes (db.boardUserCommentsTold c fs b user) e ↔
      db.boardUserComments c fs b user = .err e ∨ (e = "no such file or directory" ∧ Missing db c fs b) := by
  unfold DB.boardUserCommentsTold DB.boardUserComments
  simp only [writes_andThen, writes_complain, told_complain_result, articlesTold_result, writes_articles, writes_boardLoop, bind_eq_err]
  constructor
  · rintro (((h | h) | h) | h)
    · exact .inl (.inl h)
    · exact .inr h
    · exact .inl (.inl h)
    · exact .inl (.inr h)
  · rintro ((h | h) | h)
    · exact .inl (.inr h)
    · exact .inr h
    · exact .inl (.inl (.inr h))

theorem writes_commentLoop (db : DB) (c : Codec) (fs : FS) (user : Bytes) (bs : List BoardHeader) (e : String) :
    Writes (db.userCommentLoopTold c fs user bs) e ↔
      db.userCommentLoop c fs user bs = .err e ∨ (e = "no such file or directory" ∧ MetMissing db c fs (db.userCommentLoop c fs user) bs) := by
  induction bs with
  | nil =>
    refine ⟨fun ⟨_, h⟩ => absurd h List.not_mem_nil, ?_⟩
    rintro (h | ⟨-, pre, b, post, l, h, -⟩)
    · cases h
    · cases pre <;> cases h
  | cons b bs ih =>
    by_cases hs : DB.shouldSkip b.brdName = true
    · have hl : ∀ bs, db.userCommentLoop c fs user (b :: bs) = db.userCommentLoop c fs user bs := fun bs => by
        rw [DB.userCommentLoop, if_pos hs]
      rw [met_skip ((skips_iff _).mp hs) hl, hl, DB.userCommentLoopTold, if_pos hs, ih]
    · have hl : ∀ bs, db.userCommentLoop c fs user (b :: bs) =
          db.boardUserComments c fs b.brdName user >>= fun x => db.userCommentLoop c fs user bs >>= fun y => .ok (x ++ y) := by
        intro bs
        rw [DB.userCommentLoop, if_neg hs]
      rw [met_step _ (fun h => hs ((skips_iff _).mpr h)) hl rfl, hl, DB.userCommentLoopTold, if_neg hs]
      simp only [writes_andThen, writes_complain, told_complain_result, boardUserCommentsTold_result, writes_boardComments,
        writes_of, and_false, exists_false, or_false, bind_eq_err, ih, reduceCtorEq]
      constructor
      · rintro (((h | ⟨he, h⟩) | h) | ⟨a, ha, h | ⟨he, h⟩⟩)
        · exact .inl (.inl h)
        · exact .inr ⟨he, .inl h⟩
        · exact .inl (.inl h)
        · exact .inl (.inr ⟨a, ha, h⟩)
        · exact .inr ⟨he, .inr ⟨⟨a, ha⟩, h⟩⟩
      · rintro ((h | ⟨a, ha, h⟩) | ⟨he, h | ⟨⟨a, ha⟩, h⟩⟩)
        · exact .inl (.inr h)
        · exact .inr ⟨a, ha, .inl h⟩
        · exact .inl (.inl (.inr ⟨he, h⟩))
        · exact .inr ⟨a, ha, .inr ⟨he, h⟩⟩

/-- The full claim of C164: a reason is in the log of a search iff the search failed with it. -/
def Spec.C164 : Prop := ∀ (db : DB) (c : Codec) (fs : FS) (user : Bytes) (e : String),
  (Writes (db.userArticlesTold c fs user) e ↔ db.userArticles c fs user = .err e) ∧
  (Writes (db.userCommentsTold c fs user) e ↔ db.userComments c fs user = .err e)

/-- **C164, exactly.** A reason is in the log of a search iff the search failed with it, or it is that there is no file, and the search came to a
board without a list of articles. -/
theorem C164_exact (db : DB) (c : Codec) (fs : FS) (user : Bytes) (e : String) :
    (Writes (db.userArticlesTold c fs user) e ↔ db.userArticles c fs user = .err e ∨
      (e = "no such file or directory" ∧ ∃ bs, db.readBoardRecords c fs = .ok bs ∧ MetMissing db c fs (db.userArticleLoop c fs user) bs)) ∧
    (Writes (db.userCommentsTold c fs user) e ↔ db.userComments c fs user = .err e ∨
      (e = "no such file or directory" ∧ ∃ bs, db.readBoardRecords c fs = .ok bs ∧ MetMissing db c fs (db.userCommentLoop c fs user) bs)) := by
  unfold DB.userArticlesTold DB.userArticles DB.userCommentsTold DB.userComments
  simp only [writes_andThen, writes_complain, told_complain_result, boardsTold_result, writes_boards, writes_articleLoop, writes_commentLoop, bind_eq_err,
    or_self]
  constructor
  all_goals
    constructor
    · rintro (h | ⟨a, ha, h | ⟨he, h⟩⟩)
      · exact .inl (.inl h)
      · exact .inl (.inr ⟨a, ha, h⟩)
      · exact .inr ⟨he, a, ha, h⟩
    · rintro ((h | ⟨a, ha, h⟩) | ⟨he, a, ha, h⟩)
      · exact .inl h
      · exact .inr ⟨a, ha, .inl h⟩
      · exact .inr ⟨a, ha, .inr ⟨he, h⟩⟩

/-- **C164.** Whenever a search fails, the reason is in the log. -/
theorem C164_reported_partial (db : DB) (c : Codec) (fs : FS) (user : Bytes) (e : String) :
    (db.userArticles c fs user = .err e → Writes (db.userArticlesTold c fs user) e) ∧
    (db.userComments c fs user = .err e → Writes (db.userCommentsTold c fs user) e) :=
  ⟨fun h => (C164_exact db c fs user e).1.mpr (.inl h), fun h => (C164_exact db c fs user e).2.mpr (.inl h)⟩

/-! ## What was found -/

/-- The lines about what was found. -/
def Spec.hits (ws : List LogWord) : List (Bytes × Nat) := ws.filterMap fun
  | .hit b n => some (b, n)
  | _ => none

theorem hits_append (x y : List LogWord) : hits (x ++ y) = hits x ++ hits y := List.filterMap_append ..

theorem hits_none {ws : List LogWord} (h : ∀ b n, LogWord.hit b n ∉ ws) : hits ws = [] := by
  unfold hits
  refine List.filterMap_eq_nil_iff.mpr fun w hw => ?_
  cases w with
  | hit b n => exact absurd hw (h b n)
  | _ => rfl

theorem hits_complain (m : Told α) (who : String) : hits (m.complain who).lines = hits m.lines := by
  unfold Told.complain
  split
  · rw [hits_append]; simp [hits]
  · rfl

theorem hits_boards (db : DB) (c : Codec) (fs : FS) : hits (db.boardsTold c fs).lines = [] := by
  show hits (LogWord.path _ :: ((Told.of (db.openBoardList c fs _)).complain "" |>.complain _).lines) = []
  rw [show ∀ (p : Bytes) ws, hits (.path p :: ws) = hits ws from fun _ _ => rfl, hits_complain, hits_complain]
  rfl

theorem hits_andThen_ok {m : Told α} {a : α} (h : m.result = .ok a) (f : α → Told β) :
    hits (m.andThen f).lines = hits m.lines ++ hits (f a).lines := by
  unfold Told.andThen
  rw [h]
  exact hits_append ..

theorem hits_andThen_not {m : Told α} (h : ∀ a, m.result ≠ .ok a) (f : α → Told β) : hits (m.andThen f).lines = hits m.lines := by
  unfold Told.andThen
  split
  · next a ha => exact absurd ha (h a)
  · rfl
  · rfl
  · rfl

theorem hits_andThen_nil {m : Told α} {f : α → Told β} (h : hits m.lines = []) (hf : ∀ a, hits (f a).lines = []) :
    hits (m.andThen f).lines = [] := by
  by_cases hm : ∃ a, m.result = .ok a
  · obtain ⟨a, hm⟩ := hm
    rw [hits_andThen_ok hm, h, hf]
    rfl
  · rw [hits_andThen_not (fun a h => hm ⟨a, h⟩), h]

theorem hits_path {r : Res Bytes} {who : String} {f : Bytes → Told α} (h : ∀ p, hits (f p).lines = []) : hits (Told.path r who f).lines = [] := by
  cases r with
  | ok p => rw [told_path_ok rfl]; exact h p
  | _ => rfl

theorem hits_articles (db : DB) (c : Codec) (fs : FS) (b : Bytes) : hits (db.articlesTold c fs b).lines = [] := by
  refine hits_path fun p => ?_
  cases db.openArticleList c fs p with
  | err e =>
    show hits (if e = "no such file or directory" then _ else _ : Told (List FileHeader)).lines = []
    split <;> rfl
  | _ => rfl

theorem hits_range (b : Bytes) (n k : Nat) : hits ((List.range k).map fun i => .hit b (n + i)) = (List.range k).map fun i => (b, n + i) := by
  unfold hits
  rw [List.filterMap_map]
  exact List.filterMap_eq_map (f := fun i => (b, n + i)) ▸ rfl

theorem mapIdx_same (b : Bytes) (n : Nat) (rs : List UserArticle) (h : ∀ r ∈ rs, r.board = b) :
    rs.mapIdx (fun i r => (r.board, n + i)) = (List.range rs.length).map fun i => (b, n + i) := by
  apply List.ext_getElem
  · simp
  · intro i h1 h2
    simp only [List.getElem_mapIdx, List.getElem_map, List.getElem_range, Prod.mk.injEq, and_true]
    exact h _ (List.getElem_mem _)

theorem hits_loop (db : DB) (c : Codec) (fs : FS) (user : Bytes) (n : Nat) (bs : List BoardHeader) :
    ∃ pre post recs, bs = pre ++ post ∧ db.userArticleLoop c fs user pre = .ok recs ∧
      hits (db.userArticleLoopTold c fs user n bs).lines = recs.mapIdx (fun i r => (r.board, n + i)) ∧
      (post = [] ∨ ∃ b post', post = b :: post' ∧ b.brdName ≠ ascii "ALLPOST" ∧ ∀ l, db.readArticleRecords c fs b.brdName ≠ .ok l) := by
  induction bs generalizing n with
  | nil => exact ⟨[], [], [], rfl, rfl, rfl, .inl rfl⟩
  | cons b bs ih =>
    by_cases hs : DB.shouldSkip b.brdName = true
    · obtain ⟨pre, post, recs, h1, h2, h3, h4⟩ := ih n
      refine ⟨b :: pre, post, recs, by rw [h1]; rfl, ?_, ?_, h4⟩
      · rw [DB.userArticleLoop, if_pos hs, h2]
      · rw [DB.userArticleLoopTold, if_pos hs, h3]
    · have hne : b.brdName ≠ ascii "ALLPOST" := fun h => hs ((skips_iff _).mpr h)
      rw [DB.userArticleLoopTold, if_neg hs]
      have hres : ((db.articlesTold c fs b.brdName).complain "bbs: ReadBoardArticleRecordsFile error:").result = db.readArticleRecords c fs b.brdName := by
        rw [told_complain_result, articlesTold_result]
      by_cases hr : ∃ ars, db.readArticleRecords c fs b.brdName = .ok ars
      · obtain ⟨ars, hr⟩ := hr
        have hf : ∀ r ∈ (ars.filter (fun ar => ar.owner = user)).map (fun ar => (⟨b.brdName, ar.title, ar.owner, ar.filename⟩ : UserArticle)), r.board = b.brdName := by
          intro r h
          obtain ⟨ar, -, rfl⟩ := List.mem_map.mp h
          rfl
        generalize hrs : (ars.filter (fun ar => ar.owner = user)).map (fun ar => (⟨b.brdName, ar.title, ar.owner, ar.filename⟩ : UserArticle)) = rs at hf
        obtain ⟨pre, post, recs, h1, h2, h3, h4⟩ := ih (n + rs.length)
        refine ⟨b :: pre, post, rs ++ recs, by rw [h1]; rfl, ?_, ?_, h4⟩
        · rw [DB.userArticleLoop, if_neg hs, hr]
          simp only [Res.ok_bind, h2, hrs]
        · rw [hits_andThen_ok (hres.trans hr), hits_complain, hits_articles, List.nil_append]
          simp only [hrs]
          have hq : ∀ (m : Told (List UserArticle)), hits (m.andThen fun rest => .of (.ok (rs ++ rest))).lines = hits m.lines := by
            intro m
            by_cases hm : ∃ a, m.result = .ok a
            · obtain ⟨a, hm⟩ := hm
              rw [hits_andThen_ok hm]
              exact List.append_nil _
            · exact hits_andThen_not (fun a h => hm ⟨a, h⟩) _
          rw [hits_andThen_ok rfl, hq, h3, hits_range, ← mapIdx_same _ _ _ hf, List.mapIdx_append]
          simp only [Nat.add_assoc, Nat.add_comm rs.length]
      · refine ⟨[], b :: bs, [], rfl, rfl, ?_, .inr ⟨b, bs, rfl, hne, fun l h => hr ⟨l, h⟩⟩⟩
        rw [hits_andThen_not (fun a h => hr ⟨a, hres.symm.trans h⟩), hits_complain, hits_articles]
        rfl

theorem loop_blocked {db : DB} {c : Codec} {fs : FS} {user : Bytes} {b : BoardHeader} {post : List BoardHeader}
    (hb : ¬ DB.shouldSkip b.brdName = true) (hn : ∀ l, db.readArticleRecords c fs b.brdName ≠ .ok l) (pre : List BoardHeader) (recs : List UserArticle) :
    db.userArticleLoop c fs user (pre ++ b :: post) ≠ .ok recs := by
  induction pre generalizing recs with
  | nil =>
    intro hl
    rw [List.nil_append, DB.userArticleLoop, if_neg hb] at hl
    obtain ⟨x, hx, -⟩ := Res.bind_eq_ok.mp hl
    exact hn x hx
  | cons a pre ih =>
    intro hl
    rw [List.cons_append, DB.userArticleLoop] at hl
    split at hl
    · exact ih recs hl
    · obtain ⟨x, hx, h⟩ := Res.bind_eq_ok.mp hl
      obtain ⟨y, hy, -⟩ := Res.bind_eq_ok.mp h
      exact ih y hy

/-- **C164.** The lines about what was found are those of the articles found on the boards before the first that cannot be read, each with its board
and with the number of those before it; when the search succeeds, they are those of the answer. -/
theorem C164_found (db : DB) (c : Codec) (fs : FS) (user : Bytes) :
    (∀ recs, db.userArticles c fs user = .ok recs → hits (db.userArticlesTold c fs user).lines = recs.mapIdx fun i r => (r.board, i)) ∧
    (∀ bs, db.readBoardRecords c fs = .ok bs → ∃ pre post recs, bs = pre ++ post ∧ db.userArticleLoop c fs user pre = .ok recs ∧
      hits (db.userArticlesTold c fs user).lines = recs.mapIdx (fun i r => (r.board, i)) ∧
      (post = [] ∨ ∃ b post', post = b :: post' ∧ b.brdName ≠ ascii "ALLPOST" ∧ ∀ l, db.readArticleRecords c fs b.brdName ≠ .ok l)) ∧
    ((∀ bs, db.readBoardRecords c fs ≠ .ok bs) → hits (db.userArticlesTold c fs user).lines = []) := by
  have hres : ((db.boardsTold c fs).complain "bbs: ReadBoardRecords error:").result = db.readBoardRecords c fs := by
    rw [told_complain_result, boardsTold_result]
  have key : ∀ bs, db.readBoardRecords c fs = .ok bs →
      hits (db.userArticlesTold c fs user).lines = hits (db.userArticleLoopTold c fs user 0 bs).lines := by
    intro bs hb
    rw [DB.userArticlesTold, hits_andThen_ok (hres.trans hb), hits_complain, hits_boards, List.nil_append]
  have second : ∀ bs, db.readBoardRecords c fs = .ok bs → ∃ pre post recs, bs = pre ++ post ∧ db.userArticleLoop c fs user pre = .ok recs ∧
      hits (db.userArticlesTold c fs user).lines = recs.mapIdx (fun i r => (r.board, i)) ∧
      (post = [] ∨ ∃ b post', post = b :: post' ∧ b.brdName ≠ ascii "ALLPOST" ∧ ∀ l, db.readArticleRecords c fs b.brdName ≠ .ok l) := by
    intro bs hb
    obtain ⟨pre, post, recs, h1, h2, h3, h4⟩ := hits_loop db c fs user 0 bs
    refine ⟨pre, post, recs, h1, h2, ?_, h4⟩
    rw [key bs hb, h3]
    simp only [Nat.zero_add]
  refine ⟨?_, second, ?_⟩
  · intro recs hok
    unfold DB.userArticles at hok
    obtain ⟨bs, hb, hl⟩ := Res.bind_eq_ok.mp hok
    obtain ⟨pre, post, recs', h1, h2, h3, h4⟩ := second bs hb
    rcases h4 with rfl | ⟨b, post', rfl, hb', hn⟩
    · rw [List.append_nil] at h1
      rw [h1, h2] at hl
      cases hl
      exact h3
    · exfalso
      rw [h1] at hl
      exact loop_blocked (fun h => hb' ((skips_iff _).mp h)) hn pre recs hl
  · intro hb
    rw [DB.userArticlesTold, hits_andThen_not (fun a h => hb a (hres.symm.trans h)), hits_complain, hits_boards]

/-! ## Texts -/

/-- The texts of articles in the log. -/
def Spec.textsOf (ws : List LogWord) : List Bytes := ws.filterMap fun
  | .content t => some t
  | _ => none

theorem texts_append (x y : List LogWord) : textsOf (x ++ y) = textsOf x ++ textsOf y := List.filterMap_append ..

/-- The same as with the texts alone. -/
def SameTexts (m : Told α) (l : Logged α) : Prop := textsOf m.lines = l.texts ∧ m.result = l.result

theorem SameTexts.complain {m : Told α} {l : Logged α} (h : SameTexts m l) (who : String) : SameTexts (m.complain who) l := by
  refine ⟨?_, (told_complain_result ..).trans h.2⟩
  rw [← h.1]
  unfold Told.complain
  split
  · rw [texts_append]; exact List.append_nil _
  · rfl

theorem SameTexts.andThen {m : Told α} {l : Logged α} (h : SameTexts m l) {f : α → Told β} {g : α → Logged β} (hf : ∀ a, SameTexts (f a) (g a)) :
    SameTexts (m.andThen f) (l.andThen g) := by
  obtain ⟨ls, r⟩ := m
  obtain ⟨ts, r'⟩ := l
  obtain ⟨h1, rfl⟩ : textsOf ls = ts ∧ r = r' := h
  cases r with
  | ok a => exact ⟨(texts_append ..).trans (by rw [h1, (hf a).1]; rfl), (hf a).2⟩
  | _ => exact ⟨h1, rfl⟩

theorem SameTexts.of (r : Res α) : SameTexts (.of r) (.quiet r) := ⟨rfl, rfl⟩

theorem texts_andThen_nil {m : Told α} {f : α → Told β} (h : textsOf m.lines = []) (hf : ∀ a, textsOf (f a).lines = []) :
    textsOf (m.andThen f).lines = [] := by
  unfold Told.andThen
  split
  · exact (texts_append ..).trans (by rw [h, hf]; rfl)
  · exact h
  · exact h
  · exact h

theorem texts_path {r : Res Bytes} {who : String} {f : Bytes → Told α} (h : ∀ p, textsOf (f p).lines = []) : textsOf (Told.path r who f).lines = [] := by
  cases r with
  | ok p => rw [told_path_ok rfl]; exact h p
  | _ => rfl

theorem texts_boards (db : DB) (c : Codec) (fs : FS) : SameTexts (db.boardsTold c fs) (.quiet (db.readBoardRecords c fs)) :=
  ⟨texts_path fun _ => (((SameTexts.of _).complain _).complain _).1, boardsTold_result ..⟩

theorem texts_articles (db : DB) (c : Codec) (fs : FS) (b : Bytes) : SameTexts (db.articlesTold c fs b) (.quiet (db.readArticleRecords c fs b)) := by
  refine ⟨texts_path fun p => ?_, articlesTold_result ..⟩
  cases db.openArticleList c fs p with
  | err e =>
    show textsOf (if e = "no such file or directory" then _ else _ : Told (List FileHeader)).lines = []
    split <;> rfl
  | _ => rfl

theorem texts_article (db : DB) (fs : FS) (b f : Bytes) : SameTexts (db.articleTold fs b f) (.quiet (db.readBoardArticleFile fs b f)) :=
  ⟨texts_path fun _ => ((SameTexts.of _).complain _).1, articleTold_result ..⟩

theorem texts_comments (db : DB) (fs : FS) (b f : Bytes) : SameTexts (db.boardArticleCommentsTold fs b f) (db.boardArticleCommentsLogged fs b f) :=
  ((texts_article ..).complain _).andThen fun content => ((SameTexts.of _).complain _).andThen fun crs => by
    refine ⟨?_, rfl⟩
    show textsOf (if crs.length > 1 then _ else _) = if crs.length > 1 then _ else _
    split <;> rfl

theorem texts_boardLoop (db : DB) (fs : FS) (b user : Bytes) (ars : List FileHeader) :
    SameTexts (db.boardUserCommentLoopTold fs b user ars) (db.boardUserCommentLoopLogged fs b user ars) := by
  induction ars with
  | nil => exact .of _
  | cons a ars ih => exact ((texts_comments ..).complain _).andThen fun crs => ih.andThen fun _ => .of _

theorem texts_loop (db : DB) (c : Codec) (fs : FS) (user : Bytes) (bs : List BoardHeader) :
    SameTexts (db.userCommentLoopTold c fs user bs) (db.userCommentLoopLogged c fs user bs) := by
  induction bs with
  | nil => exact .of _
  | cons b bs ih =>
    unfold DB.userCommentLoopTold DB.userCommentLoopLogged
    split
    · exact ih
    · exact (((texts_articles ..).complain _).andThen fun _ => texts_boardLoop ..).complain _ |>.andThen fun _ => ih.andThen fun _ => .of _

theorem hits_comments (db : DB) (fs : FS) (b f : Bytes) : hits (db.boardArticleCommentsTold fs b f).lines = [] := by
  have h1 : hits (db.articleTold fs b f).lines = [] := hits_path fun _ => hits_complain ..
  have h2 : ∀ (content : Bytes), hits (((Told.of (articleComments b f content)).complain "bbs: NewUserCommentRecord error:").andThen fun crs =>
      ⟨if crs.length > 1 then [.content content] else [], .ok crs⟩).lines = [] := by
    intro content
    refine hits_andThen_nil ((hits_complain ..).trans rfl) fun crs => ?_
    show hits (if crs.length > 1 then _ else _) = []
    split <;> rfl
  exact hits_andThen_nil ((hits_complain ..).trans h1) h2

/-- **C164.** The texts that a search for comments writes are those of C151; it writes no line about what was found. A search for articles writes no
text. -/
theorem C164_texts (db : DB) (c : Codec) (fs : FS) (user : Bytes) :
    textsOf (db.userCommentsTold c fs user).lines = (db.userCommentsLogged c fs user).texts ∧
    textsOf (db.userArticlesTold c fs user).lines = [] ∧ hits (db.userCommentsTold c fs user).lines = [] := by
  refine ⟨(((texts_boards ..).complain _).andThen fun bs => texts_loop ..).1, ?_, ?_⟩
  · have loop : ∀ (n : Nat) (bs : List BoardHeader), textsOf (db.userArticleLoopTold c fs user n bs).lines = [] := by
      intro n bs
      induction bs generalizing n with
      | nil => rfl
      | cons b bs ih =>
        unfold DB.userArticleLoopTold
        split
        · exact ih n
        · refine texts_andThen_nil ((texts_articles ..).complain _).1 fun ars => texts_andThen_nil ?_ fun _ => texts_andThen_nil (ih _) fun _ => rfl
          show textsOf (List.map _ _) = []
          unfold textsOf
          rw [List.filterMap_map]
          exact List.filterMap_eq_nil_iff.mpr fun _ _ => rfl
    exact texts_andThen_nil ((texts_boards ..).complain _).1 fun bs => loop 0 bs
  · have inner : ∀ (b : Bytes) (ars : List FileHeader), hits (db.boardUserCommentLoopTold fs b user ars).lines = [] := by
      intro b ars
      induction ars with
      | nil => rfl
      | cons a ars ih => exact hits_andThen_nil ((hits_complain ..).trans (hits_comments ..)) fun _ => hits_andThen_nil ih fun _ => rfl
    have loop : ∀ bs : List BoardHeader, hits (db.userCommentLoopTold c fs user bs).lines = [] := by
      intro bs
      induction bs with
      | nil => rfl
      | cons b bs ih =>
        unfold DB.userCommentLoopTold
        split
        · exact ih
        · exact hits_andThen_nil ((hits_complain ..).trans (hits_andThen_nil ((hits_complain ..).trans (hits_articles ..)) fun _ => inner ..))
            fun _ => hits_andThen_nil ih fun _ => rfl
    exact hits_andThen_nil ((hits_complain ..).trans (hits_boards ..)) loop

/-! ## Paths -/

/-- The paths in the log. -/
def Spec.pathsOf (ws : List LogWord) : List Bytes := ws.filterMap fun
  | .path p => some p
  | _ => none

theorem paths_append (x y : List LogWord) : pathsOf (x ++ y) = pathsOf x ++ pathsOf y := List.filterMap_append ..

theorem paths_complain (m : Told α) (who : String) : pathsOf (m.complain who).lines = pathsOf m.lines := by
  unfold Told.complain
  split
  · rw [paths_append]; exact List.append_nil _
  · rfl

theorem paths_andThen {m : Told α} {a : α} (h : m.result = .ok a) (f : α → Told β) :
    pathsOf (m.andThen f).lines = pathsOf m.lines ++ pathsOf (f a).lines := by
  unfold Told.andThen
  rw [h]
  exact paths_append ..

theorem paths_path {r : Res Bytes} {who : String} {f : Bytes → Told α} {p : Bytes} (hr : r = .ok p) (h : pathsOf (f p).lines = []) :
    pathsOf (Told.path r who f).lines = [p] := by
  rw [told_path_ok hr]
  exact congrArg (p :: ·) h

theorem paths_boards (db : DB) (c : Codec) (fs : FS) : pathsOf (db.boardsTold c fs).lines = [db.home ++ ascii "/.BRD"] :=
  paths_path rfl (by rw [paths_complain, paths_complain]; rfl)

theorem paths_articles {db : DB} {c : Codec} {fs : FS} {b : Bytes} {l : List FileHeader} (h : db.readArticleRecords c fs b = .ok l) :
    pathsOf (db.articlesTold c fs b).lines = [indexPath db.home b] := by
  unfold DB.readArticleRecords at h
  obtain ⟨p, hp, -⟩ := Res.bind_eq_ok.mp h
  have : p = indexPath db.home b := by
    cases b with
    | nil => cases hp
    | cons x b => cases hp; rfl
  subst this
  refine paths_path hp ?_
  cases db.openArticleList c fs _ with
  | err e =>
    show pathsOf (if e = "no such file or directory" then _ else _ : Told (List FileHeader)).lines = []
    split <;> rfl
  | _ => rfl

theorem paths_comments {db : DB} {fs : FS} {b f : Bytes} {l : List UserComment} (h : db.boardArticleComments fs b f = .ok l) :
    pathsOf (db.boardArticleCommentsTold fs b f).lines = [articlePath db.home b f] := by
  unfold DB.boardArticleComments at h
  obtain ⟨content, hc, ha⟩ := Res.bind_eq_ok.mp h
  have h1 : pathsOf (db.articleTold fs b f).lines = [articlePath db.home b f] := by
    unfold DB.readBoardArticleFile at hc
    obtain ⟨p, hp, -⟩ := Res.bind_eq_ok.mp hc
    have : p = articlePath db.home b f := by
      cases b with
      | nil => cases hp
      | cons x b => cases hp; rfl
    subst this
    exact paths_path hp (paths_complain ..)
  rw [DB.boardArticleCommentsTold, paths_andThen ((told_complain_result ..).trans ((articleTold_result ..).trans hc)), paths_complain, h1,
    paths_andThen ((told_complain_result ..).trans ha), paths_complain]
  refine congrArg (_ :: ·) ?_
  show pathsOf (if l.length > 1 then _ else _) = []
  split <;> rfl

theorem paths_boardLoop {db : DB} {fs : FS} {b user : Bytes} {ars : List FileHeader} {l : List UserComment}
    (h : db.boardUserCommentLoop fs b user ars = .ok l) :
    pathsOf (db.boardUserCommentLoopTold fs b user ars).lines = ars.map fun a => articlePath db.home b a.filename := by
  induction ars generalizing l with
  | nil => rfl
  | cons a ars ih =>
    unfold DB.boardUserCommentLoop at h
    obtain ⟨x, hx, h⟩ := Res.bind_eq_ok.mp h
    obtain ⟨y, hy, -⟩ := Res.bind_eq_ok.mp h
    rw [DB.boardUserCommentLoopTold, paths_andThen ((told_complain_result ..).trans ((boardArticleCommentsTold_result ..).trans hx)), paths_complain,
      paths_comments hx, paths_andThen ((boardUserCommentLoopTold_result ..).trans hy), ih hy]
    exact congrArg (_ :: ·) (List.append_nil _)

/-- **C164.** A search for articles that succeeds writes the path of the list of boards and those of the lists of articles, in the order of the boards;
one for comments writes after each list the paths of its articles. -/
theorem C164_paths (db : DB) (c : Codec) (fs : FS) (user : Bytes) (bs : List BoardHeader) (index : Bytes → List FileHeader)
    (hb : db.readBoardRecords c fs = .ok bs)
    (hi : ∀ b ∈ bs, b.brdName ≠ ascii "ALLPOST" → db.readArticleRecords c fs b.brdName = .ok (index b.brdName)) :
    pathsOf (db.userArticlesTold c fs user).lines =
      (db.home ++ ascii "/.BRD") :: (bs.filter fun b => b.brdName ≠ ascii "ALLPOST").map (fun b => indexPath db.home b.brdName) ∧
    (∀ recs, db.userComments c fs user = .ok recs → pathsOf (db.userCommentsTold c fs user).lines =
      (db.home ++ ascii "/.BRD") :: (bs.filter fun b => b.brdName ≠ ascii "ALLPOST").flatMap fun b =>
        indexPath db.home b.brdName :: (index b.brdName).map fun a => articlePath db.home b.brdName a.filename) := by
  have hres : ((db.boardsTold c fs).complain "bbs: ReadBoardRecords error:").result = .ok bs := by
    rw [told_complain_result, boardsTold_result, hb]
  constructor
  · rw [DB.userArticlesTold, paths_andThen hres, paths_complain, paths_boards]
    refine congrArg (_ :: ·) ?_
    show pathsOf (db.userArticleLoopTold c fs user 0 bs).lines = _
    generalize 0 = n
    clear hb hres
    induction bs generalizing n with
    | nil => rfl
    | cons b bs ih =>
      rw [DB.userArticleLoopTold]
      by_cases hs : DB.shouldSkip b.brdName = true
      · rw [if_pos hs, List.filter_cons_of_neg (by simp [(skips_iff _).mp hs])]
        exact ih (fun b' h => hi b' (List.mem_cons_of_mem _ h)) n
      · have hne : b.brdName ≠ ascii "ALLPOST" := fun h => hs ((skips_iff _).mpr h)
        have hr := hi b List.mem_cons_self hne
        rw [if_neg hs, List.filter_cons_of_pos (by simp [hne]),
          paths_andThen ((told_complain_result ..).trans ((articlesTold_result ..).trans hr)), paths_complain, paths_articles hr, paths_andThen rfl]
        refine congrArg (_ :: ·) ?_
        have h0 : ∀ (k : Nat), pathsOf ((List.range k).map fun i => LogWord.hit b.brdName (n + i)) = [] := by
          intro k
          unfold pathsOf
          rw [List.filterMap_map]
          exact List.filterMap_eq_nil_iff.mpr fun _ _ => rfl
        rw [h0, List.nil_append]
        have hrest : ∀ (bs : List BoardHeader), (∀ b ∈ bs, b.brdName ≠ ascii "ALLPOST" → db.readArticleRecords c fs b.brdName = .ok (index b.brdName)) →
            ∃ recs, db.userArticleLoop c fs user bs = .ok recs := by
          intro bs h
          induction bs with
          | nil => exact ⟨_, rfl⟩
          | cons b bs ih =>
            obtain ⟨r, hr⟩ := ih fun b' h' => h b' (List.mem_cons_of_mem _ h')
            rw [DB.userArticleLoop]
            split
            · exact ⟨r, hr⟩
            · next hs =>
              rw [h b List.mem_cons_self (fun h => hs ((skips_iff _).mpr h)), Res.ok_bind, hr]
              exact ⟨_, rfl⟩
        obtain ⟨r, hr'⟩ := hrest bs fun b' h => hi b' (List.mem_cons_of_mem _ h)
        rw [paths_andThen ((userArticleLoopTold_result ..).trans hr'), ih (fun b' h => hi b' (List.mem_cons_of_mem _ h))]
        exact List.append_nil _
  · intro recs hrec
    unfold DB.userComments at hrec
    rw [hb, Res.ok_bind] at hrec
    rw [DB.userCommentsTold, paths_andThen hres, paths_complain, paths_boards]
    refine congrArg (_ :: ·) ?_
    show pathsOf (db.userCommentLoopTold c fs user bs).lines = _
    clear hb hres
    induction bs generalizing recs with
    | nil => rfl
    | cons b bs ih =>
      rw [DB.userCommentLoop] at hrec
      rw [DB.userCommentLoopTold]
      by_cases hs : DB.shouldSkip b.brdName = true
      · rw [if_pos hs] at hrec
        rw [if_pos hs, List.filter_cons_of_neg (by simp [(skips_iff _).mp hs])]
        exact ih (fun b' h => hi b' (List.mem_cons_of_mem _ h)) _ hrec
      · have hne : b.brdName ≠ ascii "ALLPOST" := fun h => hs ((skips_iff _).mpr h)
        have hr := hi b List.mem_cons_self hne
        rw [if_neg hs] at hrec
        obtain ⟨x, hx, h⟩ := Res.bind_eq_ok.mp hrec
        obtain ⟨y, hy, -⟩ := Res.bind_eq_ok.mp h
        have hx' := hx
        rw [DB.boardUserComments, hr, Res.ok_bind] at hx'
        rw [if_neg hs, List.filter_cons_of_pos (by simp [hne]), List.flatMap_cons,
          paths_andThen ((told_complain_result ..).trans ((boardUserCommentsTold_result ..).trans hx)), paths_complain, DB.boardUserCommentsTold,
          paths_andThen ((told_complain_result ..).trans ((articlesTold_result ..).trans hr)), paths_complain, paths_articles hr, paths_boardLoop hx',
          paths_andThen ((userCommentLoopTold_result ..).trans hy), ih (fun b' h => hi b' (List.mem_cons_of_mem _ h)) _ hy]
        exact congrArg (_ ++ ·) (List.append_nil _)

/-! ## A board without a list -/

/-- A board, and no list of articles. -/
def lonelyFS : FS := sceneFS.set (at_ sampleDB .boardList) (.file (shelfBoard.marshal asciiCodec))

theorem lonely_lines : (sampleDB.userArticlesTold asciiCodec lonelyFS (ascii "Ab")).lines =
    [.path (ascii "/bbs/.BRD"), .path (ascii "/bbs/boards/S/S/.DIR"), .trouble "" "no such file or directory"] := by decide +kernel

theorem lonely_result : sampleDB.userArticles asciiCodec lonelyFS (ascii "Ab") = .ok [] := by decide +kernel

/-- **C164, the full claim, fails.** The reason that there is no file is written by searches that succeed. -/
theorem C164_refuted : ¬ Spec.C164 := by
  intro h
  have := (h sampleDB asciiCodec lonelyFS (ascii "Ab") "no such file or directory").1.mp
    ⟨"", by rw [lonely_lines]; exact List.mem_cons_of_mem _ (List.mem_cons_of_mem _ List.mem_cons_self)⟩
  rw [lonely_result] at this
  cases this

example : (sampleDB.userArticlesTold asciiCodec (shelfFS []) (ascii "Ab")).lines =
    [.path (ascii "/bbs/.BRD"), .path (ascii "/bbs/boards/S/S/.DIR"), .hit (ascii "S") 0] := by decide +kernel
example : hits (sampleDB.userArticlesTold asciiCodec (shelfFS []) (ascii "Ab")).lines = [(ascii "S", 0)] := by decide +kernel
example : (sampleDB.userArticlesTold asciiCodec ⟨[]⟩ (ascii "Ab")).lines =
    [.path (ascii "/bbs/.BRD"), .trouble "" "no such file or directory", .trouble "bbs: get user rec error:" "no such file or directory",
      .trouble "bbs: ReadBoardRecords error:" "no such file or directory"] := by decide +kernel
example : (sampleDB.userCommentsTold asciiCodec (shelfFS (firstPush ++ [10] ++ secondPush)) (ascii "Ab")).lines =
    [.path (ascii "/bbs/.BRD"), .path (ascii "/bbs/boards/S/S/.DIR"), .path (ascii "/bbs/boards/S/S/" ++ shelfName),
      .content (firstPush ++ [10] ++ secondPush)] := by decide +kernel

example : Writes (sampleDB.userArticlesTold asciiCodec ⟨[]⟩ (ascii "Ab")) "no such file or directory" :=
  (C164_reported_partial _ _ _ _ _).1 (by decide +kernel)
/-- The board without a list has been met. -/
example : ∃ bs, sampleDB.readBoardRecords asciiCodec lonelyFS = .ok bs ∧
    MetMissing sampleDB asciiCodec lonelyFS (sampleDB.userArticleLoop asciiCodec lonelyFS (ascii "Ab")) bs := by
  rcases (C164_exact sampleDB asciiCodec lonelyFS (ascii "Ab") "no such file or directory").1.mp
    ⟨"", by rw [lonely_lines]; exact List.mem_cons_of_mem _ (List.mem_cons_of_mem _ List.mem_cons_self)⟩ with h | ⟨-, h⟩
  · rw [lonely_result] at h; cases h
  · exact h
example : hits (sampleDB.userArticlesTold asciiCodec (shelfFS []) (ascii "Ab")).lines = [(ascii "S", 0)] :=
  (C164_found sampleDB asciiCodec (shelfFS []) (ascii "Ab")).1 [⟨ascii "S", ascii "old", ascii "Ab", shelfName⟩] (by decide +kernel)
example : pathsOf (sampleDB.userArticlesTold asciiCodec lonelyFS (ascii "Ab")).lines = [ascii "/bbs/.BRD", ascii "/bbs/boards/S/S/.DIR"] :=
  (C164_paths sampleDB asciiCodec lonelyFS (ascii "Ab") [storedBoard asciiCodec shelfBoard] (fun _ => []) (by decide +kernel)
    (fun b hb _ => by cases List.mem_singleton.mp hb; decide +kernel)).1

end Verif
