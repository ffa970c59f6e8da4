import Verif.Props.Driver
/-!
# Searches in front of any driver — C137
-/

namespace Verif
open Spec

theorem map_ok {σ α β : Type} (m : Method σ α) (f : α → β) (s : σ) (b : β) : (m.map f s).2 = .ok b ↔ ∃ a, (m s).2 = .ok a ∧ f a = b := by
  unfold Method.map Method.andThen Method.pure
  cases m s with
  | mk s' r => cases r <;> simp

theorem map_state {σ α β : Type} (m : Method σ α) (f : α → β) (s : σ) : (m.map f s).1 = (m s).1 := by
  unfold Method.map Method.andThen Method.pure
  cases m s with
  | mk s' r => cases r <;> rfl

/-- A method that leaves `s` as it is. -/
def Still {σ α : Type} (s : σ) (m : Method σ α) : Prop := (m s).1 = s

theorem Still.andThen {σ α β : Type} {s : σ} {m : Method σ α} {f : α → Method σ β} (h : Still s m) (hf : ∀ a, Still s (f a)) : Still s (m.andThen f) := by
  unfold Still Method.andThen at *
  cases e : m s with
  | mk s' r =>
    rw [e] at h
    have h : s' = s := h
    subst h
    cases r with
    | ok a => exact hf a
    | _ => rfl

theorem Still.pure {σ α : Type} (s : σ) (r : Res α) : Still s (Method.pure r) := rfl

theorem still_ok {σ α β : Type} {s : σ} {m : Method σ α} {f : α → Method σ β} (h : Still s m) (b : β) :
    (m.andThen f s).2 = .ok b ↔ ∃ a, (m s).2 = .ok a ∧ (f a s).2 = .ok b := by
  unfold Still Method.andThen at *
  cases e : m s with
  | mk s' r =>
    rw [e] at h
    have h : s' = s := h
    subst h
    cases r <;> simp

section
variable {σ : Type} {K : Kinds} {d : Driver σ K} {s : σ}

theorem still_listArticles (h : Unmoved d s) (b : Bytes) : Still s (d.listArticles b) := by
  refine Still.andThen (h.articlesPath b) fun p => ?_
  unfold Still Driver.readOrEmpty
  have h1 := h.readArticles p
  cases e : d.readArticles p s with
  | mk s' r =>
    rw [e] at h1
    cases r with
    | err t => by_cases hc : containsPhrase missingPhrase (ascii t) = true <;> simp [hc] <;> exact h1
    | _ => exact h1

theorem still_readBoards (h : Unmoved d s) : Still s d.readBoardRecords := Still.andThen h.boardsPath fun p => h.readBoards p

theorem still_articleComments (h : Unmoved d s) (b : Bytes) (a : K.Article) : Still s (d.articleCommentsOf b a) :=
  Still.andThen (Still.andThen (h.articlePath b _) fun p => h.readArticle p) fun _ => .pure s _

theorem still_boardUserCommentLoop (h : Unmoved d s) (b u : Bytes) (ars : List K.Article) : ∀ recs, Still s (d.boardUserCommentLoop b u ars recs) := by
  induction ars with
  | nil => exact fun _ => .pure s _
  | cons a ars ih => exact fun _ => (still_articleComments h b a).andThen fun _ => ih _

theorem still_boardUserComments (h : Unmoved d s) (b u : Bytes) : Still s (d.boardUserComments b u) :=
  (still_listArticles h b).andThen fun _ => still_boardUserCommentLoop h b u _ _

theorem shouldSkip_iff (b : Bytes) : DB.shouldSkip b = true ↔ b = ascii "ALLPOST" := by unfold DB.shouldSkip; exact decide_eq_true_iff

theorem searched_cons (b : K.Board) (bs : List K.Board) :
    searched (b :: bs) = if DB.shouldSkip (K.boardID b) = true then searched bs else b :: searched bs := by
  unfold searched
  by_cases hb : DB.shouldSkip (K.boardID b) = true
  · rw [if_pos hb, List.filter_cons_of_neg (by simpa using (shouldSkip_iff _).mp hb)]
  · rw [if_neg hb, List.filter_cons_of_pos (by simpa using fun e => hb ((shouldSkip_iff _).mpr e))]

/-- The list, if there is one. -/
def got {α : Type} : Res (List α) → List α
  | .ok l => l
  | _ => []

theorem flatMap_same {α β : Type} {l : List α} {f g : α → List β} (h : ∀ a ∈ l, f a = g a) : l.flatMap f = l.flatMap g := by
  induction l with
  | nil => rfl
  | cons a l ih => rw [List.flatMap_cons, List.flatMap_cons, h a (.head _), ih fun a ha => h a (.tail _ ha)]

/-- How an article is reported. -/
def reported (K : Kinds) (u : Bytes) (b : K.Board) (ars : List K.Article) : List UserArticle :=
  (ars.filter fun a => K.owner a = u).map fun a => { board := K.boardID b, title := K.title a, owner := K.owner a, article := K.filename a }

theorem loop_articles (h : Unmoved d s) (u : Bytes) (bs : List K.Board) : ∀ recs l, (d.userArticleLoop u bs recs s).2 = .ok l ↔
    (∀ b ∈ searched bs, ∃ ars, (d.listArticles (K.boardID b) s).2 = .ok ars) ∧
      l = recs ++ (searched bs).flatMap fun b => reported K u b (got (d.listArticles (K.boardID b) s).2) := by
  induction bs with
  | nil =>
    intro recs l
    constructor
    · intro e
      have e : Res.ok recs = Res.ok l := e
      exact ⟨(fun _ hb => by cases hb), by cases e; exact (List.append_nil _).symm⟩
    · rintro ⟨_, rfl⟩
      show Res.ok recs = _
      exact congrArg Res.ok (List.append_nil _).symm
  | cons b bs ih =>
    intro recs l
    rw [searched_cons]
    unfold Driver.userArticleLoop
    by_cases hb : DB.shouldSkip (K.boardID b) = true
    · rw [if_pos hb, if_pos hb]; exact ih recs l
    · rw [if_neg hb, if_neg hb, still_ok (still_listArticles h _)]
      constructor
      · rintro ⟨ars, h1, h2⟩
        obtain ⟨h3, rfl⟩ := (ih _ _).mp h2
        refine ⟨fun b' hb' => ?_, ?_⟩
        · rcases List.mem_cons.mp hb' with rfl | hb'
          · exact ⟨ars, h1⟩
          · exact h3 b' hb'
        · rw [List.flatMap_cons, ← List.append_assoc, h1]; rfl
      · rintro ⟨h1, rfl⟩
        obtain ⟨ars, ha⟩ := h1 b (.head _)
        refine ⟨ars, ha, (ih _ _).mpr ⟨fun b' hb' => h1 b' (.tail _ hb'), ?_⟩⟩
        rw [List.flatMap_cons, ← List.append_assoc, ha]; rfl

theorem call_boards (bs : List K.Board) : (d.call .readBoards s).2 = .ok (.boards bs) ↔ (d.readBoardRecords s).2 = .ok bs := by
  refine (map_ok _ _ _ _).trans ⟨?_, fun e => ⟨bs, e, rfl⟩⟩
  rintro ⟨a, h, e⟩
  cases e
  exact h

theorem call_articles (b : Bytes) (ars : List K.Article) :
    (d.call (.listArticles b) s).2 = .ok (.articles ars) ↔ (d.listArticles b s).2 = .ok ars := by
  refine (map_ok _ _ _ _).trans ⟨?_, fun e => ⟨ars, e, rfl⟩⟩
  rintro ⟨a, h, e⟩
  cases e
  exact h

theorem call_comments (b : Bytes) (a : K.Article) (l : List UserComment) :
    (d.call (.articleComments b a) s).2 = .ok (.userComments l) ↔ (d.articleCommentsOf b a s).2 = .ok l := by
  refine (map_ok _ _ _ _).trans ⟨?_, fun e => ⟨l, e, rfl⟩⟩
  rintro ⟨a, h, e⟩
  cases e
  exact h

theorem loop_boardComments (h : Unmoved d s) (b u : Bytes) (ars : List K.Article) : ∀ recs l, (d.boardUserCommentLoop b u ars recs s).2 = .ok l ↔
    (∀ a ∈ ars, ∃ crs, (d.articleCommentsOf b a s).2 = .ok crs) ∧
      l = recs ++ ars.flatMap fun a => (got (d.articleCommentsOf b a s).2).filter fun x => x.owner = u := by
  induction ars with
  | nil =>
    intro recs l
    constructor
    · intro e
      have e : Res.ok recs = Res.ok l := e
      exact ⟨(fun _ hb => by cases hb), by cases e; exact (List.append_nil _).symm⟩
    · rintro ⟨_, rfl⟩
      show Res.ok recs = _
      exact congrArg Res.ok (List.append_nil _).symm
  | cons a ars ih =>
    intro recs l
    unfold Driver.boardUserCommentLoop
    rw [still_ok (still_articleComments h b a)]
    constructor
    · rintro ⟨crs, h1, h2⟩
      obtain ⟨h3, rfl⟩ := (ih _ _).mp h2
      refine ⟨fun b' hb' => ?_, ?_⟩
      · rcases List.mem_cons.mp hb' with rfl | hb'
        · exact ⟨crs, h1⟩
        · exact h3 b' hb'
      · rw [List.flatMap_cons, ← List.append_assoc, h1]; rfl
    · rintro ⟨h1, rfl⟩
      obtain ⟨crs, ha⟩ := h1 a (.head _)
      refine ⟨crs, ha, (ih _ _).mpr ⟨fun b' hb' => h1 b' (.tail _ hb'), ?_⟩⟩
      rw [List.flatMap_cons, ← List.append_assoc, ha]; rfl

theorem boardComments_iff (h : Unmoved d s) (b u : Bytes) (l : List UserComment) :
    (d.boardUserComments b u s).2 = .ok l ↔ BoardComments d s b u l := by
  unfold Driver.boardUserComments BoardComments
  rw [still_ok (still_listArticles h b)]
  constructor
  · rintro ⟨ars, h1, h2⟩
    obtain ⟨h3, rfl⟩ := (loop_boardComments h b u ars _ _).mp h2
    refine ⟨ars, fun a => got (d.articleCommentsOf b a s).2, (call_articles b ars).mpr h1, fun a ha => (call_comments b a _).mpr ?_, rfl⟩
    obtain ⟨crs, e⟩ := h3 a ha
    show _ = Res.ok (got _)
    rw [e]; rfl
  · rintro ⟨ars, said, h1, h2, rfl⟩
    refine ⟨ars, (call_articles b ars).mp h1, (loop_boardComments h b u ars _ _).mpr ⟨fun a ha => ⟨_, (call_comments b a _).mp (h2 a ha)⟩, ?_⟩⟩
    rw [List.nil_append]
    exact flatMap_same fun a ha => by rw [(call_comments b a _).mp (h2 a ha)]; rfl

theorem loop_comments (h : Unmoved d s) (u : Bytes) (bs : List K.Board) : ∀ recs l, (d.userCommentLoop u bs recs s).2 = .ok l ↔
    (∀ b ∈ searched bs, ∃ crs, (d.boardUserComments (K.boardID b) u s).2 = .ok crs) ∧
      l = recs ++ (searched bs).flatMap fun b => got (d.boardUserComments (K.boardID b) u s).2 := by
  induction bs with
  | nil =>
    intro recs l
    constructor
    · intro e
      have e : Res.ok recs = Res.ok l := e
      exact ⟨(fun _ hb => by cases hb), by cases e; exact (List.append_nil _).symm⟩
    · rintro ⟨_, rfl⟩
      show Res.ok recs = _
      exact congrArg Res.ok (List.append_nil _).symm
  | cons b bs ih =>
    intro recs l
    rw [searched_cons]
    unfold Driver.userCommentLoop
    by_cases hb : DB.shouldSkip (K.boardID b) = true
    · rw [if_pos hb, if_pos hb]; exact ih recs l
    · rw [if_neg hb, if_neg hb, still_ok (still_boardUserComments h _ _)]
      constructor
      · rintro ⟨crs, h1, h2⟩
        obtain ⟨h3, rfl⟩ := (ih _ _).mp h2
        refine ⟨fun b' hb' => ?_, ?_⟩
        · rcases List.mem_cons.mp hb' with rfl | hb'
          · exact ⟨crs, h1⟩
          · exact h3 b' hb'
        · rw [List.flatMap_cons, ← List.append_assoc, h1]; rfl
      · rintro ⟨h1, rfl⟩
        obtain ⟨crs, ha⟩ := h1 b (.head _)
        refine ⟨crs, ha, (ih _ _).mpr ⟨fun b' hb' => h1 b' (.tail _ hb'), ?_⟩⟩
        rw [List.flatMap_cons, ← List.append_assoc, ha]; rfl

theorem search_articles (h : Unmoved d s) (u : Bytes) (l : List UserArticle) :
    ((d.readBoardRecords.andThen fun bs => d.userArticleLoop u bs []) s).2 = .ok l ↔ AllArticles d s u l := by
  unfold AllArticles
  rw [still_ok (still_readBoards h)]
  constructor
  · rintro ⟨bs, h1, h2⟩
    obtain ⟨h3, rfl⟩ := (loop_articles h u bs _ _).mp h2
    refine ⟨bs, fun x => got (d.listArticles x s).2, (call_boards bs).mpr h1, fun b hb => (call_articles _ _).mpr ?_, rfl⟩
    obtain ⟨ars, e⟩ := h3 b hb
    show _ = Res.ok (got _)
    rw [e]; rfl
  · rintro ⟨bs, list, h1, h2, rfl⟩
    refine ⟨bs, (call_boards bs).mp h1, (loop_articles h u bs _ _).mpr ⟨fun b hb => ⟨_, (call_articles _ _).mp (h2 b hb)⟩, ?_⟩⟩
    rw [List.nil_append]
    exact flatMap_same fun b hb => by rw [(call_articles _ _).mp (h2 b hb)]; rfl

theorem search_comments (h : Unmoved d s) (u : Bytes) (l : List UserComment) :
    ((d.readBoardRecords.andThen fun bs => d.userCommentLoop u bs []) s).2 = .ok l ↔ AllComments d s u l := by
  unfold AllComments
  rw [still_ok (still_readBoards h)]
  constructor
  · rintro ⟨bs, h1, h2⟩
    obtain ⟨h3, rfl⟩ := (loop_comments h u bs _ _).mp h2
    refine ⟨bs, fun x => got (d.boardUserComments x u s).2, (call_boards bs).mpr h1, fun b hb => (boardComments_iff h _ _ _).mp ?_, rfl⟩
    obtain ⟨ars, e⟩ := h3 b hb
    show _ = Res.ok (got _)
    rw [e]; rfl
  · rintro ⟨bs, said, h1, h2, rfl⟩
    refine ⟨bs, (call_boards bs).mp h1, (loop_comments h u bs _ _).mpr ⟨fun b hb => ⟨_, (boardComments_iff h _ _ _).mpr (h2 b hb)⟩, ?_⟩⟩
    rw [List.nil_append]
    exact flatMap_same fun b hb => by rw [(boardComments_iff h _ _ _).mpr (h2 b hb)]; rfl

theorem userArticles_inj {m : Method σ (List UserArticle)} {l : List UserArticle} :
    (m.map (FrontAnswer.userArticles (K := K)) s).2 = .ok (.userArticles l) ↔ (m s).2 = .ok l := by
  refine (map_ok _ _ _ _).trans ⟨?_, fun e => ⟨l, e, rfl⟩⟩
  rintro ⟨a, h, e⟩
  cases e
  exact h

theorem userComments_inj {m : Method σ (List UserComment)} {l : List UserComment} :
    (m.map (FrontAnswer.userComments (K := K)) s).2 = .ok (.userComments l) ↔ (m s).2 = .ok l := by
  refine (map_ok _ _ _ _).trans ⟨?_, fun e => ⟨l, e, rfl⟩⟩
  rintro ⟨a, h, e⟩
  cases e
  exact h

/-- In front of any driver that keeps no lists and that reading does not change, a search finds exactly the user's articles, board after board; it fails if a
list cannot be read. -/
theorem C137_articles_exact (h : Unmoved d s) (hk : d.articleKeeper = none) (u : Bytes) (l : List UserArticle) :
    (d.call (.userArticles u) s).2 = .ok (.userArticles l) ↔ AllArticles d s u l := by
  refine userArticles_inj.trans ?_
  unfold Driver.userArticles
  rw [hk]
  exact search_articles h u l

/-- The same for the comments in a board, and in all boards. -/
theorem C137_comments_exact (h : Unmoved d s) (hk : d.commentKeeper = none) (b u : Bytes) (l : List UserComment) :
    ((d.call (.boardUserComments b u) s).2 = .ok (.userComments l) ↔ BoardComments d s b u l) ∧
    ((d.call (.userComments u) s).2 = .ok (.userComments l) ↔ AllComments d s u l) := by
  refine ⟨userComments_inj.trans (boardComments_iff h b u l), userComments_inj.trans ?_⟩
  unfold Driver.userComments
  rw [hk]
  exact search_comments h u l

theorem loop_unkept (d : Driver σ K) (u : Bytes) (bs : List K.Board) : ∀ recs, { d with articleKeeper := none }.userArticleLoop u bs recs = d.userArticleLoop u bs recs := by
  induction bs with
  | nil => intro recs; rfl
  | cons b bs ih =>
    intro recs
    unfold Driver.userArticleLoop
    split
    · exact ih _
    · exact congrArg (Method.andThen _) (funext fun ars => ih _)

theorem boardLoop_unkept (d : Driver σ K) (b u : Bytes) (ars : List K.Article) : ∀ recs,
    { d with commentKeeper := none }.boardUserCommentLoop b u ars recs = d.boardUserCommentLoop b u ars recs := by
  induction ars with
  | nil => intro recs; rfl
  | cons a ars ih =>
    intro recs
    unfold Driver.boardUserCommentLoop
    exact congrArg (Method.andThen _) (funext fun crs => ih _)

theorem commentLoop_unkept (d : Driver σ K) (u : Bytes) (bs : List K.Board) : ∀ recs,
    { d with commentKeeper := none }.userCommentLoop u bs recs = d.userCommentLoop u bs recs := by
  induction bs with
  | nil => intro recs; rfl
  | cons b bs ih =>
    intro recs
    unfold Driver.userCommentLoop
    split
    · exact ih _
    · have e : { d with commentKeeper := none }.boardUserComments (K.boardID b) u = d.boardUserComments (K.boardID b) u :=
        congrArg (Method.andThen _) (funext fun ars => boardLoop_unkept d _ u ars _)
      rw [e]
      exact congrArg (Method.andThen _) (funext fun ars => ih _)

/-- A driver that keeps a list of the user's articles: if the list is not empty it is the answer, and nothing else is asked; if it is empty the boards are searched
as if no list were kept; if it cannot be had, neither can the answer. -/
theorem C137_kept_articles {k : Keeper σ UserArticle} (hk : d.articleKeeper = some k) (u : Bytes) :
    (∀ s1 s2 p l, k.path u s = (s1, .ok p) → k.read p s1 = (s2, .ok l) → l ≠ [] → d.call (.userArticles u) s = (s2, .ok (.userArticles l)) ∧
      tape d (.userArticles u) s = [⟨.keptArticlesPath, [u], some p, .ok ()⟩, ⟨.readKeptArticles, [p], none, .ok ()⟩]) ∧
    (∀ s1 s2 p, k.path u s = (s1, .ok p) → k.read p s1 = (s2, .ok []) →
      d.call (.userArticles u) s = { d with articleKeeper := none }.call (.userArticles u) s2) ∧
    (∀ s1 e, k.path u s = (s1, .err e) → d.call (.userArticles u) s = (s1, .err e)) ∧
    ∀ s1 s2 p e, k.path u s = (s1, .ok p) → k.read p s1 = (s2, .err e) → d.call (.userArticles u) s = (s2, .err e) := by
  have hc : d.call (.userArticles u) s = (((k.path u).andThen fun p => (k.read p).andThen fun recs => if recs.length ≠ 0 then .pure (.ok recs)
      else d.readBoardRecords.andThen fun bs => d.userArticleLoop u bs recs).map .userArticles) s := by
    show (d.userArticles u).map _ s = _
    unfold Driver.userArticles
    rw [hk]
  refine ⟨?_, ?_, ?_, ?_⟩
  · intro s1 s2 p l h1 h2 hl
    have hn : l.length ≠ 0 := fun e => hl (List.eq_nil_of_length_eq_zero e)
    constructor
    · rw [hc]
      unfold Method.map Method.andThen
      simp only [h1, h2, if_pos hn, Method.pure]
    · unfold tape
      have ht : (taped d).articleKeeper = d.articleKeeper.map _ := rfl
      show (((taped d).userArticles u).map _ (s, [])).1.2 = _
      unfold Driver.userArticles
      rw [ht, hk]
      simp only [Option.map_some, Method.map, Method.andThen, noted, h1, h2, if_pos hn, Method.pure]
      rfl
  · intro s1 s2 p h1 h2
    rw [hc]
    have e : { d with articleKeeper := none }.call (.userArticles u) = (d.readBoardRecords.andThen fun bs => d.userArticleLoop u bs []).map .userArticles :=
      congrArg (fun m => Method.map FrontAnswer.userArticles (Method.andThen d.readBoardRecords m)) (funext fun bs => loop_unkept d u bs [])
    rw [e]
    unfold Method.map Method.andThen
    simp only [h1, h2]
    rfl
  · intro s1 e h1
    rw [hc]
    unfold Method.map Method.andThen
    simp only [h1]
  · intro s1 s2 p e h1 h2
    rw [hc]
    unfold Method.map Method.andThen
    simp only [h1, h2]

/-- A driver that keeps a list of the user's comments: if the list is not empty it is the answer, and nothing else is asked; if it is empty the boards are searched
as if no list were kept; if it cannot be had, neither can the answer. -/
theorem C137_kept_comments {k : Keeper σ UserComment} (hk : d.commentKeeper = some k) (u : Bytes) :
    (∀ s1 s2 p l, k.path u s = (s1, .ok p) → k.read p s1 = (s2, .ok l) → l ≠ [] → d.call (.userComments u) s = (s2, .ok (.userComments l)) ∧
      tape d (.userComments u) s = [⟨.keptCommentsPath, [u], some p, .ok ()⟩, ⟨.readKeptComments, [p], none, .ok ()⟩]) ∧
    (∀ s1 s2 p, k.path u s = (s1, .ok p) → k.read p s1 = (s2, .ok []) →
      d.call (.userComments u) s = { d with commentKeeper := none }.call (.userComments u) s2) ∧
    (∀ s1 e, k.path u s = (s1, .err e) → d.call (.userComments u) s = (s1, .err e)) ∧
    ∀ s1 s2 p e, k.path u s = (s1, .ok p) → k.read p s1 = (s2, .err e) → d.call (.userComments u) s = (s2, .err e) := by
  have hc : d.call (.userComments u) s = (((k.path u).andThen fun p => (k.read p).andThen fun recs => if recs.length ≠ 0 then .pure (.ok recs)
      else d.readBoardRecords.andThen fun bs => d.userCommentLoop u bs recs).map .userComments) s := by
    show (d.userComments u).map _ s = _
    unfold Driver.userComments
    rw [hk]
  refine ⟨?_, ?_, ?_, ?_⟩
  · intro s1 s2 p l h1 h2 hl
    have hn : l.length ≠ 0 := fun e => hl (List.eq_nil_of_length_eq_zero e)
    constructor
    · rw [hc]
      unfold Method.map Method.andThen
      simp only [h1, h2, if_pos hn, Method.pure]
    · unfold tape
      have ht : (taped d).commentKeeper = d.commentKeeper.map _ := rfl
      show (((taped d).userComments u).map _ (s, [])).1.2 = _
      unfold Driver.userComments
      rw [ht, hk]
      simp only [Option.map_some, Method.map, Method.andThen, noted, h1, h2, if_pos hn, Method.pure]
      rfl
  · intro s1 s2 p h1 h2
    rw [hc]
    have e : { d with commentKeeper := none }.call (.userComments u) = (d.readBoardRecords.andThen fun bs => d.userCommentLoop u bs []).map .userComments :=
      congrArg (fun m => Method.map FrontAnswer.userComments (Method.andThen d.readBoardRecords m)) (funext fun bs => commentLoop_unkept d u bs [])
    rw [e]
    unfold Method.map Method.andThen
    simp only [h1, h2]
    rfl
  · intro s1 e h1
    rw [hc]
    unfold Method.map Method.andThen
    simp only [h1]
  · intro s1 s2 p e h1 h2
    rw [hc]
    unfold Method.map Method.andThen
    simp only [h1, h2]

/-- A kept list that is empty, or is what the search would find, makes no difference to the answer. -/
theorem C137_faithful_articles {k : Keeper σ UserArticle} (h : Unmoved d s) (hk : d.articleKeeper = some k) (u p : Bytes) (l : List UserArticle)
    (h1 : k.path u s = (s, .ok p)) (h2 : k.read p s = (s, .ok l)) (hl : l = [] ∨ AllArticles d s u l) :
    (d.call (.userArticles u) s).2 = ({ d with articleKeeper := none }.call (.userArticles u) s).2 := by
  obtain ⟨kept, empty, _, _⟩ := C137_kept_articles (s := s) hk u
  by_cases hn : l = []
  · subst hn
    rw [empty s s p h1 h2]
  · rw [(kept s s p l h1 h2 hn).1]
    have hu : Unmoved { d with articleKeeper := none } s := ⟨h.1, h.2, h.3, h.4, h.5, h.6⟩
    exact ((C137_articles_exact hu rfl u l).mpr (hl.resolve_left hn)).symm

/-- The same for comments. -/
theorem C137_faithful_comments {k : Keeper σ UserComment} (h : Unmoved d s) (hk : d.commentKeeper = some k) (u p : Bytes) (l : List UserComment)
    (h1 : k.path u s = (s, .ok p)) (h2 : k.read p s = (s, .ok l)) (hl : l = [] ∨ AllComments d s u l) :
    (d.call (.userComments u) s).2 = ({ d with commentKeeper := none }.call (.userComments u) s).2 := by
  obtain ⟨kept, empty, _, _⟩ := C137_kept_comments (s := s) hk u
  by_cases hn : l = []
  · subst hn
    rw [empty s s p h1 h2]
  · rw [(kept s s p l h1 h2 hn).1]
    have hu : Unmoved { d with commentKeeper := none } s := ⟨h.1, h.2, h.3, h.4, h.5, h.6⟩
    have e : ∀ b, BoardComments d s b u = BoardComments { d with commentKeeper := none } s b u := fun b => rfl
    refine ((C137_comments_exact hu rfl [] u l).2.mpr ?_).symm
    exact hl.resolve_left hn

end

/-! ## A driver that keeps a list -/

/-- Two boards, in the second there is nothing; it keeps a list for `u` that is out of date, and an empty one for everybody else. -/
def keepingDriver : Driver Unit plainKinds where
  usersPath s := (s, .err "no")
  readUsers _ s := (s, .err "no")
  favouritesPath _ s := (s, .err "no")
  readFavourites _ s := (s, .err "no")
  boardsPath s := (s, .ok (ascii "B"))
  readBoards _ s := (s, .ok [ascii "ALLPOST", ascii "a", ascii "b"])
  articlesPath b s := (s, .ok (b ++ ascii "/D"))
  treasuresPath _ _ s := (s, .err "no")
  readArticles p s := (s, if p = ascii "a/D" then .ok [(ascii "M.1", ascii "u"), (ascii "M.2", ascii "v")]
    else .err "open b/D: no such file or directory")
  articlePath b f s := (s, .ok (b ++ f))
  treasurePath _ _ _ s := (s, .err "no")
  readArticle _ s := (s, .ok [])
  boardWriter := none
  articleWriter := none
  articleKeeper := some ⟨fun u s => (s, .ok u), fun p s => (s, .ok (if p = ascii "u" then [⟨ascii "c", ascii "old", ascii "u", ascii "M.0"⟩] else []))⟩
  commentKeeper := some ⟨fun u s => (s, .ok u), fun _ s => (s, .ok [])⟩
  drafts := none

theorem keeping_undisturbed : Unmoved keepingDriver () := ⟨rfl, fun _ => rfl, fun _ => rfl, fun _ => rfl, fun _ _ => rfl, fun _ => rfl⟩

theorem unkept_undisturbed : Unmoved { keepingDriver with articleKeeper := none, commentKeeper := none } () :=
  ⟨rfl, fun _ => rfl, fun _ => rfl, fun _ => rfl, fun _ _ => rfl, fun _ => rfl⟩

/-- A kept list that is out of date is given out all the same. -/
theorem C137_refuted : ¬ SearchesFind := by
  intro h
  have h1 := (h Unit plainKinds keepingDriver () (ascii "u") keeping_undisturbed).1 () [⟨ascii "c", ascii "old", ascii "u", ascii "M.0"⟩] rfl
  have h2 := (C137_articles_exact (d := { keepingDriver with articleKeeper := none, commentKeeper := none }) unkept_undisturbed rfl (ascii "u") _).mpr h1
  have h3 : ({ keepingDriver with articleKeeper := none, commentKeeper := none }.call (.userArticles (ascii "u")) ()).2 =
      .ok (.userArticles [⟨ascii "a", ascii "t", ascii "u", ascii "M.1"⟩]) := rfl
  rw [h3] at h2
  injection h2 with h2
  injection h2 with h2
  injection h2 with h2
  injection h2 with _ h2
  exact absurd h2 (by decide)

example : AllArticles keepingDriver () (ascii "v") [⟨ascii "a", ascii "t", ascii "v", ascii "M.2"⟩] :=
  (C137_articles_exact (d := { keepingDriver with articleKeeper := none, commentKeeper := none }) unkept_undisturbed rfl _ _).mp rfl

example : (keepingDriver.call (.userArticles (ascii "v")) ()).2 = .ok (.userArticles [⟨ascii "a", ascii "t", ascii "v", ascii "M.2"⟩]) := rfl

example : AllComments keepingDriver () (ascii "v") [] ∧ BoardComments keepingDriver () (ascii "a") (ascii "v") [] :=
  ⟨((C137_comments_exact (d := { keepingDriver with articleKeeper := none, commentKeeper := none }) unkept_undisturbed rfl (ascii "a") _ _).2).mp rfl,
    ((C137_comments_exact (d := { keepingDriver with articleKeeper := none, commentKeeper := none }) unkept_undisturbed rfl (ascii "a") _ _).1).mp rfl⟩

end Verif
