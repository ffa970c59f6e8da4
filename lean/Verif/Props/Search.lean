import Verif.Proofs.Search
import Verif.Props.Decent
/-!
# C119: searches find what is there while others post and comment
-/

namespace Verif
open Spec

/-- **C119, the searches as sequences of calls.** When nobody else makes calls, the searches made of calls are the searches of the database. -/
theorem C119_alone (db : DB) (c : Codec) (fs : FS) (user : Bytes) :
    (Prog.userArticles user).alone db c fs = (fs, db.userArticles c fs user) ∧
    (Prog.userComments user).alone db c fs = (fs, db.userComments c fs user) :=
  ⟨alone_userArticles db c fs user, alone_userComments db c fs user⟩

/-- A client runs a function that only reads, and whose result grows with the database. -/
theorem search_between {db : DB} {fs : FS} {R : Rules} {draft : Nat → Bytes → Bytes → Prop} {script : Nat → Script}
    (hC : Company db fs R draft script) {β : Type} {P : Prog (Res (List β))} (hread : P.Reader R.c)
    (hsteady : ∀ m, Tidy R m → Steady R.c (Grows R) m P) (hsafe : ∀ m, Tidy R m → P.Safe db fs R.c m) {p : Nat} (hs : script p = P.script)
    {s1 s2 : List (Nat × Nat)} {s s' : House} {h h' : List Event} (e1 : (opening fs script).run db R.c s1 = (s, h))
    (e2 : s.run db R.c s2 = (s', h')) (hq : ∀ op, Event.call p op ∉ h) :
    (s'.sessions p = .idle .stop → ∃ r, P.after (told p h') = some r) ∧
    ∀ r, P.after (told p h') = some r →
      (Rests s → Below (P.alone db R.c s.fs).2 r) ∧ (Rests s' → Below r (P.alone db R.c s'.fs).2) ∧ ∃ m, Tidy R m ∧ Below r (P.on R.c m) := by
  obtain ⟨marks, i, marks', i', a1, b1, a2, b2, _, b3, a4, b4⟩ :=
    race_free_twice db R.c fs script s1 s2 (C118_race_free hC).1 (C118_race_free hC).2 e1 e2
  obtain ⟨k, hO⟩ := orderly_run hC.grows a1 _ (orderly_start hC.tidy hC.start hC.decent)
  obtain ⟨k', hO'⟩ := orderly_run hC.grows b1 k hO
  have ht : i.turn p = .idle P.script := by
    rw [← hs]
    exact run_still a1 rfl (by rw [a2]; exact hq)
  have hT := track_run hC.grows b1 k [] hO (track_start hread ht)
  rw [b2] at hT
  have hT : Track R.c (Grows R) p i.hold P (told p h') i' := hT
  have hi := orderly_tidy hO
  refine ⟨fun hstop => track_stop hT ((b3 p .stop).mp hstop), ?_⟩
  intro r hr
  obtain ⟨m1, hy, hg⟩ := track_result hT hr
  have hg0 := yields_le grows_refl grows_trans hy
  obtain ⟨lo, hi1⟩ := (hsteady i.hold hi).between i.hold m1 r (grows_refl _) hy
  have up := hi1.trans ((hsteady i.hold hi).mono m1 i'.hold hg0 hg)
  refine ⟨?_, ?_, m1, hg0.tidy hi, hi1⟩
  · intro hrest
    rw [alone_on (a4 hrest) hread (hsafe _ hi)]
    exact lo
  · intro hrest
    rw [alone_on (b4 hrest) hread (hsafe _ (orderly_tidy hO'))]
    exact up

/-- **C119, articles.** Clients that keep to the rules post, comment, add boards and so on, in any interleaving of their system calls; client `p`
searches for the articles of a user. The search never fails. It finds every article that was in the lists when it began, and only such as are
in the lists afterwards, in the same order. -/
theorem C119_articles {db : DB} {fs : FS} {R : Rules} {draft : Nat → Bytes → Bytes → Prop} {script : Nat → Script}
    (hC : Company db fs R draft script) (hb : R.placed .boardList) {user : Bytes} {p : Nat} (hs : script p = (Prog.userArticles user).script)
    {s1 s2 : List (Nat × Nat)} {s s' : House} {h h' : List Event} (e1 : (opening fs script).run db R.c s1 = (s, h))
    (e2 : s.run db R.c s2 = (s', h')) (hq : ∀ op, Event.call p op ∉ h) :
    (s'.sessions p = .idle .stop → ∃ r, (Prog.userArticles user).after (told p h') = some r) ∧
    ∀ r, (Prog.userArticles user).after (told p h') = some r → ∃ l, r = .ok l ∧
      (Rests s → ∃ l0, db.userArticles R.c s.fs user = .ok l0 ∧ l0.Sublist l) ∧
      (Rests s' → ∃ l1, db.userArticles R.c s'.fs user = .ok l1 ∧ l.Sublist l1) := by
  obtain ⟨hstop, hall⟩ := search_between hC (reader_userArticles user) (fun m => steady_userArticles user)
    (fun m ht => safe_userArticles hC.placed (hC.placed _ hb) ht user) hs e1 e2 hq
  refine ⟨hstop, ?_⟩
  intro r hr
  obtain ⟨lo, hi, m, hm, hon⟩ := hall r hr
  obtain ⟨lm, hlm⟩ := on_userArticles_ok hm user
  obtain ⟨l, hl, _⟩ := hon lm hlm
  rw [alone_userArticles] at lo hi
  refine ⟨l, hl, fun hrest => lo hrest l hl, ?_⟩
  intro hrest
  -- the search at the end does not fail either
  obtain ⟨marks, i, marks', i', a1, b1, _, _, _, _, _, b4⟩ :=
    race_free_twice db R.c fs script s1 s2 (C118_race_free hC).1 (C118_race_free hC).2 e1 e2
  obtain ⟨k, hO⟩ := orderly_run hC.grows (a1.append b1) _ (orderly_start hC.tidy hC.start hC.decent)
  obtain ⟨l1, hl1⟩ := on_userArticles_ok (orderly_tidy hO) user
  have := alone_on (b4 hrest) (reader_userArticles user) (safe_userArticles hC.placed (hC.placed _ hb) (orderly_tidy hO) user)
  rw [alone_userArticles, hl1] at this
  obtain ⟨l', hl', hsub⟩ := hi hrest l1 this
  rw [hl] at hl'
  cases hl'
  exact ⟨l1, this, hsub⟩

/-- **C119, comments.** The same for the search for the comments of a user, if articles never have an unfinished line at their end: what was there
when the search began is found, and what is found is there afterwards. The search can fail, when a comment has an impossible time (C35). -/
theorem C119_comments {db : DB} {fs : FS} {R : Rules} {draft : Nat → Bytes → Bytes → Prop} {script : Nat → Script}
    (hC : Company db fs R draft script) (hb : R.placed .boardList) (hend : ∀ b f y, R.fine b f y → Ended y) {user : Bytes} {p : Nat}
    (hs : script p = (Prog.userComments user).script) {s1 s2 : List (Nat × Nat)} {s s' : House} {h h' : List Event}
    (e1 : (opening fs script).run db R.c s1 = (s, h)) (e2 : s.run db R.c s2 = (s', h')) (hq : ∀ op, Event.call p op ∉ h) :
    (s'.sessions p = .idle .stop → ∃ r, (Prog.userComments user).after (told p h') = some r) ∧
    ∀ r, (Prog.userComments user).after (told p h') = some r →
      FoundSince (fun fs => db.userComments R.c fs user) s r ∧ FoundUntil (fun fs => db.userComments R.c fs user) s' r := by
  obtain ⟨hstop, hall⟩ := search_between hC (reader_userComments user) (fun m => steady_userComments hend user)
    (fun m ht => safe_userComments hC.placed (hC.placed _ hb) ht user) hs e1 e2 hq
  refine ⟨hstop, ?_⟩
  intro r hr
  obtain ⟨lo, hi, _⟩ := hall r hr
  rw [alone_userComments] at lo hi
  exact ⟨fun hrest => lo hrest, fun hrest => hi hrest⟩

/-! ## Posters and guests -/

/-- What is agreed on when all texts and comments end with a newline. -/
def linedRules (db : DB) (c : Codec) (fs : FS) (posts : Nat → Option Post) : Rules where
  c := c
  placed := Placed db fs
  fine := fun b f y => (sceneRules db c fs posts).fine b f y ∧ Ended y
  adds := Ended

theorem ended_append {y x : Bytes} (hy : Ended y) (hx : Ended x) : Ended (y ++ x) := by
  rcases hx with rfl | ⟨z, rfl⟩
  · rw [List.append_nil]; exact hy
  · exact Or.inr ⟨y ++ z, by simp⟩

theorem lined_company {db : DB} {c : Codec} {fs : FS} {posts : Nat → Option Post} {script : Nat → Script}
    (h : Scene Post.script db c fs posts script) (hl : Lined db fs posts script) :
    Company db fs (linedRules db c fs posts) (fun _ _ _ => False) script where
  placed := fun _ ho => ho
  tidy := ⟨h.tidy.boards, h.tidy.lists, h.tidy.listed⟩
  grows := fun b f y x hy hx => ⟨(scene_company h).grows b f y x hy.1 trivial, ended_append hy.2 hx⟩
  start := fun b f y hp hy => ⟨(scene_company h).start b f y hp hy, hl.old b f y hp hy⟩
  decent := by
    intro p
    cases hp : posts p with
    | none =>
      rcases h.guests p hp with e | ⟨b, hb, e⟩ | ⟨b, x, hb, e⟩ | ⟨user, hb, e | e⟩
      · rw [e]; trivial
      · rw [e]; exact visit_decent hb
      · rw [e]; exact comment_decent hb (hl.comments p b x e)
      · rw [e]; exact userArticles_decent hb user
      · rw [e]; exact userComments_decent hb user
    | some P =>
      obtain ⟨e, hb, hd⟩ := h.posters p P hp
      rw [e]
      exact post_decent hb hd (fun f => ⟨Or.inr ⟨p, P, hp, rfl, List.prefix_refl _⟩, hl.texts p P hp⟩)
  apart := fun _ _ _ _ _ h _ => h

/-- In a scene the list of boards has a place as soon as someone searches. -/
theorem scene_boards {how : Post → Script} {db : DB} {c : Codec} {fs : FS} {posts : Nat → Option Post} {script : Nat → Script}
    (h : Scene how db c fs posts script) {p : Nat} (hp : posts p = none) {α : Type} {f : List BoardHeader → Prog (Res α)}
    (hs : script p = (Prog.boards.andThen f).script) : Placed db fs .boardList := by
  have hs : script p = .make .readBoards _ := hs
  rcases h.guests p hp with e | ⟨b, hb, e⟩ | ⟨b, x, hb, e⟩ | ⟨user, hb, _⟩
  · rw [hs] at e; cases e
  · rw [hs] at e; cases e
  · rw [hs] at e; cases e
  · exact hb

theorem scene_searcher {db : DB} {c : Codec} {fs : FS} {posts : Nat → Option Post} {script : Nat → Script}
    (h : Scene Post.script db c fs posts script) {p : Nat} {α : Type} {f : List BoardHeader → Prog (Res α)}
    (hs : script p = (Prog.boards.andThen f).script) : Placed db fs .boardList := by
  cases hp : posts p with
  | none => exact scene_boards h hp hs
  | some P =>
    have e := (h.posters p P hp).1
    have hs : script p = .make .readBoards _ := hs
    rw [hs] at e
    cases e

/-- **C119, articles, among posters and guests.** -/
theorem C119_articles_found {db : DB} {c : Codec} {fs : FS} {posts : Nat → Option Post} {script : Nat → Script}
    (hS : Scene Post.script db c fs posts script) {user : Bytes} {p : Nat} (hs : script p = (Prog.userArticles user).script)
    {s1 s2 : List (Nat × Nat)} {s s' : House} {h h' : List Event} (e1 : (opening fs script).run db c s1 = (s, h))
    (e2 : s.run db c s2 = (s', h')) (hq : ∀ op, Event.call p op ∉ h) :
    (s'.sessions p = .idle .stop → ∃ r, (Prog.userArticles user).after (told p h') = some r) ∧
    ∀ r, (Prog.userArticles user).after (told p h') = some r → ∃ l, r = .ok l ∧
      (Rests s → ∃ l0, db.userArticles c s.fs user = .ok l0 ∧ l0.Sublist l) ∧
      (Rests s' → ∃ l1, db.userArticles c s'.fs user = .ok l1 ∧ l.Sublist l1) :=
  C119_articles (scene_company hS) (scene_searcher hS hs) hs e1 e2 hq

/-- **C119, comments, among posters and guests** whose texts and comments end with a newline. -/
theorem C119_comments_partial : CommentSearchWorks Lined := by
  intro db c fs posts script hS hl user p hs s1 s2 s h s' h' e1 e2 hq r hr
  exact (C119_comments (R := linedRules db c fs posts) (lined_company hS hl) (scene_searcher hS hs) (fun _ _ _ h => h.2) hs e1 e2 hq).2 r hr

/-! ## Examples: a database with a board, an article and a comment -/

/-- The article that is there. -/
def shelfName : Bytes := DB.articleName 1500000000 1

def shelfRecord : FileHeader := DB.newArticleRecord shelfName (ascii "Ab") (ascii "11/16") (ascii "old")

def shelfBoard : BoardHeader := { BoardHeader.zero with brdName := ascii "S" }

/-- A disk with a board, whose only article holds `text`. -/
def shelfFS (text : Bytes) : FS :=
  ((sceneFS.set (at_ sampleDB .boardList) (.file (shelfBoard.marshal asciiCodec))).set (at_ sampleDB (.articleIndex (ascii "S")))
    (.file (shelfRecord.marshal asciiCodec))).set (at_ sampleDB (.article (ascii "S") shelfName)) (.file text)

def shelfPost : Post := { scenePost with text := ascii "new text\n" }

/-- Client 0 posts. -/
def shelfPosts : Nat → Option Post
  | 0 => some shelfPost
  | _ => none

/-- Client 0 posts, client 1 runs `s`, client 2 runs `t`. -/
def shelfScript (s t : Script) : Nat → Script
  | 0 => shelfPost.script
  | 1 => s
  | 2 => t
  | _ => .stop

def firstPush : Bytes := ascii "Push AA: hi 11/16 12:34"
def secondPush : Bytes := ascii "Push BB: ho 11/16 12:35\n"

theorem shelf_placed (text : Bytes) : Placed sampleDB (shelfFS text) .boardList ∧ Placed sampleDB (shelfFS text) (.articleIndex (ascii "S")) ∧
    Placed sampleDB (shelfFS text) (.article (ascii "S") newName) ∧ Placed sampleDB (shelfFS text) (.article (ascii "S") shelfName) := by
  have h0 : Placed sampleDB sampleFS (.article (ascii "S") shelfName) := by
    refine ⟨?_, ⟨by decide, by decide⟩, ⟨_, _, rfl, rfl⟩, by decide +kernel⟩
    intro s hs
    simp only [Obj.names, List.mem_cons, List.not_mem_nil, or_false] at hs
    rcases hs with rfl | rfl
    · exact ⟨by decide, by decide, by decide, by decide⟩
    · exact (articleName_component _ _).1
  obtain ⟨_, h1, h2, h3⟩ := sample_placed
  have step : ∀ o, Placed sampleDB sampleFS o → Placed sampleDB (shelfFS text) o := by
    intro o ho
    have a := fun {o} (h : Placed sampleDB sampleFS o) => placed_set h2 h []
    have b := fun {o} (h : Placed sampleDB sampleFS o) => placed_set (a h2) (a h) (shelfBoard.marshal asciiCodec)
    have c := fun {o} (h : Placed sampleDB sampleFS o) => placed_set (b h1) (b h) (shelfRecord.marshal asciiCodec)
    exact placed_set (c h0) (c ho) text
  exact ⟨step _ h2, step _ h1, step _ h3, step _ h0⟩

theorem sample_noFile (q : Path) : fileAt sampleFS q = none := by
  unfold fileAt FS.get
  split
  · next d h =>
    split at h
    · cases h
    · have : ∀ l : List (Path × Node), (∀ e ∈ l, e.2 = .dir) → l.lookup q ≠ some (.file d) := by
        intro l hl e
        induction l with
        | nil => cases e
        | cons a l ih =>
          obtain ⟨a1, a2⟩ := a
          rw [List.lookup_cons] at e
          split at e
          · cases e
            have := hl (a1, .file d) (List.mem_cons_self ..)
            cases this
          · exact ih (fun e he => hl e (List.mem_cons_of_mem _ he)) e
      exact absurd h (this _ (by decide +kernel))
  · rfl

/-- What the objects hold. -/
theorem shelf_holds (text : Bytes) {o : Obj} (ho : Placed sampleDB (shelfFS text) o) {y : Bytes} (h : holdings sampleDB (shelfFS text) o = some y) :
    (o = .article (ascii "S") shelfName ∧ y = text) ∨ (o = .articleIndex (ascii "S") ∧ y = shelfRecord.marshal asciiCodec) ∨
    (o = .boardList ∧ y = shelfBoard.marshal asciiCodec) := by
  obtain ⟨p1, p2, p3, p4⟩ := shelf_placed text
  unfold holdings fileAt at h
  rw [shelfFS, FS.get_set (FS.ne_root p4.notDir)] at h
  by_cases e : at_ sampleDB o = at_ sampleDB (.article (ascii "S") shelfName)
  · rw [if_pos e] at h
    exact Or.inl ⟨at_inj ho p4 e, by simpa using h.symm⟩
  rw [if_neg e, FS.get_set (FS.ne_root p2.notDir)] at h
  by_cases e : at_ sampleDB o = at_ sampleDB (.articleIndex (ascii "S"))
  · rw [if_pos e] at h
    exact Or.inr (Or.inl ⟨at_inj ho p2 e, by simpa using h.symm⟩)
  rw [if_neg e, FS.get_set (FS.ne_root p1.notDir)] at h
  by_cases e : at_ sampleDB o = at_ sampleDB .boardList
  · rw [if_pos e] at h
    exact Or.inr (Or.inr ⟨at_inj ho p1 e, by simpa using h.symm⟩)
  rw [if_neg e, sceneFS, FS.get_set (FS.ne_root p1.notDir), if_neg e] at h
  have := sample_noFile (at_ sampleDB o)
  unfold fileAt at this
  rw [this] at h
  cases h

theorem shelf_scene (text : Bytes) (s t : Script) (hs : Guest (Placed sampleDB (shelfFS text)) s) (ht : Guest (Placed sampleDB (shelfFS text)) t) :
    Scene Post.script sampleDB asciiCodec (shelfFS text) shelfPosts (shelfScript s t) where
  tidy := by
    obtain ⟨p1, p2, p3, p4⟩ := shelf_placed text
    have hboard : holdings sampleDB (shelfFS text) .boardList = some (shelfBoard.marshal asciiCodec) := by
      unfold holdings fileAt
      rw [shelfFS, FS.get_set (FS.ne_root p4.notDir), if_neg (fun e => by cases at_inj p1 p4 e),
        FS.get_set (FS.ne_root p2.notDir), if_neg (fun e => by cases at_inj p1 p2 e), FS.get_set (FS.ne_root p1.notDir), if_pos rfl]
    have hart : holdings sampleDB (shelfFS text) (.article (ascii "S") shelfName) = some text := by
      unfold holdings fileAt
      rw [shelfFS, FS.get_set (FS.ne_root p4.notDir), if_pos rfl]
    refine ⟨⟨_, hboard, ?_, ?_⟩, ?_, ?_⟩
    · rw [shelfBoard.marshal_length]; exact ⟨1, rfl⟩
    · intro r hr
      have e : (boardsIn asciiCodec (shelfBoard.marshal asciiCodec)).map (·.brdName) = [ascii "S"] := by decide +kernel
      have : r.brdName ∈ (boardsIn asciiCodec (shelfBoard.marshal asciiCodec)).map (·.brdName) := List.mem_map.mpr ⟨r, hr, rfl⟩
      rw [e, List.mem_singleton] at this
      rw [this]
      exact p2
    · intro b d hb hd
      rcases shelf_holds text hb hd with ⟨e, _⟩ | ⟨_, rfl⟩ | ⟨e, _⟩
      · cases e
      · rw [shelfRecord.marshal_length]; exact ⟨1, rfl⟩
      · cases e
    · intro b d hb hd r hr
      rcases shelf_holds text hb hd with ⟨e, _⟩ | ⟨eb, rfl⟩ | ⟨e, _⟩
      · cases e
      · cases eb
        have e : (articlesIn asciiCodec (shelfRecord.marshal asciiCodec)).map (·.filename) = [shelfName] := by decide +kernel
        have : r.filename ∈ (articlesIn asciiCodec (shelfRecord.marshal asciiCodec)).map (·.filename) := List.mem_map.mpr ⟨r, hr, rfl⟩
        rw [e, List.mem_singleton] at this
        rw [this]
        exact ⟨p4, Or.inl (by rw [hart]; simp)⟩
      · cases e
  posters := by
    obtain ⟨p1, p2, p3, p4⟩ := shelf_placed text
    intro p P hP
    match p with
    | 0 =>
      cases hP
      exact ⟨rfl, p2, fun j => ⟨p3, show -2 ^ 63 ≤ (1600000000 : Int) by decide, show (1600000000 : Int) < 2 ^ 63 by decide⟩⟩
    | _ + 1 => cases hP
  guests := by
    intro p hp
    match p with
    | 0 => cases hp
    | 1 => exact hs
    | 2 => exact ht
    | _ + 3 => exact Or.inl rfl

/-- The hypotheses of the theorem on articles: one client posts, one comments, one searches. -/
example : Scene Post.script sampleDB asciiCodec (shelfFS firstPush) shelfPosts
    (shelfScript (comment (ascii "S") secondPush) (Prog.userArticles (ascii "Ab")).script) :=
  shelf_scene _ _ _ (Or.inr (Or.inr (Or.inl ⟨_, _, (shelf_placed _).2.1, rfl⟩)))
    (Or.inr (Or.inr (Or.inr ⟨_, (shelf_placed _).1, Or.inl rfl⟩)))

/-- The search finds the new article as well when the client posts between the reading of the boards and the reading of the list. -/
example : ((Prog.userArticles (ascii "Ab")).after (told 2 ((opening (shelfFS firstPush)
    (shelfScript .stop (Prog.userArticles (ascii "Ab")).script)).run sampleDB asciiCodec
      (List.replicate 6 (2, 0) ++ List.replicate 20 (0, 0) ++ List.replicate 40 (2, 0))).2)) =
    some (.ok [⟨ascii "S", ascii "old", ascii "Ab", shelfName⟩, ⟨ascii "S", ascii "hi", ascii "Ab", newName⟩]) := by decide +kernel

theorem comment_inj {b b' x x' : Bytes} (e : comment b x = comment b' x') : x = x' := by
  unfold comment at e
  injection e with _ e
  have := congrFun e (.ok (.articles [shelfRecord]))
  injection this with this
  injection this

/-- The hypotheses of the theorem on comments. -/
theorem shelf_lined : Lined sampleDB (shelfFS (firstPush ++ [10])) shelfPosts
    (shelfScript (comment (ascii "S") secondPush) (Prog.userComments (ascii "AA")).script) where
  old := by
    intro b f y hb hy
    rcases shelf_holds _ hb hy with ⟨_, rfl⟩ | ⟨e, _⟩ | ⟨e, _⟩
    · exact Or.inr ⟨_, rfl⟩
    · cases e
    · cases e
  texts := by
    intro p P hP
    match p with
    | 0 => cases hP; exact Or.inr ⟨ascii "new text", by decide⟩
    | _ + 1 => cases hP
  comments := by
    intro p b x e
    match p with
    | 0 => cases e
    | 1 => rw [← comment_inj e]; exact Or.inr ⟨ascii "Push BB: ho 11/16 12:35", by decide⟩
    | 2 => cases e
    | _ + 3 => cases e

example : Scene Post.script sampleDB asciiCodec (shelfFS (firstPush ++ [10])) shelfPosts
      (shelfScript (comment (ascii "S") secondPush) (Prog.userComments (ascii "AA")).script) ∧
    Lined sampleDB (shelfFS (firstPush ++ [10])) shelfPosts
      (shelfScript (comment (ascii "S") secondPush) (Prog.userComments (ascii "AA")).script) :=
  ⟨shelf_scene _ _ _ (Or.inr (Or.inr (Or.inl ⟨_, _, (shelf_placed _).2.1, rfl⟩))) (Or.inr (Or.inr (Or.inr ⟨_, (shelf_placed _).1, Or.inr rfl⟩))),
    shelf_lined⟩

/-- **C119 is false of comments in general:** a comment that is added to an unfinished line becomes part of the comment in that line, which is then
no longer found as it was. -/
theorem C119_comments_refuted : ¬ CommentSearchWorks fun _ _ _ _ => True := by
  intro H
  have hS := shelf_scene firstPush (comment (ascii "S") secondPush) (Prog.userComments (ascii "AA")).script
    (Or.inr (Or.inr (Or.inl ⟨_, _, (shelf_placed _).2.1, rfl⟩))) (Or.inr (Or.inr (Or.inr ⟨_, (shelf_placed _).1, Or.inr rfl⟩)))
  have h0 : sampleDB.userComments asciiCodec (shelfFS firstPush) (ascii "AA") =
      .ok [⟨1, ⟨0, 11, 16, 12, 34, 0⟩, ascii "AA", ascii "S", shelfName, ascii "hi"⟩] := by decide +kernel
  have h1 : (Prog.userComments (ascii "AA")).after (told 2 ((opening (shelfFS firstPush)
      (shelfScript (comment (ascii "S") secondPush) (Prog.userComments (ascii "AA")).script)).run sampleDB asciiCodec
        (List.replicate 20 (1, 0) ++ List.replicate 90 (2, 0))).2) =
      some (.ok [⟨1, ⟨0, 11, 16, 12, 35, 0⟩, ascii "AA", ascii "S", shelfName, ascii "hi 11/16 1234Push BB:ho:"⟩]) := by decide +kernel
  obtain ⟨h2, _⟩ := H sampleDB asciiCodec (shelfFS firstPush) shelfPosts _ hS trivial (ascii "AA") 2 rfl [] _ _ _ _ _ rfl rfl
    (fun op hop => by cases hop) _ h1
  obtain ⟨l0, e, hsub⟩ := h2 (fun p => ⟨_, rfl⟩) _ rfl
  have e : sampleDB.userComments asciiCodec (shelfFS firstPush) (ascii "AA") = .ok l0 := e
  rw [h0] at e
  cases e
  revert hsub
  decide +kernel

end Verif
