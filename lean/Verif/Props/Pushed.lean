import Verif.Props.Found
import Verif.Props.Remark
/-!
# C158 for the search: a comment that was just added is found under its owner

`GetUserCommentRecordFile` (/repo/bbs.go:585-637) after any history of calls, and after one more comment.
-/

namespace Verif
open Spec

namespace Spec

/-- The articles that a search for comments reads, in order: board by board, the list of articles. -/
def shelves (c : Codec) (m : Holding) (d : Bytes) : List (Bytes × Bytes) :=
  (searchedIn c d).flatMap fun b => (articlesIn c ((m (.articleIndex b)).getD [])).map fun r => (b, r.filename)

/-- The comments on an article. -/
def remarksOn (m : Holding) (p : Bytes × Bytes) : List UserComment :=
  match m (.article p.1 p.2) with
  | some y => match articleComments p.1 p.2 y with
    | .ok cs => cs
    | _ => []
  | none => []

/-- An article whose comments can be read. -/
def Legible (m : Holding) (p : Bytes × Bytes) : Prop := ∃ y cs, m (.article p.1 p.2) = some y ∧ articleComments p.1 p.2 y = .ok cs

/-- Those of a user. -/
def remarksOf (m : Holding) (user : Bytes) (p : Bytes × Bytes) : List UserComment := (remarksOn m p).filter fun x => x.owner = user

/-- Everything that is searched has a proper place. -/
structure Stocked (db : DB) (c : Codec) (fs : FS) (m : Holding) (d : Bytes) : Prop where
  shelved : Shelved db c fs d
  articles : ∀ p ∈ shelves c m d, Placed db fs (.article p.1 p.2)

end Spec

theorem on_remarks {c : Codec} {m : Holding} {p : Bytes × Bytes} {cs : List UserComment} :
    (Prog.articleComments p.1 p.2).on c m = .ok cs ↔ Legible m p ∧ cs = remarksOn m p := by
  unfold Prog.articleComments Legible remarksOn
  rw [on_andThen, on_article, Holding.need]
  cases h : m (.article p.1 p.2) with
  | none =>
    constructor
    · intro h; cases h
    · rintro ⟨⟨y, _, h, _⟩, _⟩; cases h
  | some y =>
    show Verif.articleComments p.1 p.2 y = .ok cs ↔ _
    constructor
    · intro e
      refine ⟨⟨y, cs, rfl, e⟩, ?_⟩
      simp only [e]
    · rintro ⟨⟨y', cs', h1, h2⟩, h3⟩
      have h1 := Option.some.inj h1
      subst h1
      simp only [h2] at h3
      rw [h2, h3]

theorem on_boardLoop {c : Codec} {m : Holding} {b user : Bytes} : ∀ {ars : List FileHeader} {l : List UserComment},
    (Prog.boardUserCommentLoop b user ars).on c m = .ok l ↔ (∀ p ∈ ars.map (fun r => (b, r.filename)), Legible m p) ∧
      l = (ars.map (fun r => (b, r.filename))).flatMap (remarksOf m user)
  | [], l => by
    show (Res.ok [] = Res.ok l) ↔ _
    constructor
    · intro h; exact ⟨(fun p hp => by simp at hp), (Res.ok.inj h).symm⟩
    · rintro ⟨-, h⟩; rw [h]; rfl
  | r :: ars, l => by
    unfold Prog.boardUserCommentLoop
    rw [on_andThen, List.map_cons, List.flatMap_cons]
    constructor
    · intro h
      obtain ⟨cs, h1, h2⟩ := bind_ok h
      rw [on_andThen] at h2
      obtain ⟨rest, h3, h4⟩ := bind_ok h2
      obtain ⟨g1, g2⟩ := (on_remarks (p := (b, r.filename))).mp h1
      obtain ⟨g3, g4⟩ := on_boardLoop.mp h3
      have h4 := Res.ok.inj h4
      refine ⟨fun p hp => ?_, ?_⟩
      · rcases List.mem_cons.mp hp with e | hp
        · rw [e]; exact g1
        · exact g3 p hp
      · rw [← h4, g2, g4]; rfl
    · rintro ⟨h1, h2⟩
      have g1 := (on_remarks (c := c) (p := (b, r.filename))).mpr ⟨h1 _ (List.mem_cons_self ..), rfl⟩
      have g2 := (on_boardLoop (c := c) (ars := ars) (user := user)).mpr ⟨fun p hp => h1 p (List.mem_cons_of_mem _ hp), rfl⟩
      rw [show (Prog.articleComments b r.filename).on c m = _ from g1, Res.ok_bind, on_andThen, g2, Res.ok_bind, h2]
      rfl

/-- The search finds, if every article it reads is legible, the comments of the user, article by article; otherwise it fails. -/
theorem on_userComments {c : Codec} {m : Holding} {d : Bytes} (h : m .boardList = some d) {user : Bytes} {l : List UserComment} :
    (Prog.userComments user).on c m = .ok l ↔ (∀ p ∈ shelves c m d, Legible m p) ∧ l = (shelves c m d).flatMap (remarksOf m user) := by
  have e0 : Prog.boards.on c m = .ok (boardsIn c d) := by rw [on_boards, Holding.need, h]; rfl
  unfold Prog.userComments shelves searchedIn
  rw [on_andThen, e0, Res.ok_bind]
  generalize boardsIn c d = bs
  induction bs generalizing l with
  | nil =>
    show (Res.ok [] = Res.ok l) ↔ _
    constructor
    · intro h; exact ⟨(fun p hp => by simp at hp), (Res.ok.inj h).symm⟩
    · rintro ⟨-, h⟩; rw [h]; rfl
  | cons b bs ih =>
    unfold Prog.userCommentLoop
    split
    · next hs =>
      have hs : b.brdName = ascii "ALLPOST" := by simpa [DB.shouldSkip] using hs
      rw [List.map_cons, List.filter_cons_of_neg (by simpa using hs)]
      exact ih
    · next hs =>
      have hs : b.brdName ≠ ascii "ALLPOST" := by simpa [DB.shouldSkip] using hs
      rw [List.map_cons, List.filter_cons_of_pos (by simpa using hs), List.flatMap_cons, List.flatMap_append, on_andThen]
      constructor
      · intro h
        obtain ⟨here, h1, h2⟩ := bind_ok h
        rw [on_andThen] at h2
        obtain ⟨rest, h3, h4⟩ := bind_ok h2
        unfold Prog.boardUserComments at h1
        rw [on_andThen, on_articles, Res.ok_bind] at h1
        obtain ⟨g1, g2⟩ := on_boardLoop.mp h1
        obtain ⟨g3, g4⟩ := ih.mp h3
        have h4 := Res.ok.inj h4
        refine ⟨fun p hp => ?_, by rw [← h4, g2, g4]⟩
        rcases List.mem_append.mp hp with hp | hp
        · exact g1 p hp
        · exact g3 p hp
      · rintro ⟨h1, h2⟩
        have g1 := (on_boardLoop (c := c) (user := user) (ars := articlesIn c ((m (.articleIndex b.brdName)).getD []))).mpr
          ⟨fun p hp => h1 p (List.mem_append_left _ hp), rfl⟩
        have g2 := ih.mpr ⟨fun p hp => h1 p (List.mem_append_right _ hp), rfl⟩
        unfold Prog.boardUserComments
        rw [on_andThen, on_articles, Res.ok_bind, g1, Res.ok_bind, on_andThen, g2, Res.ok_bind, h2]
        rfl

theorem safe_boardLoop {db : DB} {c : Codec} {fs : FS} {m : Holding} {b user : Bytes} : ∀ (ars : List FileHeader),
    (∀ p ∈ ars.map (fun r => (b, r.filename)), Placed db fs (.article p.1 p.2)) → (Prog.boardUserCommentLoop b user ars).Safe db fs c m
  | [], _ => trivial
  | r :: ars, h => by
    unfold Prog.boardUserCommentLoop Prog.articleComments
    refine safe_andThen (safe_andThen ⟨?_, ?_⟩ fun _ _ => trivial) fun _ _ =>
      safe_andThen (safe_boardLoop ars fun p hp => h p (List.mem_cons_of_mem _ hp)) fun _ _ => trivial
    · rintro o rfl
      exact h _ (List.mem_cons_self ..)
    · simp only [intended]
      cases m.need (.article b r.filename) <;> trivial

theorem stocked_safe {db : DB} {c : Codec} {fs : FS} {m : Holding} {d : Bytes} (hs : Stocked db c fs m d) (h : m .boardList = some d) (user : Bytes) :
    (Prog.userComments user).Safe db fs c m := by
  have e0 : Prog.boards.on c m = .ok (boardsIn c d) := by rw [on_boards, Holding.need, h]; rfl
  refine safe_andThen ⟨by rintro o rfl; exact hs.shelved.list, by simp only [intended]; cases m.need .boardList <;> trivial⟩ fun bs hbs => ?_
  have hbs' := Res.ok.inj (e0 ▸ hbs)
  have hp : ∀ b ∈ (bs.map BoardHeader.brdName).filter (fun b => b ≠ ascii "ALLPOST"), Placed db fs (.articleIndex b) := by
    rw [← hbs']; exact hs.shelved.boards
  have hq : ∀ p ∈ ((bs.map BoardHeader.brdName).filter (fun b => b ≠ ascii "ALLPOST")).flatMap fun b =>
      (articlesIn c ((m (.articleIndex b)).getD [])).map fun r => (b, r.filename), Placed db fs (.article p.1 p.2) := by
    rw [← hbs']; exact hs.articles
  clear hbs hbs'
  induction bs with
  | nil => trivial
  | cons b bs ih =>
    unfold Prog.userCommentLoop
    split
    · next hs' =>
      have hs' : b.brdName = ascii "ALLPOST" := by simpa [DB.shouldSkip] using hs'
      rw [List.map_cons, List.filter_cons_of_neg (by simpa using hs')] at hp hq
      exact ih hp hq
    · next hs' =>
      have hs' : b.brdName ≠ ascii "ALLPOST" := by simpa [DB.shouldSkip] using hs'
      rw [List.map_cons, List.filter_cons_of_pos (by simpa using hs')] at hp hq
      rw [List.flatMap_cons] at hq
      have hb := hp _ (List.mem_cons_self ..)
      refine safe_andThen (safe_andThen ⟨by rintro o rfl; exact hb, trivial⟩ fun ars ha => ?_) fun _ _ =>
        safe_andThen (ih (fun x hx => hp x (List.mem_cons_of_mem _ hx)) fun p h => hq p (List.mem_append_right _ h)) fun _ _ => trivial
      rw [on_articles] at ha
      rw [← Res.ok.inj ha]
      exact safe_boardLoop _ fun p h => hq p (List.mem_append_left _ h)

/-- **C158, the search after any history.** It succeeds exactly if every article it reads is there and legible, and finds the user's comments, board by
board, article by article, line by line. -/
theorem C158_history (db : DB) (c : Codec) (fs : FS) (ops : List Call) (hops : ∀ op ∈ ops, ∀ o, touches op o → Placed db fs o) (d : Bytes)
    (m : Holding) (hm : m = (intendedAll c (holdings db fs) ops).1) (hd : m .boardList = some d) (hs : Stocked db c fs m d) (user : Bytes)
    (l : List UserComment) :
    db.userComments c (Call.execAll db c fs ops).1 user = .ok l ↔
      (∀ p ∈ shelves c m d, Legible m p) ∧ l = (shelves c m d).flatMap (remarksOf m user) := by
  have key : ∀ (ops : List Call) (fs' : FS) (m : Holding), Shows db fs fs' m → (∀ op ∈ ops, ∀ o, touches op o → Placed db fs o) →
      Shows db fs (Call.execAll db c fs' ops).1 (intendedAll c m ops).1 := by
    intro ops
    induction ops with
    | nil => intro fs' m h _; exact h
    | cons op ops ih =>
      intro fs' m h hops
      obtain ⟨_, h2, _⟩ := call_step (c := c) h op (hops op (List.mem_cons_self ..))
      exact ih _ _ h2 fun x hx => hops x (List.mem_cons_of_mem _ hx)
  have hsh := key ops fs (holdings db fs) (shows_start db fs) hops
  subst hm
  have h1 := alone_on hsh (reader_userComments user) (stocked_safe hs hd user)
  rw [alone_userComments] at h1
  have h1 : db.userComments c (Call.execAll db c fs ops).1 user = (Prog.userComments user).on c _ := h1
  rw [h1, on_userComments hd]

/-- **C158, the search, exactly.** One comment more on an article with a finished last line: it is found under its owner, behind the other comments on the article,
once for every time the article is in the lists; nothing else changes, and nothing changes for other users. -/
theorem C158_search (db : DB) (c : Codec) (fs fs' : FS) (d b f tag owner text y user : Bytes) (t : Civil) (l : List UserComment)
    (hr : Remark tag owner text t) (hs : Stocked db c fs (holdings db fs) d) (hd : holdings db fs .boardList = some d)
    (hp : Placed db fs (.article b f)) (hy : holdings db fs (.article b f) = some y) (he : Ended y) (hl : ∀ x ∈ rawLines y, x.length < 65536)
    (h0 : db.userComments c fs user = .ok l) (h : db.appendBoardArticleFile fs b f (commentLine tag owner text t ++ [10]) = .ok fs') :
    l = (shelves c (holdings db fs) d).flatMap (remarksOf (holdings db fs) user) ∧
    db.userComments c fs' user = .ok ((shelves c (holdings db fs) d).flatMap fun p => remarksOf (holdings db fs) user p ++
      if p = (b, f) ∧ owner = user then
        [⟨UInt32.ofNat ((remarksOn (holdings db fs) (b, f)).length + 1), t, owner, b, f, trimSpace text⟩] else []) := by
  obtain ⟨g1, g2⟩ := (C158_history db c fs [] (fun _ h => by cases h) d _ rfl hd hs user l).mp h0
  refine ⟨g2, ?_⟩
  have e : fs' = (Call.execAll db c fs [.appendArticle b f (commentLine tag owner text t ++ [10])]).1 := by
    simp [Call.execAll, Call.exec, h, writes]
  have hm : (intendedAll c (holdings db fs) [.appendArticle b f (commentLine tag owner text t ++ [10])]).1 =
      (holdings db fs).put (.article b f) (some (y ++ (commentLine tag owner text t ++ [10]))) := by
    simp [intendedAll, intended, hy]
  have esh : shelves c ((holdings db fs).put (.article b f) (some (y ++ (commentLine tag owner text t ++ [10])))) d = shelves c (holdings db fs) d := by
    unfold shelves
    congr 1
  rw [e]
  refine (C158_history db c fs _ ?_ d _ hm.symm ?_ ⟨hs.shelved, by rw [esh]; exact hs.articles⟩ user _).mpr ?_
  · intro op hop o ho
    rw [List.mem_singleton.mp hop] at ho
    rw [show o = .article b f from ho]
    exact hp
  · rw [put_other' _ _ (by simp)]; exact hd
  · rw [esh]
    have here : ∀ p, Legible (holdings db fs) p →
        Legible ((holdings db fs).put (.article b f) (some (y ++ (commentLine tag owner text t ++ [10])))) p ∧
        remarksOn ((holdings db fs).put (.article b f) (some (y ++ (commentLine tag owner text t ++ [10])))) p =
          remarksOn (holdings db fs) p ++ if p = (b, f) then
            [⟨UInt32.ofNat ((remarksOn (holdings db fs) (b, f)).length + 1), t, owner, b, f, trimSpace text⟩] else [] := by
      intro p hg
      by_cases hpe : p = (b, f)
      · subst hpe
        obtain ⟨y', cs, k1, k2⟩ := hg
        have k1' := Option.some.inj (hy.symm.trans k1)
        subst k1'
        have k3 := (C158_line b f y _ cs he hl hr.line hr.short k2).1 _ _ _ (remark_parsed hr)
        refine ⟨⟨_, _, put_self' .., k3⟩, ?_⟩
        unfold remarksOn
        simp only [put_self', hy, k3, k2, if_true]
      · have hne : Obj.article p.1 p.2 ≠ Obj.article b f := fun e => hpe (Prod.ext (Obj.article.inj e).1 (Obj.article.inj e).2)
        unfold Legible remarksOn
        rw [put_other' _ _ hne, if_neg hpe, List.append_nil]
        exact ⟨hg, rfl⟩
    refine ⟨fun p hp => (here p (g1 p hp)).1, ?_⟩
    clear g2 hs esh
    have all : ∀ ps : List (Bytes × Bytes), (∀ p ∈ ps, Legible (holdings db fs) p) →
        (ps.flatMap fun p => remarksOf (holdings db fs) user p ++ if p = (b, f) ∧ owner = user then
          [⟨UInt32.ofNat ((remarksOn (holdings db fs) (b, f)).length + 1), t, owner, b, f, trimSpace text⟩] else []) =
        ps.flatMap (remarksOf ((holdings db fs).put (.article b f) (some (y ++ (commentLine tag owner text t ++ [10])))) user) := by
      intro ps
      induction ps with
      | nil => intro _; rfl
      | cons p ps ih =>
        intro g1
        rw [List.flatMap_cons, List.flatMap_cons, ih fun q hq => g1 q (List.mem_cons_of_mem _ hq)]
        congr 1
        unfold remarksOf
        rw [(here p (g1 p (List.mem_cons_self ..))).2, List.filter_append]
        congr 1
        by_cases h1 : p = (b, f) <;> by_cases h2 : owner = user <;> simp [h1, h2]
    exact all _ g1

/-! ## Examples -/

/-- The hypotheses hold of the disk of `shelfFS` with one comment. -/
theorem shelf_stocked (text : Bytes) : Stocked sampleDB asciiCodec (shelfFS text) (holdings sampleDB (shelfFS text)) (shelfBoard.marshal asciiCodec) := by
  have e : searchedIn asciiCodec (shelfBoard.marshal asciiCodec) = [ascii "S"] := by decide +kernel
  obtain ⟨p1, p2, p3, p4⟩ := shelf_placed text
  refine ⟨⟨p1, fun b hb => ?_⟩, fun p hp => ?_⟩
  · rw [e] at hb
    rw [List.mem_singleton.mp hb]
    exact p2
  · have ei : holdings sampleDB (shelfFS text) (.articleIndex (ascii "S")) = some (shelfRecord.marshal asciiCodec) := by
      unfold holdings fileAt
      rw [shelfFS, FS.get_set (FS.ne_root p4.notDir), if_neg (by decide +kernel), FS.get_set (FS.ne_root p2.notDir), if_pos rfl]
    have ea : (articlesIn asciiCodec (shelfRecord.marshal asciiCodec)).map (fun r => (ascii "S", r.filename)) = [(ascii "S", shelfName)] := by decide +kernel
    unfold shelves at hp
    rw [e, List.flatMap_cons, List.flatMap_nil, List.append_nil, ei, Option.getD_some, ea] at hp
    rw [List.mem_singleton.mp hp]
    exact p4

example : holdings sampleDB (shelfFS (firstPush ++ [10])) (.article (ascii "S") shelfName) = some (firstPush ++ [10]) ∧
    sampleDB.userComments asciiCodec (shelfFS (firstPush ++ [10])) (ascii "BB") = .ok [] ∧
    sampleDB.userComments asciiCodec (shelfFS (firstPush ++ [10])) (ascii "AA") =
      .ok [⟨1, ⟨0, 11, 16, 12, 34, 0⟩, ascii "AA", ascii "S", shelfName, ascii "hi"⟩] := by
  decide +kernel

end Verif
