import Verif.Props.Search
/-!
# C157: a search after posting

What the searches of /repo/bbs.go:519-698 find after any history of calls, and what one more article changes.
-/

namespace Verif
open Spec

namespace Spec

/-- The names of the boards that are searched. -/
def searchedIn (c : Codec) (d : Bytes) : List Bytes := ((boardsIn c d).map BoardHeader.brdName).filter fun b => b ≠ ascii "ALLPOST"

/-- An article, as a search returns it. -/
def asFound (board : Bytes) (r : FileHeader) : UserArticle := ⟨board, r.title, r.owner, r.filename⟩

/-- The articles of a user in the list of a board. -/
def entriesOf (c : Codec) (m : Holding) (user board : Bytes) : List UserArticle :=
  ((articlesIn c ((m (.articleIndex board)).getD [])).filter fun r => r.owner = user).map (asFound board)

/-- The list of boards is `d`, and every board that is searched has a proper place. -/
structure Shelved (db : DB) (c : Codec) (fs : FS) (d : Bytes) : Prop where
  list : Placed db fs .boardList
  boards : ∀ b ∈ searchedIn c d, Placed db fs (.articleIndex b)

/-- **C157** in full: an article added to a listed board is found under its author, once, and nothing else changes in the result. -/
def C157 : Prop := ∀ (db : DB) (c : Codec) (fs fs' : FS) (d b : Bytes) (r : FileHeader) (l : List UserArticle), Shelved db c fs d →
  holdings db fs .boardList = some d → b ∈ (boardsIn c d).map BoardHeader.brdName → Placed db fs (.articleIndex b) →
  128 ∣ ((holdings db fs (.articleIndex b)).getD []).length → db.addArticleRecord c fs b r = .ok fs' →
  db.userArticles c fs (storedArticle c r).owner = .ok l →
  ∃ l1 l2, l = l1 ++ l2 ∧ db.userArticles c fs' (storedArticle c r).owner = .ok (l1 ++ asFound b (storedArticle c r) :: l2)

end Spec

theorem on_userArticles {c : Codec} {m : Holding} {d : Bytes} (h : m .boardList = some d) (user : Bytes) :
    (Prog.userArticles user).on c m = .ok ((searchedIn c d).flatMap (entriesOf c m user)) := by
  have e0 : Prog.boards.on c m = .ok (boardsIn c d) := by rw [on_boards, Holding.need, h]; rfl
  unfold Prog.userArticles searchedIn
  rw [on_andThen, e0, Res.ok_bind]
  generalize boardsIn c d = bs
  induction bs with
  | nil => rfl
  | cons b bs ih =>
    unfold Prog.userArticleLoop
    split
    · next hs =>
      have hs : b.brdName = ascii "ALLPOST" := by simpa [DB.shouldSkip] using hs
      rw [ih, List.map_cons, List.filter_cons_of_neg (by simpa using hs)]
    · next hs =>
      have hs : b.brdName ≠ ascii "ALLPOST" := by simpa [DB.shouldSkip] using hs
      rw [on_andThen, on_articles, Res.ok_bind, on_andThen, ih, List.map_cons, List.filter_cons_of_pos (by simpa using hs)]
      rfl

theorem shelved_safe {db : DB} {c : Codec} {fs : FS} {m : Holding} {d : Bytes} (hs : Shelved db c fs d) (h : m .boardList = some d) (user : Bytes) :
    (Prog.userArticles user).Safe db fs c m := by
  have e0 : Prog.boards.on c m = .ok (boardsIn c d) := by rw [on_boards, Holding.need, h]; rfl
  refine safe_andThen ⟨by rintro o rfl; exact hs.list, by simp only [intended]; cases m.need .boardList <;> trivial⟩ fun bs hbs => ?_
  have hbs' := Res.ok.inj (e0 ▸ hbs)
  have hp : ∀ b ∈ (bs.map BoardHeader.brdName).filter (fun b => b ≠ ascii "ALLPOST"), Placed db fs (.articleIndex b) := by
    rw [← hbs']; exact hs.boards
  clear hbs hbs'
  induction bs with
  | nil => trivial
  | cons b bs ih =>
    unfold Prog.userArticleLoop
    split
    · next hs' =>
      have hs' : b.brdName = ascii "ALLPOST" := by simpa [DB.shouldSkip] using hs'
      refine ih ?_
      rwa [List.map_cons, List.filter_cons_of_neg (by simpa using hs')] at hp
    · next hs' =>
      have hs' : b.brdName ≠ ascii "ALLPOST" := by simpa [DB.shouldSkip] using hs'
      rw [List.map_cons, List.filter_cons_of_pos (by simpa using hs')] at hp
      have hb := hp _ (List.mem_cons_self ..)
      exact safe_andThen ⟨by rintro o rfl; exact hb, trivial⟩ fun _ _ =>
        safe_andThen (ih fun x hx => hp x (List.mem_cons_of_mem _ hx)) fun _ _ => trivial

/-- **C157, any history.** After any history of calls, a search finds, board by board in the order of the list of boards, the records of the user in
the lists of articles that the history has left. -/
theorem C157_history (db : DB) (c : Codec) (fs : FS) (ops : List Call) (hops : ∀ op ∈ ops, ∀ o, touches op o → Placed db fs o) (d : Bytes)
    (hd : (intendedAll c (holdings db fs) ops).1 .boardList = some d) (hs : Shelved db c fs d) (user : Bytes) :
    db.userArticles c (Call.execAll db c fs ops).1 user =
      .ok ((searchedIn c d).flatMap (entriesOf c (intendedAll c (holdings db fs) ops).1 user)) := by
  have key : ∀ (ops : List Call) (fs' : FS) (m : Holding), Shows db fs fs' m → (∀ op ∈ ops, ∀ o, touches op o → Placed db fs o) →
      Shows db fs (Call.execAll db c fs' ops).1 (intendedAll c m ops).1 := by
    intro ops
    induction ops with
    | nil => intro fs' m h _; exact h
    | cons op ops ih =>
      intro fs' m h hops
      obtain ⟨_, h2, _⟩ := call_step (c := c) h op (hops op (List.mem_cons_self ..))
      exact ih _ _ h2 fun x hx => hops x (List.mem_cons_of_mem _ hx)
  have hsh := key ops fs (holdings db fs) (shows_start db fs) hops
  have h1 := alone_on hsh (reader_userArticles user) (shelved_safe (m := (intendedAll c (holdings db fs) ops).1) hs hd user)
  rw [alone_userArticles, on_userArticles hd] at h1
  exact h1

/-- **C157**, exactly: one article more. Every time its board is in the list of boards, except as `ALLPOST`, it is found once, behind the other articles of the
board; nothing else changes, and nothing changes for other users. -/
theorem C157_exact (db : DB) (c : Codec) (fs fs' : FS) (d b : Bytes) (r : FileHeader) (user : Bytes) (hs : Shelved db c fs d)
    (hd : holdings db fs .boardList = some d) (hb : Placed db fs (.articleIndex b))
    (hw : 128 ∣ ((holdings db fs (.articleIndex b)).getD []).length) (h : db.addArticleRecord c fs b r = .ok fs') :
    db.userArticles c fs user = .ok ((searchedIn c d).flatMap (entriesOf c (holdings db fs) user)) ∧
    db.userArticles c fs' user = .ok ((searchedIn c d).flatMap fun x => entriesOf c (holdings db fs) user x ++
      if x = b ∧ (storedArticle c r).owner = user then [asFound b (storedArticle c r)] else []) := by
  refine ⟨C157_history db c fs [] (fun _ h => by cases h) d hd hs user, ?_⟩
  have e : fs' = (Call.execAll db c fs [.addRecord b r]).1 := by
    simp [Call.execAll, Call.exec, h, writes]
  rw [e, C157_history db c fs [.addRecord b r] ?_ d ?_ hs user]
  · congr 2
    funext x
    show entriesOf c ((holdings db fs).put (.articleIndex b) (some ((holdings db fs (.articleIndex b)).getD [] ++ r.marshal c))) user x = _
    by_cases hx : x = b
    · subst hx
      unfold entriesOf
      rw [put_self', Option.getD_some, articlesIn_append c hw, List.filter_append, List.map_append]
      by_cases ho : (storedArticle c r).owner = user
      · simp [ho]
      · simp [ho]
    · unfold entriesOf
      rw [put_other' _ _ (by simpa using hx), if_neg (fun h => hx h.1), List.append_nil]
  · intro op hop o ho
    rw [List.mem_singleton.mp hop] at ho
    rw [show o = .articleIndex b from ho]
    exact hb
  · show ((holdings db fs).put (.articleIndex b) (some ((holdings db fs (.articleIndex b)).getD [] ++ r.marshal c))) .boardList = _
    rw [put_other' _ _ (by simp)]
    exact hd

/-- How many more are found. -/
theorem C157_count (db : DB) (c : Codec) (fs fs' : FS) (d b : Bytes) (r : FileHeader) (user : Bytes) (hs : Shelved db c fs d)
    (hd : holdings db fs .boardList = some d) (hb : Placed db fs (.articleIndex b))
    (hw : 128 ∣ ((holdings db fs (.articleIndex b)).getD []).length) (h : db.addArticleRecord c fs b r = .ok fs') :
    ∃ l l', db.userArticles c fs user = .ok l ∧ db.userArticles c fs' user = .ok l' ∧ l.Sublist l' ∧
      l'.length = l.length + (if (storedArticle c r).owner = user then (searchedIn c d).count b else 0) := by
  obtain ⟨h1, h2⟩ := C157_exact db c fs fs' d b r user hs hd hb hw h
  refine ⟨_, _, h1, h2, ?_, ?_⟩
  · generalize searchedIn c d = bs
    induction bs with
    | nil => exact .slnil
    | cons x bs ih =>
      rw [List.flatMap_cons, List.flatMap_cons, List.append_assoc]
      exact (List.Sublist.refl _).append (ih.trans (List.sublist_append_right _ _))
  · generalize searchedIn c d = bs
    induction bs with
    | nil => simp
    | cons x bs ih =>
      rw [List.flatMap_cons, List.flatMap_cons, List.length_append, List.length_append, List.length_append, ih, List.count_cons]
      by_cases ho : (storedArticle c r).owner = user <;> by_cases hx : x = b <;> simp [ho, hx] <;> omega

/-- What holds: in a board that is searched and is in the list once, the article is found once. -/
theorem C157_partial (db : DB) (c : Codec) (fs fs' : FS) (d b : Bytes) (r : FileHeader) (l : List UserArticle) (hs : Shelved db c fs d)
    (hd : holdings db fs .boardList = some d) (hone : (searchedIn c d).count b = 1)
    (hw : 128 ∣ ((holdings db fs (.articleIndex b)).getD []).length) (h : db.addArticleRecord c fs b r = .ok fs')
    (hl : db.userArticles c fs (storedArticle c r).owner = .ok l) :
    ∃ l1 l2, l = l1 ++ l2 ∧ db.userArticles c fs' (storedArticle c r).owner = .ok (l1 ++ asFound b (storedArticle c r) :: l2) := by
  have hmem : b ∈ searchedIn c d := List.count_pos_iff.mp (by omega)
  obtain ⟨h1, h2⟩ := C157_exact db c fs fs' d b r (storedArticle c r).owner hs hd (hs.boards b hmem) hw h
  rw [hl] at h1
  have h1 := Res.ok.inj h1
  rw [h1, h2]
  obtain ⟨A, B, e⟩ := List.append_of_mem hmem
  rw [e] at hone ⊢
  rw [List.count_append, List.count_cons_self] at hone
  have hA : b ∉ A := List.count_eq_zero.mp (by omega)
  have hB : b ∉ B := List.count_eq_zero.mp (by omega)
  have same : ∀ X : List Bytes, b ∉ X → (X.flatMap fun x => entriesOf c (holdings db fs) (storedArticle c r).owner x ++
      if x = b ∧ (storedArticle c r).owner = (storedArticle c r).owner then [asFound b (storedArticle c r)] else []) =
      X.flatMap (entriesOf c (holdings db fs) (storedArticle c r).owner) := by
    intro X hX
    induction X with
    | nil => rfl
    | cons x X ih =>
      rw [List.mem_cons, not_or] at hX
      rw [List.flatMap_cons, List.flatMap_cons, ih hX.2, if_neg (fun h => hX.1 h.1.symm), List.append_nil]
  refine ⟨A.flatMap (entriesOf c (holdings db fs) (storedArticle c r).owner) ++ entriesOf c (holdings db fs) (storedArticle c r).owner b,
    B.flatMap (entriesOf c (holdings db fs) (storedArticle c r).owner), ?_, ?_⟩
  · rw [List.flatMap_append, List.flatMap_cons, List.append_assoc]
  · rw [List.flatMap_append, List.flatMap_cons, same A hA, same B hB, if_pos ⟨rfl, rfl⟩]
    simp

/-! ## A board that is in the list twice -/

/-- The disk of `shelfFS`, with its board twice in the list of boards. -/
def twiceFS : FS := (shelfFS []).set (at_ sampleDB .boardList) (.file (shelfBoard.marshal asciiCodec ++ shelfBoard.marshal asciiCodec))

theorem twice_searched : searchedIn asciiCodec (shelfBoard.marshal asciiCodec ++ shelfBoard.marshal asciiCodec) = [ascii "S", ascii "S"] := by
  decide +kernel

theorem twice_shelved : Shelved sampleDB asciiCodec twiceFS (shelfBoard.marshal asciiCodec ++ shelfBoard.marshal asciiCodec) := by
  obtain ⟨p1, p2, _⟩ := shelf_placed []
  refine ⟨placed_set p1 p1 _, fun b hb => ?_⟩
  rw [twice_searched] at hb
  have : b = ascii "S" := by simpa using hb
  rw [this]
  exact placed_set p1 p2 _

theorem twice_list : holdings sampleDB twiceFS .boardList = some (shelfBoard.marshal asciiCodec ++ shelfBoard.marshal asciiCodec) := by
  unfold holdings fileAt twiceFS
  rw [FS.get_set (FS.ne_root (shelf_placed []).1.notDir), if_pos rfl]

theorem twice_index : holdings sampleDB twiceFS (.articleIndex (ascii "S")) = some (shelfRecord.marshal asciiCodec) := by
  obtain ⟨p1, p2, _, p4⟩ := shelf_placed []
  unfold holdings fileAt twiceFS
  rw [FS.get_set (FS.ne_root p1.notDir), if_neg (by decide +kernel), shelfFS, FS.get_set (FS.ne_root p4.notDir), if_neg (by decide +kernel),
    FS.get_set (FS.ne_root p2.notDir), if_pos rfl]

theorem twice_add : ∃ fs', sampleDB.addArticleRecord asciiCodec twiceFS (ascii "S") shelfRecord = .ok fs' := by
  have hp := twice_shelved.boards (ascii "S") (by rw [twice_searched]; simp)
  obtain ⟨h1, -, -⟩ := call_step (c := asciiCodec) (shows_start sampleDB twiceFS) (.addRecord (ascii "S") shelfRecord)
    (by rintro o rfl; exact hp)
  simp only [Call.exec, intended] at h1
  cases e : sampleDB.addArticleRecord asciiCodec twiceFS (ascii "S") shelfRecord with
  | ok fs' => exact ⟨fs', rfl⟩
  | _ => rw [e] at h1; cases h1

/-- **C157 is false of the code**: a board can be in the list twice (C69), and then every article in it is found twice. -/
theorem C157_refuted : ¬ Spec.C157 := by
  intro H
  obtain ⟨fs', h⟩ := twice_add
  have hp := twice_shelved.boards (ascii "S") (by rw [twice_searched]; simp)
  have hw : 128 ∣ ((holdings sampleDB twiceFS (.articleIndex (ascii "S"))).getD []).length := by
    rw [twice_index, Option.getD_some, FileHeader.marshal_length]
    exact ⟨1, rfl⟩
  obtain ⟨l, l', e1, e2, -, e3⟩ := C157_count sampleDB asciiCodec twiceFS fs' _ (ascii "S") shelfRecord (storedArticle asciiCodec shelfRecord).owner twice_shelved twice_list hp hw h
  obtain ⟨l1, l2, e4, e5⟩ := H sampleDB asciiCodec twiceFS fs' _ (ascii "S") shelfRecord l twice_shelved twice_list (by decide +kernel) hp hw h e1
  rw [e2] at e5
  have e5 := congrArg List.length (Res.ok.inj e5)
  rw [if_pos rfl, twice_searched] at e3
  have : List.count (ascii "S") [ascii "S", ascii "S"] = 2 := by decide
  rw [this] at e3
  rw [e4] at e3
  simp only [List.length_append, List.length_cons] at e3 e5
  omega

/-! ## Examples -/

/-- The hypotheses of `C157_partial`, on a disk whose board is in the list once. -/
example : Shelved sampleDB asciiCodec (shelfFS []) (shelfBoard.marshal asciiCodec) ∧
    (searchedIn asciiCodec (shelfBoard.marshal asciiCodec)).count (ascii "S") = 1 := by
  have e : searchedIn asciiCodec (shelfBoard.marshal asciiCodec) = [ascii "S"] := by decide +kernel
  obtain ⟨p1, p2, _⟩ := shelf_placed []
  rw [e]
  refine ⟨⟨p1, fun b hb => ?_⟩, by decide⟩
  rw [e] at hb
  rw [List.mem_singleton.mp hb]
  exact p2

/-- Before and after, on that disk. -/
example : sampleDB.userArticles asciiCodec (shelfFS []) (ascii "Ab") = .ok [⟨ascii "S", ascii "old", ascii "Ab", shelfName⟩] := by decide +kernel

end Verif
