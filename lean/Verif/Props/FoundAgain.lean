import Verif.Props.Stays
import Verif.Props.Lists
import Verif.Proofs.Progress
import Verif.Proofs.Search
/-!
# C170: what a search found, it finds again after others have added
-/

namespace Verif
open Spec

/-- C170: what a search for a user's articles found is found again, in the same order, after any calls that write over no text and delete nothing. -/
def Spec.FoundAgain : Prop := ∀ (db : DB) (c : Codec) (fs : FS) (user : Bytes) (found : List UserArticle) (ops : List Call),
  db.userArticles c fs user = .ok found → (∀ o ∈ ops, CallKeeps o) →
  ∃ more, db.userArticles c (Call.execAll db c fs ops).1 user = .ok more ∧ found.Sublist more

/-- The list of boards and the lists of articles, where they are, have whole records only. -/
def Spec.WholeLists (db : DB) (fs : FS) : Prop :=
  (∀ d, fs.readFile db.cwd (db.home ++ ascii "/.BRD") = .ok d → 256 ∣ d.length) ∧
  ∀ b p d, getBoardArticlesDirectoryPath db.home b = .ok p → fs.readFile db.cwd p = .ok d → 128 ∣ d.length

theorem openBoardList_read {db : DB} {c : Codec} {fs : FS} {p : Bytes} {l : List BoardHeader} (h : db.openBoardList c fs p = .ok l) :
    ∃ d, fs.readFile db.cwd p = .ok d ∧ l = (slots 256 d).map (BoardHeader.parse c) := by
  have h0 := h
  unfold DB.openBoardList at h
  obtain ⟨q, hq, h⟩ := Res.bind_eq_ok.mp h
  split at h
  · cases h
  · cases h
  · rename_i d hg
    have hr : fs.readFile db.cwd p = .ok d := by rw [FS.readFile_of hq, hg]
    exact ⟨d, hr, Res.ok.inj (h0.symm.trans (openBoardList_file hr))⟩

theorem openArticleList_read {db : DB} {c : Codec} {fs : FS} {p : Bytes} {l : List FileHeader} (h : db.openArticleList c fs p = .ok l) :
    ∃ d, fs.readFile db.cwd p = .ok d ∧ l = (slots 128 d).map (FileHeader.parse c) := by
  have h0 := h
  unfold DB.openArticleList at h
  obtain ⟨q, hq, h⟩ := Res.bind_eq_ok.mp h
  split at h
  · cases h
  · cases h
  · rename_i d hg
    have hr : fs.readFile db.cwd p = .ok d := by rw [FS.readFile_of hq, hg]
    exact ⟨d, hr, Res.ok.inj (h0.symm.trans (openArticleList_file hr))⟩

theorem readBoards_grow {db : DB} {c : Codec} {fs fs' : FS} (hadd : OnlyAdds fs fs') (hw : WholeLists db fs) {l l' : List BoardHeader}
    (h : db.readBoardRecords c fs = .ok l) (h' : db.readBoardRecords c fs' = .ok l') : l <+: l' := by
  unfold DB.readBoardRecords at h h'
  obtain ⟨p, hp, h⟩ := Res.bind_eq_ok.mp h
  rw [hp, Res.ok_bind] at h'
  obtain ⟨d, hd, rfl⟩ := openBoardList_read h
  obtain ⟨e, he⟩ := readFile_later hadd hd
  rw [openBoardList_file he] at h'
  rw [← Res.ok.inj h']
  exact slots_later (by decide) _ (hw.1 d (by rw [Res.ok.inj hp]; exact hd)) e

theorem readArticles_grow {db : DB} {c : Codec} {fs fs' : FS} (hadd : OnlyAdds fs fs') (hw : WholeLists db fs) {b : Bytes} {l l' : List FileHeader}
    (h : db.readArticleRecords c fs b = .ok l) (h' : db.readArticleRecords c fs' b = .ok l') : l <+: l' := by
  unfold DB.readArticleRecords at h h'
  obtain ⟨p, hp, h⟩ := Res.bind_eq_ok.mp h
  rw [hp, Res.ok_bind] at h'
  split at h
  · split at h
    · rw [← Res.ok.inj h]
      exact List.nil_prefix
    · cases h
  · obtain ⟨d, hd, rfl⟩ := openArticleList_read h
    obtain ⟨e, he⟩ := readFile_later hadd hd
    rw [openArticleList_file he] at h'
    rw [← Res.ok.inj h']
    exact slots_later (by decide) _ (hw.2 b p d hp hd) e

theorem userArticleLoop_grow {db : DB} {c : Codec} {fs fs' : FS} (hadd : OnlyAdds fs fs') (hw : WholeLists db fs) {user : Bytes} :
    ∀ (bs z : List BoardHeader) (r r' : List UserArticle), db.userArticleLoop c fs user bs = .ok r →
      db.userArticleLoop c fs' user (bs ++ z) = .ok r' → r.Sublist r'
  | [], _, r, _, h, _ => by
    rw [← Res.ok.inj h]
    exact List.nil_sublist _
  | b :: bs, z, r, r', h, h' => by
    rw [List.cons_append] at h'
    unfold DB.userArticleLoop at h h'
    split at h
    · rename_i hs
      rw [if_pos hs] at h'
      exact userArticleLoop_grow hadd hw bs z r r' h h'
    · rename_i hs
      rw [if_neg hs] at h'
      obtain ⟨ars, h1, h⟩ := Res.bind_eq_ok.mp h
      obtain ⟨rest, h2, h⟩ := Res.bind_eq_ok.mp h
      obtain ⟨ars', h1', h'⟩ := Res.bind_eq_ok.mp h'
      obtain ⟨rest', h2', h'⟩ := Res.bind_eq_ok.mp h'
      rw [← Res.ok.inj h, ← Res.ok.inj h']
      exact List.Sublist.append (((readArticles_grow hadd hw h1 h1').sublist.filter _).map _) (userArticleLoop_grow hadd hw bs z rest rest' h2 h2')

/-- C170 (partial: the lists have whole records only, and the later search succeeds). -/
theorem C170_found_again_partial (db : DB) (c : Codec) (fs : FS) (user : Bytes) (found more : List UserArticle) (ops : List Call)
    (h : db.userArticles c fs user = .ok found) (hops : ∀ o ∈ ops, CallKeeps o) (hw : WholeLists db fs)
    (h' : db.userArticles c (Call.execAll db c fs ops).1 user = .ok more) : found.Sublist more := by
  have hadd := C167_only_adds db c ops fs hops
  unfold DB.userArticles at h h'
  obtain ⟨bs, hb, h⟩ := Res.bind_eq_ok.mp h
  obtain ⟨bs', hb', h'⟩ := Res.bind_eq_ok.mp h'
  obtain ⟨z, rfl⟩ := readBoards_grow hadd hw hb hb'
  exact userArticleLoop_grow hadd hw bs z found more h h'

theorem userArticleLoop_succeeds (db : DB) (c : Codec) (fs : FS) (user : Bytes) : ∀ bs : List BoardHeader,
    (∃ r, db.userArticleLoop c fs user bs = .ok r) ↔ ∀ b ∈ bs, DB.shouldSkip b.brdName = false → ∃ l, db.readArticleRecords c fs b.brdName = .ok l
  | [] => ⟨fun _ _ h => (List.not_mem_nil h).elim, fun _ => ⟨[], rfl⟩⟩
  | b :: bs => by
    have ih := userArticleLoop_succeeds db c fs user bs
    rw [List.forall_mem_cons, ← ih]
    simp only [DB.userArticleLoop]
    cases hs : DB.shouldSkip b.brdName with
    | true => simp only [if_true, Bool.true_eq_false, false_implies, true_and]
    | false =>
      simp only [Bool.false_eq_true, if_false, true_implies]
      constructor
      · rintro ⟨r, h⟩
        obtain ⟨ars, h1, h⟩ := Res.bind_eq_ok.mp h
        obtain ⟨rest, h2, h⟩ := Res.bind_eq_ok.mp h
        exact ⟨⟨ars, h1⟩, rest, h2⟩
      · rintro ⟨⟨ars, h1⟩, rest, h2⟩
        rw [h1, Res.ok_bind, h2, Res.ok_bind]
        exact ⟨_, rfl⟩

/-- C170, when the search succeeds: exactly when the list of boards and the list of every board but `ALLPOST` can be read. -/
theorem C170_succeeds (db : DB) (c : Codec) (fs : FS) (user : Bytes) : (∃ r, db.userArticles c fs user = .ok r) ↔
    ∃ bs, db.readBoardRecords c fs = .ok bs ∧ ∀ b ∈ bs, b.brdName ≠ ascii "ALLPOST" → ∃ l, db.readArticleRecords c fs b.brdName = .ok l := by
  have hskip : ∀ x : Bytes, DB.shouldSkip x = false ↔ x ≠ ascii "ALLPOST" := fun x => by simp [DB.shouldSkip]
  unfold DB.userArticles
  constructor
  · rintro ⟨r, h⟩
    obtain ⟨bs, hb, h⟩ := Res.bind_eq_ok.mp h
    exact ⟨bs, hb, fun b hm hs => (userArticleLoop_succeeds db c fs user bs).mp ⟨r, h⟩ b hm ((hskip _).mpr hs)⟩
  · rintro ⟨bs, hb, h⟩
    rw [hb, Res.ok_bind]
    exact (userArticleLoop_succeeds db c fs user bs).mpr fun b hm hs => h b hm ((hskip _).mp hs)

/-! ## Comments -/

/-- The texts of the articles on the lists end with a newline. -/
def Spec.WholeTexts (db : DB) (c : Codec) (fs : FS) : Prop :=
  ∀ b l, db.readArticleRecords c fs b = .ok l → ∀ ar ∈ l, ∀ d, db.readBoardArticleFile fs b ar.filename = .ok d → Ended d

theorem boardUserCommentLoop_grow {db : DB} {fs fs' : FS} (hadd : OnlyAdds fs fs') {board user : Bytes} :
    ∀ (ars z : List FileHeader) (r r' : List UserComment), (∀ ar ∈ ars, ∀ d, db.readBoardArticleFile fs board ar.filename = .ok d → Ended d) → db.boardUserCommentLoop fs board user ars = .ok r →
      db.boardUserCommentLoop fs' board user (ars ++ z) = .ok r' → r.Sublist r'
  | [], _, r, _, _, h, _ => by
    rw [← Res.ok.inj h]
    exact List.nil_sublist _
  | ar :: ars, z, r, r', ht, h, h' => by
    rw [List.cons_append] at h'
    unfold DB.boardUserCommentLoop at h h'
    obtain ⟨crs, h1, h⟩ := Res.bind_eq_ok.mp h
    obtain ⟨rest, h2, h⟩ := Res.bind_eq_ok.mp h
    obtain ⟨crs', h1', h'⟩ := Res.bind_eq_ok.mp h'
    obtain ⟨rest', h2', h'⟩ := Res.bind_eq_ok.mp h'
    rw [← Res.ok.inj h, ← Res.ok.inj h']
    refine List.Sublist.append (List.Sublist.filter _ ?_) (boardUserCommentLoop_grow hadd ars z rest rest'
      (fun x hx => ht x (List.mem_cons_of_mem _ hx)) h2 h2')
    unfold DB.boardArticleComments at h1 h1'
    obtain ⟨d, hd, h1⟩ := Res.bind_eq_ok.mp h1
    obtain ⟨d', hd', h1'⟩ := Res.bind_eq_ok.mp h1'
    have hend := ht ar List.mem_cons_self d hd
    unfold DB.readBoardArticleFile at hd hd'
    obtain ⟨p, hp, hd⟩ := Res.bind_eq_ok.mp hd
    rw [hp, Res.ok_bind] at hd'
    obtain ⟨e, he⟩ := readFile_later hadd hd
    rw [he] at hd'
    rw [← Res.ok.inj hd'] at h1'
    obtain ⟨l, hl, hsub⟩ := comments_grow board ar.filename d e (.inr hend) crs' h1'
    rw [hl] at h1
    rw [← Res.ok.inj h1]
    exact hsub

theorem boardUserComments_grow {db : DB} {c : Codec} {fs fs' : FS} (hadd : OnlyAdds fs fs') (hw : WholeLists db fs) (ht : WholeTexts db c fs)
    {board user : Bytes} {r r' : List UserComment} (h : db.boardUserComments c fs board user = .ok r)
    (h' : db.boardUserComments c fs' board user = .ok r') : r.Sublist r' := by
  unfold DB.boardUserComments at h h'
  obtain ⟨ars, h1, h⟩ := Res.bind_eq_ok.mp h
  obtain ⟨ars', h1', h'⟩ := Res.bind_eq_ok.mp h'
  obtain ⟨z, rfl⟩ := readArticles_grow hadd hw h1 h1'
  exact boardUserCommentLoop_grow hadd ars z r r' (ht board ars h1) h h'

theorem userCommentLoop_grow {db : DB} {c : Codec} {fs fs' : FS} (hadd : OnlyAdds fs fs') (hw : WholeLists db fs) (ht : WholeTexts db c fs) {user : Bytes} :
    ∀ (bs z : List BoardHeader) (r r' : List UserComment), db.userCommentLoop c fs user bs = .ok r →
      db.userCommentLoop c fs' user (bs ++ z) = .ok r' → r.Sublist r'
  | [], _, r, _, h, _ => by
    rw [← Res.ok.inj h]
    exact List.nil_sublist _
  | b :: bs, z, r, r', h, h' => by
    rw [List.cons_append] at h'
    unfold DB.userCommentLoop at h h'
    split at h
    · rename_i hs
      rw [if_pos hs] at h'
      exact userCommentLoop_grow hadd hw ht bs z r r' h h'
    · rename_i hs
      rw [if_neg hs] at h'
      obtain ⟨x, h1, h⟩ := Res.bind_eq_ok.mp h
      obtain ⟨rest, h2, h⟩ := Res.bind_eq_ok.mp h
      obtain ⟨x', h1', h'⟩ := Res.bind_eq_ok.mp h'
      obtain ⟨rest', h2', h'⟩ := Res.bind_eq_ok.mp h'
      rw [← Res.ok.inj h, ← Res.ok.inj h']
      exact List.Sublist.append (boardUserComments_grow hadd hw ht h1 h1') (userCommentLoop_grow hadd hw ht bs z rest rest' h2 h2')

/-- C170, of comments (partial: also the texts end with a newline). -/
theorem C170_comments_partial (db : DB) (c : Codec) (fs : FS) (user : Bytes) (found more : List UserComment) (ops : List Call)
    (h : db.userComments c fs user = .ok found) (hops : ∀ o ∈ ops, CallKeeps o) (hw : WholeLists db fs) (ht : WholeTexts db c fs)
    (h' : db.userComments c (Call.execAll db c fs ops).1 user = .ok more) : found.Sublist more := by
  have hadd := C167_only_adds db c ops fs hops
  unfold DB.userComments at h h'
  obtain ⟨bs, hb, h⟩ := Res.bind_eq_ok.mp h
  obtain ⟨bs', hb', h'⟩ := Res.bind_eq_ok.mp h'
  obtain ⟨z, rfl⟩ := readBoards_grow hadd hw hb hb'
  exact userCommentLoop_grow hadd hw ht bs z found more h h'

/-- C170, of the comments on one board. -/
theorem C170_board_comments_partial (db : DB) (c : Codec) (fs : FS) (board user : Bytes) (found more : List UserComment) (ops : List Call)
    (h : db.boardUserComments c fs board user = .ok found) (hops : ∀ o ∈ ops, CallKeeps o) (hw : WholeLists db fs) (ht : WholeTexts db c fs)
    (h' : db.boardUserComments c (Call.execAll db c fs ops).1 board user = .ok more) : found.Sublist more :=
  boardUserComments_grow (C167_only_adds db c ops fs hops) hw ht h h'

/-- Boards on a disk that has no list of articles. -/
def Spec.boardsOnly : FS := sampleFS.set [ascii "bbs", ascii ".BRD"] (.file [])

/-- C170 is false of the code: a board without a name, once added, stops every search. -/
theorem C170_found_again_refuted : ¬ Spec.FoundAgain := by
  intro h
  obtain ⟨more, h1, -⟩ := h sampleDB asciiCodec boardsOnly (ascii "lex") [] [.addBoard { sampleBoard with brdName := [] }] (by decide +kernel) (by
    intro o ho
    rw [List.mem_singleton.mp ho]
    exact trivial)
  have h2 : sampleDB.userArticles asciiCodec (Call.execAll sampleDB asciiCodec boardsOnly [.addBoard { sampleBoard with brdName := [] }]).1 (ascii "lex") = .panic := by
    decide +kernel
  rw [h2] at h1
  cases h1

/-- The same of comments, for searches that succeed. -/
def Spec.CommentsFoundAgain : Prop := ∀ (db : DB) (c : Codec) (fs : FS) (user : Bytes) (found more : List UserComment) (ops : List Call),
  db.userComments c fs user = .ok found → (∀ o ∈ ops, CallKeeps o) → WholeLists db fs →
  db.userComments c (Call.execAll db c fs ops).1 user = .ok more → found.Sublist more

theorem get_entry {fs : FS} {l : Path} {n : Node} (hl : l ≠ []) (h : fs.get l = some n) : (l, n) ∈ fs.entries := by
  unfold FS.get at h
  rw [if_neg hl] at h
  generalize fs.entries = es at h
  induction es with
  | nil => cases h
  | cons e es ih =>
    obtain ⟨q, m⟩ := e
    rw [List.lookup_cons] at h
    cases hq : l == q with
    | true =>
      simp only [hq] at h
      rw [Option.some.inj h, eq_of_beq hq]
      exact List.mem_cons_self
    | false =>
      simp only [hq] at h
      exact List.mem_cons_of_mem _ (ih h)

/-- A file read by a path that ends with a name is on the disk under that name. -/
theorem readFile_entry {fs : FS} {cwd : Path} {x name d : Bytes} (h1 : slash ∉ name) (h2 : name ≠ []) (h3 : name ≠ [dot]) (h4 : name ≠ [dot, dot])
    (h : fs.readFile cwd (x ++ slash :: name) = .ok d) : ∃ l : Path, (l, Node.file d) ∈ fs.entries ∧ l.getLast? = some name := by
  obtain ⟨l, hl, hg⟩ := FS.readFile_ok h
  refine ⟨l, get_entry (FS.ne_root (by rw [hg]; simp)) hg, ?_⟩
  rw [FS.lookup_eq hl]
  exact resolve_last _ _ _ h1 h2 h3 h4

theorem dir_entry {db : DB} {fs : FS} {b p d : Bytes} (hp : getBoardArticlesDirectoryPath db.home b = .ok p) (h : fs.readFile db.cwd p = .ok d) :
    ∃ l : Path, (l, Node.file d) ∈ fs.entries ∧ l.getLast? = some (ascii ".DIR") := by
  obtain ⟨k, -, hp⟩ := Res.bind_eq_ok.mp hp
  rw [← Res.ok.inj hp] at h
  exact readFile_entry (x := db.home ++ ascii "/boards/" ++ fmtC k ++ ascii "/" ++ b) (by decide) (by decide) (by decide) (by decide) h

/-- A list on the disk has whole records. -/
def wholeEntry : Path × Node → Bool
  | (l, .file d) => (l.getLast? != some (ascii ".DIR") || d.length % 128 == 0) && (l.getLast? != some (ascii ".BRD") || d.length % 256 == 0)
  | (_, .dir) => true

theorem wholeLists_of {db : DB} {fs : FS} (h : ∀ e ∈ fs.entries, wholeEntry e = true) : WholeLists db fs := by
  constructor
  · intro d hd
    obtain ⟨l, he, hl⟩ := readFile_entry (x := db.home) (name := ascii ".BRD") (by decide) (by decide) (by decide) (by decide) hd
    have := h _ he
    simp only [wholeEntry, hl, Bool.and_eq_true, Bool.or_eq_true, beq_iff_eq, bne_self_eq_false, Bool.false_eq_true, false_or] at this
    exact Nat.dvd_of_mod_eq_zero this.2
  · intro b p d hp hd
    obtain ⟨l, he, hl⟩ := dir_entry hp hd
    have := h _ he
    simp only [wholeEntry, hl, Bool.and_eq_true, Bool.or_eq_true, beq_iff_eq, bne_self_eq_false, Bool.false_eq_true, false_or] at this
    exact Nat.dvd_of_mod_eq_zero this.1

theorem listFS_whole : WholeLists sampleDB listFS := wholeLists_of (by decide +kernel)

/-- C170, of comments, is false of the code: a comment without a newline is changed by the next. -/
theorem C170_comments_refuted : ¬ Spec.CommentsFoundAgain := by
  intro h
  have h1 := h sampleDB asciiCodec listFS (ascii "tom") [⟨1, ⟨0, 2, 28, 23, 59, 0⟩, ascii "tom", ascii "S", ascii "M.1.A.1", ascii "a"⟩]
    [⟨1, ⟨0, 3, 1, 10, 0, 0⟩, ascii "tom", ascii "S", ascii "M.1.A.1", ascii "a 02/28 2359Boo lex:b:"⟩]
    [.appendArticle (ascii "S") (ascii "M.1.A.1") (ascii "Boo lex: b 03/01 10:00")] (by decide +kernel) (by
      intro o ho
      rw [List.mem_singleton.mp ho]
      exact trivial) listFS_whole (by decide +kernel)
  revert h1
  decide +kernel

/-- Non-vacuity: an article is found again when a board and another article have been added. -/
example : [(⟨ascii "S", ascii "t", ascii "lex", ascii "M.1.A.1"⟩ : UserArticle)].Sublist
    [⟨ascii "S", ascii "t", ascii "lex", ascii "M.1.A.1"⟩, ⟨ascii "S", ascii "v", ascii "lex", ascii "M.3.A.3"⟩] :=
  C170_found_again_partial sampleDB asciiCodec listFS (ascii "lex") _ _
    [.addBoard { sampleBoard with brdName := ascii "U" },
      .addRecord (ascii "S") { FileHeader.zero with filename := ascii "M.3.A.3", owner := ascii "lex", title := ascii "v", modified := 3 }]
    (by decide +kernel) (by
      intro op hop
      simp only [List.mem_cons, List.not_mem_nil, or_false] at hop
      rcases hop with rfl | rfl <;> exact trivial) listFS_whole (by decide +kernel)

/-- A disk whose texts end with newlines. -/
def Spec.linedFS : FS :=
  ⟨[([ascii "bbs"], .dir), ([ascii "bbs", ascii "boards"], .dir), ([ascii "bbs", ascii "boards", ascii "S"], .dir),
    ([ascii "bbs", ascii "boards", ascii "S", ascii "S"], .dir),
    ([ascii "bbs", ascii "boards", ascii "S", ascii "S", ascii ".DIR"],
      .file ((listIndex (ascii "S")).map (fun r => r.marshal asciiCodec)).flatten),
    ([ascii "bbs", ascii "boards", ascii "S", ascii "S", ascii "M.1.A.1"], .file (listContent ++ [10])),
    ([ascii "bbs", ascii "boards", ascii "S", ascii "S", ascii "M.2.A.2"], .file []),
    ([ascii "bbs", ascii ".BRD"], .file (listBoards.map (fun b => b.marshal asciiCodec)).flatten)]⟩

/-- What the files of the disk hold, by their names. -/
def linedEntry : Path × Node → Bool
  | (l, .file d) => (l.getLast? != some (ascii ".DIR") || d == ((listIndex (ascii "S")).map (fun r => r.marshal asciiCodec)).flatten) &&
      ((l.getLast? != some (ascii "M.1.A.1") || d == listContent ++ [10]) && (l.getLast? != some (ascii "M.2.A.2") || d == []))
  | (_, .dir) => true

theorem lined_text {fs : FS} (hfs : ∀ e ∈ fs.entries, linedEntry e = true) {b f d : Bytes} (hf : f = ascii "M.1.A.1" ∨ f = ascii "M.2.A.2") (h : sampleDB.readBoardArticleFile fs b f = .ok d) : Ended d := by
  unfold DB.readBoardArticleFile at h
  obtain ⟨p, hp, h⟩ := Res.bind_eq_ok.mp h
  obtain ⟨k, -, hp⟩ := Res.bind_eq_ok.mp hp
  have hp2 : p = (sampleDB.home ++ ascii "/boards/" ++ fmtC k ++ ascii "/" ++ b) ++ slash :: f := by
    rw [← Res.ok.inj hp, show ascii "/" = [slash] from by decide]
    simp only [List.append_assoc, List.cons_append, List.nil_append]
  rw [hp2] at h
  obtain ⟨l, he, hl⟩ := readFile_entry (by rcases hf with rfl | rfl <;> decide) (by rcases hf with rfl | rfl <;> decide)
    (by rcases hf with rfl | rfl <;> decide) (by rcases hf with rfl | rfl <;> decide) h
  have := hfs _ he
  simp only [linedEntry, hl, Bool.and_eq_true, Bool.or_eq_true, beq_iff_eq] at this
  rcases hf with rfl | rfl
  · rcases this.2.1 with h | h
    · exact absurd h (by decide)
    · exact .inr ⟨listContent, h⟩
  · rcases this.2.2 with h | h
    · exact absurd h (by decide)
    · exact .inl h

theorem wholeTexts_of {fs : FS} (hfs : ∀ e ∈ fs.entries, linedEntry e = true) : WholeTexts sampleDB asciiCodec fs := by
  intro b l hl ar har d hd
  unfold DB.readArticleRecords at hl
  obtain ⟨p, hp, hl⟩ := Res.bind_eq_ok.mp hl
  split at hl
  · split at hl
    · rw [← Res.ok.inj hl] at har
      cases har
    · cases hl
  · obtain ⟨x, hx, rfl⟩ := openArticleList_read hl
    obtain ⟨q, he, hq⟩ := dir_entry hp hx
    have := hfs _ he
    simp only [linedEntry, hq, Bool.and_eq_true, Bool.or_eq_true, beq_iff_eq, bne_self_eq_false, Bool.false_eq_true, false_or] at this
    have hx2 := this.1
    subst hx2
    have hnames : ∀ r ∈ (slots 128 ((listIndex (ascii "S")).map (fun r => r.marshal asciiCodec)).flatten).map (FileHeader.parse asciiCodec),
        r.filename = ascii "M.1.A.1" ∨ r.filename = ascii "M.2.A.2" := by decide +kernel
    exact lined_text hfs (hnames ar har) hd

theorem linedFS_texts : WholeTexts sampleDB asciiCodec linedFS := wholeTexts_of (by decide +kernel)

/-- Non-vacuity: a comment is found again when another line and another article have come. -/
example : [(⟨1, ⟨0, 2, 28, 23, 59, 0⟩, ascii "tom", ascii "S", ascii "M.1.A.1", ascii "a"⟩ : UserComment)].Sublist
    [⟨1, ⟨0, 2, 28, 23, 59, 0⟩, ascii "tom", ascii "S", ascii "M.1.A.1", ascii "a"⟩,
      ⟨2, ⟨0, 3, 1, 10, 0, 0⟩, ascii "tom", ascii "S", ascii "M.1.A.1", ascii "b"⟩] :=
  C170_comments_partial sampleDB asciiCodec linedFS (ascii "tom") _ _
    [.addBoard { sampleBoard with brdName := ascii "U" }, .appendArticle (ascii "S") (ascii "M.1.A.1") (ascii "Boo tom: b 03/01 10:00")]
    (by decide +kernel) (by
      intro op hop
      simp only [List.mem_cons, List.not_mem_nil, or_false] at hop
      rcases hop with rfl | rfl <;> exact trivial) (wholeLists_of (by decide +kernel)) linedFS_texts (by decide +kernel)

/-! ## When the later search succeeds -/

/-- The directory of a board is there, and its list of articles is no directory. -/
def Spec.Furnished (db : DB) (fs : FS) (b : Bytes) : Prop :=
  ∃ p l, getBoardArticlesDirectoryPath db.home b = .ok p ∧ fs.lookup db.cwd p = .ok l ∧ fs.get l ≠ some .dir

theorem furnished_reads {db : DB} {c : Codec} {fs fs' : FS} (hadd : OnlyAdds fs fs') (hdirs : ∀ q, fs'.get q = some .dir → fs.get q = some .dir)
    {b : Bytes} (h : Furnished db fs b) : ∃ l, db.readArticleRecords c fs' b = .ok l := by
  obtain ⟨p, l, hp, hl, hg⟩ := h
  have hl' := FS.lookup_mono hadd.1 hl
  unfold DB.readArticleRecords
  rw [hp, Res.ok_bind]
  cases hn : fs'.get l with
  | none =>
    refine ⟨[], ?_⟩
    simp only [DB.openArticleList, hl', Res.ok_bind, hn, if_true]
  | some n =>
    cases n with
    | dir => exact absurd (hdirs l hn) hg
    | file d =>
      refine ⟨(slots 128 d).map (FileHeader.parse c), ?_⟩
      rw [openArticleList_file (d := d) (by simp only [FS.readFile_of hl', hn])]

/-- C170 (partial: the lists have whole records only): if every board that is on the list by then had its directory, the later search succeeds
and finds everything again. -/
theorem C170_furnished_partial (db : DB) (c : Codec) (fs : FS) (user : Bytes) (found : List UserArticle) (ops : List Call)
    (h : db.userArticles c fs user = .ok found) (hops : ∀ o ∈ ops, CallKeeps o) (hw : WholeLists db fs)
    (hf : ∀ bs, db.readBoardRecords c (Call.execAll db c fs ops).1 = .ok bs → ∀ b ∈ bs, b.brdName ≠ ascii "ALLPOST" → Furnished db fs b.brdName) :
    ∃ more, db.userArticles c (Call.execAll db c fs ops).1 user = .ok more ∧ found.Sublist more := by
  have hadd := C167_only_adds db c ops fs hops
  have hdirs := C168_no_directories db c ops fs
  have hboards : ∃ bs, db.readBoardRecords c (Call.execAll db c fs ops).1 = .ok bs := by
    unfold DB.userArticles at h
    obtain ⟨bs, hb, -⟩ := Res.bind_eq_ok.mp h
    unfold DB.readBoardRecords at hb ⊢
    obtain ⟨p, hp, hb⟩ := Res.bind_eq_ok.mp hb
    obtain ⟨d, hd, -⟩ := openBoardList_read hb
    obtain ⟨e, he⟩ := readFile_later hadd hd
    exact ⟨_, by rw [hp, Res.ok_bind, openBoardList_file he]⟩
  obtain ⟨bs, hb⟩ := hboards
  obtain ⟨more, hm⟩ := (C170_succeeds db c (Call.execAll db c fs ops).1 user).mpr
    ⟨bs, hb, fun b hbm hne => furnished_reads hadd hdirs (hf bs hb b hbm hne)⟩
  exact ⟨more, hm, C170_found_again_partial db c fs user found more ops h hops hw hm⟩

/-- A board added to a disk that has its directory. -/
def Spec.furnishedFS : FS := listFS.set [ascii "bbs", ascii "boards", ascii "T"] .dir |>.set [ascii "bbs", ascii "boards", ascii "T", ascii "T"] .dir

example : ∃ more, sampleDB.userArticles asciiCodec (Call.execAll sampleDB asciiCodec furnishedFS
      [.addRecord (ascii "T") { FileHeader.zero with filename := ascii "M.3.A.3", owner := ascii "lex", title := ascii "v", modified := 3 }]).1 (ascii "lex") = .ok more ∧
    [(⟨ascii "S", ascii "t", ascii "lex", ascii "M.1.A.1"⟩ : UserArticle)].Sublist more :=
  C170_furnished_partial sampleDB asciiCodec furnishedFS (ascii "lex") _ _ (by decide +kernel) (by
    intro o ho
    rw [List.mem_singleton.mp ho]
    exact trivial) (wholeLists_of (by decide +kernel)) (by
    intro bs hbs
    have e : sampleDB.readBoardRecords asciiCodec (Call.execAll sampleDB asciiCodec furnishedFS
      [.addRecord (ascii "T") { FileHeader.zero with filename := ascii "M.3.A.3", owner := ascii "lex", title := ascii "v", modified := 3 }]).1 = .ok listBoards := by
      decide +kernel
    rw [e] at hbs
    rw [← Res.ok.inj hbs]
    intro b hb hne
    simp only [listBoards, List.mem_cons, List.not_mem_nil, or_false] at hb
    rcases hb with rfl | rfl | rfl
    · exact ⟨_, [ascii "bbs", ascii "boards", ascii "S", ascii "S", ascii ".DIR"], rfl, by decide +kernel, by decide +kernel⟩
    · exact absurd rfl hne
    · exact ⟨_, [ascii "bbs", ascii "boards", ascii "T", ascii "T", ascii ".DIR"], rfl, by decide +kernel, by decide +kernel⟩)

/-- A search for comments that succeeds goes on to succeed. -/
def Spec.CommentsGoOn : Prop := ∀ (db : DB) (c : Codec) (fs : FS) (user : Bytes) (found : List UserComment) (ops : List Call),
  db.userComments c fs user = .ok found → (∀ o ∈ ops, CallKeeps o) → WholeLists db fs → WholeTexts db c fs →
  (∀ bs, db.readBoardRecords c (Call.execAll db c fs ops).1 = .ok bs → ∀ b ∈ bs, b.brdName ≠ ascii "ALLPOST" → Furnished db fs b.brdName) →
  ∃ more, db.userComments c (Call.execAll db c fs ops).1 user = .ok more

/-- A disk with a directory for every board, and texts that end with newlines. -/
def Spec.roomyFS : FS :=
  ⟨(([ascii "bbs", ascii "boards", ascii "T"], Node.dir) :: ([ascii "bbs", ascii "boards", ascii "T", ascii "T"], Node.dir) :: linedFS.entries)⟩

/-- C170, of comments, is false of the code also in this: a record of an article that has no text stops every search. -/
theorem C170_comments_go_on_refuted : ¬ Spec.CommentsGoOn := by
  intro h
  have htexts : WholeTexts sampleDB asciiCodec roomyFS := by
    apply wholeTexts_of
    decide +kernel
  have e : sampleDB.readBoardRecords asciiCodec (Call.execAll sampleDB asciiCodec roomyFS
      [.addRecord (ascii "T") { FileHeader.zero with filename := ascii "M.3.A.3", owner := ascii "lex", modified := 3 }]).1 = .ok listBoards := by
    decide +kernel
  obtain ⟨more, h1⟩ := h sampleDB asciiCodec roomyFS (ascii "tom") [⟨1, ⟨0, 2, 28, 23, 59, 0⟩, ascii "tom", ascii "S", ascii "M.1.A.1", ascii "a"⟩]
    [.addRecord (ascii "T") { FileHeader.zero with filename := ascii "M.3.A.3", owner := ascii "lex", modified := 3 }] (by decide +kernel) (by
      intro o ho
      rw [List.mem_singleton.mp ho]
      exact trivial) (wholeLists_of (by decide +kernel)) htexts (by
      intro bs hbs
      rw [e] at hbs
      rw [← Res.ok.inj hbs]
      intro b hb hne
      simp only [listBoards, List.mem_cons, List.not_mem_nil, or_false] at hb
      rcases hb with rfl | rfl | rfl
      · exact ⟨_, [ascii "bbs", ascii "boards", ascii "S", ascii "S", ascii ".DIR"], rfl, by decide +kernel, by decide +kernel⟩
      · exact absurd rfl hne
      · exact ⟨_, [ascii "bbs", ascii "boards", ascii "T", ascii "T", ascii ".DIR"], rfl, by decide +kernel, by decide +kernel⟩)
  have h2 : sampleDB.userComments asciiCodec (Call.execAll sampleDB asciiCodec roomyFS
      [.addRecord (ascii "T") { FileHeader.zero with filename := ascii "M.3.A.3", owner := ascii "lex", modified := 3 }]).1 (ascii "tom") =
      .err "no such file or directory" := by decide +kernel
  rw [h2] at h1
  cases h1

end Verif
