import Verif.Props.ToolMain
/-!
# C78–C82: what the subcommands of the tool do
-/

namespace Verif
open Spec

/-! ## Opening -/

theorem withDB_ok {fs : FS} {cwd : Path} {o : ToolOptions} {db : DB} (h : openDB fs cwd o = .ok db) (k : Option DB → Run) :
    withDB fs cwd o k = k (some db) := by
  unfold withDB
  rw [h]

theorem opened_ok {fs : FS} {cwd : Path} {o : ToolOptions} {db : DB} (h : openDB fs cwd o = .ok db) (p q : String) (k : DB → Run) :
    (orComplain fs p (chkIsDir fs cwd o.home) fun _ => orComplain fs q (toolOpen cwd o) k) = k db := by
  obtain ⟨h1, h2⟩ := (openDB_split _ _ _ _).mp h
  rw [h1, h2]
  rfl

theorem orAsk_some {fs : FS} {args : List Bytes} {key : String} {v msg : Bytes} (h : Given args key v) (k : Bytes → Run) :
    orAsk fs (parseArgsToMap args) (ascii key) msg k = k v := by
  unfold orAsk
  rw [show parseArgsToMap args (ascii key) = some v from h]

/-- Opening goes on working after files have been written. -/
theorem openDB_mono {fs fs' : FS} (h : ∀ q, fs.get q = some .dir → fs'.get q = some .dir) {cwd : Path} {o : ToolOptions} {db : DB}
    (ho : openDB fs cwd o = .ok db) : openDB fs' cwd o = .ok db := by
  obtain ⟨h1, ⟨l, h2, h3⟩, h4⟩ := (C74_exact _ _ _ _).mp ho
  exact (C74_exact _ _ _ _).mpr ⟨h1, ⟨l, FS.lookup_mono h h2, h _ h3⟩, h4⟩

theorem command_eq {args : List Bytes} {s : Bytes} (h : args.head? = some s) : args.headD [] = s := by
  cases args with
  | nil => cases h
  | cons a as => exact Option.some.inj h

/-! ## C78: the article list -/

/-- **C78**, exactly: the lines printed for a board are those of the records that have a file name, in the order of the list — and none
if the list cannot be read. -/
theorem C78_list_exact (c : Codec) (cwd : Path) (fs : FS) (o : ToolOptions) (args : List Bytes) (draw : Nat → Int × Fin 4096) (fuel : Nat)
    (db : DB) (board : Bytes) (hc : args.head? = some (ascii "show_board_article_list")) (ho : openDB fs cwd o = .ok db)
    (hb : Given args "board" board) :
    (∀ recs, db.readArticleRecords c fs board = .ok recs → toolCommand c cwd fs o args draw fuel =
      ⟨parseArgsNotice args 1 ++ (recs.filter (fun r => r.filename ≠ [])).map (fun r => .text
        (r.filename ++ ascii " " ++ List.replicate (12 - (runes r.owner).length) 0x20 ++ r.owner ++ ascii " " ++ r.date ++ ascii " " ++
          r.title ++ [0x0A])), fs, .status 0⟩) ∧
    (∀ e, db.readArticleRecords c fs board = .err e → toolCommand c cwd fs o args draw fuel = ⟨parseArgsNotice args 1, fs, .status 0⟩) := by
  have e : toolCommand c cwd fs o args draw fuel = showBoardArticleList c cwd fs o args := by
    unfold toolCommand
    simp only [command_eq hc]
    rfl
  rw [e]
  unfold showBoardArticleList
  rw [withDB_ok ho, orAsk_some hb]
  constructor
  · intro recs hr
    simp only [onDB, hr, loaded, orComplain, Run.after]
    have : ∀ r : FileHeader, articleLine r = r.filename ++ ascii " " ++ List.replicate (12 - (runes r.owner).length) 0x20 ++ r.owner ++
        ascii " " ++ r.date ++ ascii " " ++ r.title ++ [0x0A] := by
      intro r
      have : ascii " " = [0x20] := by decide
      simp only [articleLine, padLeft12, newline, this, List.append_assoc]
    simp only [this]
  · intro e hr
    simp only [onDB, hr, loaded, orComplain, Run.after, List.filter_nil, List.map_nil, List.append_nil]

/-- The full claim of C78: if the list cannot be read, the tool says so. -/
def Spec.ListErrorsTold : Prop :=
  ∀ (c : Codec) (cwd : Path) (fs : FS) (o : ToolOptions) (args : List Bytes) (draw : Nat → Int × Fin 4096) (fuel : Nat) (db : DB)
    (board : Bytes) (e : String), args.head? = some (ascii "show_board_article_list") → openDB fs cwd o = .ok db → Given args "board" board →
    db.readArticleRecords c fs board = .err e → (toolCommand c cwd fs o args draw fuel).out ≠ []

theorem sampleFS_open : openDB sampleFS [] ⟨ascii "pttbbs", ascii "/bbs"⟩ = .ok sampleDB :=
  (C74_exact _ _ _ _).mpr ⟨rfl, ⟨[ascii "bbs"], by decide +kernel, by decide +kernel⟩, by decide⟩

/-- A store in which the place of the board `S` is taken by a file. -/
def blockedFS : FS := sampleFS.set [ascii "bbs", ascii "boards", ascii "S", ascii "S"] (.file [])

theorem blockedFS_open : openDB blockedFS [] ⟨ascii "pttbbs", ascii "/bbs"⟩ = .ok sampleDB :=
  (C74_exact _ _ _ _).mpr ⟨rfl, ⟨[ascii "bbs"], by decide +kernel, by decide +kernel⟩, by decide⟩

/-- **C78 is false of the code**: nothing is printed for a board whose list cannot be opened. -/
theorem C78_errors_told_refuted : ¬ Spec.ListErrorsTold := by
  intro h
  have hr : sampleDB.readArticleRecords asciiCodec blockedFS (ascii "S") = .err "not a directory" := by decide +kernel
  have hg : Given [ascii "show_board_article_list", ascii "--board", ascii "S"] "board" (ascii "S") := by
    unfold Given
    decide +kernel
  refine h asciiCodec [] blockedFS ⟨ascii "pttbbs", ascii "/bbs"⟩ [ascii "show_board_article_list", ascii "--board", ascii "S"]
    (fun _ => (0, 0)) 0 sampleDB (ascii "S") _ rfl blockedFS_open hg hr ?_
  rw [(C78_list_exact asciiCodec [] blockedFS _ _ (fun _ => (0, 0)) 0 sampleDB _ rfl blockedFS_open hg).2 _ hr]
  decide +kernel

/-- A store with an article on the board `S`. -/
example : (toolCommand asciiCodec [] (sampleFS.set [ascii "bbs", ascii "boards", ascii "S", ascii "S", ascii ".DIR"]
      (.file ((DB.newArticleRecord (ascii "M.1.A.1") (ascii "pichu") (ascii "11/16") (ascii "hi")).marshal asciiCodec)))
      ⟨ascii "pttbbs", ascii "/bbs"⟩ [ascii "show_board_article_list", ascii "--board", ascii "S"] (fun _ => (0, 0)) 0).out =
    [.text (ascii "M.1.A.1        pichu 11/16 hi\n")] := by decide +kernel

/-! ## C79: posting an article -/

/-- The steps of posting. -/
structure Posted (db : DB) (c : Codec) (fs fs' : FS) (board owner date title text name : Bytes) (draw : Nat → Int × Fin 4096)
    (fuel : Nat) : Prop where
  steps : ∃ r fs1 fs2, db.createArticleRecord fs board owner date title draw fuel = .ok (r, fs1) ∧
    db.addArticleRecord c fs1 board r = .ok fs2 ∧ db.writeBoardArticleFile fs2 board r.filename (c.enc text) = .ok fs' ∧ name = r.filename

theorem readArticleRecords_at {db : DB} {c : Codec} {fs : FS} {board : Bytes} {D : Path} (hb : board ≠ [])
    (hl : fs.lookup db.cwd (boardDir db.home board) = .ok D) (hg : fs.get D = some .dir) :
    db.readArticleRecords c fs board = match fs.get (D ++ [ascii ".DIR"]) with
      | none => .ok []
      | some .dir => .diverge
      | some (.file d) => match openFileHeaderFile c (some d) with
        | .err e => if e = "no such file or directory" then .ok [] else .err e
        | r => r := by
  have hi : fs.lookup db.cwd (indexPath db.home board) = .ok (D ++ [ascii ".DIR"]) :=
    FS.lookup_child hl hg ⟨by decide, by decide, by decide, by decide⟩ (by decide)
  rw [DB.readArticleRecords, indexPath_of hb, Res.ok_bind, DB.openArticleList, hi, Res.ok_bind]
  cases fs.get (D ++ [ascii ".DIR"]) with
  | none => rfl
  | some n => cases n <;> rfl

/-- What posting does to the store. -/
theorem Posted.effect {db : DB} {c : Codec} {fs fs' : FS} {board owner date title text name : Bytes} {draw : Nat → Int × Fin 4096}
    {fuel : Nat} (h : Posted db c fs fs' board owner date title text name draw fuel) :
    (∃ j, name = DB.articleName (draw j).1 (draw j).2) ∧
    db.readBoardArticleFile fs board name = .err "no such file or directory" ∧
    db.readBoardArticleFile fs' board name = .ok (c.enc text) ∧
    (WholeRecords db fs board → ∃ old, db.readArticleRecords c fs board = .ok old ∧ db.readArticleRecords c fs' board =
      .ok (old ++ [storedArticle c (DB.newArticleRecord name owner date title)])) ∧
    (∃ D, fs.lookup db.cwd (boardDir db.home board) = .ok D ∧ SameExcept fs fs' [D ++ [name], D ++ [ascii ".DIR"]]) ∧
    ∀ q, fs.get q = some .dir → fs'.get q = some .dir := by
  obtain ⟨r, fs1, fs2, h1, h2, h3, hname⟩ := h.steps
  clear h
  obtain ⟨j, rfl, hc⟩ := createArticleRecord_ok h1
  clear h1
  have hn : DB.articleName (draw j).1 (draw j).2 = name := hname.symm
  clear hname
  rw [hn] at hc h2 h3
  obtain ⟨_, p, _, _, _, hp, he⟩ := createFilename_ok hc
  obtain ⟨L, hL, hLg, rfl⟩ := createExcl_ok he
  obtain ⟨hb, rfl⟩ := articlePath_eq hp
  obtain ⟨D, hD, hDg⟩ := FS.lookup_parent (boardDir_ne_nil _ _) hL
  obtain ⟨hcomp, h0⟩ := articleName_component (draw j).1 (draw j).2
  rw [hn] at hcomp h0
  have hLe : L = D ++ [name] := by
    have := FS.lookup_child hD hDg hcomp h0
    rw [hL] at this
    exact Res.ok.inj this
  subst hLe
  have hne : D ++ [name] ≠ D ++ [ascii ".DIR"] := by
    intro e
    have e := List.append_cancel_left e
    have e : name = ascii ".DIR" := by simpa using e
    have := congrArg List.head? (hn.trans e)
    revert this
    have m1 : ascii "M." = [77, 46] := by decide
    have m2 : (ascii ".DIR").head? = some 46 := by decide
    simp [DB.articleName, m1, m2]
  have hLd : fs.get (D ++ [name]) ≠ some .dir := by rw [hLg]; simp
  -- the list
  have hm1 := FS.set_file_dirs (d := []) hLd
  have hD1 := FS.lookup_mono hm1 hD
  have hDg1 := hm1 _ hDg
  have hi1 : (fs.set (D ++ [name]) (.file [])).lookup db.cwd (indexPath db.home board) = .ok (D ++ [ascii ".DIR"]) :=
    FS.lookup_child hD1 hDg1 ⟨by decide, by decide, by decide, by decide⟩ (by decide)
  have h2' := h2
  unfold DB.addArticleRecord at h2
  rw [indexPath_of hb, Res.ok_bind] at h2
  unfold FS.appendCreate at h2
  obtain ⟨⟨l, d⟩, ho, h2⟩ := Res.bind_eq_ok.mp h2
  obtain ⟨hl, hld, hd⟩ := FS.openCreate_ok ho
  rw [hi1] at hl
  have hl := Res.ok.inj hl
  subst hl
  have h2 := Res.ok.inj h2
  subst h2
  have hm2 := FS.set_file_dirs (d := d ++ (DB.newArticleRecord name owner date title).marshal c) hld
  -- the text
  unfold DB.writeBoardArticleFile at h3
  rw [show (DB.newArticleRecord name owner date title).filename = name from rfl, hp, Res.ok_bind] at h3
  unfold FS.overwrite at h3
  obtain ⟨⟨l, d3⟩, ho3, h3⟩ := Res.bind_eq_ok.mp h3
  obtain ⟨hl3, hld3, hd3⟩ := FS.openCreate_ok ho3
  rw [FS.lookup_mono hm2 (FS.lookup_mono hm1 hL)] at hl3
  have hl3 := Res.ok.inj hl3
  subst hl3
  have hd3 : d3 = [] := by
    rw [hd3]
    unfold fileAt
    rw [FS.get_set (FS.ne_root hld), if_neg hne, FS.get_set (FS.ne_root hLd), if_pos rfl]
    rfl
  subst hd3
  have hw : writeAt [] 0 (c.enc text) = c.enc text := by simp [writeAt]
  simp only [hw] at h3
  have h3 := Res.ok.inj h3
  subst h3
  have hm3 := FS.set_file_dirs (d := c.enc text) hld3
  have hmono : ∀ q, fs.get q = some .dir → _ := fun q hq => hm3 q (hm2 q (hm1 q hq))
  refine ⟨⟨j, hn.symm⟩, ?_, ?_, ?_, ⟨D, hD, ?_⟩, hmono⟩
  · simp only [DB.readBoardArticleFile, hp, Res.ok_bind, FS.readFile_of hL, hLg]
  · simp only [DB.readBoardArticleFile, hp, Res.ok_bind]
    exact FS.readFile_set (FS.lookup_mono hm2 (FS.lookup_mono hm1 hL)) hld3
  · intro hwr
    have e1 : db.readArticleRecords c (fs.set (D ++ [name]) (.file [])) board = db.readArticleRecords c fs board := by
      rw [readArticleRecords_at hb hD1 hDg1, readArticleRecords_at hb hD hDg, FS.get_set (FS.ne_root hLd), if_neg (Ne.symm hne)]
    have hwr1 : WholeRecords db (fs.set (D ++ [name]) (.file [])) board := by
      intro p d hp' hr
      rw [indexPath_of hb] at hp'
      have hp' := Res.ok.inj hp'
      subst hp'
      apply hwr _ d (indexPath_of hb)
      rw [FS.readFile_of hi1, FS.get_set (FS.ne_root hLd), if_neg (Ne.symm hne)] at hr
      have hi : fs.lookup db.cwd (indexPath db.home board) = .ok (D ++ [ascii ".DIR"]) :=
        FS.lookup_child hD hDg ⟨by decide, by decide, by decide, by decide⟩ (by decide)
      rw [FS.readFile_of hi]
      exact hr
    obtain ⟨old, k1, k2⟩ := C28_add_exact db c _ _ board _ hwr1 h2'
    refine ⟨old, e1 ▸ k1, ?_⟩
    rw [← k2, readArticleRecords_at hb (FS.lookup_mono hm3 (FS.lookup_mono hm2 hD1)) (hm3 _ (hm2 _ hDg1)),
      readArticleRecords_at hb (FS.lookup_mono hm2 hD1) (hm2 _ hDg1), FS.get_set (FS.ne_root hld3), if_neg (Ne.symm hne)]
  · intro q hq
    simp only [List.mem_cons, List.not_mem_nil, or_false, not_or] at hq
    rw [FS.get_set (FS.ne_root hld3), if_neg hq.1, FS.get_set (FS.ne_root hld), if_neg hq.2, FS.get_set (FS.ne_root hLd), if_neg hq.1]

/-- The line that reports a new article. -/
def Spec.newLine (name : Bytes) : Out := .text (ascii "new filename: " ++ name ++ [0x0A])

theorem newLine_head (name : Bytes) (x : Bytes) (h : newLine name = .text x) : x.head? = some 110 := by
  unfold newLine at h
  injection h with h
  rw [← h]
  have : ascii "new filename: " = 110 :: ascii "ew filename: " := by decide
  rw [this]
  rfl

theorem not_newLine {name x : Bytes} (h : x.head? ≠ some 110) : newLine name ≠ .text x := fun e => h (newLine_head name x e)

theorem notice_no_newLine (args : List Bytes) (name : Bytes) : ∀ (k i : Nat), args.length - i ≤ k → newLine name ∉ parseArgsNotice args i := by
  have hh : ∀ a : Bytes, (ascii "flag with no args " ++ a ++ newline).head? = some 102 := by
    intro a
    have : ascii "flag with no args " = 102 :: ascii "lag with no args " := by decide
    rw [this]
    rfl
  intro k
  induction k with
  | zero =>
    intro i hi
    unfold parseArgsNotice
    rw [dif_pos (by omega)]
    simp
  | succ k ih =>
    intro i hi
    unfold parseArgsNotice
    split
    · simp
    · simp only
      split
      · split
        · rw [List.mem_singleton]
          exact not_newLine (by rw [hh]; decide)
        · exact ih _ (by omega)
      · exact ih _ (by omega)

/-- A run reports a new article. -/
def Spec.Reports (r : Run) (name : Bytes) : Prop := newLine name ∈ r.out

theorem orComplain_reports {α : Type} {fs : FS} {pl : String} {r : Res α} {k : α → Run} {name : Bytes} :
    Reports (orComplain fs pl r k) name ↔ ∃ x, r = .ok x ∧ Reports (k x) name := by
  unfold orComplain Reports
  cases r <;> simp [newLine]

theorem orAsk_reports {fs : FS} {args : List Bytes} {key : String} {msg : Bytes} {k : Bytes → Run} {name : Bytes}
    (hm : (msg ++ newline).head? ≠ some 110) :
    Reports (orAsk fs (parseArgsToMap args) (ascii key) msg k) name ↔ ∃ x, Given args key x ∧ Reports (k x) name := by
  unfold orAsk Reports Given
  cases parseArgsToMap args (ascii key) with
  | some x => simp
  | none =>
    simp only [List.mem_singleton, reduceCtorEq, false_and, exists_false, iff_false]
    exact not_newLine hm

theorem after_reports {o : List Out} {r : Run} {name : Bytes} (h : newLine name ∉ o) : Reports (r.after o) name ↔ Reports r name := by
  unfold Reports
  rw [Run.after_out, List.mem_append]
  simp [h]

/-- **C79**, when the tool reports a new article: exactly if everything needed was given and all the steps succeeded. -/
theorem C79_reports_exact (c : Codec) (cwd : Path) (fs : FS) (o : ToolOptions) (args : List Bytes) (draw : Nat → Int × Fin 4096) (fuel : Nat)
    (name : Bytes) (hc : args.head? = some (ascii "add_board_article")) :
    newLine name ∈ (toolCommand c cwd fs o args draw fuel).out ↔
      ∃ db board owner date title text fs', openDB fs cwd o = .ok db ∧ Given args "board" board ∧ Given args "owner" owner ∧
        Given args "date" date ∧ Given args "title" title ∧ ContentIs fs cwd args text ∧
        Posted db c fs fs' board owner date title text name draw fuel ∧
        (toolCommand c cwd fs o args draw fuel).fs = fs' ∧ (toolCommand c cwd fs o args draw fuel).exit = .status 0 := by
  have e : toolCommand c cwd fs o args draw fuel = addBoardArticle c cwd fs o args draw fuel := by
    unfold toolCommand
    simp only [command_eq hc]
    rfl
  rw [e]
  unfold addBoardArticle
  simp only
  have hq : ∀ {α : Type} {r : Res α} {fs : FS} {pl : String} {k : α → Run} {x : α}, r = .ok x → orComplain fs pl r k = k x := by
    intro α r fs pl k x h
    rw [h]
    rfl
  rcases openDB_cases fs cwd o with ⟨db, ho⟩ | ⟨er, ho⟩
  · rw [withDB_ok ho]
    have hcn : newLine name ∉ (if (parseArgsToMap args (ascii "content")).isNone = true ∧
        (parseArgsToMap args (ascii "content_file")).isNone = true then
        [.text (ascii "please provide content or content_file" ++ newline)] else []) := by
      split
      · rw [List.mem_singleton]
        exact not_newLine (by decide)
      · simp
    show Reports _ name ↔ _
    rw [after_reports (notice_no_newLine args name _ 1 (Nat.le_refl _)), orAsk_reports (by decide)]
    constructor
    · rintro ⟨board, hb, hr⟩
      rw [orAsk_reports (by decide)] at hr
      obtain ⟨owner, how, hr⟩ := hr
      rw [orAsk_reports (by decide)] at hr
      obtain ⟨date, hda, hr⟩ := hr
      rw [orAsk_reports (by decide)] at hr
      obtain ⟨title, hti, hr⟩ := hr
      rw [after_reports hcn, orComplain_reports] at hr
      obtain ⟨text, htx, hr⟩ := hr
      rw [orComplain_reports] at hr
      obtain ⟨⟨r, fs1⟩, h1, hr⟩ := hr
      rw [orComplain_reports] at hr
      obtain ⟨fs2, h2, hr⟩ := hr
      rw [orComplain_reports] at hr
      obtain ⟨fs3, h3, hr⟩ := hr
      have hname : name = r.filename := by
        unfold Reports newLine newline at hr
        rw [List.mem_singleton] at hr
        injection hr with hr
        exact List.append_cancel_left (List.append_cancel_right hr)
      have hstep : Posted db c fs fs3 board owner date title text name draw fuel := ⟨⟨r, fs1, fs2, h1, h2, h3, hname⟩⟩
      refine ⟨db, board, owner, date, title, text, fs3, ho, hb, how, hda, hti, (content_ok _ _ _ _).mp htx, hstep, ?_⟩
      simp only [Run.after_fs, Run.after_exit, orAsk_some hb, orAsk_some how, orAsk_some hda, orAsk_some hti, hq htx, hq h1, hq h2, hq h3,
        and_self]
    · rintro ⟨db', board, owner, date, title, text, fs3, hdb, hb, how, hda, hti, htx, ⟨r, fs1, fs2, h1, h2, h3, hname⟩, _⟩
      have hdb := Res.ok.inj (ho.symm.trans hdb)
      subst hdb
      refine ⟨board, hb, ?_⟩
      rw [orAsk_some how, orAsk_some hda, orAsk_some hti, after_reports hcn, hq ((content_ok _ _ _ _).mpr htx)]
      simp only [onDB, hq h1, hq h2, hq h3, hname]
      exact List.mem_singleton.mpr rfl
  · have hw : ∀ k : Option DB → Run, withDB fs cwd o k = Run.after [.complaint "openDB:" er] (k none) := by
      intro k
      unfold withDB
      rw [ho]
    rw [hw]
    constructor
    · intro h
      exfalso
      have h' : Reports _ name := h
      rw [after_reports (by simp [newLine]), after_reports (notice_no_newLine args name _ 1 (Nat.le_refl _)), orAsk_reports (by decide)] at h'
      obtain ⟨board, hb, hr⟩ := h'
      rw [orAsk_reports (by decide)] at hr
      obtain ⟨owner, how, hr⟩ := hr
      rw [orAsk_reports (by decide)] at hr
      obtain ⟨date, hda, hr⟩ := hr
      rw [orAsk_reports (by decide)] at hr
      obtain ⟨title, hti, hr⟩ := hr
      rw [after_reports (by
        split
        · rw [List.mem_singleton]
          exact not_newLine (by decide)
        · simp), orComplain_reports] at hr
      obtain ⟨text, htx, hr⟩ := hr
      rw [orComplain_reports] at hr
      obtain ⟨x, h1, hr⟩ := hr
      cases h1
    · rintro ⟨db, _, _, _, _, _, _, hdb, _⟩
      rw [ho] at hdb
      cases hdb

/-- **C79.** What follows after the tool has reported a new article: the name was free; showing the article shows the text given (as far
as the encoding keeps it); the list shows one more line, with what was stored; and only the article and the list of that board have
changed. -/
theorem C79_post (c : Codec) (cwd : Path) (fs : FS) (o : ToolOptions) (args : List Bytes) (draw : Nat → Int × Fin 4096) (fuel : Nat)
    (name : Bytes) (hc : args.head? = some (ascii "add_board_article"))
    (h : newLine name ∈ (toolCommand c cwd fs o args draw fuel).out) (fs' : FS) (hfs : fs' = (toolCommand c cwd fs o args draw fuel).fs) :
    ∃ db board owner date title text, openDB fs cwd o = .ok db ∧ openDB fs' cwd o = .ok db ∧ Given args "board" board ∧
      Given args "owner" owner ∧ Given args "date" date ∧ Given args "title" title ∧ ContentIs fs cwd args text ∧
      db.readBoardArticleFile fs board name = .err "no such file or directory" ∧
      (∀ args' draw' fuel', args'.head? = some (ascii "show_board_article") → Given args' "board" board → Given args' "filename" name →
        toolCommand c cwd fs' o args' draw' fuel' =
          ⟨parseArgsNotice args' 1 ++ [.text (ascii "filecontent: \n" ++ c.dec (c.enc text) ++ ascii "\n")], fs', .status 0⟩) ∧
      (WholeRecords db fs board → ∃ old, db.readArticleRecords c fs board = .ok old ∧
        db.readArticleRecords c fs' board = .ok (old ++ [storedArticle c (DB.newArticleRecord name owner date title)])) ∧
      ∃ D, fs.lookup db.cwd (boardDir db.home board) = .ok D ∧ SameExcept fs fs' [D ++ [name], D ++ [ascii ".DIR"]] := by
  subst hfs
  obtain ⟨db, board, owner, date, title, text, fs', ho, hb, how, hda, hti, htx, hp, hfs, _⟩ :=
    (C79_reports_exact c cwd fs o args draw fuel name hc).mp h
  rw [hfs]
  obtain ⟨_, h1, h2, h3, h4, h5⟩ := hp.effect
  refine ⟨db, board, owner, date, title, text, ho, openDB_mono h5 ho, hb, how, hda, hti, htx, h1, ?_, h3, h4⟩
  intro args' draw' fuel' hc' hb' hf'
  have e : toolCommand c cwd fs' o args' draw' fuel' = showBoardArticle c cwd fs' o args' := by
    unfold toolCommand
    simp only [command_eq hc']
    rfl
  rw [e]
  unfold showBoardArticle
  simp only
  rw [withDB_ok (openDB_mono h5 ho), orAsk_some hb', orAsk_some hf']
  simp only [onDB, h2, orComplain, Run.after]
  have e1 : ascii "filecontent: \n" = ascii "filecontent: " ++ newline := by decide
  have e2 : ascii "\n" = newline := by decide
  rw [e1, e2]

/-- An article is posted. -/
example : newLine (ascii "M.1600000000.A.ABC") ∈ (toolCommand asciiCodec [] sampleFS ⟨ascii "pttbbs", ascii "/bbs"⟩
    [ascii "add_board_article", ascii "--board", ascii "S", ascii "--owner", ascii "pichu", ascii "--date", ascii "11/16",
      ascii "--title", ascii "hi", ascii "--content", ascii "hello"] (fun _ => (1600000000, 0xABC)) 1).out := by
  decide +kernel

/-! ## C80: adding a board -/

theorem addBoard_command {c : Codec} {cwd : Path} {fs : FS} {o : ToolOptions} {args : List Bytes} {draw : Nat → Int × Fin 4096} {fuel : Nat}
    {db : DB} (hc : args.head? = some (ascii "add_board")) (ho : openDB fs cwd o = .ok db) :
    toolCommand c cwd fs o args draw fuel = Run.after (parseArgsNotice args 1) (
      orComplain fs "addboard: NewBoardRecord" (newBoardRecord (parseArgsToMap args).args) fun newRecord =>
      orComplain fs "addboard: AddBoardRecordFileRecord" (db.addBoardRecord c fs newRecord) fun fs' => ⟨[], fs', .status 0⟩) := by
  have e : toolCommand c cwd fs o args draw fuel = addBoard c cwd fs o args := by
    unfold toolCommand
    simp only [command_eq hc]
    rfl
  rw [e]
  unfold addBoard
  rw [opened_ok ho]

theorem holds_given (args : List Bytes) (key : String) (s : Bytes) : Holds (parseArgsToMap args).args (ascii key) s ↔ Given args key s := by
  unfold Holds Given StrMap.args
  cases parseArgsToMap args (ascii key) <;> simp

/-- **C80.** If `add_board` has nothing to complain about, then an id and a title were given, the list has got that board at its end,
nothing else has changed, and the list of titles shows the new one last. -/
theorem C80_add_board (c : Codec) (cwd : Path) (fs : FS) (o : ToolOptions) (args : List Bytes) (draw : Nat → Int × Fin 4096) (fuel : Nat)
    (db : DB) (hc : args.head? = some (ascii "add_board")) (ho : openDB fs cwd o = .ok db) (hw : WholeBoards db fs) (fs' : FS)
    (hfs : fs' = (toolCommand c cwd fs o args draw fuel).fs)
    (hok : ∀ p e, Out.complaint p e ∉ (toolCommand c cwd fs o args draw fuel).out) :
    ∃ id title old b, Given args "board_id" id ∧ Given args "title" title ∧
      (db.readBoardRecords c fs = .ok old ∨ db.readBoardRecords c fs = .err "no such file or directory" ∧ old = []) ∧
      db.readBoardRecords c fs' = .ok (old ++ [b]) ∧ b.brdName = c.dec (cut 13 (c.enc id)) ∧ b.title = c.dec (cut 49 (c.enc title)) ∧
      (∃ l, fs.lookup db.cwd (db.home ++ ascii "/.BRD") = .ok l ∧ SameExcept fs fs' [l]) ∧
      ∀ args' draw' fuel', args'.head? = some (ascii "show_board_list") → toolCommand c cwd fs' o args' draw' fuel' =
        ⟨(old ++ [b]).map (fun r => .text (ascii "title: " ++ r.title ++ ascii "\n")), fs', .status 0⟩ := by
  rw [addBoard_command hc ho] at hfs hok
  cases hn : newBoardRecord (parseArgsToMap args).args with
  | panic => exact absurd hn (newBoardRecord_ne_panic _)
  | err e => rw [hn] at hok; exact absurd (by simp [Run.after, orComplain]) (hok "addboard: NewBoardRecord" e)
  | diverge =>
    exfalso
    by_cases h1 : ∃ s, Holds (parseArgsToMap args).args (ascii "board_id") s
    · obtain ⟨s, h1⟩ := h1
      by_cases h2 : ∃ s, Holds (parseArgsToMap args).args (ascii "title") s
      · obtain ⟨t, h2⟩ := h2
        rw [(C67_exact _ _).mpr ⟨s, t, h1, h2, rfl⟩] at hn
        cases hn
      · rw [(C67_errors _).2 s h1 (fun t ht => h2 ⟨t, ht⟩)] at hn
        cases hn
    · rw [(C67_errors _).1 (fun t ht => h1 ⟨t, ht⟩)] at hn
      cases hn
  | ok r =>
    obtain ⟨id, title, h1, h2, hr⟩ := (C67_exact _ _).mp hn
    rw [hn] at hok hfs
    simp only [orComplain] at hok hfs
    cases ha : db.addBoardRecord c fs r with
    | panic => exact absurd ha (addBoardRecord_ne_panic _ _ _ _)
    | err e => rw [ha] at hok; exact absurd (by simp [Run.after]) (hok "addboard: AddBoardRecordFileRecord" e)
    | diverge =>
      exfalso
      simp only [DB.addBoardRecord, getBoardPath, Res.ok_bind, FS.appendCreate, FS.openCreate] at ha
      rcases lookup_cases fs db.cwd (db.home ++ ascii "/.BRD") with ⟨l, hl⟩ | ⟨e, he⟩
      · rw [hl, Res.ok_bind] at ha
        revert ha
        cases fs.get l with
        | none => simp
        | some n => cases n <;> simp
      · rw [he] at ha
        cases ha
    | ok fs2 =>
      rw [ha] at hfs
      have hfs : fs' = fs2 := hfs
      subst hfs
      obtain ⟨old, l, k1, k2, k3, k4⟩ := C68_exact db c fs fs' r hw ha
      refine ⟨id, title, old, storedBoard c r, (holds_given _ _ _).mp h1, (holds_given _ _ _).mp h2, k1, k2, ?_, ?_, ⟨l, k3, k4⟩, ?_⟩
      · rw [hr]; rfl
      · rw [hr]; rfl
      · intro args' draw' fuel' hc'
        have e : toolCommand c cwd fs' o args' draw' fuel' = showBoardList c cwd fs' o := by
          unfold toolCommand
          simp only [command_eq hc']
          rfl
        have hm : ∀ q, fs.get q = some .dir → fs'.get q = some .dir := by
          simp only [DB.addBoardRecord, getBoardPath, Res.ok_bind, FS.appendCreate] at ha
          obtain ⟨⟨l', d⟩, q1, q2⟩ := Res.bind_eq_ok.mp ha
          obtain ⟨_, q3, _⟩ := FS.openCreate_ok q1
          have q2 := Res.ok.inj q2
          subst q2
          exact FS.set_file_dirs q3
        rw [e]
        unfold showBoardList
        rw [opened_ok (openDB_mono hm ho), k2]
        have : ascii "\n" = newline := by decide
        rw [this]
        rfl

/-- **C80.** Without an id or a title, or if the list cannot be opened, `add_board` complains and changes nothing. -/
theorem C80_complaint (c : Codec) (cwd : Path) (fs : FS) (o : ToolOptions) (args : List Bytes) (draw : Nat → Int × Fin 4096) (fuel : Nat)
    (hc : args.head? = some (ascii "add_board")) (p : String) (e : String)
    (h : Out.complaint p e ∈ (toolCommand c cwd fs o args draw fuel).out) : (toolCommand c cwd fs o args draw fuel).fs = fs := by
  rcases openDB_cases fs cwd o with ⟨db, ho⟩ | ⟨er, ho⟩
  · rw [addBoard_command hc ho] at h ⊢
    rw [Run.after_fs]
    cases hn : newBoardRecord (parseArgsToMap args).args with
    | panic => rfl
    | err e => rfl
    | diverge => rfl
    | ok r =>
      cases ha : db.addBoardRecord c fs r with
      | panic => simp [orComplain, ha]
      | err e => simp [orComplain, ha]
      | diverge => simp [orComplain, ha]
      | ok fs2 =>
        exfalso
        rw [hn] at h
        simp only [orComplain, ha, Run.after, List.append_nil] at h
        have hno : ∀ (k i : Nat), args.length - i ≤ k → Out.complaint p e ∉ parseArgsNotice args i := by
          intro k
          induction k with
          | zero =>
            intro i hi
            unfold parseArgsNotice
            rw [dif_pos (by omega)]
            simp
          | succ k ih =>
            intro i hi
            unfold parseArgsNotice
            split
            · simp
            · simp only
              split
              · split
                · simp
                · exact ih _ (by omega)
              · exact ih _ (by omega)
        exact hno _ 1 (Nat.le_refl _) h
  · have e' : toolCommand c cwd fs o args draw fuel = addBoard c cwd fs o args := by
      unfold toolCommand
      simp only [command_eq hc]
      rfl
    rw [e']
    unfold addBoard
    cases h1 : chkIsDir fs cwd o.home with
    | ok u =>
      cases h2 : toolOpen cwd o with
      | ok db =>
        exfalso
        rw [(openDB_split _ _ _ _).mpr ⟨h1, h2⟩] at ho
        cases ho
      | err e => rfl
      | panic => rfl
      | diverge => rfl
    | err e => rfl
    | panic => rfl
    | diverge => rfl

/-- A board is added without complaint. -/
example : (toolCommand asciiCodec [] sampleFS ⟨ascii "pttbbs", ascii "/bbs"⟩
    [ascii "add_board", ascii "--board_id", ascii "Test", ascii "--title", ascii "hello"] (fun _ => (0, 0)) 0).out = [] := by
  decide +kernel

/-! ## C81: the comments of a user -/

/-- **C81**, exactly: what is printed are all comments of the user — whatever else was given. -/
theorem C81_comments_exact (c : Codec) (cwd : Path) (fs : FS) (o : ToolOptions) (args : List Bytes) (draw : Nat → Int × Fin 4096) (fuel : Nat)
    (db : DB) (user : Bytes) (recs : List UserComment) (hc : args.head? = some (ascii "show_user_comment_list"))
    (ho : openDB fs cwd o = .ok db) (hu : Given args "user_id" user) (hr : db.userComments c fs user = .ok recs) :
    toolCommand c cwd fs o args draw fuel = ⟨parseArgsNotice args 1 ++ recs.map (fun r => .text (ascii "user comment record: order: " ++
      dec r.order.toNat ++ ascii ", owner: " ++ r.owner ++ ascii ", time: " ++ timeFormat layoutComment r.time ++ ascii "\n")), fs,
      .status 0⟩ := by
  have e : toolCommand c cwd fs o args draw fuel = showUserCommentList c cwd fs o args := by
    unfold toolCommand
    simp only [command_eq hc]
    rfl
  rw [e]
  unfold showUserCommentList
  rw [opened_ok ho]
  have e1 : ∀ r : UserComment, ascii "user comment record: " ++ r.string ++ newline = ascii "user comment record: order: " ++
      dec r.order.toNat ++ ascii ", owner: " ++ r.owner ++ ascii ", time: " ++ timeFormat layoutComment r.time ++ ascii "\n" := by
    intro r
    have m1 : ascii "user comment record: order: " = ascii "user comment record: " ++ ascii "order: " := by decide
    have m2 : ascii "\n" = newline := by decide
    rw [m1, m2]
    simp only [UserComment.string, List.append_assoc]
  rw [(must_ok _ _ _).mpr hu]
  simp only [orComplain, hr, Run.after, e1]

/-- The full claim of C81, as the example in the source suggests: `--board` selects the comments on that board. -/
def Spec.CommentsOfBoard : Prop :=
  ∀ (c : Codec) (cwd : Path) (fs : FS) (o : ToolOptions) (args : List Bytes) (draw : Nat → Int × Fin 4096) (fuel : Nat)
    (db : DB) (user board : Bytes) (recs : List UserComment), args.head? = some (ascii "show_user_comment_list") →
    openDB fs cwd o = .ok db → Given args "user_id" user → Given args "board" board → db.userComments c fs user = .ok recs →
    (toolCommand c cwd fs o args draw fuel).out.length = (recs.filter (fun r => r.board = board)).length

theorem listFS_open : openDB listFS [] ⟨ascii "pttbbs", ascii "/bbs"⟩ = .ok sampleDB :=
  (C74_exact _ _ _ _).mpr ⟨rfl, ⟨[ascii "bbs"], by decide +kernel, by decide +kernel⟩, by decide⟩

theorem listFS_comments : sampleDB.userComments asciiCodec listFS (ascii "tom") =
    .ok [⟨1, ⟨0, 2, 28, 23, 59, 0⟩, ascii "tom", ascii "S", ascii "M.1.A.1", ascii "a"⟩] := by
  decide +kernel

/-- **C81 is false of the code**: the board is ignored. -/
theorem C81_board_refuted : ¬ Spec.CommentsOfBoard := by
  intro h
  have hu : Given [ascii "show_user_comment_list", ascii "--user_id", ascii "tom", ascii "--board", ascii "T"] "user_id" (ascii "tom") := by
    unfold Given
    decide +kernel
  have hb : Given [ascii "show_user_comment_list", ascii "--user_id", ascii "tom", ascii "--board", ascii "T"] "board" (ascii "T") := by
    unfold Given
    decide +kernel
  have := h asciiCodec [] listFS ⟨ascii "pttbbs", ascii "/bbs"⟩ _ (fun _ => (0, 0)) 0 sampleDB _ _ _ rfl listFS_open hu hb listFS_comments
  rw [C81_comments_exact asciiCodec [] listFS _ _ (fun _ => (0, 0)) 0 sampleDB _ _ rfl listFS_open hu listFS_comments] at this
  revert this
  decide +kernel

/-! ## C82: does it end? -/

/-- The full claim of C82: posting ends. -/
def Spec.PostingEnds : Prop :=
  ∀ (c : Codec) (cwd : Path) (fs : FS) (o : ToolOptions) (args : List Bytes) (draw : Nat → Int × Fin 4096),
    args.head? = some (ascii "add_board_article") → ∃ fuel, (toolCommand c cwd fs o args draw fuel).exit ≠ .hang

theorem orComplain_hang {α : Type} {fs : FS} {pl : String} {r : Res α} {k : α → Run} :
    (orComplain fs pl r k).exit = .hang ↔ r = .diverge ∨ ∃ x, r = .ok x ∧ (k x).exit = .hang := by
  unfold orComplain
  cases r <;> simp

theorem orAsk_hang {fs : FS} {m : StrMap} {key msg : Bytes} {k : Bytes → Run} :
    (orAsk fs m key msg k).exit = .hang ↔ ∃ x, m key = some x ∧ (k x).exit = .hang := by
  unfold orAsk
  cases m key <;> simp

theorem openCreate_ne_diverge (fs : FS) (cwd : Path) (p : Bytes) : fs.openCreate cwd p ≠ .diverge := by
  unfold FS.openCreate
  rcases lookup_cases fs cwd p with ⟨l, hl⟩ | ⟨e, he⟩
  · rw [hl, Res.ok_bind]
    cases fs.get l with
    | none => simp
    | some n => cases n <;> simp
  · rw [he]
    simp

theorem addArticleRecord_ne_diverge (db : DB) (c : Codec) (fs : FS) (board : Bytes) (r : FileHeader) :
    db.addArticleRecord c fs board r ≠ .diverge := by
  by_cases hb : board = []
  · subst hb
    simp [(addArticleRecord_panic db c fs [] r).mpr rfl]
  · rw [DB.addArticleRecord, indexPath_of hb, Res.ok_bind, FS.appendCreate]
    cases h : fs.openCreate db.cwd (indexPath db.home board) with
    | ok x => simp
    | err e => simp
    | panic => simp
    | diverge => exact absurd h (openCreate_ne_diverge _ _ _)

theorem writeBoardArticleFile_ne_diverge (db : DB) (fs : FS) (board file data : Bytes) :
    db.writeBoardArticleFile fs board file data ≠ .diverge := by
  by_cases hb : board = []
  · subst hb
    simp [(writeBoardArticleFile_panic db fs [] file data).mpr rfl]
  · rw [DB.writeBoardArticleFile, articlePath_of _ hb, Res.ok_bind, FS.overwrite]
    cases h : fs.openCreate db.cwd (articlePath db.home board file) with
    | ok x => simp
    | err e => simp
    | panic => simp
    | diverge => exact absurd h (openCreate_ne_diverge _ _ _)

theorem articleText_ne_diverge (fs : FS) (cwd : Path) (m : StrMap) : articleText fs cwd m ≠ .diverge := by
  unfold articleText
  cases m (ascii "content") with
  | some x => simp
  | none =>
    simp only [FS.readFile]
    rcases lookup_cases fs cwd ((m (ascii "content_file")).getD []) with ⟨l, hl⟩ | ⟨e, he⟩
    · rw [hl, Res.ok_bind]
      cases fs.get l with
      | none => simp
      | some n => cases n <;> simp
    · rw [he]
      simp

/-- **C82**, exactly: posting goes on for ever iff everything was given and the board has no directory, or every name tried is taken. -/
theorem C82_ends_exact (c : Codec) (cwd : Path) (fs : FS) (o : ToolOptions) (args : List Bytes) (draw : Nat → Int × Fin 4096)
    (hc : args.head? = some (ascii "add_board_article")) :
    (∀ fuel, (toolCommand c cwd fs o args draw fuel).exit = .hang) ↔
      ∃ db board owner date title text, openDB fs cwd o = .ok db ∧ Given args "board" board ∧ Given args "owner" owner ∧
        Given args "date" date ∧ Given args "title" title ∧ ContentIs fs cwd args text ∧ board ≠ [] ∧
        ¬ (IsDir fs db.cwd (boardDir db.home board) ∧
          ∃ k, db.readBoardArticleFile fs board (DB.articleName (draw k).1 (draw k).2) = .err "no such file or directory") := by
  have key : ∀ fuel, (toolCommand c cwd fs o args draw fuel).exit = .hang ↔
      ∃ db board owner date title text, openDB fs cwd o = .ok db ∧ Given args "board" board ∧ Given args "owner" owner ∧
        Given args "date" date ∧ Given args "title" title ∧ ContentIs fs cwd args text ∧
        db.createFilename fs board draw fuel 0 = .diverge := by
    intro fuel
    have e : toolCommand c cwd fs o args draw fuel = addBoardArticle c cwd fs o args draw fuel := by
      unfold toolCommand
      simp only [command_eq hc]
      rfl
    have hcr : ∀ (db : DB) board ow d t, db.createArticleRecord fs board ow d t draw fuel = .diverge ↔
        db.createFilename fs board draw fuel 0 = .diverge := by
      intro db board ow d t
      unfold DB.createArticleRecord
      cases db.createFilename fs board draw fuel 0 <;> simp
    rw [e]
    unfold addBoardArticle
    simp only
    rcases openDB_cases fs cwd o with ⟨db, ho⟩ | ⟨er, ho⟩
    · rw [withDB_ok ho]
      simp only [Run.after_exit, orAsk_hang, orComplain_hang, onDB, content_ok, hcr, articleText_ne_diverge, addArticleRecord_ne_diverge,
        writeBoardArticleFile_ne_diverge, false_or, reduceCtorEq, and_false, exists_false, or_false]
      constructor
      · rintro ⟨board, h1, ow, h2, d, h3, t, h4, x, h5, h6⟩
        exact ⟨db, board, ow, d, t, x, ho, h1, h2, h3, h4, h5, h6⟩
      · rintro ⟨db', board, ow, d, t, x, ho', h1, h2, h3, h4, h5, h6⟩
        have hdb := Res.ok.inj (ho.symm.trans ho')
        subst hdb
        exact ⟨board, h1, ow, h2, d, h3, t, h4, x, h5, h6⟩
    · have hw : ∀ k : Option DB → Run, withDB fs cwd o k = Run.after [.complaint "openDB:" er] (k none) := by
        intro k
        unfold withDB
        rw [ho]
      rw [hw]
      simp only [Run.after_exit, orAsk_hang, orComplain_hang, onDB, articleText_ne_diverge, false_or, reduceCtorEq, false_and, and_false,
        exists_false, false_iff]
      rintro ⟨db, _, _, _, _, _, hdb, _⟩
      rw [ho] at hdb
      cases hdb
  constructor
  · intro h
    obtain ⟨db, board, ow, d, t, x, ho, h1, h2, h3, h4, h5, _⟩ := (key 0).mp (h 0)
    have hall : ∀ fuel, db.createFilename fs board draw fuel 0 = .diverge := by
      intro fuel
      obtain ⟨db', board', _, _, _, _, ho', h1', _, _, _, _, h6⟩ := (key fuel).mp (h fuel)
      have hdb := Res.ok.inj (ho.symm.trans ho')
      subst hdb
      have hbb : board = board' := Option.some.inj (h1.symm.trans h1')
      subst hbb
      exact h6
    have hb : board ≠ [] := by
      intro e
      have := (createFilename_panic db fs board draw 1 0).mpr ⟨e, by omega⟩
      rw [hall 1] at this
      cases this
    refine ⟨db, board, ow, d, t, x, ho, h1, h2, h3, h4, h5, hb, ?_⟩
    rw [← C25_exact db fs board hb draw]
    rintro ⟨fuel, hf⟩
    rw [hall fuel] at hf
    exact hf
  · rintro ⟨db, board, ow, d, t, x, ho, h1, h2, h3, h4, h5, hb, h6⟩ fuel
    refine (key fuel).mpr ⟨db, board, ow, d, t, x, ho, h1, h2, h3, h4, h5, ?_⟩
    rw [← C25_exact db fs board hb draw] at h6
    cases hr : db.createFilename fs board draw fuel 0 with
    | diverge => rfl
    | panic => exact absurd ((createFilename_panic _ _ _ _ _ _).mp hr).1 hb
    | ok y => exact absurd ⟨fuel, by rw [hr]; trivial⟩ h6
    | err e => exact absurd ⟨fuel, by rw [hr]; trivial⟩ h6

/-- **C82 is false of the code**: posting to a board that does not exist. -/
theorem C82_ends_refuted : ¬ Spec.PostingEnds := by
  intro h
  obtain ⟨fuel, hf⟩ := h asciiCodec [] sampleFS ⟨ascii "pttbbs", ascii "/bbs"⟩ [ascii "add_board_article", ascii "--board", ascii "Zed",
    ascii "--owner", ascii "pichu", ascii "--date", ascii "11/16", ascii "--title", ascii "hi", ascii "--content", ascii "hello"]
    (fun _ => (0, 0)) rfl
  refine hf ((C82_ends_exact _ _ _ _ _ _ rfl).mpr ⟨sampleDB, ascii "Zed", ascii "pichu", ascii "11/16", ascii "hi", ascii "hello",
    sampleFS_open, ?_, ?_, ?_, ?_, .inl ?_, by decide, ?_⟩ fuel)
  · unfold Given; decide +kernel
  · unfold Given; decide +kernel
  · unfold Given; decide +kernel
  · unfold Given; decide +kernel
  · unfold Given; decide +kernel
  · rintro ⟨⟨l, e, _⟩, _⟩
    have : sampleFS.lookup sampleDB.cwd (boardDir sampleDB.home (ascii "Zed")) = .err "no such file or directory" := by
      decide +kernel
    rw [this] at e
    cases e

end Verif
