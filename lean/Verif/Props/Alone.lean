import Verif.Proofs.Alone
/-!
# C120: a call made alone is the call of the database, on every disk
-/

namespace Verif
open Spec

/-- Opening a file for writing, then writing to it. -/
theorem plays_make {cwd : Path} {fs : FS} {p : Bytes} {w : Path → Job} {f : Bytes → Bytes}
    (hw : ∀ (l : Path) (fs1 : FS) (d : Bytes), fs1.get l = some (.file d) → ∀ n, (w l).step cwd fs1 n = (fs1.set l (.file (f d)), .done (.ok .done))) :
    Plays cwd 2 fs (.openMake p (Job.orStop w)) (writes fs (do let (l, d) ← fs.openCreate cwd p; .ok (fs.set l (.file (f d))))).1
      (writes fs (do let (l, d) ← fs.openCreate cwd p; .ok (fs.set l (.file (f d))))).2 := by
  cases e : fs.openCreate cwd p with
  | err x =>
    refine plays_step (j' := .done (.err x)) (fun n => ?_) (plays_done _ _ _)
    simp only [Job.step, e, Job.orStop]
  | panic =>
    refine plays_step (j' := .done .panic) (fun n => ?_) (plays_done _ _ _)
    simp only [Job.step, e, Job.orStop]
  | diverge =>
    refine plays_step (j' := .done .diverge) (fun n => ?_) (plays_done _ _ _)
    simp only [Job.step, e, Job.orStop]
  | ok x =>
    obtain ⟨l, d⟩ := x
    obtain ⟨-, hl, hd⟩ := FS.openCreate_ok e
    have hroot : l ≠ [] := FS.ne_root hl
    have hg := made_get hl hd
    refine ⟨fun _ => ends_step fun n => ends_step fun n' => ?_, fun h => by cases h⟩
    have e1 : Job.step cwd fs n (.openMake p (Job.orStop w)) = (made fs l, w l) := by simp only [Job.step, e, Job.orStop, made]
    rw [e1, hw l _ d hg n']
    intro ns _
    refine ⟨_, play_done ns _ _, fun q => ?_⟩
    simp only [writes, Res.ok_bind]
    exact made_set hroot _ q

theorem plays_trunc {cwd : Path} {fs : FS} {p x : Bytes} :
    Plays cwd 2 fs (.openTrunc p (Job.orStop fun l => .put l x (.done (.ok .done)))) (writes fs (fs.writeFile cwd p x)).1
      (writes fs (fs.writeFile cwd p x)).2 := by
  unfold FS.writeFile
  cases e : fs.openCreate cwd p with
  | err x =>
    refine plays_step (j' := .done (.err x)) (fun n => ?_) (plays_done _ _ _)
    simp only [Job.step, e, Job.orStop]
  | panic =>
    refine plays_step (j' := .done .panic) (fun n => ?_) (plays_done _ _ _)
    simp only [Job.step, e, Job.orStop]
  | diverge =>
    refine plays_step (j' := .done .diverge) (fun n => ?_) (plays_done _ _ _)
    simp only [Job.step, e, Job.orStop]
  | ok y =>
    obtain ⟨l, d⟩ := y
    obtain ⟨-, hl, hd⟩ := FS.openCreate_ok e
    have hroot : l ≠ [] := FS.ne_root hl
    refine ⟨fun _ => ends_step fun n => ends_step fun n' => ?_, fun h => by cases h⟩
    have hg : (fs.set l (.file [])).get l = some (.file []) := by rw [FS.get_set hroot, if_pos rfl]
    simp only [Job.step, e, Job.orStop, hg]
    intro ns _
    refine ⟨_, play_done ns _ _, fun q => ?_⟩
    simp only [writes, Res.ok_bind]
    rw [FS.get_set hroot, FS.get_set hroot, show writeAt [] 0 x = x by simp [writeAt]]
    by_cases hq : q = l
    · rw [if_pos hq, FS.get_set hroot, if_pos hq]
    · rw [if_neg hq]; simp only [FS.get_set hroot, if_neg hq]

theorem plays_append {cwd : Path} {fs : FS} {p x : Bytes} :
    Plays cwd 2 fs (.openWrite p (Job.orStop fun l => .append l x (.done (.ok .done)))) (writes fs (fs.append cwd p x)).1
      (writes fs (fs.append cwd p x)).2 := by
  unfold FS.append
  cases e : fs.lookup cwd p with
  | err x =>
    refine plays_step (j' := .done (.err x)) (fun n => ?_) (plays_done _ _ _)
    simp only [Job.step, Job.opened, e, Job.orStop, Res.err_bind]
  | panic =>
    refine plays_step (j' := .done .panic) (fun n => ?_) (plays_done _ _ _)
    simp only [Job.step, Job.opened, e]; rfl
  | diverge =>
    refine plays_step (j' := .done .diverge) (fun n => ?_) (plays_done _ _ _)
    simp only [Job.step, Job.opened, e]; rfl
  | ok l =>
    rw [Res.ok_bind]
    cases e' : fs.get l with
    | none =>
      refine plays_step (j' := .done (.err "no such file or directory")) (fun n => ?_) (plays_done _ _ _)
      simp only [Job.step, Job.opened, e, Res.ok_bind, e', Job.orStop]
    | some nd =>
      cases nd with
      | dir =>
        refine plays_step (j' := .done (.err "is a directory")) (fun n => ?_) (plays_done _ _ _)
        simp only [Job.step, Job.opened, e, Res.ok_bind, e', Job.orStop, if_true]
      | file d =>
        refine ⟨fun _ => ends_step fun n => ends_step fun n' => ?_, fun h => by cases h⟩
        simp only [Job.step, Job.opened, e, Res.ok_bind, e', Job.orStop]
        intro ns _
        exact ⟨_, play_done ns _ _, fun q => rfl⟩

theorem plays_remove {cwd : Path} {fs : FS} {p : Bytes} :
    Plays cwd 1 fs (.unlink p (Job.orStop fun _ => .done (.ok .done))) (writes fs (fs.remove cwd p)).1 (writes fs (fs.remove cwd p)).2 := by
  cases e : fs.remove cwd p with
  | err x =>
    refine plays_step (j' := .done (.err x)) (fun n => ?_) (plays_done _ _ _)
    simp only [Job.step, e, Job.orStop]
  | panic =>
    refine plays_step (j' := .done .panic) (fun n => ?_) (plays_done _ _ _)
    simp only [Job.step, e, Job.orStop]
  | diverge =>
    refine plays_step (j' := .done .diverge) (fun n => ?_) (plays_done _ _ _)
    simp only [Job.step, e, Job.orStop]
  | ok fs' =>
    refine ⟨fun _ => ends_step fun n => ?_, fun h => by cases h⟩
    simp only [Job.step, e, Job.orStop]
    intro ns _
    exact ⟨_, play_done ns _ _, fun q => rfl⟩

theorem plays_tries {db : DB} {fs : FS} {b o d t : Bytes} {draw : Nat → Int × Fin 4096} (fuel : Nat) : ∀ k,
    Plays db.cwd fuel fs (Job.tryNames db b o d t draw fuel k)
      (match db.createFilename fs b draw fuel k with | .ok (_, fs') => fs' | _ => fs)
      (db.createFilename fs b draw fuel k >>= fun x => .ok (.record (DB.newArticleRecord x.1 o d t))) := by
  induction fuel with
  | zero => intro k; exact plays_done _ _ _
  | succ fuel ih =>
    intro k
    simp only [Job.tryNames, DB.createFilename]
    cases e : getBoardArticleFilePath db.home b (DB.articleName (draw k).1 (draw k).2) with
    | err x => exact plays_done _ _ _
    | panic => exact plays_done _ _ _
    | diverge => exact plays_done _ _ _
    | ok p =>
      simp only [Job.orStop, Res.ok_bind]
      cases e' : fs.createExcl db.cwd p with
      | ok fs' =>
        simp only [Res.ok_bind]
        refine ⟨fun _ => ends_step fun n => ?_, fun h => by cases h⟩
        simp only [Job.step, e']
        intro ns _
        exact ⟨_, play_done ns _ _, fun q => rfl⟩
      | err x =>
        refine plays_step (fun n => ?_) (ih (k + 1))
        simp only [Job.step, e']
      | panic =>
        refine plays_step (fun n => ?_) (ih (k + 1))
        simp only [Job.step, e']
      | diverge =>
        refine plays_step (fun n => ?_) (ih (k + 1))
        simp only [Job.step, e']

/-- How a call that reads gets its path. -/
theorem plays_path {cwd : Path} {m : Nat} {fs : FS} {k : Bytes → Job} {x : Res Bytes} {f : Bytes → Res FS}
    (h : ∀ p, x = .ok p → Plays cwd m fs (k p) (writes fs (f p)).1 (writes fs (f p)).2) :
    Plays cwd m fs (Job.orStop k x) (writes fs (x >>= f)).1 (writes fs (x >>= f)).2 := by
  cases x with
  | ok p => exact h p rfl
  | err e => exact plays_done _ _ _
  | panic => exact plays_done _ _ _
  | diverge => exact plays_done _ _ _

theorem plays_call (db : DB) (c : Codec) (fs : FS) (op : Call) :
    ∃ m, Plays db.cwd m fs (Job.start db c op) (op.exec db c fs).1 (op.exec db c fs).2 := by
  have hasc : ∀ {α β γ : Type} (x : Res α) (f : α → Res β) (g : β → Res γ), ((x >>= f) >>= g) = (x >>= fun a => f a >>= g) := by
    intro α β γ x f g; cases x <;> rfl
  cases op with
  | readUsers =>
    simp only [Job.start, Call.exec, reads, DB.readUserRecords, hasc, openUserList_eq]
    cases e : getPasswdsPath db.home with
    | ok p => exact ⟨_, plays_list (m := 0) (by omega) (Userec.unmarshal_eq c) fun l => plays_done _ _ _⟩
    | err e => exact ⟨0, plays_done _ _ _⟩
    | panic => exact ⟨0, plays_done _ _ _⟩
    | diverge => exact ⟨0, plays_done _ _ _⟩
  | readBoards =>
    simp only [Job.start, Call.exec, reads, DB.readBoardRecords, hasc, openBoardList_eq]
    cases e : getBoardPath db.home with
    | ok p => exact ⟨_, plays_list (m := 0) (by omega) (BoardHeader.unmarshal_eq c) fun l => plays_done _ _ _⟩
    | err e => exact ⟨0, plays_done _ _ _⟩
    | panic => exact ⟨0, plays_done _ _ _⟩
    | diverge => exact ⟨0, plays_done _ _ _⟩
  | listTreasure b ds =>
    simp only [Job.start, Call.exec, reads, DB.readTreasureRecords, hasc, openArticleList_eq]
    cases e : getBoardTreasuresDirectoryPath db.home b ds with
    | ok p => exact ⟨_, plays_list (m := 0) (by omega) (FileHeader.unmarshal_eq c) fun l => plays_done _ _ _⟩
    | err e => exact ⟨0, plays_done _ _ _⟩
    | panic => exact ⟨0, plays_done _ _ _⟩
    | diverge => exact ⟨0, plays_done _ _ _⟩
  | readArticle b f =>
    simp only [Job.start, Call.exec, reads, DB.readBoardArticleFile, hasc]
    cases e : getBoardArticleFilePath db.home b f with
    | ok p => exact ⟨_, plays_whole (m := 0) fun l => plays_done _ _ _⟩
    | err e => exact ⟨0, plays_done _ _ _⟩
    | panic => exact ⟨0, plays_done _ _ _⟩
    | diverge => exact ⟨0, plays_done _ _ _⟩
  | readTreasure b ds f =>
    simp only [Job.start, Call.exec, reads, DB.readTreasureFile, hasc]
    cases e : getBoardTreasureFilePath db.home b ds f with
    | ok p => exact ⟨_, plays_whole (m := 0) fun l => plays_done _ _ _⟩
    | err e => exact ⟨0, plays_done _ _ _⟩
    | panic => exact ⟨0, plays_done _ _ _⟩
    | diverge => exact ⟨0, plays_done _ _ _⟩
  | readDraft u d =>
    simp only [Job.start, Call.exec, reads, DB.getUserDraft, hasc]
    cases e : getUserDraftPath db.home u d with
    | ok p =>
      refine ⟨_, plays_step (fun n => rfl) (m := 0 + cost db.cwd fs p) ?_⟩
      simp only [Res.ok_bind]
      cases e' : fs.statOk db.cwd p with
      | false => exact plays_done _ _ _
      | true => exact plays_whole (m := 0) fun l => plays_done _ _ _
    | err e => exact ⟨0, plays_done _ _ _⟩
    | panic => exact ⟨0, plays_done _ _ _⟩
    | diverge => exact ⟨0, plays_done _ _ _⟩
  | readFavourites u =>
    simp only [Job.start, Call.exec, reads, DB.readFavorites, DB.readFavoriteFile, hasc]
    cases e : getUserFavoritePath db.home u with
    | ok p =>
      cases hb : getBoardPath db.home with
      | ok bp =>
        refine ⟨_, plays_step (fun n => rfl) (m := 0 + cost db.cwd fs bp + cost db.cwd fs p) ?_⟩
        simp only [Res.ok_bind]
        cases e' : fs.statOk db.cwd p with
        | false => exact plays_done _ _ _
        | true =>
          simp only [Bool.not_true, Bool.false_eq_true, if_false, hasc, openBoardList_eq]
          exact plays_whole fun data => plays_orStop fun fav _ =>
            plays_list (by omega) (BoardHeader.unmarshal_eq c) fun br => plays_orStop fun folder _ => plays_done _ _ _
      | err x =>
        refine ⟨_, plays_step (fun n => rfl) (m := 0 + cost db.cwd fs p) ?_⟩
        simp only [Res.ok_bind]
        cases e' : fs.statOk db.cwd p with
        | false => exact plays_done _ _ _
        | true =>
          simp only [Bool.not_true, Bool.false_eq_true, if_false, hasc]
          exact plays_whole fun data => plays_orStop fun fav _ => plays_done _ _ _
      | panic =>
        refine ⟨_, plays_step (fun n => rfl) (m := 0 + cost db.cwd fs p) ?_⟩
        simp only [Res.ok_bind]
        cases e' : fs.statOk db.cwd p with
        | false => exact plays_done _ _ _
        | true =>
          simp only [Bool.not_true, Bool.false_eq_true, if_false, hasc]
          exact plays_whole fun data => plays_orStop fun fav _ => plays_done _ _ _
      | diverge =>
        refine ⟨_, plays_step (fun n => rfl) (m := 0 + cost db.cwd fs p) ?_⟩
        simp only [Res.ok_bind]
        cases e' : fs.statOk db.cwd p with
        | false => exact plays_done _ _ _
        | true =>
          simp only [Bool.not_true, Bool.false_eq_true, if_false, hasc]
          exact plays_whole fun data => plays_orStop fun fav _ => plays_done _ _ _
    | err e => exact ⟨0, plays_done _ _ _⟩
    | panic => exact ⟨0, plays_done _ _ _⟩
    | diverge => exact ⟨0, plays_done _ _ _⟩
  | listArticles b =>
    simp only [Job.start, Call.exec, reads, DB.readArticleRecords, hasc, openArticleList_eq]
    cases e : getBoardArticlesDirectoryPath db.home b with
    | err e => exact ⟨0, plays_done _ _ _⟩
    | panic => exact ⟨0, plays_done _ _ _⟩
    | diverge => exact ⟨0, plays_done _ _ _⟩
    | ok p => exact ⟨_, plays_articles⟩
  | addBoard r =>
    simp only [Job.start, Call.exec, DB.addBoardRecord]
    refine ⟨2, plays_path fun p _ => plays_make (f := (· ++ r.marshal c)) fun l fs1 d h n => ?_⟩
    simp only [Job.step, h]
  | addRecord b r =>
    simp only [Job.start, Call.exec, DB.addArticleRecord]
    refine ⟨2, plays_path fun p _ => plays_make (f := (· ++ r.marshal c)) fun l fs1 d h n => ?_⟩
    simp only [Job.step, h]
  | writeArticle b f x =>
    simp only [Job.start, Call.exec, DB.writeBoardArticleFile]
    refine ⟨2, plays_path fun p _ => plays_make (f := (writeAt · 0 x)) fun l fs1 d h n => ?_⟩
    simp only [Job.step, h]
  | appendArticle b f x => exact ⟨2, plays_path fun p _ => plays_append⟩
  | deleteDraft u d => exact ⟨1, plays_path fun p _ => plays_remove⟩
  | writeDraft u d x => exact ⟨2, plays_path fun p _ => plays_trunc⟩
  | createArticle b o d t draw fuel =>
    have h := plays_tries (db := db) (fs := fs) (b := b) (o := o) (d := d) (t := t) (draw := draw) fuel 0
    refine ⟨fuel, ?_⟩
    simp only [Job.start, Call.exec, DB.createArticleRecord]
    cases e : db.createFilename fs b draw fuel 0 with
    | ok x => rw [e] at h; exact h
    | err x => rw [e] at h; exact h
    | panic => rw [e] at h; exact h
    | diverge => rw [e] at h; exact h

/-- **C120.** A call that nobody disturbs returns what the call of the database returns, after finitely many system calls, however much each `read`
asks for, and leaves the disk as that call does. There is no condition on the disk: the paths may lead nowhere, or through files, or to
directories. -/
theorem C120_alone (db : DB) (c : Codec) (fs : FS) (op : Call) (h : (op.exec db c fs).2 ≠ .diverge) :
    ∃ m, ∀ ns : List Nat, m ≤ ns.length → ∃ fs', Job.play db.cwd ns fs (Job.start db c op) = (fs', .done (op.exec db c fs).2) ∧
      ∀ q, fs'.get q = (op.exec db c fs).1.get q := by
  obtain ⟨m, hm⟩ := plays_call db c fs op
  exact ⟨m, hm.1 h⟩

/-- **C120, the other calls.** A call of the database that does not return does not return either when it is made of system calls, and leaves the disk
as it is. -/
theorem C120_hangs (db : DB) (c : Codec) (fs : FS) (op : Call) (h : (op.exec db c fs).2 = .diverge) (ns : List Nat) :
    (Job.play db.cwd ns fs (Job.start db c op)).1 = fs ∧
    ∀ r, (Job.play db.cwd ns fs (Job.start db c op)).2 = .done r → r = .diverge := by
  obtain ⟨m, hm⟩ := plays_call db c fs op
  exact hm.2 h ns

/-! ## Examples: a call that reads a text made of three reads, one that meets a file where a directory should be, and one that meets a directory where
a list should be -/

/-- A disk with an article `M.1`, a file in place of the directory of board `T`, and a directory in place of the list of board `S`. -/
def mixedFS : FS :=
  ⟨[([ascii "bbs"], .dir), ([ascii "bbs", ascii "boards"], .dir), ([ascii "bbs", ascii "boards", ascii "S"], .dir),
    ([ascii "bbs", ascii "boards", ascii "S", ascii "S"], .dir),
    ([ascii "bbs", ascii "boards", ascii "S", ascii "S", ascii "M.1"], .file (ascii "hello")),
    ([ascii "bbs", ascii "boards", ascii "S", ascii "S", ascii ".DIR"], .dir),
    ([ascii "bbs", ascii "boards", ascii "T"], .file (ascii "x"))]⟩

def mixedDB : DB := ⟨ascii "/bbs", []⟩
def mixedCodec : Codec := ⟨fun b => b, fun b => b⟩

example : ((Call.readArticle (ascii "S") (ascii "M.1")).exec mixedDB mixedCodec mixedFS).2 = .ok (.bytes (ascii "hello")) := rfl
example : Job.play [] [0, 2, 2, 2, 9] mixedFS (Job.start mixedDB mixedCodec (.readArticle (ascii "S") (ascii "M.1"))) =
    (mixedFS, .done (.ok (.bytes (ascii "hello")))) := rfl
example : ((Call.appendArticle (ascii "T") (ascii "M.1") (ascii "y")).exec mixedDB mixedCodec mixedFS).2 ≠ .diverge := by
  show (_ : Res Answer) ≠ _
  intro h
  cases h
example : ((Call.listArticles (ascii "S")).exec mixedDB mixedCodec mixedFS).2 = .diverge := rfl

end Verif
