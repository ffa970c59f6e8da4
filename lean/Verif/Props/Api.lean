import Verif.Model.Api
import Verif.Props.Articles
import Verif.Props.Connector
/-!
# C103: the database is a map from objects to contents
-/

namespace Verif
open Spec

/-- What each object holds. -/
abbrev Spec.Holding := Obj → Option Bytes

/-- One object gets new contents. -/
def Spec.Holding.put (m : Holding) (o : Obj) (x : Option Bytes) : Holding := fun o' => if o' = o then x else m o'

/-- Reading something that must be there. -/
def Spec.Holding.need (m : Holding) (o : Obj) : Res Bytes :=
  match m o with
  | some x => .ok x
  | none => .err "no such file or directory"

/-- The records of a list. -/
def Spec.articlesIn (c : Codec) (d : Bytes) : List FileHeader := (slots 128 d).map (FileHeader.parse c)

/-- The first drawn name that is free. -/
def Spec.freeName (m : Holding) (board : Bytes) (draw : Nat → Int × Fin 4096) : Nat → Nat → Option Bytes
  | 0, _ => none
  | n + 1, k =>
    let name := DB.articleName (draw k).1 (draw k).2
    if m (.article board name) = none then some name else freeName m board draw n (k + 1)

/-- The favourites, from the contents of two files. -/
def Spec.favouritesIn (c : Codec) (m : Holding) (data : Bytes) : Res (List FavItem) := do
  let fav ← loadFav c data
  let boards ← m.need .boardList
  let folder ← fav.folder.resolve ((slots 256 boards).map (BoardHeader.parse c))
  .ok folder.items

/-- The intended behaviour of each call, on contents only. -/
def Spec.intended (c : Codec) (m : Holding) : Call → Holding × Res Answer
  | .readUsers => (m, do .ok (.users ((slots 512 (← m.need .passwd)).map (Userec.parse c))))
  | .readFavourites u => (m, match m (.favourite u) with
    | none => .ok (.favourites [])
    | some data => do .ok (.favourites (← favouritesIn c m data)))
  | .readBoards => (m, do .ok (.boards ((slots 256 (← m.need .boardList)).map (BoardHeader.parse c))))
  | .listArticles b => (m, .ok (.articles (articlesIn c ((m (.articleIndex b)).getD []))))
  | .listTreasure b ds => (m, do .ok (.articles (articlesIn c (← m.need (.treasureIndex b ds)))))
  | .readArticle b f => (m, do .ok (.bytes (← m.need (.article b f))))
  | .readTreasure b ds f => (m, do .ok (.bytes (← m.need (.treasure b ds f))))
  | .addBoard r => (m.put .boardList (some ((m .boardList).getD [] ++ r.marshal c)), .ok .done)
  | .createArticle b o d t draw fuel => match freeName m b draw fuel 0 with
    | some name => (m.put (.article b name) (some []), .ok (.record (DB.newArticleRecord name o d t)))
    | none => (m, .diverge)
  | .addRecord b r => (m.put (.articleIndex b) (some ((m (.articleIndex b)).getD [] ++ r.marshal c)), .ok .done)
  | .writeArticle b f x => (m.put (.article b f) (some (x ++ ((m (.article b f)).getD []).drop x.length)), .ok .done)
  | .appendArticle b f x => match m (.article b f) with
    | some y => (m.put (.article b f) (some (y ++ x)), .ok .done)
    | none => (m, .err "no such file or directory")
  | .readDraft u d => (m, .ok (.bytes ((m (.draft u d)).getD [])))
  | .deleteDraft u d => match m (.draft u d) with
    | some _ => (m.put (.draft u d) none, .ok .done)
    | none => (m, .err "no such file or directory")
  | .writeDraft u d x => (m.put (.draft u d) (some x), .ok .done)

def Spec.intendedAll (c : Codec) (m : Holding) : List Call → Holding × List (Res Answer)
  | [] => (m, [])
  | op :: ops =>
    let (m', r) := intended c m op
    let (m'', rs) := intendedAll c m' ops
    (m'', r :: rs)

/-- An object with well-formed names in a place that exists, and not occupied by a directory. -/
structure Spec.Placed (db : DB) (fs : FS) (o : Obj) : Prop where
  names : ∀ s ∈ o.names, Component s
  free : o.NotReserved
  place : ∃ p l, o.path db.home = .ok p ∧ fs.lookup db.cwd p = .ok l
  notDir : fs.get (at_ db o) ≠ some .dir

/-- The objects a call may touch. -/
def Spec.touches : Call → Obj → Prop
  | .readUsers, o => o = .passwd
  | .readFavourites u, o => o = .favourite u ∨ o = .boardList
  | .readBoards, o => o = .boardList
  | .listArticles b, o => o = .articleIndex b
  | .listTreasure b ds, o => o = .treasureIndex b ds
  | .readArticle b f, o => o = .article b f
  | .readTreasure b ds f, o => o = .treasure b ds f
  | .addBoard _, o => o = .boardList
  | .createArticle b _ _ _ draw _, o => ∃ k, o = .article b (DB.articleName (draw k).1 (draw k).2)
  | .addRecord b _, o => o = .articleIndex b
  | .writeArticle b f _, o => o = .article b f
  | .appendArticle b f _, o => o = .article b f
  | .readDraft u d, o => o = .draft u d
  | .deleteDraft u d, o => o = .draft u d
  | .writeDraft u d _, o => o = .draft u d

/-- The objects a call may change. -/
def Spec.changes : Call → Obj → Prop
  | .addBoard _, o => o = .boardList
  | .createArticle b _ _ _ draw _, o => ∃ k, o = .article b (DB.articleName (draw k).1 (draw k).2)
  | .addRecord b _, o => o = .articleIndex b
  | .writeArticle b f _, o => o = .article b f
  | .appendArticle b f _, o => o = .article b f
  | .deleteDraft u d, o => o = .draft u d
  | .writeDraft u d _, o => o = .draft u d
  | _, _ => False

/-- The disk `fs`, which came from `fs0`, holds `m`. -/
structure Spec.Shows (db : DB) (fs0 fs : FS) (m : Holding) : Prop where
  dirs : ∀ q, fs0.get q = some .dir → fs.get q = some .dir
  content : ∀ o, Placed db fs0 o → fs.get (at_ db o) = (m o).map .file

theorem shows_place {db : DB} {fs0 fs : FS} {m : Holding} (h : Shows db fs0 fs m) {o : Obj} (ho : Placed db fs0 o) :
    ∃ p, o.path db.home = .ok p ∧ fs.lookup db.cwd p = .ok (at_ db o) := by
  obtain ⟨p, l, hp, hl⟩ := ho.place
  refine ⟨p, hp, ?_⟩
  obtain ⟨p', hp', hr⟩ := C18_location db.cwd db.home o ho.names
  rw [hp] at hp'
  have e := Res.ok.inj hp'
  subst e
  have e2 := FS.lookup_eq hl
  rw [hr] at e2
  subst e2
  exact FS.lookup_mono h.dirs hl

theorem shows_notDir {db : DB} {fs0 fs : FS} {m : Holding} (h : Shows db fs0 fs m) {o : Obj} (ho : Placed db fs0 o) :
    fs.get (at_ db o) ≠ some .dir := by
  rw [h.content o ho]
  cases m o <;> simp

theorem shows_fileAt {db : DB} {fs0 fs : FS} {m : Holding} (h : Shows db fs0 fs m) {o : Obj} (ho : Placed db fs0 o) :
    fileAt fs (at_ db o) = m o := by
  unfold fileAt
  rw [h.content o ho]
  cases m o <;> rfl

theorem at_inj {db : DB} {fs : FS} {o o' : Obj} (h : Placed db fs o) (h' : Placed db fs o') (e : at_ db o = at_ db o') : o = o' :=
  loc_injective h.names h'.names h.free h'.free (List.append_cancel_left e)

theorem shows_put {db : DB} {fs0 fs : FS} {m : Holding} (h : Shows db fs0 fs m) {o : Obj} (ho : Placed db fs0 o) (x : Bytes) :
    Shows db fs0 (fs.set (at_ db o) (.file x)) (m.put o (some x)) := by
  have hn := shows_notDir h ho
  refine ⟨fun q hq => FS.set_file_dirs hn q (h.dirs q hq), ?_⟩
  intro o' ho'
  rw [FS.get_set (FS.ne_root hn)]
  unfold Holding.put
  by_cases e : o' = o
  · subst e; rw [if_pos rfl, if_pos rfl]; rfl
  · rw [if_neg (fun k => e (at_inj ho' ho k)), if_neg e, h.content o' ho']

theorem shows_drop {db : DB} {fs0 fs : FS} {m : Holding} (h : Shows db fs0 fs m) {o : Obj} (ho : Placed db fs0 o) :
    Shows db fs0 (fs.del (at_ db o)) (m.put o none) := by
  have hn := shows_notDir h ho
  refine ⟨fun q hq => FS.del_file_dirs hn q (h.dirs q hq), ?_⟩
  intro o' ho'
  rw [FS.get_del (FS.ne_root hn)]
  unfold Holding.put
  by_cases e : o' = o
  · subst e; rw [if_pos rfl, if_pos rfl]; rfl
  · rw [if_neg (fun k => e (at_inj ho' ho k)), if_neg e, h.content o' ho']

/-- Where calls may write. -/
def Spec.changedAt (db : DB) (op : Call) (q : Path) : Prop := ∃ o, changes op o ∧ q = at_ db o

theorem shows_need {db : DB} {fs0 fs : FS} {m : Holding} (h : Shows db fs0 fs m) {o : Obj} (ho : Placed db fs0 o) {p : Bytes}
    (hp : o.path db.home = .ok p) : fs.readFile db.cwd p = m.need o := by
  obtain ⟨p', hp', hl⟩ := shows_place h ho
  rw [hp] at hp'
  have e := Res.ok.inj hp'
  subst e
  rw [FS.readFile_of hl, h.content o ho]
  unfold Holding.need
  cases m o <;> rfl

theorem open_articles {db : DB} {c : Codec} {fs0 fs : FS} {m : Holding} (h : Shows db fs0 fs m) {o : Obj} (ho : Placed db fs0 o) {p : Bytes}
    (hp : o.path db.home = .ok p) : db.openArticleList c fs p = (do .ok (articlesIn c (← m.need o))) := by
  obtain ⟨p', hp', hl⟩ := shows_place h ho
  rw [hp] at hp'
  have e := Res.ok.inj hp'
  subst e
  unfold DB.openArticleList
  rw [hl, Res.ok_bind, h.content o ho]
  unfold Holding.need
  cases m o with
  | none => rfl
  | some d =>
    show openFileHeaderFile c (some d) = _
    unfold openFileHeaderFile
    rw [readFile_slots (by omega) (FileHeader.unmarshal_eq c)]
    rfl

theorem open_boards {db : DB} {c : Codec} {fs0 fs : FS} {m : Holding} (h : Shows db fs0 fs m) (ho : Placed db fs0 .boardList) {p : Bytes}
    (hp : getBoardPath db.home = .ok p) :
    db.openBoardList c fs p = (do .ok ((slots 256 (← m.need .boardList)).map (BoardHeader.parse c))) := by
  obtain ⟨p', hp', hl⟩ := shows_place h ho
  rw [show Obj.boardList.path db.home = getBoardPath db.home from rfl, hp] at hp'
  have e := Res.ok.inj hp'
  subst e
  unfold DB.openBoardList
  rw [hl, Res.ok_bind, h.content _ ho]
  unfold Holding.need
  cases m .boardList with
  | none => rfl
  | some d =>
    show openBoardHeaderFile c (some d) = _
    unfold openBoardHeaderFile
    rw [readFile_slots (by omega) (BoardHeader.unmarshal_eq c)]
    rfl

theorem open_users {db : DB} {c : Codec} {fs0 fs : FS} {m : Holding} (h : Shows db fs0 fs m) (ho : Placed db fs0 .passwd) {p : Bytes}
    (hp : getPasswdsPath db.home = .ok p) :
    db.openUserList c fs p = (do .ok ((slots 512 (← m.need .passwd)).map (Userec.parse c))) := by
  obtain ⟨p', hp', hl⟩ := shows_place h ho
  rw [show Obj.passwd.path db.home = getPasswdsPath db.home from rfl, hp] at hp'
  have e := Res.ok.inj hp'
  subst e
  unfold DB.openUserList
  rw [hl, Res.ok_bind, h.content _ ho]
  unfold Holding.need
  cases m .passwd with
  | none => rfl
  | some d =>
    show openUserecFile c (some d) = _
    unfold openUserecFile
    rw [readFile_slots (by omega) (Userec.unmarshal_eq c)]
    rfl

theorem createExcl_place {fs : FS} {cwd l : Path} {p : Bytes} (hl : fs.lookup cwd p = .ok l) :
    fs.createExcl cwd p = match fs.get l with
      | none => .ok (fs.set l (.file []))
      | some _ => .err "file exists" := by
  unfold FS.createExcl
  rw [hl, Res.ok_bind]
  cases fs.get l <;> rfl

theorem draws_free {db : DB} {fs0 fs : FS} {m : Holding} (h : Shows db fs0 fs m) {board : Bytes} {draw : Nat → Int × Fin 4096}
    (ho : ∀ k, Placed db fs0 (.article board (DB.articleName (draw k).1 (draw k).2))) (fuel k : Nat) :
    db.createFilename fs board draw fuel k = match freeName m board draw fuel k with
      | some name => .ok (name, fs.set (at_ db (.article board name)) (.file []))
      | none => .diverge := by
  induction fuel generalizing k with
  | zero => rfl
  | succ n ih =>
    obtain ⟨p, hp, hl⟩ := shows_place h (ho k)
    have hp : getBoardArticleFilePath db.home board (DB.articleName (draw k).1 (draw k).2) = .ok p := hp
    simp only [DB.createFilename, freeName]
    rw [hp, Res.ok_bind, createExcl_place hl, h.content _ (ho k)]
    cases hm : m (.article board (DB.articleName (draw k).1 (draw k).2)) with
    | none => simp
    | some x =>
      simp only [Option.map_some, reduceCtorEq, if_false]
      exact ih (k + 1)

theorem free_drawn {m : Holding} {board : Bytes} {draw : Nat → Int × Fin 4096} {fuel k : Nat} {name : Bytes}
    (h : freeName m board draw fuel k = some name) :
    ∃ j, name = DB.articleName (draw j).1 (draw j).2 ∧ m (.article board name) = none := by
  induction fuel generalizing k with
  | zero => cases h
  | succ n ih =>
    simp only [freeName] at h
    split at h
    · next hm => exact ⟨k, (Option.some.inj h).symm, by rw [← Option.some.inj h]; exact hm⟩
    · exact ih h

/-- One call. -/
theorem call_step {db : DB} {c : Codec} {fs0 fs : FS} {m : Holding} (h : Shows db fs0 fs m) (op : Call)
    (hop : ∀ o, touches op o → Placed db fs0 o) :
    (op.exec db c fs).2 = (intended c m op).2 ∧ Shows db fs0 (op.exec db c fs).1 (intended c m op).1 ∧
      ∀ q, ¬ changedAt db op q → (op.exec db c fs).1.get q = fs.get q := by
  have keep : ∀ {o : Obj} {x : Bytes}, Placed db fs0 o → changes op o →
      ∀ q, ¬ changedAt db op q → (fs.set (at_ db o) (.file x)).get q = fs.get q := by
    intro o x ho hc q hq
    rw [FS.get_set (FS.ne_root (shows_notDir h ho)), if_neg (fun e => hq ⟨o, hc, e⟩)]
  cases op with
  | readUsers =>
    have ho := hop .passwd rfl
    obtain ⟨p, hp, _⟩ := shows_place h ho
    have hp : getPasswdsPath db.home = .ok p := hp
    refine ⟨?_, h, fun _ _ => rfl⟩
    simp only [Call.exec, reads, intended, DB.readUserRecords, hp, Res.ok_bind, open_users h ho hp]
    cases m.need .passwd <;> rfl
  | readFavourites u =>
    have ho := hop (.favourite u) (Or.inl rfl)
    have hb := hop .boardList (Or.inr rfl)
    obtain ⟨p, hp, hl⟩ := shows_place h ho
    obtain ⟨bp, hbp, _⟩ := shows_place h hb
    have hp' : getUserFavoritePath db.home u = .ok p := hp
    have hbp : getBoardPath db.home = .ok bp := hbp
    refine ⟨?_, h, fun _ _ => rfl⟩
    simp only [Call.exec, reads, intended, DB.readFavorites, hp', Res.ok_bind, DB.readFavoriteFile, FS.statOk, hl, h.content _ ho]
    cases hm : m (.favourite u) with
    | none => rfl
    | some data =>
      simp only [Option.map_some, Option.isSome_some, Bool.not_true, Bool.false_eq_true, if_false, shows_need h ho hp, Holding.need, hm,
        Res.ok_bind, favouritesIn, hbp, open_boards h hb hbp]
      cases loadFav c data with
      | err e => rfl
      | panic => rfl
      | diverge => rfl
      | ok fav =>
        simp only [Res.ok_bind]
        cases m .boardList with
        | none => rfl
        | some d => rfl
  | readBoards =>
    have ho := hop .boardList rfl
    obtain ⟨p, hp, _⟩ := shows_place h ho
    have hp : getBoardPath db.home = .ok p := hp
    refine ⟨?_, h, fun _ _ => rfl⟩
    simp only [Call.exec, reads, intended, DB.readBoardRecords, hp, Res.ok_bind, open_boards h ho hp]
    cases m.need .boardList <;> rfl
  | listArticles b =>
    have ho := hop (.articleIndex b) rfl
    obtain ⟨p, hp, _⟩ := shows_place h ho
    refine ⟨?_, h, fun _ _ => rfl⟩
    have hp' : getBoardArticlesDirectoryPath db.home b = .ok p := hp
    simp only [Call.exec, reads, intended, DB.readArticleRecords, hp', Res.ok_bind, open_articles h ho hp, Holding.need]
    cases m (.articleIndex b) <;> rfl
  | listTreasure b ds =>
    have ho := hop (.treasureIndex b ds) rfl
    obtain ⟨p, hp, _⟩ := shows_place h ho
    refine ⟨?_, h, fun _ _ => rfl⟩
    have hp' : getBoardTreasuresDirectoryPath db.home b ds = .ok p := hp
    simp only [Call.exec, reads, intended, DB.readTreasureRecords, hp', Res.ok_bind, open_articles h ho hp, Holding.need]
    cases m (.treasureIndex b ds) <;> rfl
  | readArticle b f =>
    have ho := hop (.article b f) rfl
    obtain ⟨p, hp, _⟩ := shows_place h ho
    refine ⟨?_, h, fun _ _ => rfl⟩
    have hp' : getBoardArticleFilePath db.home b f = .ok p := hp
    simp only [Call.exec, reads, intended, DB.readBoardArticleFile, hp', Res.ok_bind, shows_need h ho hp]
  | readTreasure b ds f =>
    have ho := hop (.treasure b ds f) rfl
    obtain ⟨p, hp, _⟩ := shows_place h ho
    refine ⟨?_, h, fun _ _ => rfl⟩
    have hp' : getBoardTreasureFilePath db.home b ds f = .ok p := hp
    simp only [Call.exec, reads, intended, DB.readTreasureFile, hp', Res.ok_bind, shows_need h ho hp]
  | addBoard r =>
    have ho := hop .boardList rfl
    obtain ⟨p, hp, hl⟩ := shows_place h ho
    have hp : getBoardPath db.home = .ok p := hp
    have e : db.addBoardRecord c fs r = .ok (fs.set (at_ db .boardList) (.file ((m .boardList).getD [] ++ r.marshal c))) := by
      simp only [DB.addBoardRecord, hp, Res.ok_bind, FS.appendCreate, FS.openCreate_of hl (shows_notDir h ho), shows_fileAt h ho]
    simp only [Call.exec, e, writes, intended]
    exact ⟨trivial, shows_put h ho _, keep ho rfl⟩
  | createArticle b o d t draw fuel =>
    have ho : ∀ k, Placed db fs0 (.article b (DB.articleName (draw k).1 (draw k).2)) := fun k => hop _ ⟨k, rfl⟩
    simp only [Call.exec, intended, DB.createArticleRecord, draws_free h ho]
    cases hf : freeName m b draw fuel 0 with
    | none => exact ⟨rfl, h, fun _ _ => rfl⟩
    | some name =>
      obtain ⟨j, hj, _⟩ := free_drawn hf
      subst hj
      exact ⟨rfl, shows_put h (ho j) _, keep (ho j) ⟨j, rfl⟩⟩
  | addRecord b r =>
    have ho := hop (.articleIndex b) rfl
    obtain ⟨p, hp, hl⟩ := shows_place h ho
    have hp : getBoardArticlesDirectoryPath db.home b = .ok p := hp
    have e : db.addArticleRecord c fs b r =
        .ok (fs.set (at_ db (.articleIndex b)) (.file ((m (.articleIndex b)).getD [] ++ r.marshal c))) := by
      simp only [DB.addArticleRecord, hp, Res.ok_bind, FS.appendCreate, FS.openCreate_of hl (shows_notDir h ho), shows_fileAt h ho]
    simp only [Call.exec, e, writes, intended]
    exact ⟨trivial, shows_put h ho _, keep ho rfl⟩
  | writeArticle b f x =>
    have ho := hop (.article b f) rfl
    obtain ⟨p, hp, hl⟩ := shows_place h ho
    have hp : getBoardArticleFilePath db.home b f = .ok p := hp
    have e : db.writeBoardArticleFile fs b f x =
        .ok (fs.set (at_ db (.article b f)) (.file (x ++ ((m (.article b f)).getD []).drop x.length))) := by
      simp only [DB.writeBoardArticleFile, hp, Res.ok_bind, FS.overwrite, FS.openCreate_of hl (shows_notDir h ho), shows_fileAt h ho]
      simp [writeAt, zeros]
    simp only [Call.exec, e, writes, intended]
    exact ⟨trivial, shows_put h ho _, keep ho rfl⟩
  | appendArticle b f x =>
    have ho := hop (.article b f) rfl
    obtain ⟨p, hp, hl⟩ := shows_place h ho
    have hp : getBoardArticleFilePath db.home b f = .ok p := hp
    have hc := h.content _ ho
    cases hm : m (.article b f) with
    | none =>
      rw [hm] at hc
      have e : db.appendBoardArticleFile fs b f x = .err "no such file or directory" := by
        simp only [DB.appendBoardArticleFile, hp, Res.ok_bind, FS.append, hl, hc]
        rfl
      simp only [Call.exec, e, writes, intended, hm]
      exact ⟨trivial, h, fun _ _ => trivial⟩
    | some y =>
      rw [hm] at hc
      have e : db.appendBoardArticleFile fs b f x = .ok (fs.set (at_ db (.article b f)) (.file (y ++ x))) := by
        simp only [DB.appendBoardArticleFile, hp, Res.ok_bind, FS.append, hl, hc]
        rfl
      simp only [Call.exec, e, writes, intended, hm]
      exact ⟨trivial, shows_put h ho _, keep ho rfl⟩
  | readDraft u d =>
    have ho := hop (.draft u d) rfl
    obtain ⟨p, hp, hl⟩ := shows_place h ho
    refine ⟨?_, h, fun _ _ => rfl⟩
    have hp' : getUserDraftPath db.home u d = .ok p := hp
    simp only [Call.exec, reads, intended, DB.getUserDraft, hp', Res.ok_bind, FS.statOk, hl, h.content _ ho, shows_need h ho hp, Holding.need]
    cases m (.draft u d) <;> rfl
  | deleteDraft u d =>
    have ho := hop (.draft u d) rfl
    obtain ⟨p, hp, hl⟩ := shows_place h ho
    have hp : getUserDraftPath db.home u d = .ok p := hp
    have hc := h.content _ ho
    cases hm : m (.draft u d) with
    | none =>
      rw [hm] at hc
      have e : db.deleteUserDraft fs u d = .err "no such file or directory" := by
        simp only [DB.deleteUserDraft, hp, Res.ok_bind, FS.remove, hl, hc]
        rfl
      simp only [Call.exec, e, writes, intended, hm]
      exact ⟨trivial, h, fun _ _ => trivial⟩
    | some y =>
      rw [hm] at hc
      have e : db.deleteUserDraft fs u d = .ok (fs.del (at_ db (.draft u d))) := by
        simp only [DB.deleteUserDraft, hp, Res.ok_bind, FS.remove, hl, hc]
        rfl
      simp only [Call.exec, e, writes, intended, hm]
      refine ⟨trivial, shows_drop h ho, ?_⟩
      intro q hq
      rw [FS.get_del (FS.ne_root (shows_notDir h ho)), if_neg (fun k => hq ⟨_, rfl, k⟩)]
  | writeDraft u d x =>
    have ho := hop (.draft u d) rfl
    obtain ⟨p, hp, hl⟩ := shows_place h ho
    have hp : getUserDraftPath db.home u d = .ok p := hp
    have e : db.writeUserDraft fs u d x = .ok (fs.set (at_ db (.draft u d)) (.file x)) := by
      simp only [DB.writeUserDraft, hp, Res.ok_bind, FS.writeFile, FS.openCreate_of hl (shows_notDir h ho)]
    simp only [Call.exec, e, writes, intended]
    exact ⟨trivial, shows_put h ho _, keep ho rfl⟩

theorem shows_start (db : DB) (fs : FS) : Shows db fs fs (fun o => fileAt fs (at_ db o)) := by
  refine ⟨fun q hq => hq, ?_⟩
  intro o ho
  have hn := ho.notDir
  unfold fileAt
  cases h : fs.get (at_ db o) with
  | none => rfl
  | some n =>
    cases n with
    | dir => exact absurd h hn
    | file d => rfl

/-- **C103.** For every history of calls on objects with well-formed names, in places that exist, every call answers as the map from objects to
contents does, starting from the present contents; afterwards every object holds what the map says; no other location has changed. -/
theorem C103_database_is_a_map (db : DB) (c : Codec) (fs : FS) (ops : List Call)
    (hops : ∀ op ∈ ops, ∀ o, touches op o → Placed db fs o) :
    let m0 : Holding := fun o => fileAt fs (at_ db o)
    (Call.execAll db c fs ops).2 = (intendedAll c m0 ops).2 ∧
    (∀ o, Placed db fs o → fileAt (Call.execAll db c fs ops).1 (at_ db o) = (intendedAll c m0 ops).1 o) ∧
    ∀ q, (∀ op ∈ ops, ¬ changedAt db op q) → (Call.execAll db c fs ops).1.get q = fs.get q := by
  intro m0
  have key : ∀ (ops : List Call) (fs' : FS) (m : Holding), Shows db fs fs' m → (∀ op ∈ ops, ∀ o, touches op o → Placed db fs o) →
      (Call.execAll db c fs' ops).2 = (intendedAll c m ops).2 ∧ Shows db fs (Call.execAll db c fs' ops).1 (intendedAll c m ops).1 ∧
      ∀ q, (∀ op ∈ ops, ¬ changedAt db op q) → (Call.execAll db c fs' ops).1.get q = fs'.get q := by
    intro ops
    induction ops with
    | nil => intro fs' m h _; exact ⟨rfl, h, fun _ _ => rfl⟩
    | cons op ops ih =>
      intro fs' m h ho
      obtain ⟨a, b, k⟩ := call_step (c := c) h op (ho op (by simp))
      obtain ⟨a', b', k'⟩ := ih _ _ b (fun x hx => ho x (by simp [hx]))
      refine ⟨?_, b', ?_⟩
      · simp only [Call.execAll, intendedAll, a, a']
      · intro q hq
        simp only [Call.execAll]
        rw [k' q (fun x hx => hq x (by simp [hx])), k q (hq op (by simp))]
  obtain ⟨a, b, k⟩ := key ops fs m0 (shows_start db fs) hops
  exact ⟨a, fun o ho => shows_fileAt b ho, k⟩

/-- **C103, what is left alone stays.** An object that no call of the history is meant to change holds what it held. -/
theorem C103_others_kept (db : DB) (c : Codec) (fs : FS) (ops : List Call) (hops : ∀ op ∈ ops, ∀ o, touches op o → Placed db fs o) (o : Obj)
    (ho : Placed db fs o) (hc : ∀ op ∈ ops, ¬ changes op o) :
    fileAt (Call.execAll db c fs ops).1 (at_ db o) = fileAt fs (at_ db o) := by
  obtain ⟨_, _, k⟩ := C103_database_is_a_map db c fs ops hops
  unfold fileAt
  rw [k]
  rintro op hop ⟨o', h', e⟩
  have hp : Placed db fs o' := hops op hop o' (by
    cases op <;> first | exact h' | exact h'.elim)
  exact hc op hop (at_inj ho hp e ▸ h')

/-- **C103, what no call changes.** Passwords, favourites, mails, login logs, treasures and board names stay as they are, whatever is
called. -/
theorem C103_never_written (op : Call) (o : Obj) (h : changes op o) :
    o = .boardList ∨ (∃ b, o = .articleIndex b) ∨ (∃ b f, o = .article b f) ∨ ∃ u d, o = .draft u d := by
  cases op with
  | addBoard r => exact Or.inl h
  | createArticle b _ _ _ draw _ => obtain ⟨k, h⟩ := h; exact Or.inr (Or.inr (Or.inl ⟨_, _, h⟩))
  | addRecord b r => exact Or.inr (Or.inl ⟨_, h⟩)
  | writeArticle b f x => exact Or.inr (Or.inr (Or.inl ⟨_, _, h⟩))
  | appendArticle b f x => exact Or.inr (Or.inr (Or.inl ⟨_, _, h⟩))
  | deleteDraft u d => exact Or.inr (Or.inr (Or.inr ⟨_, _, h⟩))
  | writeDraft u d x => exact Or.inr (Or.inr (Or.inr ⟨_, _, h⟩))
  | _ => exact h.elim

/-- What a call answers, and what it makes of its objects, depends on the objects it touches only. -/
theorem intended_local (c : Codec) (op : Call) (m m' : Holding) (h : ∀ o, touches op o → m o = m' o) :
    (intended c m op).2 = (intended c m' op).2 ∧
    (∀ o, touches op o → (intended c m op).1 o = (intended c m' op).1 o) ∧ ∀ o, ¬ changes op o → (intended c m op).1 o = m o := by
  have put : ∀ (o o' : Obj) (x : Option Bytes), o' ≠ o → m.put o x o' = m o' := by
    intro o o' x e
    unfold Holding.put
    rw [if_neg e]
  have same : ∀ (o o' : Obj) (x : Option Bytes), m o' = m' o' → m.put o x o' = m'.put o x o' := by
    intro o o' x e
    unfold Holding.put
    split
    · rfl
    · exact e
  cases op with
  | readUsers => simp only [intended, Holding.need, h _ rfl]; exact ⟨trivial, h, fun _ _ => trivial⟩
  | readFavourites u =>
    simp only [intended, favouritesIn, Holding.need, h _ (Or.inl rfl), h _ (Or.inr rfl)]; exact ⟨trivial, h, fun _ _ => trivial⟩
  | readBoards => simp only [intended, Holding.need, h _ rfl]; exact ⟨trivial, h, fun _ _ => trivial⟩
  | listArticles b => simp only [intended, h _ rfl]; exact ⟨trivial, h, fun _ _ => trivial⟩
  | listTreasure b ds => simp only [intended, Holding.need, h _ rfl]; exact ⟨trivial, h, fun _ _ => trivial⟩
  | readArticle b f => simp only [intended, Holding.need, h _ rfl]; exact ⟨trivial, h, fun _ _ => trivial⟩
  | readTreasure b ds f => simp only [intended, Holding.need, h _ rfl]; exact ⟨trivial, h, fun _ _ => trivial⟩
  | addBoard r =>
    simp only [intended, h _ rfl]
    exact ⟨trivial, fun o ho => same _ _ _ (h o ho), fun o ho => put _ _ _ ho⟩
  | createArticle b o d t draw fuel =>
    have e : ∀ n k, freeName m b draw n k = freeName m' b draw n k := by
      intro n
      induction n with
      | zero => intro k; rfl
      | succ n ih => intro k; simp only [freeName]; rw [h _ ⟨k, rfl⟩, ih]
    simp only [intended, e]
    cases hf : freeName m' b draw fuel 0 with
    | none => exact ⟨rfl, h, fun _ _ => rfl⟩
    | some name =>
      obtain ⟨j, hj, _⟩ := free_drawn hf
      subst hj
      exact ⟨rfl, fun o ho => same _ _ _ (h o ho), fun o ho => put _ _ _ (fun e => ho ⟨j, e⟩)⟩
  | addRecord b r =>
    simp only [intended, h _ rfl]
    exact ⟨trivial, fun o ho => same _ _ _ (h o ho), fun o ho => put _ _ _ ho⟩
  | writeArticle b f x =>
    simp only [intended, h _ rfl]
    exact ⟨trivial, fun o ho => same _ _ _ (h o ho), fun o ho => put _ _ _ ho⟩
  | appendArticle b f x =>
    simp only [intended]
    rw [← h _ rfl]
    cases m (.article b f) with
    | none => exact ⟨rfl, h, fun _ _ => rfl⟩
    | some y => exact ⟨rfl, fun o ho => same _ _ _ (h o ho), fun o ho => put _ _ _ ho⟩
  | readDraft u d => simp only [intended, h _ rfl]; exact ⟨trivial, h, fun _ _ => trivial⟩
  | deleteDraft u d =>
    simp only [intended]
    rw [← h _ rfl]
    cases m (.draft u d) with
    | none => exact ⟨rfl, h, fun _ _ => rfl⟩
    | some y => exact ⟨rfl, fun o ho => same _ _ _ (h o ho), fun o ho => put _ _ _ ho⟩
  | writeDraft u d x =>
    simp only [intended]
    exact ⟨trivial, fun o ho => same _ _ _ (h o ho), fun o ho => put _ _ _ ho⟩

theorem changes_touches {op : Call} {o : Obj} (h : changes op o) : touches op o := by
  cases op <;> first | exact h | exact h.elim

/-- **C103, order does not matter.** Two calls of which neither changes what the other touches give the same answers, and leave the same
contents, in either order. -/
theorem C103_commute (db : DB) (c : Codec) (fs : FS) (a b : Call) (ha : ∀ o, touches a o → Placed db fs o) (hb : ∀ o, touches b o → Placed db fs o)
    (hab : ∀ o, changes a o → ¬ touches b o) (hba : ∀ o, changes b o → ¬ touches a o) :
    (∃ x y, (Call.execAll db c fs [a, b]).2 = [x, y] ∧ (Call.execAll db c fs [b, a]).2 = [y, x]) ∧
    ∀ q, (Call.execAll db c fs [a, b]).1.get q = (Call.execAll db c fs [b, a]).1.get q := by
  have hops : ∀ op ∈ [a, b], ∀ o, touches op o → Placed db fs o := by
    intro op h; simp only [List.mem_cons, List.not_mem_nil, or_false] at h; rcases h with rfl | rfl <;> assumption
  have hops' : ∀ op ∈ [b, a], ∀ o, touches op o → Placed db fs o := by
    intro op h; simp only [List.mem_cons, List.not_mem_nil, or_false] at h; rcases h with rfl | rfl <;> assumption
  obtain ⟨m, hm⟩ : ∃ m : Holding, m = fun o => fileAt fs (at_ db o) := ⟨_, rfl⟩
  have h0 : Shows db fs fs m := hm ▸ shows_start db fs
  obtain ⟨a1, a2, a3⟩ := call_step (c := c) h0 a ha
  obtain ⟨b1, b2, b3⟩ := call_step (c := c) h0 b hb
  obtain ⟨p1, p2, p3⟩ := call_step (c := c) a2 b hb
  obtain ⟨q1, q2, q3⟩ := call_step (c := c) b2 a ha
  have la : ∀ o, touches b o → (intended c m a).1 o = m o := fun o ho => (intended_local c a m m (fun _ _ => rfl)).2.2 o (fun h => hab o h ho)
  have lb : ∀ o, touches a o → (intended c m b).1 o = m o := fun o ho => (intended_local c b m m (fun _ _ => rfl)).2.2 o (fun h => hba o h ho)
  obtain ⟨u1, u2, _⟩ := intended_local c b _ m la
  obtain ⟨v1, v2, _⟩ := intended_local c a _ m lb
  refine ⟨⟨(intended c m a).2, (intended c m b).2, ?_, ?_⟩, ?_⟩
  · simp only [Call.execAll, a1, p1, u1]
  · simp only [Call.execAll, b1, q1, v1]
  · intro q
    show ((b.exec db c (a.exec db c fs).1).1).get q = ((a.exec db c (b.exec db c fs).1).1).get q
    by_cases ca : changedAt db a q
    · obtain ⟨o, ho, e⟩ := ca
      have hp := ha o (changes_touches ho)
      have nb : ¬ changedAt db b q := by
        rintro ⟨o', ho', e'⟩
        have : o = o' := at_inj hp (hb o' (changes_touches ho')) (e ▸ e')
        subst this
        exact hba o ho' (changes_touches ho)
      rw [p3 q nb, e, a2.content o hp, q2.content o hp, v2 o (changes_touches ho)]
    · rw [q3 q ca]
      by_cases cb : changedAt db b q
      · obtain ⟨o, ho, e⟩ := cb
        have hp := hb o (changes_touches ho)
        rw [e, p2.content o hp, b2.content o hp, u2 o (changes_touches ho)]
      · rw [p3 q cb, a3 q ca, b3 q cb]

/-! ## Names that the library uses itself -/

/-- The full claim: a call changes the objects it is meant to change, for all single-component names. -/
def Spec.CallsIndependent : Prop :=
  ∀ (db : DB) (c : Codec) (fs : FS) (op : Call) (o : Obj), (∀ x, touches op x → ∀ s ∈ x.names, Component s) →
    (∀ s ∈ o.names, Component s) → ¬ changes op o → fileAt (op.exec db c fs).1 (at_ db o) = fileAt fs (at_ db o)

/-- **C103 is false of the code for reserved names:** writing the article `.DIR` replaces the list of the board. -/
theorem C103_independent_refuted : ¬ Spec.CallsIndependent := by
  intro h
  have hS : ∀ s ∈ [ascii "S", ascii ".DIR"], Component s := by
    intro s hs
    simp only [List.mem_cons, List.not_mem_nil, or_false] at hs
    rcases hs with rfl | rfl <;> exact ⟨by decide, by decide, by decide, by decide⟩
  have := h sampleDB asciiCodec sampleFS (.writeArticle (ascii "S") (ascii ".DIR") (ascii "x")) (.articleIndex (ascii "S"))
    (by intro x hx; rw [show x = .article (ascii "S") (ascii ".DIR") from hx]; exact hS)
    (by intro s hs; exact hS s (by simp only [Obj.names, List.mem_singleton] at hs; simp [hs]))
    (by intro e; cases e)
  revert this
  decide +kernel

/-! ## Examples -/

/-- The objects of the examples are in place. -/
theorem sample_placed : Placed sampleDB sampleFS (.draft (ascii "Ab") (ascii "1")) ∧ Placed sampleDB sampleFS (.articleIndex (ascii "S")) ∧
    Placed sampleDB sampleFS .boardList ∧ Placed sampleDB sampleFS (.article (ascii "S") (DB.articleName 1600000000 0xABC)) := by
  refine ⟨⟨?_, trivial, ⟨_, _, rfl, rfl⟩, by decide +kernel⟩, ⟨?_, trivial, ⟨_, _, rfl, rfl⟩, by decide +kernel⟩,
    ⟨?_, trivial, ⟨_, _, rfl, rfl⟩, by decide +kernel⟩, ⟨?_, ?_, ⟨_, _, rfl, rfl⟩, by decide +kernel⟩⟩
  · intro s hs
    simp only [Obj.names, List.mem_cons, List.not_mem_nil, or_false] at hs
    rcases hs with rfl | rfl <;> exact ⟨by decide, by decide, by decide, by decide⟩
  · intro s hs
    simp only [Obj.names, List.mem_cons, List.not_mem_nil, or_false] at hs
    subst hs; exact ⟨by decide, by decide, by decide, by decide⟩
  · intro s hs; cases hs
  · intro s hs
    simp only [Obj.names, List.mem_cons, List.not_mem_nil, or_false] at hs
    rcases hs with rfl | rfl
    · exact ⟨by decide, by decide, by decide, by decide⟩
    · exact (articleName_component _ _).1
  · exact ⟨by decide, by decide⟩

/-- A history that C103 speaks about: an article is made and written, a draft is saved, the list is read. -/
def sampleCalls : List Call :=
  [.createArticle (ascii "S") (ascii "Ab") (ascii "11/16") (ascii "hi") (fun _ => (1600000000, 0xABC)) 3,
   .writeArticle (ascii "S") (DB.articleName 1600000000 0xABC) (ascii "hello"), .writeDraft (ascii "Ab") (ascii "1") (ascii "x"),
   .readBoards, .listArticles (ascii "S")]

example : ∀ op ∈ sampleCalls, ∀ o, touches op o → Placed sampleDB sampleFS o := by
  obtain ⟨h1, h2, h3, h4⟩ := sample_placed
  intro op hop o ho
  simp only [sampleCalls, List.mem_cons, List.not_mem_nil, or_false] at hop
  rcases hop with rfl | rfl | rfl | rfl | rfl
  · obtain ⟨k, rfl⟩ := ho; exact h4
  · rw [show o = _ from ho]; exact h4
  · rw [show o = _ from ho]; exact h1
  · rw [show o = _ from ho]; exact h3
  · rw [show o = _ from ho]; exact h2

/-- Two calls that may change places. -/
example : ∀ o, changes (.writeDraft (ascii "Ab") (ascii "1") (ascii "x")) o → ¬ touches (.listArticles (ascii "S")) o := by
  intro o h
  rw [show o = _ from h]
  intro e
  cases e

end Verif
