import Verif.Props.Api
import Verif.Props.ToolMain
/-!
# C114: which calls of the database crash, and which never return
-/

namespace Verif
open Spec

/-- The user or board that a call names. -/
def Spec.callee : Call → Option Bytes
  | .readUsers | .readBoards | .addBoard _ => none
  | .readFavourites u | .readDraft u _ | .deleteDraft u _ | .writeDraft u _ _ => some u
  | .listArticles b | .listTreasure b _ | .readArticle b _ | .readTreasure b _ _ | .createArticle b _ _ _ _ _ | .addRecord b _
  | .writeArticle b _ _ | .appendArticle b _ _ => some b

/-- The favourites of this user cannot be shown: an entry at some depth names a board that is not in the list. -/
def Spec.BrokenFavourites (db : DB) (c : Codec) (fs : FS) (user : Bytes) : Prop :=
  ∃ data fav boards, fs.readFile db.cwd (favPath db.home user) = .ok data ∧ loadFav c data = .ok fav ∧ db.readBoardRecords c fs = .ok boards ∧
    ¬ EveryBoard (BoardExists boards) fav.folder

/-- The list that a call reads is a directory. -/
def Spec.ListIsDir (db : DB) (c : Codec) (fs : FS) : Call → Prop
  | .readUsers => IsDir fs db.cwd (db.home ++ ascii "/.PASSWDS")
  | .readBoards => IsDir fs db.cwd (db.home ++ ascii "/.BRD")
  | .listArticles b => ∃ p, getBoardArticlesDirectoryPath db.home b = .ok p ∧ IsDir fs db.cwd p
  | .listTreasure b ds => ∃ p, getBoardTreasuresDirectoryPath db.home b ds = .ok p ∧ IsDir fs db.cwd p
  | .readFavourites u => u ≠ [] ∧ (∃ data fav, fs.readFile db.cwd (favPath db.home u) = .ok data ∧ loadFav c data = .ok fav) ∧
      IsDir fs db.cwd (db.home ++ ascii "/.BRD")
  | _ => False

theorem reads_panic {α : Type} (fs : FS) (f : α → Answer) (r : Res α) : (reads fs f r).2 = .panic ↔ r = .panic := by
  cases r <;> simp [reads]

theorem reads_diverge {α : Type} (fs : FS) (f : α → Answer) (r : Res α) : (reads fs f r).2 = .diverge ↔ r = .diverge := by
  cases r <;> simp [reads]

theorem writes_panic (fs : FS) (r : Res FS) : (writes fs r).2 = .panic ↔ r = .panic := by
  cases r <;> simp [writes]

theorem writes_diverge (fs : FS) (r : Res FS) : (writes fs r).2 = .diverge ↔ r = .diverge := by
  cases r <;> simp [writes]

/-- A reader of whole files: it hangs on a directory, and otherwise answers. -/
theorem listReader_cases {α : Type} {size : Nat} (hs : 0 < size) {parse : Bytes → Res α} {p : Bytes → α}
    (hp : ∀ b, b.length = size → parse b = .ok (p b)) (fs : FS) (cwd : Path) (path : Bytes) (r : Res (List α))
    (hr : r = (fs.lookup cwd path >>= fun l => match fs.get l with
      | none => .err "no such file or directory"
      | some .dir => .diverge
      | some (.file d) => readFile size parse (some d))) :
    r ≠ .panic ∧ (r = .diverge ↔ IsDir fs cwd path) := by
  refine ⟨by rw [hr]; exact listReader_ne_panic hs hp fs cwd path, ?_⟩
  rw [hr]
  unfold IsDir
  rcases lookup_cases fs cwd path with ⟨l, hl⟩ | ⟨e, he⟩
  · rw [hl, Res.ok_bind]
    cases h : fs.get l with
    | none => simp [h]
    | some n =>
      cases n with
      | dir => simp [h]
      | file d =>
        simp only
        rw [readFile_slots hs hp d]
        simp [h]
  · rw [he]
    simp

theorem openArticleList_cases (db : DB) (c : Codec) (fs : FS) (p : Bytes) :
    db.openArticleList c fs p ≠ .panic ∧ (db.openArticleList c fs p = .diverge ↔ IsDir fs db.cwd p) :=
  listReader_cases (size := 128) (by omega) (FileHeader.unmarshal_eq c) fs db.cwd p _ rfl

theorem openBoardList_cases (db : DB) (c : Codec) (fs : FS) (p : Bytes) :
    db.openBoardList c fs p ≠ .panic ∧ (db.openBoardList c fs p = .diverge ↔ IsDir fs db.cwd p) :=
  listReader_cases (size := 256) (by omega) (BoardHeader.unmarshal_eq c) fs db.cwd p _ rfl

theorem readBoardRecords_cases (db : DB) (c : Codec) (fs : FS) :
    db.readBoardRecords c fs ≠ .panic ∧ (db.readBoardRecords c fs = .diverge ↔ IsDir fs db.cwd (db.home ++ ascii "/.BRD")) :=
  openBoardList_cases db c fs _

theorem readUserRecords_cases (db : DB) (c : Codec) (fs : FS) :
    db.readUserRecords c fs ≠ .panic ∧ (db.readUserRecords c fs = .diverge ↔ IsDir fs db.cwd (db.home ++ ascii "/.PASSWDS")) :=
  listReader_cases (size := 512) (by omega) (Userec.unmarshal_eq c) fs db.cwd _ _ rfl

/-- Neither panics nor hangs. -/
def Settles {α : Type} (r : Res α) : Prop := r ≠ .panic ∧ r ≠ .diverge

theorem settles_lookup {α : Type} (fs : FS) (cwd : Path) (p : Bytes) (f : Path → Res α) (h : ∀ l, Settles (f l)) :
    Settles (fs.lookup cwd p >>= f) := by
  rcases lookup_cases fs cwd p with ⟨l, hl⟩ | ⟨e, he⟩
  · rw [hl, Res.ok_bind]; exact h l
  · rw [he]; exact ⟨by simp, by simp⟩

theorem settles_readFile (fs : FS) (cwd : Path) (p : Bytes) : Settles (fs.readFile cwd p) :=
  settles_lookup fs cwd p _ fun l => by
    cases fs.get l with
    | none => exact ⟨by simp, by simp⟩
    | some n => cases n <;> exact ⟨by simp, by simp⟩

theorem settles_openCreate {α : Type} (fs : FS) (cwd : Path) (p : Bytes) (f : Path × Bytes → Res α) (h : ∀ x, Settles (f x)) :
    Settles (fs.openCreate cwd p >>= f) := by
  have : Settles (fs.openCreate cwd p) := settles_lookup fs cwd p _ fun l => by
    cases fs.get l with
    | none => exact ⟨by simp, by simp⟩
    | some n => cases n <;> exact ⟨by simp, by simp⟩
  cases hr : fs.openCreate cwd p with
  | ok x => rw [Res.ok_bind]; exact h x
  | err e => exact ⟨by simp, by simp⟩
  | panic => exact absurd hr this.1
  | diverge => exact absurd hr this.2

theorem settles_writeFile (fs : FS) (cwd : Path) (p d : Bytes) : Settles (fs.writeFile cwd p d) :=
  settles_openCreate fs cwd p _ fun _ => ⟨by simp, by simp⟩

theorem settles_overwrite (fs : FS) (cwd : Path) (p d : Bytes) : Settles (fs.overwrite cwd p d) :=
  settles_openCreate fs cwd p _ fun _ => ⟨by simp, by simp⟩

theorem settles_appendCreate (fs : FS) (cwd : Path) (p d : Bytes) : Settles (fs.appendCreate cwd p d) :=
  settles_openCreate fs cwd p _ fun _ => ⟨by simp, by simp⟩

theorem settles_append (fs : FS) (cwd : Path) (p d : Bytes) : Settles (fs.append cwd p d) :=
  settles_lookup fs cwd p _ fun l => by
    cases fs.get l with
    | none => exact ⟨by simp, by simp⟩
    | some n => cases n <;> exact ⟨by simp, by simp⟩

theorem settles_remove (fs : FS) (cwd : Path) (p : Bytes) : Settles (fs.remove cwd p) :=
  settles_lookup fs cwd p _ fun l => by
    cases fs.get l with
    | none => exact ⟨by simp, by simp⟩
    | some n =>
      cases n with
      | file d => exact ⟨by simp, by simp⟩
      | dir =>
        simp only
        split
        · exact ⟨by simp, by simp⟩
        · split <;> exact ⟨by simp, by simp⟩

/-- A call that first makes a path from a name. -/
theorem named_cases {α : Type} {name : Bytes} {path : Bytes → Res Bytes} (h0 : path [] = .panic)
    (h1 : ∀ a l, ∃ p, path (a :: l) = .ok p) {f : Bytes → Res α} (hf : ∀ p, Settles (f p)) :
    ((path name >>= f) = .panic ↔ name = []) ∧ (path name >>= f) ≠ .diverge := by
  cases name with
  | nil => rw [h0]; simp
  | cons a l =>
    obtain ⟨p, hp⟩ := h1 a l
    rw [hp, Res.ok_bind]
    exact ⟨by simp [(hf p).1], (hf p).2⟩

/-! ## Favourites -/

theorem readFavourites_cases (db : DB) (c : Codec) (fs : FS) (u : Bytes)
    (hn : ∀ boards, db.readBoardRecords c fs = .ok boards → boards.length < 2 ^ 32) :
    (db.readFavorites c fs u = .panic ↔ u = [] ∨ BrokenFavourites db c fs u) ∧
    (db.readFavorites c fs u = .diverge ↔ ListIsDir db c fs (.readFavourites u)) := by
  by_cases hu : u = []
  · subst hu
    have h1 : db.readFavorites c fs [] = .panic := rfl
    simp [h1, ListIsDir]
  · have hr : db.readFavorites c fs u = db.readFavoriteFile c fs (favPath db.home u) := by
      rw [DB.readFavorites, favPath_of hu, Res.ok_bind]
    unfold BrokenFavourites
    simp only [hr, hu, false_or, ListIsDir, ne_eq, not_false_eq_true, true_and]
    have hs := settles_readFile fs db.cwd (favPath db.home u)
    cases hd : fs.readFile db.cwd (favPath db.home u) with
    | panic => exact absurd hd hs.1
    | diverge => exact absurd hd hs.2
    | err e =>
      have : db.readFavoriteFile c fs (favPath db.home u) = .ok [] ∨ db.readFavoriteFile c fs (favPath db.home u) = .err e := by
        unfold DB.readFavoriteFile
        split
        · exact .inl rfl
        · rw [hd]; exact .inr rfl
      rcases this with h | h <;> simp [h]
    | ok data =>
      have e1 : db.readFavoriteFile c fs (favPath db.home u) = (do
          let rec ← loadFav c data
          let br ← db.readBoardRecords c fs
          let folder ← rec.folder.resolve br
          .ok folder.items) := by
        rw [DB.readFavoriteFile, statOk_of hd, hd, Res.ok_bind]
        rfl
      rw [e1]
      cases hf : loadFav c data with
      | panic =>
        have := C08_open_returns c data
        rw [hf] at this
        exact absurd this id
      | err e => simp [hf]
      | diverge =>
        have := C08_open_returns c data
        rw [hf] at this
        exact absurd this id
      | ok fav =>
        have hb := readBoardRecords_cases db c fs
        simp only [Res.ok_bind, Res.ok.injEq, exists_eq_left', hf, exists_and_left, true_and, and_self]
        cases hbr : db.readBoardRecords c fs with
        | panic => exact absurd hbr hb.1
        | err e =>
          have : ¬ IsDir fs db.cwd (db.home ++ ascii "/.BRD") := fun h => by rw [hb.2.mpr h] at hbr; cases hbr
          simp [this]
        | diverge => simp [hb.2.mp hbr]
        | ok boards =>
          have : ¬ IsDir fs db.cwd (db.home ++ ascii "/.BRD") := fun h => by rw [hb.2.mpr h] at hbr; cases hbr
          obtain ⟨k1, k2⟩ := resolve_folder boards (hn boards hbr) fav.folder
          by_cases hE : EveryBoard (BoardExists boards) fav.folder
          · simp [k1 hE, this, hE]
          · simp [k2 hE, this, hE]

theorem readArticleRecords_diverge (db : DB) (c : Codec) (fs : FS) (b : Bytes) :
    db.readArticleRecords c fs b = .diverge ↔ ∃ p, getBoardArticlesDirectoryPath db.home b = .ok p ∧ IsDir fs db.cwd p := by
  unfold DB.readArticleRecords
  cases hp : getBoardArticlesDirectoryPath db.home b with
  | err e => simp
  | panic => simp
  | diverge => cases b <;> simp [getBoardArticlesDirectoryPath, firstByte] at hp
  | ok p =>
    have := (openArticleList_cases db c fs p).2
    rw [Res.ok_bind]
    cases hr : db.openArticleList c fs p with
    | err e =>
      rw [hr] at this
      have h' : ¬ IsDir fs db.cwd p := fun h => by cases this.mpr h
      simp only [Res.ok.injEq, exists_eq_left', h', iff_false]
      split <;> simp
    | panic => rw [hr] at this; simpa using this
    | diverge => rw [hr] at this; simpa using this
    | ok l => rw [hr] at this; simpa using this

theorem readTreasureRecords_cases (db : DB) (c : Codec) (fs : FS) (b : Bytes) (ds : List Bytes) :
    (db.readTreasureRecords c fs b ds = .panic ↔ b = []) ∧
    (db.readTreasureRecords c fs b ds = .diverge ↔ ∃ p, getBoardTreasuresDirectoryPath db.home b ds = .ok p ∧ IsDir fs db.cwd p) := by
  unfold DB.readTreasureRecords
  cases b with
  | nil => exact ⟨⟨fun _ => rfl, fun _ => rfl⟩, ⟨fun h => (by cases h), fun ⟨p, h, _⟩ => (by cases h)⟩⟩
  | cons x b =>
    obtain ⟨p, hp⟩ : ∃ p, getBoardTreasuresDirectoryPath db.home (x :: b) ds = .ok p := ⟨_, rfl⟩
    have := openArticleList_cases db c fs p
    rw [hp, Res.ok_bind]
    simp [this.1, this.2]

/-! ## The claims -/

/-- The full claim of C114: every call returns. -/
def Spec.CallsReturn : Prop := ∀ (db : DB) (c : Codec) (fs : FS) (op : Call), (op.exec db c fs).2.Returns

/-- **C114, exactly when a call crashes**: the user or board name is empty, or favourites are shown that are broken. (`fuel`, the number of
names tried, is at least one.) -/
theorem C114_crash_exact (db : DB) (c : Codec) (fs : FS) (op : Call)
    (hn : ∀ boards, db.readBoardRecords c fs = .ok boards → boards.length < 2 ^ 32)
    (hf : ∀ b o d t draw fuel, op = .createArticle b o d t draw fuel → 0 < fuel) :
    (op.exec db c fs).2 = .panic ↔ callee op = some [] ∨ ∃ u, op = .readFavourites u ∧ BrokenFavourites db c fs u := by
  cases op with
  | readUsers => simp [Call.exec, reads_panic, callee, (readUserRecords_cases db c fs).1]
  | readBoards => simp [Call.exec, reads_panic, callee, (readBoardRecords_cases db c fs).1]
  | readFavourites u => simp [Call.exec, reads_panic, callee, (readFavourites_cases db c fs u hn).1]
  | listArticles b => simp [Call.exec, reads_panic, callee, readArticleRecords_panic]
  | listTreasure b ds => simp [Call.exec, reads_panic, callee, (readTreasureRecords_cases db c fs b ds).1]
  | readArticle b f => simp [Call.exec, reads_panic, callee, readBoardArticleFile_panic]
  | readTreasure b ds f =>
    have := (named_cases (name := b) (path := fun b => getBoardTreasureFilePath db.home b ds f) rfl (fun _ _ => ⟨_, rfl⟩)
      (f := fun p => fs.readFile db.cwd p) (fun p => settles_readFile _ _ _)).1
    simpa [Call.exec, reads_panic, callee, DB.readTreasureFile] using this
  | addBoard r => simp [Call.exec, writes_panic, callee, addBoardRecord_ne_panic]
  | createArticle b o d t draw fuel =>
    have h0 := hf b o d t draw fuel rfl
    have := createArticleRecord_panic db fs b o d t draw fuel
    have e : (Call.exec db c fs (.createArticle b o d t draw fuel)).2 = .panic ↔ db.createArticleRecord fs b o d t draw fuel = .panic := by
      simp only [Call.exec]
      split <;> simp_all
    rw [e, this]
    simp [callee, h0]
  | addRecord b r => simp [Call.exec, writes_panic, callee, addArticleRecord_panic]
  | writeArticle b f x => simp [Call.exec, writes_panic, callee, writeBoardArticleFile_panic]
  | appendArticle b f x =>
    have := (named_cases (name := b) (path := fun b => getBoardArticleFilePath db.home b f) rfl (fun _ _ => ⟨_, rfl⟩)
      (f := fun p => fs.append db.cwd p x) (fun p => settles_append _ _ _ _)).1
    simpa [Call.exec, writes_panic, callee, DB.appendBoardArticleFile] using this
  | readDraft u d =>
    have := (named_cases (name := u) (path := fun u => getUserDraftPath db.home u d) rfl (fun _ _ => ⟨_, rfl⟩)
      (f := fun p => if fs.statOk db.cwd p then fs.readFile db.cwd p else .ok [])
      (fun p => by split; exact settles_readFile _ _ _; exact ⟨by simp, by simp⟩)).1
    simpa [Call.exec, reads_panic, callee, DB.getUserDraft] using this
  | deleteDraft u d =>
    have := (named_cases (name := u) (path := fun u => getUserDraftPath db.home u d) rfl (fun _ _ => ⟨_, rfl⟩)
      (f := fun p => fs.remove db.cwd p) (fun p => settles_remove _ _ _)).1
    simpa [Call.exec, writes_panic, callee, DB.deleteUserDraft] using this
  | writeDraft u d x =>
    have := (named_cases (name := u) (path := fun u => getUserDraftPath db.home u d) rfl (fun _ _ => ⟨_, rfl⟩)
      (f := fun p => fs.writeFile db.cwd p x) (fun p => settles_writeFile _ _ _ _)).1
    simpa [Call.exec, writes_panic, callee, DB.writeUserDraft] using this

/-- **C114, exactly when a call does not return**: the list that it reads is a directory. (Creating an article: see C25.) -/
theorem C114_hang_exact (db : DB) (c : Codec) (fs : FS) (op : Call)
    (hn : ∀ boards, db.readBoardRecords c fs = .ok boards → boards.length < 2 ^ 32)
    (hf : ∀ b o d t draw fuel, op ≠ .createArticle b o d t draw fuel) :
    (op.exec db c fs).2 = .diverge ↔ ListIsDir db c fs op := by
  cases op with
  | readUsers => simp [Call.exec, reads_diverge, ListIsDir, (readUserRecords_cases db c fs).2]
  | readBoards => simp [Call.exec, reads_diverge, ListIsDir, (readBoardRecords_cases db c fs).2]
  | readFavourites u => rw [Call.exec, reads_diverge, (readFavourites_cases db c fs u hn).2]
  | listArticles b => rw [Call.exec, reads_diverge, readArticleRecords_diverge]; rfl
  | listTreasure b ds => rw [Call.exec, reads_diverge, (readTreasureRecords_cases db c fs b ds).2]; rfl
  | readArticle b f =>
    have := (named_cases (name := b) (path := fun b => getBoardArticleFilePath db.home b f) rfl (fun _ _ => ⟨_, rfl⟩)
      (f := fun p => fs.readFile db.cwd p) (fun p => settles_readFile _ _ _)).2
    simpa [Call.exec, reads_diverge, ListIsDir, DB.readBoardArticleFile] using this
  | readTreasure b ds f =>
    have := (named_cases (name := b) (path := fun b => getBoardTreasureFilePath db.home b ds f) rfl (fun _ _ => ⟨_, rfl⟩)
      (f := fun p => fs.readFile db.cwd p) (fun p => settles_readFile _ _ _)).2
    simpa [Call.exec, reads_diverge, ListIsDir, DB.readTreasureFile] using this
  | addBoard r =>
    have : Settles (db.addBoardRecord c fs r) := settles_appendCreate _ _ _ _
    simp [Call.exec, writes_diverge, ListIsDir, this.2]
  | createArticle b o d t draw fuel => exact absurd rfl (hf b o d t draw fuel)
  | addRecord b r =>
    have := (named_cases (name := b) (path := fun b => getBoardArticlesDirectoryPath db.home b) rfl (fun _ _ => ⟨_, rfl⟩)
      (f := fun p => fs.appendCreate db.cwd p (r.marshal c)) (fun p => settles_appendCreate _ _ _ _)).2
    simpa [Call.exec, writes_diverge, ListIsDir, DB.addArticleRecord] using this
  | writeArticle b f x =>
    have := (named_cases (name := b) (path := fun b => getBoardArticleFilePath db.home b f) rfl (fun _ _ => ⟨_, rfl⟩)
      (f := fun p => fs.overwrite db.cwd p x) (fun p => settles_overwrite _ _ _ _)).2
    simpa [Call.exec, writes_diverge, ListIsDir, DB.writeBoardArticleFile] using this
  | appendArticle b f x =>
    have := (named_cases (name := b) (path := fun b => getBoardArticleFilePath db.home b f) rfl (fun _ _ => ⟨_, rfl⟩)
      (f := fun p => fs.append db.cwd p x) (fun p => settles_append _ _ _ _)).2
    simpa [Call.exec, writes_diverge, ListIsDir, DB.appendBoardArticleFile] using this
  | readDraft u d =>
    have := (named_cases (name := u) (path := fun u => getUserDraftPath db.home u d) rfl (fun _ _ => ⟨_, rfl⟩)
      (f := fun p => if fs.statOk db.cwd p then fs.readFile db.cwd p else .ok [])
      (fun p => by split; exact settles_readFile _ _ _; exact ⟨by simp, by simp⟩)).2
    simpa [Call.exec, reads_diverge, ListIsDir, DB.getUserDraft] using this
  | deleteDraft u d =>
    have := (named_cases (name := u) (path := fun u => getUserDraftPath db.home u d) rfl (fun _ _ => ⟨_, rfl⟩)
      (f := fun p => fs.remove db.cwd p) (fun p => settles_remove _ _ _)).2
    simpa [Call.exec, writes_diverge, ListIsDir, DB.deleteUserDraft] using this
  | writeDraft u d x =>
    have := (named_cases (name := u) (path := fun u => getUserDraftPath db.home u d) rfl (fun _ _ => ⟨_, rfl⟩)
      (f := fun p => fs.writeFile db.cwd p x) (fun p => settles_writeFile _ _ _ _)).2
    simpa [Call.exec, writes_diverge, ListIsDir, DB.writeUserDraft] using this

/-- **C114** (partial: names that are not empty, no broken favourites, no directory in the place of a list; creating an article: see C25). -/
theorem C114_returns_partial (db : DB) (c : Codec) (fs : FS) (op : Call)
    (hn : ∀ boards, db.readBoardRecords c fs = .ok boards → boards.length < 2 ^ 32)
    (hf : ∀ b o d t draw fuel, op ≠ .createArticle b o d t draw fuel)
    (hc : callee op ≠ some []) (hb : ∀ u, op = .readFavourites u → ¬ BrokenFavourites db c fs u) (hd : ¬ ListIsDir db c fs op) :
    (op.exec db c fs).2.Returns := by
  have h1 := C114_crash_exact db c fs op hn (fun b o d t draw fuel h => absurd h (hf b o d t draw fuel))
  have h2 := C114_hang_exact db c fs op hn hf
  cases hr : (op.exec db c fs).2 with
  | ok x => trivial
  | err e => trivial
  | panic =>
    rcases h1.mp hr with h | ⟨u, h, h'⟩
    · exact absurd h hc
    · exact absurd h' (hb u h)
  | diverge => exact absurd (h2.mp hr) hd

/-- C114 is false of the code: an article of the board with the empty name. -/
theorem C114_returns_refuted : ¬ CallsReturn := fun h =>
  h sampleDB asciiCodec sampleFS (.readArticle [] (ascii "M.1.A.000"))

/-- A disk where the list of boards is `brd`, and the favourites of `Ab` have one entry, for board 9. -/
def oddFS (brd : Node) : FS :=
  ⟨[([ascii "bbs"], .dir), ([ascii "bbs", ascii "home"], .dir), ([ascii "bbs", ascii "home", ascii "A"], .dir),
    ([ascii "bbs", ascii "home", ascii "A", ascii "Ab"], .dir),
    ([ascii "bbs", ascii "home", ascii "A", ascii "Ab", ascii ".fav"], .file [0, 0, 1, 0, 0, 0, 1, 1, 9, 0, 0, 0, 0, 0, 0, 0, 0, 0, 0, 0]),
    ([ascii "bbs", ascii ".BRD"], brd)]⟩

/-- Each reason is met: a list that is a directory, favourites with an entry for a board that is not there, an empty name. -/
example : ListIsDir sampleDB asciiCodec (oddFS .dir) .readBoards ∧ BrokenFavourites sampleDB asciiCodec (oddFS (.file [])) (ascii "Ab") ∧
    callee (.writeDraft [] (ascii "1") (ascii "x")) = some [] ∧
    ∀ brd, brd = .dir ∨ brd = .file [] → ∀ boards, sampleDB.readBoardRecords asciiCodec (oddFS brd) = .ok boards → boards.length < 2 ^ 32 := by
  have h : ListIsDir sampleDB asciiCodec (oddFS .dir) .readBoards := ⟨[ascii "bbs", ascii ".BRD"], by decide +kernel, by decide +kernel⟩
  have e : sampleDB.readBoardRecords asciiCodec (oddFS (.file [])) = .ok [] := by rfl
  refine ⟨h, ⟨[0, 0, 1, 0, 0, 0, 1, 1, 9, 0, 0, 0, 0, 0, 0, 0, 0, 0, 0, 0], ⟨0, .mk 9 1 1 0 0 0 0 [.mk 1 1 (.board 9 0 0 [])]⟩, [], by decide +kernel, ?_, e, ?_⟩, rfl, ?_⟩
  · rw [loadFav_eq]; rfl
  · simp [EveryBoard, EveryBoardIn, BoardExists]
  · rintro brd (rfl | rfl) boards hb
    · have := (readBoardRecords_cases sampleDB asciiCodec (oddFS .dir)).2.mpr h
      rw [this] at hb
      cases hb
    · rw [e] at hb
      cases hb
      decide

/-- The hypotheses of `C114_returns_partial` are met by a call that saves a draft and one that lists a board. -/
example : callee (.listArticles (ascii "S")) ≠ some [] ∧ ¬ ListIsDir sampleDB asciiCodec sampleFS (.listArticles (ascii "S")) ∧
    callee (.writeDraft (ascii "Ab") (ascii "1") (ascii "x")) ≠ some [] ∧
    ¬ ListIsDir sampleDB asciiCodec sampleFS (.writeDraft (ascii "Ab") (ascii "1") (ascii "x")) ∧
    (∀ boards, sampleDB.readBoardRecords asciiCodec sampleFS = .ok boards → boards.length < 2 ^ 32) := by
  refine ⟨by decide, ?_, by decide, id, ?_⟩
  · rintro ⟨p, hp, l, h1, h2⟩
    obtain rfl := Res.ok.inj hp
    have e1 : sampleFS.lookup sampleDB.cwd (indexPath sampleDB.home (ascii "S")) =
        .ok [ascii "bbs", ascii "boards", ascii "S", ascii "S", ascii ".DIR"] := by decide +kernel
    have e2 := h1.symm.trans e1
    rw [Res.ok.inj e2] at h2
    have : sampleFS.get [ascii "bbs", ascii "boards", ascii "S", ascii "S", ascii ".DIR"] = none := by decide +kernel
    rw [this] at h2
    cases h2
  · intro boards hb
    have : sampleDB.readBoardRecords asciiCodec sampleFS = .err "no such file or directory" := by rfl
    rw [this] at hb
    cases hb

end Verif
