import Verif.Spec.Unicode
import Verif.Model.Factory
import Verif.Props.Articles
/-!
# C67–C71: making boards and articles from argument maps
-/

namespace Verif
open Spec

/-! ## C67 -/

/-- The argument map holds this string under this key. -/
def Spec.Holds (args : Args) (key s : Bytes) : Prop := args key = some (.str s)

theorem need_ok {args : Args} {key s : Bytes} {e : String} : args.need key e = .ok s ↔ Holds args key s := by
  unfold Args.need Args.str Holds
  rcases h : args key with _ | v
  · simp
  · cases v <;> simp

theorem need_err {args : Args} {key : Bytes} (e : String) (h : ∀ s, ¬ Holds args key s) : args.need key e = .err e := by
  unfold Args.need Args.str
  rcases hk : args key with _ | v
  · rfl
  · cases v with
    | str s => exact absurd hk (h s)
    | other => rfl

/-- The full claim of C67: as the error texts say, the id and the title of a new board are not empty. -/
def Spec.BoardArgsNotEmpty : Prop :=
  ∀ (args : Args) (r : BoardHeader), newBoardRecord args = .ok r → r.brdName ≠ [] ∧ r.title ≠ []

/-- **C67**, exactly: the call succeeds iff both arguments are strings, and gives a board with that id and title and nothing else
set: no moderators, no flags, no limits, class 0, no time. -/
theorem C67_exact (args : Args) (r : BoardHeader) :
    newBoardRecord args = .ok r ↔ ∃ id title, Holds args (ascii "board_id") id ∧ Holds args (ascii "title") title ∧
      r = { brdName := id, title := title, bm := [], brdattr := 0, chessCountry := [], voteLimitPosts := 0,
            voteLimitLogins := 0, bUpdate := -62135596800, postLimitPosts := 0, postLimitLogins := 0, bVote := 0,
            vTime := -62135596800, level := 0, permReload := -62135596800, gid := 0, next := [], firstChild := [],
            parent := 0, childCount := 0, nuser := 0, postExpire := 0, endGamble := -62135596800, postType := [],
            postTypeF := [], fastRecommendPause := 0, voteLimitBadPost := 0, postLimitBadPost := 0,
            srExpire := -62135596800 } := by
  unfold newBoardRecord
  constructor
  · intro h
    obtain ⟨id, h1, h⟩ := Res.bind_eq_ok.mp h
    obtain ⟨title, h2, h⟩ := Res.bind_eq_ok.mp h
    exact ⟨id, title, need_ok.mp h1, need_ok.mp h2, (Res.ok.inj h).symm⟩
  · rintro ⟨id, title, h1, h2, rfl⟩
    rw [need_ok.mpr h1, Res.ok_bind, need_ok.mpr h2]
    rfl

/-- **C67**: otherwise the first argument that is missing, or not a string, is named; it never crashes. -/
theorem C67_errors (args : Args) :
    ((∀ id, ¬ Holds args (ascii "board_id") id) →
      newBoardRecord args = .err "NewBoardRecord: board_id must not be empty") ∧
    (∀ id, Holds args (ascii "board_id") id → (∀ t, ¬ Holds args (ascii "title") t) →
      newBoardRecord args = .err "NewBoardRecord: title must not be empty") := by
  unfold newBoardRecord
  constructor
  · intro h
    rw [need_err _ h]
    rfl
  · intro id h1 h
    rw [need_ok.mpr h1, Res.ok_bind, need_err _ h]
    rfl

/-- **C67 is false of the code**: empty strings are accepted. -/
theorem C67_refuted : ¬ Spec.BoardArgsNotEmpty := by
  intro h
  have := h (fun _ => some (.str [])) _ ((C67_exact _ _).mpr ⟨[], [], rfl, rfl, rfl⟩)
  exact this.1 rfl

example : Holds (fun k => if k = ascii "board_id" then some (.str (ascii "Test")) else some (.str (ascii "x"))) (ascii "board_id")
    (ascii "Test") := by
  unfold Holds
  decide

/-! ## C68 -/

/-- The board list holds whole records, if it exists. -/
def Spec.WholeBoards (db : DB) (fs : FS) : Prop :=
  ∀ p d, getBoardPath db.home = .ok p → fs.readFile db.cwd p = .ok d → 256 ∣ d.length

/-- **C68**, exactly: after a successful addition of any record the list is the old one (empty if there was none) followed by that
record as it is stored, and no other file has changed. -/
theorem C68_exact (db : DB) (c : Codec) (fs fs' : FS) (r : BoardHeader) (hw : WholeBoards db fs)
    (h : db.addBoardRecord c fs r = .ok fs') :
    ∃ old l, (db.readBoardRecords c fs = .ok old ∨
        db.readBoardRecords c fs = .err "no such file or directory" ∧ old = []) ∧
      db.readBoardRecords c fs' = .ok (old ++ [storedBoard c r]) ∧
      fs.lookup db.cwd (db.home ++ ascii "/.BRD") = .ok l ∧ SameExcept fs fs' [l] := by
  unfold DB.addBoardRecord at h
  obtain ⟨p, hp, h⟩ := Res.bind_eq_ok.mp h
  unfold FS.appendCreate at h
  obtain ⟨⟨l, d⟩, ho, h⟩ := Res.bind_eq_ok.mp h
  have := Res.ok.inj h
  subst this
  obtain ⟨hl, hnd, hd⟩ := FS.openCreate_ok ho
  have hp' : p = db.home ++ ascii "/.BRD" := (Res.ok.inj hp).symm
  have hl' : (fs.set l (.file (d ++ r.marshal c))).lookup db.cwd p = .ok l := FS.lookup_mono (FS.set_file_dirs hnd) hl
  have hg' : (fs.set l (.file (d ++ r.marshal c))).get l = some (.file (d ++ r.marshal c)) := by
    rw [FS.get_set (FS.ne_root hnd), if_pos rfl]
  have hdl : ∃ n, d.length = 256 * n := by
    cases hn : fs.get l with
    | none =>
      simp [fileAt, hn] at hd
      exact ⟨0, by rw [hd]; rfl⟩
    | some n =>
      cases n with
      | dir => exact absurd hn hnd
      | file x =>
        simp [fileAt, hn] at hd
        subst hd
        exact hw p d hp (by rw [FS.readFile_of hl, hn])
  obtain ⟨n, hn0⟩ := hdl
  obtain ⟨old, h1, h2, h3⟩ := C10_board_exact c (fileAt fs l) n (by rw [← hd]; exact hn0) [r] (Or.inr (by simp))
  refine ⟨old, l, ?_, ?_, hp' ▸ hl, ?_⟩
  · simp only [DB.readBoardRecords, hp, Res.ok_bind, DB.openBoardList, hl]
    cases hn : fs.get l with
    | none =>
      right
      simp [fileAt, hn] at hd
      rw [hd] at hn0
      have : n = 0 := by simp at hn0; omega
      subst this
      exact ⟨rfl, List.length_eq_zero_iff.mp h2⟩
    | some x =>
      cases x with
      | dir => exact absurd hn hnd
      | file x =>
        left
        have : fileAt fs l = some x := by simp [fileAt, hn]
        rw [this] at h1
        exact h1 (by simp)
  · simp only [DB.readBoardRecords, hp, Res.ok_bind, DB.openBoardList, hl', hg']
    have e : List.foldl (appendBoardHeader c) (fileAt fs l) [r] = some (d ++ r.marshal c) := by
      rw [hd]
      cases fileAt fs l <;> rfl
    rw [e] at h3
    simpa using h3
  · intro q hq
    rw [FS.get_set (FS.ne_root hnd), if_neg]
    intro e
    exact hq (by simp [e])

/-- The full claim of C68: a board added from an id and a title that fit is listed with no update time, as it was made. -/
def Spec.AddedBoardReadsBack : Prop :=
  ∀ (db : DB) (c : Codec) (fs fs' : FS) (args : Args) (r : BoardHeader), newBoardRecord args = .ok r → WholeBoards db fs →
    FitsCstr 13 (c.enc r.brdName) → FitsCstr 49 (c.enc r.title) → c.dec (c.enc r.brdName) = r.brdName →
    c.dec (c.enc r.title) = r.title → (∀ n, FitsTrim n (c.enc [])) → c.dec [] = [] →
    db.addBoardRecord c fs r = .ok fs' → ∃ old, db.readBoardRecords c fs' = .ok (old ++ [r])

/-- **C68**, what comes back (partial: the five times, which are zero when the record is made, come back as 2042-07-14, and the two
links come back as pairs of zeros): id, title, class 0, no flags, no moderators, no limits. -/
theorem C68_reads_back_partial (db : DB) (c : Codec) (fs fs' : FS) (args : Args) (r : BoardHeader)
    (hr : newBoardRecord args = .ok r) (hw : WholeBoards db fs)
    (h1 : FitsCstr 13 (c.enc r.brdName)) (h2 : FitsCstr 49 (c.enc r.title)) (h3 : c.dec (c.enc r.brdName) = r.brdName)
    (h4 : c.dec (c.enc r.title) = r.title) (h5 : c.enc [] = []) (h6 : c.dec [] = [])
    (h : db.addBoardRecord c fs r = .ok fs') :
    ∃ old, (db.readBoardRecords c fs = .ok old ∨ db.readBoardRecords c fs = .err "no such file or directory" ∧ old = []) ∧
      db.readBoardRecords c fs' = .ok (old ++ [{ r with
        bUpdate := 2288912640, vTime := 2288912640, permReload := 2288912640, endGamble := 2288912640, srExpire := 2288912640,
        next := [0, 0], firstChild := [0, 0] }]) := by
  obtain ⟨old, l, ho, hn, _, _⟩ := C68_exact db c fs fs' r hw h
  refine ⟨old, ho, ?_⟩
  rw [hn]
  obtain ⟨id, title, _, _, rfl⟩ := (C67_exact args r).mp hr
  have hc : ∀ n, cutTrim n [] = [] := by
    intro n
    unfold cutTrim
    rw [List.take_nil]
    decide
  have hwr : wrap32 (-62135596800) = 2288912640 := by decide
  unfold storedBoard
  simp only at h1 h2 h3 h4
  simp only [cut_of_fits h1, cut_of_fits h2, h3, h4, h5, h6, hc, hwr, storedPair]
  rfl

/-- The file system of the examples has no board list; a record can be added. -/
theorem sampleFS_addBoard (r : BoardHeader) : ∃ fs', sampleDB.addBoardRecord asciiCodec sampleFS r = .ok fs' := by
  have e2 : sampleFS.openCreate sampleDB.cwd (sampleDB.home ++ ascii "/.BRD") = .ok ([ascii "bbs", ascii ".BRD"], []) := by
    decide +kernel
  simp only [DB.addBoardRecord, getBoardPath, Res.ok_bind, FS.appendCreate, e2]
  exact ⟨_, rfl⟩

theorem sampleFS_wholeBoards : WholeBoards sampleDB sampleFS := by
  intro p d hp hr
  have := Res.ok.inj hp
  subst this
  have e2 : sampleFS.readFile sampleDB.cwd (sampleDB.home ++ ascii "/.BRD") = .err "no such file or directory" := by
    decide +kernel
  rw [e2] at hr
  cases hr

/-- The arguments of the examples. -/
def sampleArgs : Args := fun k =>
  if k = ascii "board_id" then some (.str (ascii "Test"))
  else if k = ascii "title" then some (.str (ascii "A board"))
  else if k = ascii "owner" then some (.str (ascii "pichu"))
  else if k = ascii "date" then some (.str (ascii "11/16"))
  else none

/-- The board of the examples. -/
def newSampleBoard : BoardHeader := { BoardHeader.zero with brdName := ascii "Test", title := ascii "A board" }

theorem newSampleBoard_made : newBoardRecord sampleArgs = .ok newSampleBoard :=
  (C67_exact _ _).mpr ⟨ascii "Test", ascii "A board", by unfold Holds; decide, by unfold Holds; decide, rfl⟩

/-- **C68 is false of the code**: the zero times do not survive. -/
theorem C68_reads_back_refuted : ¬ Spec.AddedBoardReadsBack := by
  intro h
  obtain ⟨fs', hf⟩ := sampleFS_addBoard newSampleBoard
  obtain ⟨old, ho⟩ := h sampleDB asciiCodec sampleFS fs' sampleArgs newSampleBoard newSampleBoard_made sampleFS_wholeBoards
    (by decide) (by decide) (by decide) (by decide) (fun n => ⟨Nat.zero_le _, by decide⟩) (by decide) hf
  obtain ⟨old', _, ho'⟩ := C68_reads_back_partial sampleDB asciiCodec sampleFS fs' sampleArgs newSampleBoard newSampleBoard_made
    sampleFS_wholeBoards (by decide) (by decide) (by decide) (by decide) (by decide) (by decide) hf
  rw [ho] at ho'
  have e := List.append_inj_right' (Res.ok.inj ho') rfl
  revert e
  decide

/-- The other three operations of the interface do nothing. -/
theorem C68_not_implemented (i : UInt64) (r : BoardHeader) :
    DB.updateBoardRecord i r = .err "not implement" ∧ DB.readBoardRecord i = .err "not implement" ∧
      DB.removeBoardRecord i = .err "not implement" := ⟨rfl, rfl, rfl⟩

/-! ## C69 -/

/-- The full claim of C69: adding a board keeps board ids different. -/
def Spec.BoardIdsStayUnique : Prop :=
  ∀ (db : DB) (c : Codec) (fs fs' : FS) (r : BoardHeader) (old new : List BoardHeader), WholeBoards db fs →
    db.readBoardRecords c fs = .ok old → (old.map BoardHeader.brdName).Nodup → db.addBoardRecord c fs r = .ok fs' →
    db.readBoardRecords c fs' = .ok new → (new.map BoardHeader.brdName).Nodup

/-- **C69**, exactly: the ids stay different iff the stored (cut and re-encoded) id is not listed yet. -/
theorem C69_unique_partial (db : DB) (c : Codec) (fs fs' : FS) (r : BoardHeader) (old new : List BoardHeader)
    (hw : WholeBoards db fs) (ho : db.readBoardRecords c fs = .ok old) (hu : (old.map BoardHeader.brdName).Nodup)
    (h : db.addBoardRecord c fs r = .ok fs') (hn : db.readBoardRecords c fs' = .ok new) :
    (new.map BoardHeader.brdName).Nodup ↔ c.dec (cut 13 (c.enc r.brdName)) ∉ old.map BoardHeader.brdName := by
  obtain ⟨old', l, h1, h2, _, _⟩ := C68_exact db c fs fs' r hw h
  rw [ho] at h1
  rw [hn] at h2
  have e1 : old' = old := by
    rcases h1 with h1 | ⟨h1, _⟩
    · exact (Res.ok.inj h1).symm
    · cases h1
  subst e1
  rw [Res.ok.inj h2, List.map_append, List.nodup_append]
  constructor
  · rintro ⟨_, _, h⟩ hm
    exact h _ hm _ (by simp [storedBoard]) rfl
  · intro hm
    refine ⟨hu, by simp, ?_⟩
    intro a ha b hb e
    simp [storedBoard] at hb
    subst hb
    exact hm (e ▸ ha)

/-- **C69 is false of the code**: the same board can be added twice. -/
theorem C69_unique_refuted : ¬ Spec.BoardIdsStayUnique := by
  intro h
  -- the list holding the board once
  let d := newSampleBoard.marshal asciiCodec
  let fs : FS := sampleFS.set [ascii "bbs", ascii ".BRD"] (.file d)
  have hlk : fs.lookup sampleDB.cwd (sampleDB.home ++ ascii "/.BRD") = .ok [ascii "bbs", ascii ".BRD"] := by
    have hl : sampleFS.lookup sampleDB.cwd (sampleDB.home ++ ascii "/.BRD") = .ok [ascii "bbs", ascii ".BRD"] := by
      decide +kernel
    exact FS.lookup_mono (FS.set_file_dirs (by decide +kernel)) hl
  have hg : fs.get [ascii "bbs", ascii ".BRD"] = some (.file d) := by
    show (sampleFS.set _ _).get _ = _
    rw [FS.get_set (by decide), if_pos rfl]
  have hd : d.length = 256 := BoardHeader.marshal_length _ _
  have hw : WholeBoards sampleDB fs := by
    intro p d' hp hr
    have := Res.ok.inj hp
    subst this
    rw [FS.readFile_of hlk, hg] at hr
    rw [← Res.ok.inj hr, hd]
    exact ⟨1, rfl⟩
  have hread : sampleDB.readBoardRecords asciiCodec fs = .ok [storedBoard asciiCodec newSampleBoard] := by
    simp only [DB.readBoardRecords, getBoardPath, Res.ok_bind, DB.openBoardList, hlk, hg]
    obtain ⟨old, _, h2, h3⟩ := C10_board_exact asciiCodec none 0 rfl [newSampleBoard] (Or.inr (by simp))
    have : old = [] := List.length_eq_zero_iff.mp h2
    subst this
    exact h3
  have hadd : ∃ fs', sampleDB.addBoardRecord asciiCodec fs newSampleBoard = .ok fs' := by
    simp only [DB.addBoardRecord, getBoardPath, Res.ok_bind, FS.appendCreate,
      FS.openCreate_of hlk (by rw [hg]; simp)]
    exact ⟨_, rfl⟩
  obtain ⟨fs', hf⟩ := hadd
  obtain ⟨old', l, h1, h2, _, _⟩ := C68_exact sampleDB asciiCodec fs fs' newSampleBoard hw hf
  have hu := h sampleDB asciiCodec fs fs' newSampleBoard _ _ hw hread (by simp) hf h2
  have := (C69_unique_partial sampleDB asciiCodec fs fs' newSampleBoard _ _ hw hread (by simp) hf h2).mp hu
  revert this
  decide

/-! ## C70 -/

/-- The full claim of C70: in a board that was just added one can post. -/
def Spec.NewBoardUsable : Prop :=
  ∀ (db : DB) (c : Codec) (fs fs' : FS) (args : Args) (r : BoardHeader) (draw : Nat → Int × Fin 4096),
    newBoardRecord args = .ok r → r.brdName ≠ [] → db.addBoardRecord c fs r = .ok fs' →
    ∃ fuel, (db.createFilename fs' r.brdName draw fuel 0).Returns

/-- Adding a board makes no directory. -/
theorem addBoard_isDir {db : DB} {c : Codec} {fs fs' : FS} {r : BoardHeader} (h : db.addBoardRecord c fs r = .ok fs')
    {cwd : Path} {p : Bytes} (hd : IsDir fs' cwd p) : IsDir fs cwd p := by
  unfold DB.addBoardRecord at h
  obtain ⟨q, _, h⟩ := Res.bind_eq_ok.mp h
  unfold FS.appendCreate at h
  obtain ⟨⟨l, d⟩, ho, h⟩ := Res.bind_eq_ok.mp h
  have := Res.ok.inj h
  subst this
  obtain ⟨_, hnd, _⟩ := FS.openCreate_ok ho
  have hdirs : ∀ q, (fs.set l (.file (d ++ r.marshal c))).get q = some .dir → fs.get q = some .dir := by
    intro q hq
    rw [FS.get_set (FS.ne_root hnd)] at hq
    split at hq
    · cases hq
    · exact hq
  obtain ⟨L, h1, h2⟩ := hd
  exact ⟨L, FS.lookup_mono hdirs h1, hdirs L h2⟩

/-- **C70** (partial): posting in the new board returns only if its directory was there before; for a board that is really new (no
directory yet) it never returns. `C70_exact` (Props/Sharper.lean) is the equivalence. -/
theorem C70_usable_partial (db : DB) (c : Codec) (fs fs' : FS) (r : BoardHeader) (hb : r.brdName ≠ [])
    (h : db.addBoardRecord c fs r = .ok fs') (draw : Nat → Int × Fin 4096) :
    ((∃ fuel, (db.createFilename fs' r.brdName draw fuel 0).Returns) → IsDir fs db.cwd (boardDir db.home r.brdName)) ∧
    (¬ IsDir fs db.cwd (boardDir db.home r.brdName) → ∀ fuel, db.createFilename fs' r.brdName draw fuel 0 = .diverge) := by
  constructor
  · intro hr
    exact addBoard_isDir h ((C25_exact db fs' r.brdName hb draw).mp hr).1
  · intro hno fuel
    exact C25_missing_directory_loops db fs' r.brdName hb (fun hd => hno (addBoard_isDir h hd)) draw fuel

/-- **C70 is false of the code**: no directory is made for the board. -/
theorem C70_usable_refuted : ¬ Spec.NewBoardUsable := by
  intro h
  obtain ⟨fs', hf⟩ := sampleFS_addBoard newSampleBoard
  obtain ⟨fuel, hr⟩ := h sampleDB asciiCodec sampleFS fs' sampleArgs newSampleBoard (fun _ => (0, 0)) newSampleBoard_made
    (by decide) hf
  have hno : ¬ IsDir sampleFS sampleDB.cwd (boardDir sampleDB.home newSampleBoard.brdName) := by
    rintro ⟨l, e, _⟩
    have : sampleFS.lookup sampleDB.cwd (boardDir sampleDB.home newSampleBoard.brdName) = .err "no such file or directory" := by
      decide +kernel
    rw [this] at e
    cases e
  rw [(C70_usable_partial sampleDB asciiCodec sampleFS fs' newSampleBoard (by decide) hf _).2 hno fuel] at hr
  exact hr

/-! ## C71 -/

theorem claimName_ok {db : DB} {fs fs' : FS} {board name p : Bytes} {clock : Int} {rand : Nat → Fin 4096} {fuel k : Nat}
    (h : db.claimName fs board clock rand fuel k = .ok (name, p, fs')) :
    ∃ j, k ≤ j ∧ name = DB.articleName clock (rand j) ∧
      getBoardArticleFilePath db.home board name = .ok p ∧ fs.createExcl db.cwd p = .ok fs' := by
  induction fuel generalizing k with
  | zero => cases h
  | succ f ih =>
    simp only [DB.claimName] at h
    obtain ⟨q, hq, h⟩ := Res.bind_eq_ok.mp h
    split at h
    · rename_i fs1 he
      have := Res.ok.inj h
      injection this with e1 e2
      injection e2 with e2 e3
      subst e1; subst e2; subst e3
      exact ⟨k, Nat.le_refl _, rfl, hq, he⟩
    · obtain ⟨j, h1, h2⟩ := ih h
      exact ⟨j, by omega, h2⟩

/-- The loop is that of `CreateBoardArticleFilename` with a clock that stands still. -/
theorem claimName_createFilename (db : DB) (fs : FS) (board : Bytes) (clock : Int) (rand : Nat → Fin 4096) (fuel k : Nat) :
    db.createFilename fs board (fun i => (clock, rand i)) fuel k =
      (db.claimName fs board clock rand fuel k >>= fun x => .ok (x.1, x.2.2)) := by
  induction fuel generalizing k with
  | zero => rfl
  | succ f ih =>
    simp only [DB.claimName, DB.createFilename]
    cases getBoardArticleFilePath db.home board (DB.articleName clock (rand k)) with
    | ok p =>
      simp only [Res.ok_bind]
      cases fs.createExcl db.cwd p with
      | ok fs' => rfl
      | err e => exact ih _
      | panic => exact ih _
      | diverge => exact ih _
    | err e => rfl
    | panic => rfl
    | diverge => rfl

/-- **C71**, what success means: all four arguments are strings; the record has them and a name made of the clock and a random
number; before, no such file existed; now it holds the four in the given form; nothing else has changed. -/
theorem C71_created (db : DB) (fs fs' : FS) (args : Args) (clock : Int) (rand : Nat → Fin 4096) (fuel : Nat) (r : FileHeader)
    (h : db.newArticleWithMap fs args clock rand fuel = .ok (r, fs')) :
    ∃ owner date title board k, Holds args (ascii "owner") owner ∧ Holds args (ascii "date") date ∧
      Holds args (ascii "title") title ∧ Holds args (ascii "board_id") board ∧
      r = { filename := DB.articleName clock (rand k), modified := -62135596800, recommend := 0, owner := owner, date := date,
            title := title, money := 0, annoUID := 0, voteLimits := ⟨0, 0, 0, 0⟩, filemode := 0 } ∧
      db.readBoardArticleFile fs board r.filename = .err "no such file or directory" ∧
      db.readBoardArticleFile fs' board r.filename = .ok (articleHead owner board title date) ∧
      ∃ l, SameExcept fs fs' [l] := by
  unfold DB.newArticleWithMap at h
  obtain ⟨owner, h1, h⟩ := Res.bind_eq_ok.mp h
  obtain ⟨date, h2, h⟩ := Res.bind_eq_ok.mp h
  obtain ⟨title, h3, h⟩ := Res.bind_eq_ok.mp h
  obtain ⟨board, h4, h⟩ := Res.bind_eq_ok.mp h
  obtain ⟨⟨name, p, fs1⟩, h5, h⟩ := Res.bind_eq_ok.mp h
  obtain ⟨fs2, h6, h⟩ := Res.bind_eq_ok.mp h
  have e := Res.ok.inj h
  injection e with e1 e2
  subst e1; subst e2
  obtain ⟨k, _, hname, hp, he⟩ := claimName_ok h5
  obtain ⟨l, hl, hg, rfl⟩ := createExcl_ok he
  have hnd : fs.get l ≠ some .dir := by rw [hg]; simp
  have hl1 : (fs.set l (.file [])).lookup db.cwd p = .ok l := FS.lookup_mono (FS.set_file_dirs hnd) hl
  have hg1 : (fs.set l (.file [])).get l = some (.file []) := by rw [FS.get_set (FS.ne_root hnd), if_pos rfl]
  have hnd1 : (fs.set l (.file [])).get l ≠ some .dir := by rw [hg1]; simp
  have h7 : (fs.set l (.file [])).overwrite db.cwd p (articleHead owner board title date) =
      .ok ((fs.set l (.file [])).set l (.file (articleHead owner board title date))) := by
    unfold FS.overwrite
    rw [FS.openCreate_of hl1 hnd1, Res.ok_bind]
    simp only [fileAt, hg1, Option.getD_some]
    rw [writeAt_beyond (by simp)]
    simp [zeros]
  rw [h7] at h6
  have := Res.ok.inj h6
  subst this
  refine ⟨owner, date, title, board, k, need_ok.mp h1, need_ok.mp h2, need_ok.mp h3, need_ok.mp h4, ?_, ?_, ?_, l, ?_⟩
  · rw [hname]; rfl
  · simp only [DB.readBoardArticleFile, hp, Res.ok_bind, FS.readFile_of hl, hg]
  · simp only [DB.readBoardArticleFile, hp, Res.ok_bind]
    exact FS.readFile_set hl1 hnd1
  · intro q hq
    have hne : l ≠ q := by intro e; exact hq (by simp [e])
    rw [FS.get_set (FS.ne_root hnd1), if_neg (Ne.symm hne), FS.get_set (FS.ne_root hnd), if_neg (Ne.symm hne)]

/-- The full claim of C71: with all four arguments given the call returns. -/
def Spec.NewArticleReturns : Prop :=
  ∀ (db : DB) (fs : FS) (args : Args) (clock : Int) (rand : Nat → Fin 4096) (owner date title board : Bytes),
    Holds args (ascii "owner") owner → Holds args (ascii "date") date → Holds args (ascii "title") title →
    Holds args (ascii "board_id") board → board ≠ [] → IsDir fs db.cwd (boardDir db.home board) →
    ∃ fuel, (db.newArticleWithMap fs args clock rand fuel).Returns

/-- **C71**, exactly when it returns: the directory exists and one of the names still to be drawn for this second is free. (Partial:
the clock is read only once, so there are at most 4096 names to draw.) -/
theorem C71_returns_partial (db : DB) (fs : FS) (args : Args) (clock : Int) (rand : Nat → Fin 4096)
    (owner date title board : Bytes) (h1 : Holds args (ascii "owner") owner) (h2 : Holds args (ascii "date") date)
    (h3 : Holds args (ascii "title") title) (h4 : Holds args (ascii "board_id") board) (hb : board ≠ []) :
    (∃ fuel, (db.newArticleWithMap fs args clock rand fuel).Returns) ↔
      IsDir fs db.cwd (boardDir db.home board) ∧
      ∃ k, db.readBoardArticleFile fs board (DB.articleName clock (rand k)) = .err "no such file or directory" := by
  rw [← C25_exact db fs board hb (fun i => (clock, rand i))]
  have key : ∀ fuel, (db.newArticleWithMap fs args clock rand fuel).Returns ↔
      (db.createFilename fs board (fun i => (clock, rand i)) fuel 0).Returns := by
    intro fuel
    rw [claimName_createFilename]
    unfold DB.newArticleWithMap
    rw [need_ok.mpr h1, Res.ok_bind, need_ok.mpr h2, Res.ok_bind, need_ok.mpr h3, Res.ok_bind, need_ok.mpr h4, Res.ok_bind]
    cases hc : db.claimName fs board clock rand fuel 0 with
    | ok x =>
      obtain ⟨name, p, fs1⟩ := x
      obtain ⟨k, _, hname, hp, he⟩ := claimName_ok hc
      obtain ⟨l, hl, hg, rfl⟩ := createExcl_ok he
      have hnd : fs.get l ≠ some .dir := by rw [hg]; simp
      have hl1 : (fs.set l (.file [])).lookup db.cwd p = .ok l := FS.lookup_mono (FS.set_file_dirs hnd) hl
      have hg1 : (fs.set l (.file [])).get l = some (.file []) := by rw [FS.get_set (FS.ne_root hnd), if_pos rfl]
      have hnd1 : (fs.set l (.file [])).get l ≠ some .dir := by rw [hg1]; simp
      simp only [Res.ok_bind, FS.overwrite, FS.openCreate_of hl1 hnd1]
      exact ⟨fun _ => trivial, fun _ => trivial⟩
    | err e => exact Iff.rfl
    | panic => exact Iff.rfl
    | diverge => exact Iff.rfl
  exact ⟨fun ⟨f, h⟩ => ⟨f, (key f).mp h⟩, fun ⟨f, h⟩ => ⟨f, (key f).mpr h⟩⟩

/-- All names of one second of the board of the examples. -/
def fullFS : FS := ⟨(List.ofFn fun r : Fin 4096 =>
  (([ascii "bbs", ascii "boards", ascii "S", ascii "S", DB.articleName 0 r] : Path), Node.file [])) ++ sampleFS.entries⟩

theorem fullFS_mem (r : Fin 4096) :
    ∃ d, fullFS.get [ascii "bbs", ascii "boards", ascii "S", ascii "S", DB.articleName 0 r] = some (.file d) := by
  have key : ∀ (l m : List (Path × Node)) (p : Path), (∀ x ∈ l, ∃ d, x.2 = Node.file d) → (∃ n, (p, n) ∈ l) →
      ∃ d, (l ++ m).lookup p = some (Node.file d) := by
    intro l
    induction l with
    | nil => rintro m p _ ⟨n, hn⟩; cases hn
    | cons x xs ih =>
      intro m p hall ⟨n, hn⟩
      obtain ⟨q, y⟩ := x
      rw [List.cons_append, List.lookup_cons]
      by_cases hpq : p = q
      · subst hpq
        obtain ⟨d, hd⟩ := hall _ List.mem_cons_self
        simp only at hd
        subst hd
        exact ⟨d, by simp⟩
      · have : (p == q) = false := by simpa using hpq
        rw [this]
        refine ih m p (fun x hx => hall x (List.mem_cons_of_mem _ hx)) ⟨n, ?_⟩
        rcases List.mem_cons.mp hn with e | e
        · injection e with e1 _; exact absurd e1 hpq
        · exact e
  unfold FS.get
  rw [if_neg (by simp)]
  apply key
  · intro x hx
    rw [List.mem_ofFn] at hx
    obtain ⟨i, rfl⟩ := hx
    exact ⟨[], rfl⟩
  · exact ⟨Node.file [], List.mem_ofFn.mpr ⟨r, rfl⟩⟩

theorem fullFS_dirs : ∀ q, sampleFS.get q = some .dir → fullFS.get q = some .dir := by
  intro q hq
  have hlen : q.length ≠ 5 := by
    intro hl
    have : ∀ x ∈ sampleFS.entries, x.1.length ≠ 5 := by decide
    unfold FS.get at hq
    split at hq
    · rename_i e; rw [e] at hl; simp at hl
    · have key : ∀ (l : List (Path × Node)) n, l.lookup q = some n → (q, n) ∈ l := by
        intro l
        induction l with
        | nil => intro n h; cases h
        | cons x xs ih =>
          intro n h
          obtain ⟨a, b⟩ := x
          rw [List.lookup_cons] at h
          by_cases hqa : q = a
          · subst hqa; simp at h; subst h; exact List.mem_cons_self
          · have : (q == a) = false := by simpa using hqa
            rw [this] at h
            exact List.mem_cons_of_mem _ (ih n h)
      exact this _ (key _ _ hq) hl
  unfold FS.get at hq ⊢
  split at hq
  · rename_i e; rw [if_pos e]
  · rename_i e
    rw [if_neg e]
    have key : ∀ (l m : List (Path × Node)), (∀ x ∈ l, x.1 ≠ q) → (l ++ m).lookup q = m.lookup q := by
      intro l
      induction l with
      | nil => intro m _; rfl
      | cons x xs ih =>
        intro m hall
        obtain ⟨a, b⟩ := x
        rw [List.cons_append, List.lookup_cons]
        have : (q == a) = false := by
          have := hall _ List.mem_cons_self
          simpa using fun e : q = a => this e.symm
        rw [this]
        exact ih m fun x hx => hall x (List.mem_cons_of_mem _ hx)
    unfold fullFS
    rw [key]
    · exact hq
    · intro x hx e
      rw [List.mem_ofFn] at hx
      obtain ⟨i, rfl⟩ := hx
      exact hlen (by rw [← e]; rfl)

/-- **C71 is false of the code**: in a second all of whose 4096 names exist the loop never ends. -/
theorem C71_returns_refuted : ¬ Spec.NewArticleReturns := by
  intro h
  let args : Args := fun k => if k = ascii "board_id" then some (.str (ascii "S")) else some (.str [])
  have a1 : Holds args (ascii "owner") [] := by unfold Holds; decide
  have a2 : Holds args (ascii "date") [] := by unfold Holds; decide
  have a3 : Holds args (ascii "title") [] := by unfold Holds; decide
  have a4 : Holds args (ascii "board_id") (ascii "S") := by unfold Holds; decide
  have hl0 : sampleFS.lookup sampleDB.cwd (boardDir sampleDB.home (ascii "S")) =
      .ok [ascii "bbs", ascii "boards", ascii "S", ascii "S"] := by decide +kernel
  have hl : fullFS.lookup sampleDB.cwd (boardDir sampleDB.home (ascii "S")) =
      .ok [ascii "bbs", ascii "boards", ascii "S", ascii "S"] := FS.lookup_mono fullFS_dirs hl0
  have hg : fullFS.get [ascii "bbs", ascii "boards", ascii "S", ascii "S"] = some .dir :=
    fullFS_dirs _ (by decide +kernel)
  have hr := h sampleDB fullFS args 0 (fun _ => 0) [] [] [] (ascii "S") a1 a2 a3 a4 (by decide) ⟨_, hl, hg⟩
  obtain ⟨_, k, hk⟩ := (C71_returns_partial sampleDB fullFS args 0 (fun _ => 0) [] [] [] (ascii "S") a1 a2 a3 a4 (by decide)).mp hr
  obtain ⟨hc, h0⟩ := articleName_component 0 0
  have hlc := FS.lookup_child hl hg hc h0
  obtain ⟨d, hd⟩ := fullFS_mem 0
  have hrd : sampleDB.readBoardArticleFile fullFS (ascii "S") (DB.articleName 0 0) = .ok d := by
    rw [DB.readBoardArticleFile, articlePath_ok (show ascii "S" ≠ [] by decide), Res.ok_bind, FS.readFile_of hlc]
    simp only [List.cons_append, List.nil_append, hd]
  rw [hrd] at hk
  cases hk

/-- **C71**, missing arguments: the first one is named, and nothing is created. -/
theorem C71_errors (db : DB) (fs : FS) (args : Args) (clock : Int) (rand : Nat → Fin 4096) (fuel : Nat) :
    ((∀ s, ¬ Holds args (ascii "owner") s) →
      db.newArticleWithMap fs args clock rand fuel = .err "NewArticleRecord: owner must not be empty") ∧
    (∀ o, Holds args (ascii "owner") o → (∀ s, ¬ Holds args (ascii "date") s) →
      db.newArticleWithMap fs args clock rand fuel = .err "NewArticleRecord: date must not be empty") ∧
    (∀ o d, Holds args (ascii "owner") o → Holds args (ascii "date") d → (∀ s, ¬ Holds args (ascii "title") s) →
      db.newArticleWithMap fs args clock rand fuel = .err "NewArticleRecord: title must not be empty") ∧
    (∀ o d t, Holds args (ascii "owner") o → Holds args (ascii "date") d → Holds args (ascii "title") t →
      (∀ s, ¬ Holds args (ascii "board_id") s) →
      db.newArticleWithMap fs args clock rand fuel = .err "NewArticleRecord: board_id must not be empty") ∧
    (∀ o d t, Holds args (ascii "owner") o → Holds args (ascii "date") d → Holds args (ascii "title") t →
      Holds args (ascii "board_id") [] → db.newArticleWithMap fs args clock rand (fuel + 1) = .panic) := by
  unfold DB.newArticleWithMap
  refine ⟨?_, ?_, ?_, ?_, ?_⟩
  · intro h; rw [need_err _ h]; rfl
  · intro o h1 h; rw [need_ok.mpr h1, Res.ok_bind, need_err _ h]; rfl
  · intro o d h1 h2 h; rw [need_ok.mpr h1, Res.ok_bind, need_ok.mpr h2, Res.ok_bind, need_err _ h]; rfl
  · intro o d t h1 h2 h3 h
    rw [need_ok.mpr h1, Res.ok_bind, need_ok.mpr h2, Res.ok_bind, need_ok.mpr h3, Res.ok_bind, need_err _ h]
    rfl
  · intro o d t h1 h2 h3 h4
    rw [need_ok.mpr h1, Res.ok_bind, need_ok.mpr h2, Res.ok_bind, need_ok.mpr h3, Res.ok_bind, need_ok.mpr h4]
    rfl

/-! ## C72 -/

/-- The full claim of C72: the first lines of an article tell who wrote what where and when. -/
def Spec.HeadDetermines : Prop :=
  ∀ o b t d o' b' t' d', articleHead o b t d = articleHead o' b' t' d' → o = o' ∧ b = b' ∧ t = t' ∧ d = d'

theorem split_at {s : UInt8} {x y x' y' : Bytes} (hx : s ∉ x) (hx' : s ∉ x') (h : x ++ s :: y = x' ++ s :: y') :
    x = x' ∧ y = y' := by
  induction x generalizing x' with
  | nil =>
    cases x' with
    | nil => exact ⟨rfl, by simpa using h⟩
    | cons a as =>
      simp only [List.nil_append, List.cons_append, List.cons.injEq] at h
      exact absurd (by simp [h.1]) hx'
  | cons a as ih =>
    cases x' with
    | nil =>
      simp only [List.nil_append, List.cons_append, List.cons.injEq] at h
      exact absurd (by simp [h.1]) hx
    | cons b bs =>
      simp only [List.cons_append, List.cons.injEq] at h
      obtain ⟨e1, e2⟩ := ih (fun hm => hx (by simp [hm])) (fun hm => hx' (by simp [hm])) h.2
      exact ⟨by rw [h.1, e1], e2⟩

/-- The code points of a text. -/
def Spec.points (s : String) : List Nat := s.toList.map Char.toNat

/-- **C72.** The first lines in full: three lines of text, of which the second ends with a blank. -/
theorem C72_text (o b t d : List Nat) : articleHead (utf8Text o) (utf8Text b) (utf8Text t) (utf8Text d) =
    utf8Text (points "作者: " ++ o ++ points " 看板: " ++ b ++ points "\n標題: " ++ t ++ points " \n時間: " ++ d ++ points "\n") := by
  have h1 : authorLabel = utf8Text (points "作者: ") := by decide +kernel
  have h2 : boardLabel = utf8Text (points " 看板: ") := by decide +kernel
  have h3 : titleLabel = utf8Text (points "\n標題: ") := by decide +kernel
  have h4 : dateLabel = utf8Text (points " \n時間: ") := by decide +kernel
  have h5 : ([0x0A] : Bytes) = utf8Text (points "\n") := by decide +kernel
  unfold articleHead
  rw [h1, h2, h3, h4, h5]
  simp only [utf8Text, List.flatMap_append]

/-- **C72** (partial: authors without blanks, boards and titles without line ends). -/
theorem C72_head_partial (o b t d o' b' t' d' : Bytes) (ho : 0x20 ∉ o) (ho' : 0x20 ∉ o') (hb : 0x0A ∉ b) (hb' : 0x0A ∉ b')
    (ht : 0x0A ∉ t) (ht' : 0x0A ∉ t') (h : articleHead o b t d = articleHead o' b' t' d') :
    o = o' ∧ b = b' ∧ t = t' ∧ d = d' := by
  simp only [articleHead, authorLabel, boardLabel, titleLabel, dateLabel, List.append_assoc, List.cons_append, List.nil_append,
    List.cons.injEq, true_and] at h
  obtain ⟨e1, h⟩ := split_at ho ho' h
  simp only [List.cons.injEq, true_and] at h
  obtain ⟨e2, h⟩ := split_at hb hb' h
  simp only [List.cons.injEq, true_and] at h
  have h' : (t ++ [0x20]) ++ 0x0A :: ([0xE6, 0x99, 0x82, 0xE9, 0x96, 0x93, 0x3A, 0x20] ++ (d ++ [0x0A])) =
      (t' ++ [0x20]) ++ 0x0A :: ([0xE6, 0x99, 0x82, 0xE9, 0x96, 0x93, 0x3A, 0x20] ++ (d' ++ [0x0A])) := by simpa using h
  obtain ⟨e3, h⟩ := split_at (by simp [ht]) (by simp [ht']) h'
  refine ⟨e1, e2, List.append_cancel_right e3, ?_⟩
  exact List.append_cancel_right (List.append_cancel_left h)

/-- **C72 is false of the code**: a title can contain the line that gives the time. -/
theorem C72_head_refuted : ¬ Spec.HeadDetermines := by
  intro h
  have := h (ascii "a") (ascii "b") (ascii "hi" ++ dateLabel ++ ascii "1") (ascii "2") (ascii "a") (ascii "b") (ascii "hi")
    (ascii "1" ++ dateLabel ++ ascii "2") (by decide)
  exact absurd this.2.2.1 (by decide)

example : (0x20 : UInt8) ∉ ascii "pichu" ∧ (0x0A : UInt8) ∉ ascii "Test" ∧ (0x0A : UInt8) ∉ ascii "Re: hello" := by decide

example : (match sampleDB.newArticleWithMap sampleFS (fun k => if k = ascii "board_id" then some (.str (ascii "S")) else
    sampleArgs k) 1600000000 (fun _ => 0xABC) 1 with
    | .ok (r, _) => r.filename
    | _ => []) = ascii "M.1600000000.A.ABC" := by decide +kernel

end Verif
