import Verif.Props.Drafts
import Verif.Props.RecordFiles
/-!
# C24–C28: creating, writing and appending to articles
-/

namespace Verif
open Spec

/-! ## C24 -/

theorem createExcl_ok {fs fs' : FS} {cwd : Path} {p : Bytes} (h : fs.createExcl cwd p = .ok fs') :
    ∃ l, fs.lookup cwd p = .ok l ∧ fs.get l = none ∧ fs' = fs.set l (.file []) := by
  unfold FS.createExcl at h
  obtain ⟨l, h1, h2⟩ := Res.bind_eq_ok.mp h
  split at h2
  · rename_i hg
    exact ⟨l, h1, hg, (Res.ok.inj h2).symm⟩
  · cases h2

theorem articlePath_ok {home board : Bytes} (hb : board ≠ []) (file : Bytes) :
    getBoardArticleFilePath home board file = .ok (boardDir home board ++ slash :: file) := by
  have a2 : ascii "/" = [slash] := by decide
  cases board with
  | nil => exact absurd rfl hb
  | cons c cs => simp [getBoardArticleFilePath, firstByte, boardDir, a2]

theorem articlePath_eq {home board file p : Bytes} (h : getBoardArticleFilePath home board file = .ok p) :
    board ≠ [] ∧ p = boardDir home board ++ slash :: file := by
  have hb : board ≠ [] := by intro e; subst e; cases h
  rw [articlePath_ok hb] at h
  exact ⟨hb, (Res.ok.inj h).symm⟩

/-- What a successful creation did. -/
theorem createFilename_ok {db : DB} {fs fs' : FS} {board name : Bytes} {draw : Nat → Int × Fin 4096} {fuel k : Nat}
    (h : db.createFilename fs board draw fuel k = .ok (name, fs')) :
    ∃ j p, k ≤ j ∧ j < k + fuel ∧ name = DB.articleName (draw j).1 (draw j).2 ∧
      getBoardArticleFilePath db.home board name = .ok p ∧ fs.createExcl db.cwd p = .ok fs' := by
  induction fuel generalizing k with
  | zero => cases h
  | succ f ih =>
    simp only [DB.createFilename] at h
    obtain ⟨p, hp, h⟩ := Res.bind_eq_ok.mp h
    split at h
    · rename_i fs2 he
      have := Res.ok.inj h
      injection this with a b
      subst a; subst b
      exact ⟨k, p, Nat.le_refl _, by omega, rfl, hp, he⟩
    · obtain ⟨j, p', h1, h2, h3⟩ := ih h
      exact ⟨j, p', by omega, by omega, h3⟩

/-- C24, one creator: the name returned did not exist on the board, it is now an empty file, and nothing else in the
file system changed. -/
theorem C24_new_name_is_fresh (db : DB) (fs fs' : FS) (board name : Bytes) (draw : Nat → Int × Fin 4096) (fuel : Nat)
    (h : db.createFilename fs board draw fuel 0 = .ok (name, fs')) :
    db.readBoardArticleFile fs board name = .err "no such file or directory" ∧
    db.readBoardArticleFile fs' board name = .ok [] ∧
    ∃ l p, getBoardArticleFilePath db.home board name = .ok p ∧ fs.lookup db.cwd p = .ok l ∧ fs.get l = none ∧
      SameExcept fs fs' [l] := by
  obtain ⟨j, p, _, _, hname, hp, he⟩ := createFilename_ok h
  obtain ⟨l, hl, hg, rfl⟩ := createExcl_ok he
  have hnd : fs.get l ≠ some .dir := by rw [hg]; simp
  refine ⟨?_, ?_, l, p, hp, hl, hg, ?_⟩
  · simp only [DB.readBoardArticleFile, hp, Res.ok_bind, FS.readFile_of hl, hg]
  · simp only [DB.readBoardArticleFile, hp, Res.ok_bind, FS.readFile_set hl hnd]
  · intro q hq
    rw [FS.get_set (FS.ne_root hnd), if_neg (by simpa using hq)]

/-- Any number of creators; creator `i` works on board `boards i`. `name i` is its result, once it has one. -/
structure CrState where
  fs : FS
  name : Nat → Option Bytes

/-- Creator `i` makes one round of its loop with this clock and random number; the exclusive create is one atomic
system call — /repo/pttbbs/pttbbs_write_article_connector.go:18-33. -/
def CrState.step (db : DB) (boards : Nat → Bytes) (s : CrState) (a : Nat × Int × Fin 4096) : CrState :=
  match s.name a.1 with
  | some _ => s
  | none =>
    match getBoardArticleFilePath db.home (boards a.1) (DB.articleName a.2.1 a.2.2) with
    | .ok p => match s.fs.createExcl db.cwd p with
      | .ok fs' => ⟨fs', fun j => if j = a.1 then some (DB.articleName a.2.1 a.2.2) else s.name j⟩
      | _ => s
    | _ => s

def CrState.run (db : DB) (boards : Nat → Bytes) (s : CrState) (sched : List (Nat × Int × Fin 4096)) : CrState :=
  sched.foldl (CrState.step db boards) s

/-- The file obtained by creator `i` exists. -/
def CrHas (db : DB) (boards : Nat → Bytes) (s : CrState) (i : Nat) : Prop :=
  ∀ n, s.name i = some n → ∃ p l, getBoardArticleFilePath db.home (boards i) n = .ok p ∧
    s.fs.lookup db.cwd p = .ok l ∧ s.fs.get l = some (.file [])

/-- Nobody else has the file obtained by creator `i`. -/
def CrApart (db : DB) (boards : Nat → Bytes) (s : CrState) (i j : Nat) : Prop :=
  ∀ n n' p p', s.name i = some n → s.name j = some n' → getBoardArticleFilePath db.home (boards i) n = .ok p →
    getBoardArticleFilePath db.home (boards j) n' = .ok p' → resolve db.cwd p ≠ resolve db.cwd p'

theorem CrInv.step {db : DB} {boards : Nat → Bytes} {s : CrState} (h1 : ∀ i, CrHas db boards s i)
    (h2 : ∀ i j, i ≠ j → CrApart db boards s i j) (a : Nat × Int × Fin 4096) :
    (∀ i, CrHas db boards (s.step db boards a) i) ∧ ∀ i j, i ≠ j → CrApart db boards (s.step db boards a) i j := by
  unfold CrState.step
  split
  · exact ⟨h1, h2⟩
  · rename_i hnone
    split
    · rename_i p hp
      split
      · rename_i fs' he
        obtain ⟨l, hl, hg, rfl⟩ := createExcl_ok he
        have hnd : s.fs.get l ≠ some .dir := by rw [hg]; simp
        have hne := FS.ne_root hnd
        constructor
        · intro i n hn
          simp only at hn
          split at hn
          · rename_i hi
            subst hi
            injection hn with hn
            subst hn
            exact ⟨p, l, hp, FS.lookup_mono (FS.set_file_dirs hnd) hl, by rw [FS.get_set hne, if_pos rfl]⟩
          · obtain ⟨p', l', hp', hl', hg'⟩ := h1 i n hn
            refine ⟨p', l', hp', FS.lookup_mono (FS.set_file_dirs hnd) hl', ?_⟩
            rw [FS.get_set hne, if_neg (by intro e; subst e; rw [hg] at hg'; cases hg')]
            exact hg'
        · have key : ∀ j, j ≠ a.1 → ∀ n' p', s.name j = some n' →
              getBoardArticleFilePath db.home (boards j) n' = .ok p' → resolve db.cwd p ≠ resolve db.cwd p' := by
            intro j hj n' p' hn' hp' e
            obtain ⟨p2, l2, hp2, hl2, hg2⟩ := h1 j n' hn'
            rw [hp2] at hp'
            have := Res.ok.inj hp'
            subst this
            rw [← FS.lookup_eq hl, ← FS.lookup_eq hl2] at e
            subst e
            rw [hg] at hg2; cases hg2
          intro i j hij n n' p1 p2 hn hn' hp1 hp2
          simp only at hn hn'
          split at hn
          · rename_i hi
            subst hi
            rw [if_neg (Ne.symm hij)] at hn'
            injection hn with hn
            subst hn
            rw [hp] at hp1
            have := Res.ok.inj hp1
            subst this
            exact key j (Ne.symm hij) n' p2 hn' hp2
          · rename_i hi
            split at hn'
            · rename_i hj
              subst hj
              injection hn' with hn'
              subst hn'
              rw [hp] at hp2
              have := Res.ok.inj hp2
              subst this
              exact (key i hi n p1 hn hp1).symm
            · exact h2 i j hij n n' p1 p2 hn hn' hp1 hp2
      · exact ⟨h1, h2⟩
    · exact ⟨h1, h2⟩

theorem CrInv.run {db : DB} {boards : Nat → Bytes} (sched : List (Nat × Int × Fin 4096)) :
    ∀ {s : CrState}, (∀ i, CrHas db boards s i) → (∀ i j, i ≠ j → CrApart db boards s i j) →
    (∀ i, CrHas db boards (s.run db boards sched) i) ∧
      ∀ i j, i ≠ j → CrApart db boards (s.run db boards sched) i j := by
  induction sched with
  | nil => intro s h1 h2; exact ⟨h1, h2⟩
  | cons a as ih =>
    intro s h1 h2
    have := CrInv.step h1 h2 a
    exact ih this.1 this.2

/-- C24, any number of concurrent creators, any interleaving, any clocks and random numbers: two creators never
obtain the same file; in particular, on one board all the names obtained are different. -/
theorem C24_concurrent_names_differ (db : DB) (fs : FS) (boards : Nat → Bytes)
    (sched : List (Nat × Int × Fin 4096)) (i j : Nat) (hij : i ≠ j) (n n' : Bytes)
    (hi : (CrState.run db boards ⟨fs, fun _ => none⟩ sched).name i = some n)
    (hj : (CrState.run db boards ⟨fs, fun _ => none⟩ sched).name j = some n') :
    (∃ p p', getBoardArticleFilePath db.home (boards i) n = .ok p ∧
      getBoardArticleFilePath db.home (boards j) n' = .ok p' ∧ resolve db.cwd p ≠ resolve db.cwd p') ∧
    (boards i = boards j → n ≠ n') := by
  obtain ⟨h1, h2⟩ := CrInv.run sched (db := db) (boards := boards) (s := ⟨fs, fun _ => none⟩)
    (fun i n hn => by cases hn) (fun i j _ n n' p p' hn => by cases hn)
  obtain ⟨p, l, hp, _, _⟩ := h1 i n hi
  obtain ⟨p', l', hp', _, _⟩ := h1 j n' hj
  have hne := h2 i j hij n n' p p' hi hj hp hp'
  refine ⟨⟨p, p', hp, hp', hne⟩, ?_⟩
  intro hb e
  subst e
  rw [hb, hp'] at hp
  have := Res.ok.inj hp
  subst this
  exact hne rfl

/-- Non-vacuity of C24: two creators in the same second with the same first random number. -/
example : (CrState.run sampleDB (fun _ => ascii "S") ⟨sampleFS, fun _ => none⟩
    [(0, 1600000000, 0xABC), (1, 1600000000, 0xABC), (1, 1600000000, 7)]).name 1 = some (ascii "M.1600000000.A.007") ∧
    (CrState.run sampleDB (fun _ => ascii "S") ⟨sampleFS, fun _ => none⟩
    [(0, 1600000000, 0xABC), (1, 1600000000, 0xABC), (1, 1600000000, 7)]).name 0 = some (ascii "M.1600000000.A.ABC") := by
  decide +kernel
example : ∃ fs', sampleDB.createFilename sampleFS (ascii "S") (fun _ => (1600000000, 0xABC)) 1 0 =
    .ok (ascii "M.1600000000.A.ABC", fs') := ⟨_, rfl⟩

/-! ## C25 -/

/-- The full claim of C25: with enough rounds, creation returns. -/
def Spec.CreateReturns : Prop :=
  ∀ (db : DB) (fs : FS) (board : Bytes) (draw : Nat → Int × Fin 4096),
    ∃ fuel, (db.createFilename fs board draw fuel 0).Returns

theorem createFilename_diverges {db : DB} {fs : FS} {board : Bytes} (hb : board ≠ [])
    {draw : Nat → Int × Fin 4096} {fuel k : Nat}
    (h : ∀ j, k ≤ j → j < k + fuel → ∀ fs', fs.createExcl db.cwd
      (boardDir db.home board ++ slash :: DB.articleName (draw j).1 (draw j).2) ≠ .ok fs') :
    db.createFilename fs board draw fuel k = .diverge := by
  induction fuel generalizing k with
  | zero => rfl
  | succ f ih =>
    simp only [DB.createFilename, articlePath_ok hb, Res.ok_bind]
    split
    · rename_i fs' he
      exact absurd he (h k (Nat.le_refl _) (by omega) fs')
    · exact ih (fun j h1 h2 => h j (by omega) (by omega))

theorem boardDir_ne_nil (home board : Bytes) : boardDir home board ≠ [] := by
  intro e
  have := congrArg List.length e
  simp [boardDir, ascii] at this

/-- C25: if the board directory does not exist the loop never ends, whatever the clock and the random generator do. -/
theorem C25_missing_directory_loops (db : DB) (fs : FS) (board : Bytes) (hb : board ≠ [])
    (hno : ¬ IsDir fs db.cwd (boardDir db.home board)) (draw : Nat → Int × Fin 4096) (fuel : Nat) :
    db.createFilename fs board draw fuel 0 = .diverge := by
  apply createFilename_diverges hb
  intro j _ _ fs' he
  obtain ⟨l, hl, _, _⟩ := createExcl_ok he
  exact hno (FS.lookup_parent (boardDir_ne_nil _ _) hl)

/-- C25 is false of the code: every failure of the create is retried, so a missing board directory is an endless
loop. -/
theorem C25_create_returns_refuted : ¬ Spec.CreateReturns := by
  intro h
  obtain ⟨fuel, hf⟩ := h sampleDB sampleFS (ascii "Zed") (fun _ => (0, 0))
  rw [C25_missing_directory_loops sampleDB sampleFS (ascii "Zed") (by decide)
    (by
      rintro ⟨l, e, _⟩
      have : sampleFS.lookup sampleDB.cwd (boardDir sampleDB.home (ascii "Zed")) = .err "no such file or directory" := by
        decide +kernel
      rw [this] at e
      cases e)] at hf
  exact hf

/-- C25, an empty board id crashes. -/
theorem C25_empty_board_panics (db : DB) (fs : FS) (draw : Nat → Int × Fin 4096) (fuel : Nat) :
    db.createFilename fs [] draw (fuel + 1) 0 = .panic := rfl

/-- The names the library makes up are single path components without NUL. -/
theorem articleName_component (t : Int) (r : Fin 4096) :
    Component (DB.articleName t r) ∧ 0 ∉ DB.articleName t r := by
  have hb : ∀ b ∈ DB.articleName t r, b = 77 ∨ b = 46 ∨ b = 65 ∨ b = 45 ∨ 48 ≤ b.toNat := by
    intro b hb
    have hr := r.isLt
    have m1 : ascii "M." = [77, 46] := by decide
    have m2 : ascii ".A." = [46, 65, 46] := by decide
    simp only [DB.articleName, List.mem_append, hex3, m1, m2, List.mem_cons, List.not_mem_nil, or_false] at hb
    rcases hb with ((h | h) | h | h | h) | h | h | h
    · rcases h with h | h <;> simp [h]
    · rcases decInt_bytes t b h with h | h
      · simp [h]
      · exact Or.inr (Or.inr (Or.inr (Or.inr h.1)))
    · simp [h]
    · simp [h]
    · simp [h]
    · rw [h]; exact Or.inr (Or.inr (Or.inr (Or.inr (hexDigit_bytes (by omega)).1)))
    · rw [h]; exact Or.inr (Or.inr (Or.inr (Or.inr (hexDigit_bytes (by omega)).1)))
    · rw [h]; exact Or.inr (Or.inr (Or.inr (Or.inr (hexDigit_bytes (by omega)).1)))
  have hl : 8 ≤ (DB.articleName t r).length := by
    simp only [DB.articleName, List.length_append, hex3]
    simp [ascii]
  refine ⟨⟨?_, ?_, ?_, ?_⟩, ?_⟩
  · intro e; rw [e] at hl; simp at hl
  · intro hm; have := hb _ hm; revert this; decide
  · intro e; rw [e] at hl; revert hl; decide
  · intro e; rw [e] at hl; revert hl; decide
  · intro hm; have := hb _ hm; revert this; decide

/-- C25 (partial: the board directory exists and some draw hits an unused name, say draw `k`). Then creation returns
a name after at most `k + 1` rounds. -/
theorem C25_create_returns_partial (db : DB) (fs : FS) (board : Bytes) (hb : board ≠ [])
    (hdir : IsDir fs db.cwd (boardDir db.home board)) (draw : Nat → Int × Fin 4096) (k : Nat)
    (hfree : db.readBoardArticleFile fs board (DB.articleName (draw k).1 (draw k).2) =
      .err "no such file or directory") (fuel : Nat) (hf : k < fuel) :
    ∃ j fs', j ≤ k ∧ db.createFilename fs board draw fuel 0 = .ok (DB.articleName (draw j).1 (draw j).2, fs') := by
  obtain ⟨L, hL, hg⟩ := hdir
  have hgood : ∃ fs', fs.createExcl db.cwd
      (boardDir db.home board ++ slash :: DB.articleName (draw k).1 (draw k).2) = .ok fs' := by
    obtain ⟨hc, h0⟩ := articleName_component (draw k).1 (draw k).2
    have hl := FS.lookup_child hL hg hc h0
    simp only [DB.readBoardArticleFile, articlePath_ok hb, Res.ok_bind, FS.readFile_of hl] at hfree
    unfold FS.createExcl
    rw [hl, Res.ok_bind]
    split at hfree
    · rename_i hn
      rw [hn]
      exact ⟨_, rfl⟩
    · exact absurd (Res.err.inj hfree) (by decide)
    · cases hfree
  have key : ∀ (fuel i : Nat), i ≤ k → k < i + fuel → ∃ j fs', j ≤ k ∧
      db.createFilename fs board draw fuel i = .ok (DB.articleName (draw j).1 (draw j).2, fs') := by
    intro fuel
    induction fuel with
    | zero => intro i h1 h2; omega
    | succ f ih =>
      intro i h1 h2
      simp only [DB.createFilename, articlePath_ok hb, Res.ok_bind]
      split
      · rename_i fs' he
        exact ⟨i, fs', h1, rfl⟩
      · rename_i hno
        by_cases hik : i = k
        · subst hik
          obtain ⟨fs', hok⟩ := hgood
          exact absurd hok (hno fs')
        · exact ih (i + 1) (by omega) (by omega)
  exact key fuel 0 (Nat.zero_le _) (by omega)

/-- C25, exactly when creation returns: the board directory exists and one of the names that the clock and the generator will
produce is free. -/
theorem C25_exact (db : DB) (fs : FS) (board : Bytes) (hb : board ≠ []) (draw : Nat → Int × Fin 4096) :
    (∃ fuel, (db.createFilename fs board draw fuel 0).Returns) ↔
      IsDir fs db.cwd (boardDir db.home board) ∧
      ∃ k, db.readBoardArticleFile fs board (DB.articleName (draw k).1 (draw k).2) = .err "no such file or directory" := by
  constructor
  · rintro ⟨fuel, hf⟩
    cases hr : db.createFilename fs board draw fuel 0 with
    | ok x =>
      obtain ⟨name, fs'⟩ := x
      obtain ⟨j, p, _, _, hname, hp, he⟩ := createFilename_ok hr
      obtain ⟨l, hl, hg, _⟩ := createExcl_ok he
      obtain ⟨_, hp'⟩ := articlePath_eq hp
      subst hp'
      refine ⟨FS.lookup_parent (boardDir_ne_nil _ _) hl, j, ?_⟩
      rw [← hname]
      simp only [DB.readBoardArticleFile, hp, Res.ok_bind, FS.readFile_of hl, hg]
    | err e =>
      exfalso
      clear hf
      revert hr
      generalize 0 = k
      induction fuel generalizing k with
      | zero => intro hr; cases hr
      | succ f ih =>
        simp only [DB.createFilename, articlePath_ok hb, Res.ok_bind]
        split
        · intro hr; cases hr
        · exact ih _
    | panic => rw [hr] at hf; exact hf.elim
    | diverge => rw [hr] at hf; exact hf.elim
  · rintro ⟨hd, k, hk⟩
    obtain ⟨j, fs', _, h⟩ := C25_create_returns_partial db fs board hb hd draw k hk (k + 1) (by omega)
    exact ⟨k + 1, by rw [h]; trivial⟩

/-- Non-vacuity of C25 (partial). -/
example : ascii "S" ≠ [] ∧ IsDir sampleFS sampleDB.cwd (boardDir sampleDB.home (ascii "S")) ∧
    sampleDB.readBoardArticleFile sampleFS (ascii "S") (DB.articleName 1600000000 0xABC) =
      .err "no such file or directory" :=
  ⟨by decide, ⟨[ascii "bbs", ascii "boards", ascii "S", ascii "S"], by decide +kernel, by decide +kernel⟩,
    by decide +kernel⟩

/-! ## C26 -/

/-- The full claim of C26. -/
def Spec.WriteReplaces : Prop :=
  ∀ (db : DB) (fs fs' : FS) (board file content : Bytes), db.writeBoardArticleFile fs board file content = .ok fs' →
    db.readBoardArticleFile fs' board file = .ok content

/-- C26, the exact effect: the new content followed by whatever the old one had beyond that length (a missing article
counts as empty); nothing else changes. -/
theorem C26_write_effect (db : DB) (fs fs' : FS) (board file content : Bytes)
    (h : db.writeBoardArticleFile fs board file content = .ok fs') :
    ∃ old, (db.readBoardArticleFile fs board file = .ok old ∨
        db.readBoardArticleFile fs board file = .err "no such file or directory" ∧ old = []) ∧
      db.readBoardArticleFile fs' board file = .ok (content ++ old.drop content.length) ∧
      ∃ l, SameExcept fs fs' [l] := by
  unfold DB.writeBoardArticleFile at h
  obtain ⟨p, hp, h⟩ := Res.bind_eq_ok.mp h
  unfold FS.overwrite at h
  obtain ⟨⟨l, d⟩, ho, h⟩ := Res.bind_eq_ok.mp h
  have := (Res.ok.inj h)
  subst this
  obtain ⟨hl, hnd, hd⟩ := FS.openCreate_ok ho
  refine ⟨d, ?_, ?_, l, ?_⟩
  · simp only [DB.readBoardArticleFile, hp, Res.ok_bind, FS.readFile_of hl]
    rw [hd]
    unfold fileAt
    cases hn : fs.get l with
    | none => right; exact ⟨rfl, rfl⟩
    | some n =>
      cases n with
      | dir => exact absurd hn hnd
      | file x => left; rfl
  · simp only [DB.readBoardArticleFile, hp, Res.ok_bind, FS.readFile_set hl hnd]
    simp [writeAt, zeros]
  · intro q hq
    rw [FS.get_set (FS.ne_root hnd), if_neg (by simpa using hq)]

/-- C26 is false of the code: the file is not truncated, so writing a shorter article leaves the end of the old
one. -/
theorem C26_write_replaces_refuted : ¬ Spec.WriteReplaces := by
  intro h
  have h1 := h sampleDB (sampleFS.set [ascii "bbs", ascii "boards", ascii "S", ascii "S", ascii "f"] (.file (ascii "old text"))) _
    (ascii "S") (ascii "f") (ascii "new") rfl
  revert h1
  decide +kernel

/-- C26 (partial: the old content is not longer than the new one, e.g. a freshly created article). -/
theorem C26_write_replaces_partial (db : DB) (fs fs' : FS) (board file content : Bytes)
    (h : db.writeBoardArticleFile fs board file content = .ok fs')
    (hlen : ∀ old, db.readBoardArticleFile fs board file = .ok old → old.length ≤ content.length) :
    db.readBoardArticleFile fs' board file = .ok content := by
  obtain ⟨old, h1, h2, _⟩ := C26_write_effect db fs fs' board file content h
  rw [h2, List.drop_eq_nil_of_le, List.append_nil]
  rcases h1 with h1 | ⟨_, h1⟩
  · exact hlen old h1
  · subst h1; simp

/-- Non-vacuity of C26: a new article. -/
example : ∃ fs', sampleDB.writeBoardArticleFile sampleFS (ascii "S") (ascii "f") (ascii "text") = .ok fs' ∧
    sampleDB.readBoardArticleFile fs' (ascii "S") (ascii "f") = .ok (ascii "text") := ⟨_, rfl, by decide +kernel⟩

/-! ## C27 -/

/-- C27, one append: exactly when the article exists; the new content is added at its end, nothing else changes; a
missing article is an error (and, as every failed operation, leaves the file system alone). -/
theorem C27_append (db : DB) (fs : FS) (board file content : Bytes) :
    (∀ old, db.readBoardArticleFile fs board file = .ok old →
      ∃ fs' l, db.appendBoardArticleFile fs board file content = .ok fs' ∧
        db.readBoardArticleFile fs' board file = .ok (old ++ content) ∧ SameExcept fs fs' [l]) ∧
    ((∀ old, db.readBoardArticleFile fs board file ≠ .ok old) →
      ∀ fs', db.appendBoardArticleFile fs board file content ≠ .ok fs') := by
  constructor
  · intro old h
    unfold DB.readBoardArticleFile at h
    obtain ⟨p, hp, h⟩ := Res.bind_eq_ok.mp h
    obtain ⟨l, hl, hg⟩ := FS.readFile_ok h
    have hnd : fs.get l ≠ some .dir := by rw [hg]; simp
    refine ⟨fs.set l (.file (old ++ content)), l, ?_, ?_, ?_⟩
    · simp only [DB.appendBoardArticleFile, hp, Res.ok_bind, FS.append, hl, hg]
    · simp only [DB.readBoardArticleFile, hp, Res.ok_bind, FS.readFile_set hl hnd]
    · intro q hq
      rw [FS.get_set (FS.ne_root hnd), if_neg (by simpa using hq)]
  · intro hno fs' h
    unfold DB.appendBoardArticleFile at h
    obtain ⟨p, hp, h⟩ := Res.bind_eq_ok.mp h
    unfold FS.append at h
    obtain ⟨l, hl, h⟩ := Res.bind_eq_ok.mp h
    split at h
    · cases h
    · cases h
    · rename_i d hg
      exact hno d (by simp only [DB.readBoardArticleFile, hp, Res.ok_bind, FS.readFile_of hl, hg])

/-- A history of appends to one article. -/
def DB.appendAll (db : DB) (fs : FS) (board file : Bytes) : List Bytes → Res FS
  | [] => .ok fs
  | x :: xs => do
    let fs' ← db.appendBoardArticleFile fs board file x
    appendAll db fs' board file xs

/-- C27, every history of appends: all succeed, and the article is the old content followed by all of them in
order. -/
theorem C27_append_history (db : DB) (fs : FS) (board file old : Bytes) (xs : List Bytes)
    (h : db.readBoardArticleFile fs board file = .ok old) :
    ∃ fs', db.appendAll fs board file xs = .ok fs' ∧
      db.readBoardArticleFile fs' board file = .ok (old ++ xs.flatten) := by
  induction xs generalizing fs old with
  | nil => exact ⟨fs, rfl, by simpa using h⟩
  | cons x xs ih =>
    obtain ⟨fs1, l, h1, h2, _⟩ := (C27_append db fs board file x).1 old h
    obtain ⟨fs2, h3, h4⟩ := ih fs1 (old ++ x) h2
    refine ⟨fs2, ?_, ?_⟩
    · simp only [DB.appendAll, h1, Res.ok_bind, h3]
    · rw [h4]; simp

/-- Non-vacuity of C27. -/
example : sampleDB.readBoardArticleFile
    (sampleFS.set [ascii "bbs", ascii "boards", ascii "S", ascii "S", ascii "f"] (.file (ascii "a")))
    (ascii "S") (ascii "f") = .ok (ascii "a") := by decide +kernel

/-! ## C28 -/

/-- The record list of a board, if there is one, holds whole records. -/
def Spec.WholeRecords (db : DB) (fs : FS) (board : Bytes) : Prop :=
  ∀ p d, getBoardArticlesDirectoryPath db.home board = .ok p → fs.readFile db.cwd p = .ok d → 128 ∣ d.length

/-- The texts of a new record fit their places (the file name always does, see `articleName_fits`). -/
structure Spec.FitsRecord (c : Codec) (r : FileHeader) : Prop where
  filename : FitsTrim 28 r.filename
  owner : FitsTrim 14 r.owner
  date : FitsTrim 6 r.date
  title : FitsTrim 65 (c.enc r.title)
  titleC : c.dec (c.enc r.title) = r.title

/-- The full claim of C28: what is read after creating and adding is what was added. -/
def Spec.CreatedReadsBack : Prop :=
  ∀ (db : DB) (c : Codec) (fs fs1 fs2 : FS) (board owner date title : Bytes) (draw : Nat → Int × Fin 4096) (fuel : Nat)
    (r : FileHeader), (∀ k, -2 ^ 63 ≤ (draw k).1 ∧ (draw k).1 < 2 ^ 63) →
    FitsTrim 14 owner → FitsTrim 6 date → FitsTrim 65 (c.enc title) → c.dec (c.enc title) = title →
    db.createArticleRecord fs board owner date title draw fuel = .ok (r, fs1) →
    Spec.WholeRecords db fs1 board → db.addArticleRecord c fs1 board r = .ok fs2 →
    ∃ old g, db.readArticleRecords c fs1 board = .ok old ∧ db.readArticleRecords c fs2 board = .ok (old ++ [g]) ∧
      g.filename = r.filename ∧ g.owner = owner ∧ g.date = date ∧ g.title = title ∧ g.modified = r.modified

/-- C28, the exact effect of adding any record: the list read afterwards is the old one followed by the record as it is stored. -/
theorem C28_add_exact (db : DB) (c : Codec) (fs fs' : FS) (board : Bytes) (r : FileHeader)
    (hw : WholeRecords db fs board) (h : db.addArticleRecord c fs board r = .ok fs') :
    ∃ old, db.readArticleRecords c fs board = .ok old ∧
      db.readArticleRecords c fs' board = .ok (old ++ [storedArticle c r]) := by
  unfold DB.addArticleRecord at h
  obtain ⟨p, hp, h⟩ := Res.bind_eq_ok.mp h
  unfold FS.appendCreate at h
  obtain ⟨⟨l, d⟩, ho, h⟩ := Res.bind_eq_ok.mp h
  have := Res.ok.inj h
  subst this
  obtain ⟨hl, hnd, hd⟩ := FS.openCreate_ok ho
  have hl' : (fs.set l (.file (d ++ r.marshal c))).lookup db.cwd p = .ok l := FS.lookup_mono (FS.set_file_dirs hnd) hl
  have hg' : (fs.set l (.file (d ++ r.marshal c))).get l = some (.file (d ++ r.marshal c)) := by
    rw [FS.get_set (FS.ne_root hnd), if_pos rfl]
  have hdl : ∃ n, d.length = 128 * n := by
    cases hn : fs.get l with
    | none =>
      simp [fileAt, hn] at hd
      exact ⟨0, by rw [hd]; rfl⟩
    | some n =>
      cases n with
      | dir => exact absurd hn hnd
      | file x =>
        simp [fileAt, hn] at hd
        subst hd
        exact hw p d hp (by rw [FS.readFile_of hl, hn])
  obtain ⟨n, hn0⟩ := hdl
  obtain ⟨old, h1, h2, h3⟩ := C10_article_exact c (fileAt fs l) n (by rw [← hd]; exact hn0) [r]
    (Or.inr (by simp))
  refine ⟨old, ?_, ?_⟩
  · simp only [DB.readArticleRecords, hp, Res.ok_bind, DB.openArticleList, hl]
    cases hn : fs.get l with
    | none =>
      have : old = [] := by
        simp [fileAt, hn] at hd
        rw [hd] at hn0
        have : n = 0 := by simp at hn0; omega
        subst this
        exact List.length_eq_zero_iff.mp h2
      subst this
      rfl
    | some x =>
      cases x with
      | dir => exact absurd hn hnd
      | file x =>
        have : fileAt fs l = some x := by simp [fileAt, hn]
        rw [this] at h1
        simp only [h1 (by simp)]
  · simp only [DB.readArticleRecords, hp, Res.ok_bind, DB.openArticleList, hl', hg']
    have e : List.foldl (appendFileHeader c) (fileAt fs l) [r] = some (d ++ r.marshal c) := by
      rw [hd]
      cases fileAt fs l <;> rfl
    rw [e] at h3
    simp only [h3, List.map_cons, List.map_nil]

/-- C28, a record whose texts fit: only the modification time is changed, reduced modulo 2^32. -/
theorem C28_add_effect (db : DB) (c : Codec) (fs fs' : FS) (board : Bytes) (r : FileHeader)
    (hr : FitsRecord c r) (hw : WholeRecords db fs board) (h : db.addArticleRecord c fs board r = .ok fs') :
    ∃ old, db.readArticleRecords c fs board = .ok old ∧
      db.readArticleRecords c fs' board =
        .ok (old ++ [persisted { r with modified := timeOfU32 (unixU32 r.modified) }]) := by
  obtain ⟨old, h1, h2⟩ := C28_add_exact db c fs fs' board r hw h
  refine ⟨old, h1, ?_⟩
  rw [h2]
  unfold storedArticle persisted
  rw [cutTrim_of_fits hr.filename, cutTrim_of_fits hr.owner, cutTrim_of_fits hr.date, cutTrim_of_fits hr.title, hr.titleC,
    time_wrap]

theorem decAux_length (fuel n k : Nat) (hk : 0 < k) (h : n < 10 ^ k) : (decAux fuel n).length ≤ k := by
  induction fuel generalizing n k with
  | zero => simp [decAux]
  | succ f ih =>
    simp only [decAux]
    split
    · simp only [List.length_singleton]; omega
    · rename_i h10
      have hk2 : 1 < k := by
        rcases Nat.lt_or_ge 1 k with h' | h'
        · exact h'
        · have : k = 1 := by omega
          subst this
          omega
      have := ih (n / 10) (k - 1) (by omega) (by
        rw [Nat.div_lt_iff_lt_mul (by omega), ← Nat.pow_succ]
        rwa [show (k - 1).succ = k by omega])
      simp only [List.length_append, List.length_singleton]
      omega

/-- Every generated file name fits the name field (the clock is a 64-bit number of seconds): at most 28 bytes, none of
them NUL. -/
theorem articleName_fits (t : Int) (ht : -2 ^ 63 ≤ t ∧ t < 2 ^ 63) (k : Fin 4096) :
    FitsTrim 28 (DB.articleName t k) := by
  refine ⟨?_, nulEndsFree_of_not_mem (articleName_component t k).2⟩
  have h1 : (dec t.natAbs).length ≤ 19 := decAux_length _ _ 19 (by omega) (by omega)
  have h2 : (decInt t).length ≤ 20 := by
    unfold decInt
    split
    · simp only [List.length_cons]; omega
    · omega
  have e1 : (ascii "M.").length = 2 := by decide
  have e2 : (ascii ".A.").length = 3 := by decide
  have e3 : (hex3 k).length = 3 := rfl
  simp only [DB.articleName, List.length_append, e1, e2, e3]
  omega

theorem createArticleRecord_ok {db : DB} {fs fs' : FS} {board owner date title : Bytes}
    {draw : Nat → Int × Fin 4096} {fuel : Nat} {r : FileHeader}
    (h : db.createArticleRecord fs board owner date title draw fuel = .ok (r, fs')) :
    ∃ j, r = DB.newArticleRecord (DB.articleName (draw j).1 (draw j).2) owner date title ∧
      db.createFilename fs board draw fuel 0 = .ok (DB.articleName (draw j).1 (draw j).2, fs') := by
  unfold DB.createArticleRecord at h
  obtain ⟨⟨name, fs1⟩, h1, h2⟩ := Res.bind_eq_ok.mp h
  have e := Res.ok.inj h2
  injection e with e1 e2
  subst e1; subst e2
  obtain ⟨j, p, _, _, hn, _⟩ := createFilename_ok h1
  subst hn
  exact ⟨j, rfl, h1⟩

/-- C28 (partial: every field but the modification time, which the library leaves at the zero time and which reads back
as 2042-07-14; and, for a record whose modification time the caller set to one the field can hold, every field). -/
theorem C28_created_reads_back_partial (db : DB) (c : Codec) (fs fs1 fs2 : FS) (board owner date title : Bytes)
    (draw : Nat → Int × Fin 4096) (fuel : Nat) (r r' : FileHeader)
    (hd : ∀ k, -2 ^ 63 ≤ (draw k).1 ∧ (draw k).1 < 2 ^ 63)
    (ho : FitsTrim 14 owner) (hda : FitsTrim 6 date) (ht : FitsTrim 65 (c.enc title)) (htc : c.dec (c.enc title) = title)
    (hc : db.createArticleRecord fs board owner date title draw fuel = .ok (r, fs1))
    (hw : WholeRecords db fs1 board) (hr' : ∃ m, r' = { r with modified := m })
    (ha : db.addArticleRecord c fs1 board r' = .ok fs2) :
    ∃ old g, db.readArticleRecords c fs1 board = .ok old ∧ db.readArticleRecords c fs2 board = .ok (old ++ [g]) ∧
      g.filename = r.filename ∧ g.owner = owner ∧ g.date = date ∧ g.title = title ∧ g.recommend = 0 ∧
      (FitsTime r'.modified → g.modified = r'.modified) ∧ (r' = r → g.modified = 2288912640) := by
  obtain ⟨j, hr, _⟩ := createArticleRecord_ok hc
  obtain ⟨m, hm⟩ := hr'
  have hf : FitsRecord c r' := by
    subst hm; subst hr
    exact ⟨articleName_fits _ (hd j) _, ho, hda, ht, htc⟩
  obtain ⟨old, h1, h2⟩ := C28_add_effect db c fs1 fs2 board r' hf hw ha
  refine ⟨old, _, h1, h2, ?_⟩
  subst hr
  refine ⟨by rw [hm]; rfl, by rw [hm]; rfl, by rw [hm]; rfl, by rw [hm]; rfl, by rw [hm]; rfl, ?_, ?_⟩
  · intro hfit
    exact timeOfU32_unixU32 hfit.1 hfit.2
  · intro e
    rw [e]
    show timeOfU32 (unixU32 zeroTimeUnix) = _
    decide

/-- The board of `sampleFS` just after the creation of an article. -/
def createdFS : FS :=
  sampleFS.set [ascii "bbs", ascii "boards", ascii "S", ascii "S", DB.articleName 1600000000 0xABC] (.file [])

theorem createdFS_create : sampleDB.createArticleRecord sampleFS (ascii "S") (ascii "pichu") (ascii "11/16") (ascii "hi")
    (fun _ => (1600000000, 0xABC)) 1 =
      .ok (DB.newArticleRecord (DB.articleName 1600000000 0xABC) (ascii "pichu") (ascii "11/16") (ascii "hi"),
        createdFS) := by decide +kernel

theorem createdFS_whole : WholeRecords sampleDB createdFS (ascii "S") := by
  intro p d hp hr
  have e : getBoardArticlesDirectoryPath sampleDB.home (ascii "S") = .ok (ascii "/bbs/boards/S/S/.DIR") := by
    decide +kernel
  rw [e] at hp
  have := Res.ok.inj hp
  subst this
  have e2 : createdFS.readFile sampleDB.cwd (ascii "/bbs/boards/S/S/.DIR") = .err "no such file or directory" := by
    decide +kernel
  rw [e2] at hr
  cases hr

theorem createdFS_add (r : FileHeader) : ∃ fs2, sampleDB.addArticleRecord asciiCodec createdFS (ascii "S") r = .ok fs2 := by
  have e : getBoardArticlesDirectoryPath sampleDB.home (ascii "S") = .ok (ascii "/bbs/boards/S/S/.DIR") := by
    decide +kernel
  have e2 : createdFS.openCreate sampleDB.cwd (ascii "/bbs/boards/S/S/.DIR") =
      .ok ([ascii "bbs", ascii "boards", ascii "S", ascii "S", ascii ".DIR"], []) := by decide +kernel
  simp only [DB.addArticleRecord, e, FS.appendCreate, e2, Res.ok_bind]
  exact ⟨_, rfl⟩

/-- C28 is false of the code: the record that the library creates carries the zero time, which the 32-bit field cannot
hold. -/
theorem C28_created_reads_back_refuted : ¬ Spec.CreatedReadsBack := by
  intro h
  obtain ⟨fs2, ha⟩ := createdFS_add
    (DB.newArticleRecord (DB.articleName 1600000000 0xABC) (ascii "pichu") (ascii "11/16") (ascii "hi"))
  have hd : ∀ k : Nat, -2 ^ 63 ≤ ((fun _ => (1600000000, 0xABC)) k : Int × Fin 4096).1 ∧
      ((fun _ => (1600000000, 0xABC)) k : Int × Fin 4096).1 < 2 ^ 63 := by
    intro k
    exact ⟨by simp, by simp⟩
  obtain ⟨old, g, h1, h2, _, _, _, _, h3⟩ := h sampleDB asciiCodec sampleFS createdFS fs2 (ascii "S") (ascii "pichu")
    (ascii "11/16") (ascii "hi") _ 1 _ hd (by decide) (by decide) (by decide) (by decide) createdFS_create
    createdFS_whole ha
  obtain ⟨old', g', k1, k2, _, _, _, _, _, _, k3⟩ := C28_created_reads_back_partial sampleDB asciiCodec sampleFS createdFS
    fs2 (ascii "S") (ascii "pichu") (ascii "11/16") (ascii "hi") _ 1 _ _ hd (by decide) (by decide) (by decide)
    (by decide) createdFS_create createdFS_whole ⟨_, rfl⟩ ha
  rw [h1] at k1
  have := Res.ok.inj k1
  subst this
  rw [h2] at k2
  have e := List.append_cancel_left (Res.ok.inj k2)
  injection e with e
  have k3 := k3 rfl
  rw [← e, h3] at k3
  revert k3
  decide

end Verif
