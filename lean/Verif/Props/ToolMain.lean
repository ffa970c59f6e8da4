import Verif.Props.Connector
import Verif.Props.Factory
import Verif.Props.Logins
import Verif.Props.ServerMain
import Verif.Props.ToolFlags
/-!
# C74–C80: the command-line tool
-/

namespace Verif
open Spec

/-- An option of the subcommand was given with this value. -/
def Spec.Given (args : List Bytes) (key : String) (v : Bytes) : Prop := parseArgsToMap args (ascii key) = some v

/-! ## How runs are put together -/

theorem Run.after_fs (o : List Out) (r : Run) : (r.after o).fs = r.fs := rfl
theorem Run.after_exit (o : List Out) (r : Run) : (r.after o).exit = r.exit := rfl
theorem Run.after_out (o : List Out) (r : Run) : (r.after o).out = o ++ r.out := rfl

theorem orComplain_fs {α : Type} {fs : FS} {pl : String} {r : Res α} {k : α → Run} (h : ∀ x, (k x).fs = fs) :
    (orComplain fs pl r k).fs = fs := by
  unfold orComplain
  cases r with
  | ok x => exact h x
  | err e => rfl
  | panic => rfl
  | diverge => rfl

theorem orAsk_fs {fs : FS} {m : StrMap} {key msg : Bytes} {k : Bytes → Run} (h : ∀ x, (k x).fs = fs) : (orAsk fs m key msg k).fs = fs := by
  unfold orAsk
  cases m key with
  | some x => exact h x
  | none => rfl

theorem withDB_fs {fs : FS} {cwd : Path} {o : ToolOptions} {k : Option DB → Run} (h : ∀ x, (k x).fs = fs) :
    (withDB fs cwd o k).fs = fs := by
  unfold withDB
  cases openDB fs cwd o with
  | ok x => exact h _
  | err e => exact h _
  | panic => rfl
  | diverge => rfl

/-- No status but 0. -/
def Run.Zero (r : Run) : Prop := ∀ n, r.exit = .status n → n = 0

theorem orComplain_zero {α : Type} {fs : FS} {pl : String} {r : Res α} {k : α → Run} (h : ∀ x, (k x).Zero) :
    (orComplain fs pl r k).Zero := by
  unfold orComplain
  cases r with
  | ok x => exact h x
  | err e => intro n hn; injection hn with e; exact e.symm
  | panic => intro n hn; cases hn
  | diverge => intro n hn; cases hn

theorem orAsk_zero {fs : FS} {m : StrMap} {key msg : Bytes} {k : Bytes → Run} (h : ∀ x, (k x).Zero) : (orAsk fs m key msg k).Zero := by
  unfold orAsk
  cases m key with
  | some x => exact h x
  | none => intro n hn; injection hn with e; exact e.symm

theorem withDB_zero {fs : FS} {cwd : Path} {o : ToolOptions} {k : Option DB → Run} (h : ∀ x, (k x).Zero) : (withDB fs cwd o k).Zero := by
  unfold withDB
  cases openDB fs cwd o with
  | ok x => exact h _
  | err e => exact h none
  | panic => intro n hn; cases hn
  | diverge => intro n hn; cases hn

theorem zero_of {o : List Out} {fs : FS} : (Run.mk o fs (.status 0)).Zero := by
  intro n hn; injection hn with e; exact e.symm

theorem Run.Zero.after {r : Run} (h : r.Zero) (o : List Out) : (r.after o).Zero := h

/-! ## C74: which directory -/

theorem chkIsDir_ok (fs : FS) (cwd : Path) (p : Bytes) : chkIsDir fs cwd p = .ok () ↔ IsDir fs cwd p := by
  unfold chkIsDir
  constructor
  · intro h
    obtain ⟨l, h1, h2⟩ := Res.bind_eq_ok.mp h
    refine ⟨l, h1, ?_⟩
    cases hg : fs.get l with
    | none => rw [hg] at h2; cases h2
    | some n =>
      cases n with
      | dir => rfl
      | file d => rw [hg] at h2; cases h2
  · rintro ⟨l, h1, h2⟩
    rw [h1, Res.ok_bind, h2]

theorem dsnHome_takeWhile (h : Bytes) : dsnHome (ascii "file://" ++ h) = h.takeWhile (· ≠ 63) := by
  by_cases h0 : (63 : UInt8) ∈ h
  · have hd : h.dropWhile (· ≠ 63) ≠ [] := by
      intro e
      have := List.takeWhile_append_dropWhile (p := fun x : UInt8 => decide (x ≠ 63)) (l := h)
      rw [e, List.append_nil] at this
      rw [← this] at h0
      exact not_mem_takeWhile' 63 h0
    cases hx : h.dropWhile (· ≠ 63) with
    | nil => exact absurd hx hd
    | cons x v =>
      obtain ⟨h1, h2⟩ := dropWhile_split hx
      have hx : x = 63 := by simpa using h2
      subst hx
      conv => lhs; rw [h1, ← List.append_assoc]
      exact C31_home.2.1 _ _ (not_mem_takeWhile' 63)
  · rw [C31_home.1 h h0]
    symm
    have : h.dropWhile (· ≠ 63) = [] := by
      cases hx : h.dropWhile (· ≠ 63) with
      | nil => rfl
      | cons x v =>
        obtain ⟨h1, h2⟩ := dropWhile_split hx
        have hx : x = 63 := by simpa using h2
        subst hx
        exact absurd (by rw [h1]; simp) h0
    exact takeWhile_none this

/-- **C74**, exactly: the tool works iff the driver is `pttbbs` and the directory exists — and then on the directory named by the text
before the first `?`. -/
theorem C74_exact (fs : FS) (cwd : Path) (o : ToolOptions) (db : DB) : openDB fs cwd o = .ok db ↔
    o.driver = ascii "pttbbs" ∧ IsDir fs cwd o.home ∧ db = ⟨o.home.takeWhile (· ≠ 63), cwd⟩ := by
  have hopen : toolOpen cwd o = if o.driver = ascii "pttbbs" then .ok ⟨o.home.takeWhile (· ≠ 63), cwd⟩ else
      .err "bbs: drivername not found" := by
    unfold toolOpen Registry.openDB toolRegistry Registry.register
    by_cases hd : o.driver = ascii "pttbbs"
    · simp only [hd, if_true, Res.ok_bind, dsnHome_takeWhile]
    · simp only [if_neg hd]
      rfl
  unfold openDB
  constructor
  · intro h
    obtain ⟨⟨⟩, h1, h2⟩ := Res.bind_eq_ok.mp h
    rw [hopen] at h2
    split at h2
    · rename_i hd
      exact ⟨hd, (chkIsDir_ok _ _ _).mp h1, (Res.ok.inj h2).symm⟩
    · cases h2
  · rintro ⟨h1, h2, rfl⟩
    rw [(chkIsDir_ok _ _ _).mpr h2, Res.ok_bind, hopen, if_pos h1]

theorem openDB_cases (fs : FS) (cwd : Path) (o : ToolOptions) : (∃ db, openDB fs cwd o = .ok db) ∨ ∃ e, openDB fs cwd o = .err e := by
  unfold openDB chkIsDir toolOpen Registry.openDB
  rcases lookup_cases fs cwd o.home with ⟨l, hl⟩ | ⟨e, he⟩
  · rw [hl, Res.ok_bind]
    cases fs.get l with
    | none => exact .inr ⟨_, rfl⟩
    | some n =>
      cases n with
      | file d => exact .inr ⟨_, rfl⟩
      | dir =>
        rw [Res.ok_bind]
        cases toolRegistry.drivers o.driver with
        | none => exact .inr ⟨_, rfl⟩
        | some k => exact .inl ⟨_, rfl⟩
  · rw [he]
    exact .inr ⟨_, rfl⟩

/-- The full claim of C74: the tool works on the directory it checked. -/
def Spec.ToolUsesHome : Prop :=
  ∀ (fs : FS) (cwd : Path) (o : ToolOptions) (db : DB), openDB fs cwd o = .ok db → db.home = o.home

/-- **C74** (partial: directories without `?`). -/
theorem C74_home_partial (fs : FS) (cwd : Path) (o : ToolOptions) (db : DB) (hq : 63 ∉ o.home) (h : openDB fs cwd o = .ok db) :
    db.home = o.home := by
  obtain ⟨_, _, rfl⟩ := (C74_exact _ _ _ _).mp h
  show o.home.takeWhile (· ≠ 63) = o.home
  rw [← dsnHome_takeWhile, C31_home.1 _ hq]

/-- **C74 is false of the code**: a directory called `a?b` is checked, the directory `a` is used. -/
theorem C74_home_refuted : ¬ Spec.ToolUsesHome := by
  intro h
  have hd : IsDir ⟨[([ascii "a?b"], .dir)]⟩ [] (ascii "/a?b") := ⟨[ascii "a?b"], by decide +kernel, by decide +kernel⟩
  have := h ⟨[([ascii "a?b"], .dir)]⟩ [] ⟨ascii "pttbbs", ascii "/a?b"⟩ _ ((C74_exact _ _ _ _).mpr ⟨rfl, hd, rfl⟩)
  revert this
  decide

example : openDB sampleFS [] ⟨ascii "pttbbs", ascii "/bbs"⟩ = .ok sampleDB :=
  (C74_exact _ _ _ _).mpr ⟨rfl, ⟨[ascii "bbs"], by decide +kernel, by decide +kernel⟩, by decide⟩

/-! ## C75: what is changed -/

/-- The subcommand of a command line. -/
def Spec.Subcommand (argv : List Bytes) (o : ToolOptions) (args : List Bytes) (cmd : Bytes) : Prop :=
  Flags .default argv (.parsed o args) ∧ args.head? = some cmd

theorem toolMain_parsed {c : Codec} {cwd : Path} {fs : FS} {argv : List Bytes} {draw : Nat → Int × Fin 4096} {fuel : Nat} {o : ToolOptions}
    {args : List Bytes} (h : Flags .default argv (.parsed o args)) :
    toolMain c cwd fs argv draw fuel = Run.after (toolBanner o args) (toolCommand c cwd fs o args draw fuel) := by
  unfold toolMain
  rw [(C73_flags _ _ _).mpr h]

/-- **C75.** Only `add_board` and `add_board_article` change anything on the disk. -/
theorem C75_read_only (c : Codec) (cwd : Path) (fs : FS) (argv : List Bytes) (draw : Nat → Int × Fin 4096) (fuel : Nat)
    (h : ∀ o args, ¬ Subcommand argv o args (ascii "add_board") ∧ ¬ Subcommand argv o args (ascii "add_board_article")) :
    (toolMain c cwd fs argv draw fuel).fs = fs := by
  unfold toolMain
  cases hp : parseFlags .default argv with
  | help => rfl
  | bad => rfl
  | parsed o args =>
    have hf := (C73_flags _ _ _).mp hp
    have hh : ∀ s, ¬ Subcommand argv o args s → s ≠ [] → args.headD [] ≠ s := by
      intro s hs hne e
      cases args with
      | nil => exact hne e.symm
      | cons a as => exact hs ⟨hf, by rw [← e]; rfl⟩
    rw [Run.after_fs]
    unfold toolCommand
    simp only [if_neg (hh _ (h o args).1 (by decide)), if_neg (hh _ (h o args).2 (by decide))]
    repeat' split
    · exact orComplain_fs fun _ => orComplain_fs fun _ => orComplain_fs fun _ => rfl
    · exact orComplain_fs fun _ => orComplain_fs fun _ => orComplain_fs fun _ => rfl
    · exact orComplain_fs fun _ => orComplain_fs fun _ => by rw [Run.after_fs]; exact orComplain_fs fun _ => orComplain_fs fun _ => rfl
    · exact orComplain_fs fun _ => orComplain_fs fun _ => by rw [Run.after_fs]; exact orComplain_fs fun _ => orComplain_fs fun _ => rfl
    · exact withDB_fs fun _ => by rw [Run.after_fs]; exact orAsk_fs fun _ => orComplain_fs fun _ => rfl
    · exact withDB_fs fun _ => by rw [Run.after_fs]; exact orAsk_fs fun _ => orAsk_fs fun _ => orComplain_fs fun _ => rfl
    · rfl

example : Subcommand [ascii "--bbshome=/bbs", ascii "show_board_list"] ⟨ascii "pttbbs", ascii "/bbs"⟩ [ascii "show_board_list"]
    (ascii "show_board_list") := ⟨(C73_flags _ _ _).mp (by decide +kernel), rfl⟩

/-! ## C76: the exit status -/

/-- The full claim of C76: status 0 means that nothing went wrong. -/
def Spec.StatusTells : Prop :=
  ∀ (c : Codec) (cwd : Path) (fs : FS) (argv : List Bytes) (draw : Nat → Int × Fin 4096) (fuel : Nat),
    (toolMain c cwd fs argv draw fuel).exit = .status 0 →
    ∀ x ∈ (toolMain c cwd fs argv draw fuel).out, ∀ p e, x ≠ .complaint p e

theorem toolCommand_zero (c : Codec) (cwd : Path) (fs : FS) (o : ToolOptions) (args : List Bytes) (draw : Nat → Int × Fin 4096)
    (fuel : Nat) : (toolCommand c cwd fs o args draw fuel).Zero := by
  unfold toolCommand
  simp only
  repeat' split
  · exact orComplain_zero fun _ => orComplain_zero fun _ => orComplain_zero fun _ => zero_of
  · exact orComplain_zero fun _ => orComplain_zero fun _ => Run.Zero.after (orComplain_zero fun _ => orComplain_zero fun _ => zero_of) _
  · exact orComplain_zero fun _ => orComplain_zero fun _ => orComplain_zero fun _ => zero_of
  · exact orComplain_zero fun _ => orComplain_zero fun _ => Run.Zero.after (orComplain_zero fun _ => orComplain_zero fun _ => zero_of) _
  · exact orComplain_zero fun _ => orComplain_zero fun _ => Run.Zero.after (orComplain_zero fun _ => orComplain_zero fun _ => zero_of) _
  · exact withDB_zero fun _ => Run.Zero.after (orAsk_zero fun _ => orComplain_zero fun _ => zero_of) _
  · exact withDB_zero fun _ => Run.Zero.after (orAsk_zero fun _ => orAsk_zero fun _ => orAsk_zero fun _ => orAsk_zero fun _ =>
      Run.Zero.after (orComplain_zero fun _ => orComplain_zero fun _ => orComplain_zero fun _ => orComplain_zero fun _ => zero_of) _) _
  · exact withDB_zero fun _ => Run.Zero.after (orAsk_zero fun _ => orAsk_zero fun _ => orComplain_zero fun _ => zero_of) _
  · exact zero_of

/-- **C76**, what the status tells (partial: it tells nothing about the work): it is 2 iff the options are wrong, and otherwise 0 — or
the program crashes or hangs. -/
theorem C76_status_partial (c : Codec) (cwd : Path) (fs : FS) (argv : List Bytes) (draw : Nat → Int × Fin 4096) (fuel : Nat) :
    (∀ n, (toolMain c cwd fs argv draw fuel).exit = .status n → n = 0 ∨ n = 2) ∧
    ((toolMain c cwd fs argv draw fuel).exit = .status 2 ↔ Flags .default argv .bad) := by
  unfold toolMain
  rw [← C73_flags]
  cases hp : parseFlags .default argv with
  | help => simp
  | bad => simp
  | parsed o args =>
    simp only [Run.after_exit]
    have hz := toolCommand_zero c cwd fs o args draw fuel
    refine ⟨fun n hn => .inl (hz n hn), fun h => ?_, fun h => by cases h⟩
    have := hz 2 h
    omega

/-- **C76 is false of the code**: without a home directory the tool complains and reports success. -/
theorem C76_status_refuted : ¬ Spec.StatusTells := by
  intro h
  have := h asciiCodec [] ⟨[]⟩ [ascii "show_board_list"] (fun _ => (0, 0)) 0 (by decide +kernel)
    (.complaint "showboardlist: error" "no such file or directory") (by decide +kernel)
  exact this _ _ rfl

/-! ## C77: crashes -/

theorem orComplain_crash {α : Type} {fs : FS} {pl : String} {r : Res α} {k : α → Run} :
    (orComplain fs pl r k).exit = .crash ↔ r = .panic ∨ ∃ x, r = .ok x ∧ (k x).exit = .crash := by
  unfold orComplain
  cases r <;> simp

theorem orAsk_crash {fs : FS} {m : StrMap} {key msg : Bytes} {k : Bytes → Run} :
    (orAsk fs m key msg k).exit = .crash ↔ ∃ x, m key = some x ∧ (k x).exit = .crash := by
  unfold orAsk
  cases m key <;> simp

theorem withDB_crash {fs : FS} {cwd : Path} {o : ToolOptions} {k : Option DB → Run} :
    (withDB fs cwd o k).exit = .crash ↔
      (∃ db, openDB fs cwd o = .ok db ∧ (k (some db)).exit = .crash) ∨ (∃ e, openDB fs cwd o = .err e ∧ (k none).exit = .crash) := by
  unfold withDB
  rcases openDB_cases fs cwd o with ⟨db, h⟩ | ⟨e, h⟩ <;> rw [h] <;> simp [Run.after_exit]

/-- A reader of whole files never panics. -/
theorem listReader_ne_panic {α : Type} {size : Nat} (hs : 0 < size) {parse : Bytes → Res α} {p : Bytes → α}
    (hp : ∀ b, b.length = size → parse b = .ok (p b)) (fs : FS) (cwd : Path) (path : Bytes) :
    (fs.lookup cwd path >>= fun l => match fs.get l with
      | none => .err "no such file or directory"
      | some .dir => .diverge
      | some (.file d) => readFile size parse (some d)) ≠ .panic := by
  rcases lookup_cases fs cwd path with ⟨l, hl⟩ | ⟨e, he⟩
  · rw [hl, Res.ok_bind]
    cases fs.get l with
    | none => simp
    | some n =>
      cases n with
      | dir => simp
      | file d =>
        simp only
        rw [readFile_slots hs hp d]
        simp
  · rw [he, Res.err_bind]
    simp

theorem readBoardRecords_ne_panic (db : DB) (c : Codec) (fs : FS) : db.readBoardRecords c fs ≠ .panic :=
  listReader_ne_panic (size := 256) (by omega) (BoardHeader.unmarshal_eq c) fs db.cwd (db.home ++ ascii "/.BRD")

theorem readUserRecords_ne_panic (db : DB) (c : Codec) (fs : FS) : db.readUserRecords c fs ≠ .panic :=
  listReader_ne_panic (size := 512) (by omega) (Userec.unmarshal_eq c) fs db.cwd (db.home ++ ascii "/.PASSWDS")

theorem readArticleRecords_panic (db : DB) (c : Codec) (fs : FS) (board : Bytes) :
    db.readArticleRecords c fs board = .panic ↔ board = [] := by
  constructor
  · intro h
    refine Decidable.byContradiction fun hb => ?_
    rw [DB.readArticleRecords, indexPath_of hb, Res.ok_bind] at h
    have := listReader_ne_panic (size := 128) (by omega) (FileHeader.unmarshal_eq c) fs db.cwd (indexPath db.home board)
    have e : db.openArticleList c fs (indexPath db.home board) ≠ .panic := this
    split at h
    · split at h <;> cases h
    · exact e h
  · rintro rfl
    rfl

theorem readBoardArticleFile_panic (db : DB) (fs : FS) (board file : Bytes) :
    db.readBoardArticleFile fs board file = .panic ↔ board = [] := by
  constructor
  · intro h
    refine Decidable.byContradiction fun hb => ?_
    rw [DB.readBoardArticleFile, articlePath_of _ hb, Res.ok_bind, FS.readFile] at h
    rcases lookup_cases fs db.cwd (articlePath db.home board file) with ⟨l, hl⟩ | ⟨e, he⟩
    · rw [hl, Res.ok_bind] at h
      revert h
      cases fs.get l with
      | none => simp
      | some n => cases n <;> simp
    · rw [he] at h
      cases h
  · rintro rfl
    rfl

theorem createFilename_panic (db : DB) (fs : FS) (board : Bytes) (draw : Nat → Int × Fin 4096) (fuel k : Nat) :
    db.createFilename fs board draw fuel k = .panic ↔ board = [] ∧ 0 < fuel := by
  constructor
  · intro h
    induction fuel generalizing k with
    | zero => cases h
    | succ f ih =>
      refine ⟨?_, by omega⟩
      refine Decidable.byContradiction fun hb => ?_
      rw [DB.createFilename] at h
      simp only [articlePath_of _ hb, Res.ok_bind] at h
      split at h
      · cases h
      · exact hb (ih _ h).1
  · rintro ⟨rfl, hf⟩
    cases fuel with
    | zero => omega
    | succ f => rfl

theorem addArticleRecord_panic (db : DB) (c : Codec) (fs : FS) (board : Bytes) (r : FileHeader) :
    db.addArticleRecord c fs board r = .panic ↔ board = [] := by
  constructor
  · intro h
    refine Decidable.byContradiction fun hb => ?_
    rw [DB.addArticleRecord, indexPath_of hb, Res.ok_bind, FS.appendCreate, FS.openCreate] at h
    rcases lookup_cases fs db.cwd (indexPath db.home board) with ⟨l, hl⟩ | ⟨e, he⟩
    · rw [hl, Res.ok_bind] at h
      revert h
      cases fs.get l with
      | none => simp
      | some n => cases n <;> simp
    · rw [he] at h
      cases h
  · rintro rfl
    rfl

theorem writeBoardArticleFile_panic (db : DB) (fs : FS) (board file content : Bytes) :
    db.writeBoardArticleFile fs board file content = .panic ↔ board = [] := by
  constructor
  · intro h
    refine Decidable.byContradiction fun hb => ?_
    rw [DB.writeBoardArticleFile, articlePath_of _ hb, Res.ok_bind, FS.overwrite, FS.openCreate] at h
    rcases lookup_cases fs db.cwd (articlePath db.home board file) with ⟨l, hl⟩ | ⟨e, he⟩
    · rw [hl, Res.ok_bind] at h
      revert h
      cases fs.get l with
      | none => simp
      | some n => cases n <;> simp
    · rw [he] at h
      cases h
  · rintro rfl
    rfl

theorem readFile_ne_panic (fs : FS) (cwd : Path) (p : Bytes) : fs.readFile cwd p ≠ .panic := by
  unfold FS.readFile
  rcases lookup_cases fs cwd p with ⟨l, hl⟩ | ⟨e, he⟩
  · rw [hl, Res.ok_bind]
    cases fs.get l with
    | none => simp
    | some n => cases n <;> simp
  · rw [he]
    simp

theorem addBoardRecord_ne_panic (db : DB) (c : Codec) (fs : FS) (r : BoardHeader) : db.addBoardRecord c fs r ≠ .panic := by
  simp only [DB.addBoardRecord, getBoardPath, Res.ok_bind, FS.appendCreate, FS.openCreate]
  rcases lookup_cases fs db.cwd (db.home ++ ascii "/.BRD") with ⟨l, hl⟩ | ⟨e, he⟩
  · rw [hl, Res.ok_bind]
    cases fs.get l with
    | none => simp
    | some n => cases n <;> simp
  · rw [he]
    simp

theorem newBoardRecord_ne_panic (args : Args) : newBoardRecord args ≠ .panic := by
  by_cases h1 : ∃ s, Holds args (ascii "board_id") s
  · obtain ⟨s, hs⟩ := h1
    by_cases h2 : ∃ t, Holds args (ascii "title") t
    · obtain ⟨t, ht⟩ := h2
      rw [(C67_exact args _).mpr ⟨s, t, hs, ht, rfl⟩]
      simp
    · rw [(C67_errors args).2 s hs (fun t ht => h2 ⟨t, ht⟩)]
      simp
  · rw [(C67_errors args).1 (fun s hs => h1 ⟨s, hs⟩)]
    simp

/-- A board list in which a board without a name comes up for searching: everything before it is skipped or has been read. -/
def Spec.StumblesOn (ok : BoardHeader → Prop) (bs : List BoardHeader) : Prop :=
  ∃ pre b post, bs = pre ++ b :: post ∧ b.brdName = [] ∧ ∀ x ∈ pre, x.brdName = ascii "ALLPOST" ∨ ok x

theorem StumblesOn.skip {ok : BoardHeader → Prop} {b : BoardHeader} {bs : List BoardHeader}
    (h1 : b.brdName ≠ []) : StumblesOn ok (b :: bs) ↔ (b.brdName = ascii "ALLPOST" ∨ ok b) ∧ StumblesOn ok bs := by
  constructor
  · rintro ⟨pre, x, post, h2, h3, h4⟩
    cases pre with
    | nil =>
      injection h2 with e _
      subst e
      exact absurd h3 h1
    | cons p pre =>
      injection h2 with e1 e2
      subst e1
      exact ⟨h4 _ List.mem_cons_self, pre, x, post, e2, h3, fun y hy => h4 y (List.mem_cons_of_mem _ hy)⟩
  · rintro ⟨h2, pre, x, post, rfl, h3, h4⟩
    exact ⟨b :: pre, x, post, rfl, h3, fun y hy => by
      rcases List.mem_cons.mp hy with e | hy
      · subst e; exact h2
      · exact h4 y hy⟩

/-- A user's articles: the exact condition for a crash. -/
theorem userArticles_panic (db : DB) (c : Codec) (fs : FS) (user : Bytes) : db.userArticles c fs user = .panic ↔
    ∃ bs, db.readBoardRecords c fs = .ok bs ∧ StumblesOn (fun x => ∃ ars, db.readArticleRecords c fs x.brdName = .ok ars) bs := by
  have loop : ∀ bs, db.userArticleLoop c fs user bs = .panic ↔
      StumblesOn (fun x => ∃ ars, db.readArticleRecords c fs x.brdName = .ok ars) bs := by
    intro bs
    induction bs with
    | nil =>
      constructor
      · intro h; cases h
      · rintro ⟨pre, b, post, h, _⟩
        cases pre <;> cases h
    | cons b bs ih =>
      by_cases hb : b.brdName = []
      · constructor
        · intro _
          exact ⟨[], b, bs, rfl, hb, by simp⟩
        · intro _
          rw [DB.userArticleLoop, if_neg (by rw [hb]; decide), (readArticleRecords_panic db c fs _).mpr hb]
          rfl
      · rw [StumblesOn.skip hb, ← ih, DB.userArticleLoop]
        by_cases hs : b.brdName = ascii "ALLPOST"
        · rw [if_pos (by simp [DB.shouldSkip, hs])]
          exact ⟨fun h => ⟨.inl hs, h⟩, fun h => h.2⟩
        · rw [if_neg (by simp [DB.shouldSkip, hs])]
          have hnp : db.readArticleRecords c fs b.brdName ≠ .panic := fun h => hb ((readArticleRecords_panic db c fs _).mp h)
          cases hr : db.readArticleRecords c fs b.brdName with
          | ok ars =>
            rw [Res.ok_bind]
            constructor
            · intro h
              refine ⟨.inr ⟨ars, rfl⟩, ?_⟩
              cases hl : db.userArticleLoop c fs user bs with
              | panic => rfl
              | ok y => rw [hl] at h; cases h
              | err e => rw [hl] at h; cases h
              | diverge => rw [hl] at h; cases h
            · rintro ⟨_, h⟩
              rw [h]
              rfl
          | err e => simp [hs]
          | panic => exact absurd hr hnp
          | diverge => simp [hs]
  unfold DB.userArticles
  cases hr : db.readBoardRecords c fs with
  | ok bs =>
    rw [Res.ok_bind, loop]
    exact ⟨fun h => ⟨bs, rfl, h⟩, fun ⟨_, e, h⟩ => by cases e; exact h⟩
  | err e => simp
  | panic => exact absurd hr (readBoardRecords_ne_panic db c fs)
  | diverge => simp

/-- Parsing one line as a comment gives a comment or an error. -/
theorem parseUserComment_returns (data : Bytes) : (parseUserComment data).Returns := by
  unfold parseUserComment
  split
  · trivial
  · simp only
    split
    · trivial
    · refine (timeParse_returns _ _).bind fun t => ?_
      split <;> trivial

theorem commentLoop_returns (board file : Bytes) (ls : List Bytes) (n : UInt32) : (commentLoop board file n ls).Returns := by
  induction ls generalizing n with
  | nil => trivial
  | cons l ls ih =>
    unfold commentLoop
    have h : (newUserComment n (filterANSI l) board file).Returns := (parseUserComment_returns _).bind fun _ => trivial
    cases hr : newUserComment n (filterANSI l) board file with
    | ok cr => exact (ih _).bind fun _ => trivial
    | err e =>
      simp only
      split
      · exact ih _
      · trivial
    | panic => rw [hr] at h; exact h
    | diverge => rw [hr] at h; exact h

/-- **C34**, the comments of an article: reading them gives a list or an error, whatever the article contains. -/
theorem C34_returns (board file content : Bytes) : (articleComments board file content).Returns := commentLoop_returns _ _ _ _

theorem boardUserComments_panic (db : DB) (c : Codec) (fs : FS) (board user : Bytes) :
    db.boardUserComments c fs board user = .panic ↔ board = [] := by
  have loop : board ≠ [] → ∀ ars, db.boardUserCommentLoop fs board user ars ≠ .panic := by
    intro hb ars
    induction ars with
    | nil => intro h; cases h
    | cons ar ars ih =>
      intro h
      unfold DB.boardUserCommentLoop DB.boardArticleComments at h
      cases hr : db.readBoardArticleFile fs board ar.filename with
      | panic => exact hb ((readBoardArticleFile_panic _ _ _ _).mp hr)
      | err e => rw [hr] at h; cases h
      | diverge => rw [hr] at h; cases h
      | ok d =>
        rw [hr, Res.ok_bind] at h
        have hc := C34_returns board ar.filename d
        cases ha : articleComments board ar.filename d with
        | panic => rw [ha] at hc; exact hc
        | diverge => rw [ha] at hc; exact hc
        | err e => rw [ha] at h; cases h
        | ok crs =>
          rw [ha, Res.ok_bind] at h
          cases hl : db.boardUserCommentLoop fs board user ars with
          | panic => exact ih hl
          | err e => rw [hl] at h; cases h
          | diverge => rw [hl] at h; cases h
          | ok d => rw [hl] at h; cases h
  constructor
  · intro h
    refine Decidable.byContradiction fun hb => ?_
    unfold DB.boardUserComments at h
    cases hr : db.readArticleRecords c fs board with
    | panic => exact hb ((readArticleRecords_panic _ _ _ _).mp hr)
    | err e => rw [hr] at h; cases h
    | diverge => rw [hr] at h; cases h
    | ok ars =>
      rw [hr, Res.ok_bind] at h
      exact loop hb ars h
  · rintro rfl
    rfl

/-- A user's comments: the exact condition for a crash. -/
theorem userComments_panic (db : DB) (c : Codec) (fs : FS) (user : Bytes) : db.userComments c fs user = .panic ↔
    ∃ bs, db.readBoardRecords c fs = .ok bs ∧ StumblesOn (fun x => ∃ cs, db.boardUserComments c fs x.brdName user = .ok cs) bs := by
  have loop : ∀ bs, db.userCommentLoop c fs user bs = .panic ↔
      StumblesOn (fun x => ∃ cs, db.boardUserComments c fs x.brdName user = .ok cs) bs := by
    intro bs
    induction bs with
    | nil =>
      constructor
      · intro h; cases h
      · rintro ⟨pre, b, post, h, _⟩
        cases pre <;> cases h
    | cons b bs ih =>
      by_cases hb : b.brdName = []
      · constructor
        · intro _
          exact ⟨[], b, bs, rfl, hb, by simp⟩
        · intro _
          rw [DB.userCommentLoop, if_neg (by rw [hb]; decide), (boardUserComments_panic db c fs _ user).mpr hb]
          rfl
      · rw [StumblesOn.skip hb, ← ih, DB.userCommentLoop]
        by_cases hs : b.brdName = ascii "ALLPOST"
        · rw [if_pos (by simp [DB.shouldSkip, hs])]
          exact ⟨fun h => ⟨.inl hs, h⟩, fun h => h.2⟩
        · rw [if_neg (by simp [DB.shouldSkip, hs])]
          have hnp : db.boardUserComments c fs b.brdName user ≠ .panic := fun h => hb ((boardUserComments_panic db c fs _ _).mp h)
          cases hr : db.boardUserComments c fs b.brdName user with
          | ok ars =>
            rw [Res.ok_bind]
            constructor
            · intro h
              refine ⟨.inr ⟨ars, rfl⟩, ?_⟩
              cases hl : db.userCommentLoop c fs user bs with
              | panic => rfl
              | ok y => rw [hl] at h; cases h
              | err e => rw [hl] at h; cases h
              | diverge => rw [hl] at h; cases h
            · rintro ⟨_, h⟩
              rw [h]
              rfl
          | err e => simp [hs]
          | panic => exact absurd hr hnp
          | diverge => simp [hs]
  unfold DB.userComments
  cases hr : db.readBoardRecords c fs with
  | ok bs =>
    rw [Res.ok_bind, loop]
    exact ⟨fun h => ⟨bs, rfl, h⟩, fun ⟨_, e, h⟩ => by cases e; exact h⟩
  | err e => simp
  | panic => exact absurd hr (readBoardRecords_ne_panic db c fs)
  | diverge => simp

/-- The full claim of C77: no command line makes the tool crash. -/
def Spec.ToolNeverCrashes : Prop :=
  ∀ (c : Codec) (cwd : Path) (fs : FS) (argv : List Bytes) (draw : Nat → Int × Fin 4096) (fuel : Nat),
    (toolMain c cwd fs argv draw fuel).exit ≠ .crash

/-- The text of the article to post can be had. -/
def Spec.ContentIs (fs : FS) (cwd : Path) (args : List Bytes) (x : Bytes) : Prop :=
  Given args "content" x ∨ (∀ y, ¬ Given args "content" y) ∧ ∃ f, (Given args "content_file" f ∨ (∀ y, ¬ Given args "content_file" y) ∧ f = []) ∧
    fs.readFile cwd f = .ok x

/-- When a subcommand crashes. -/
inductive Spec.Crashes (c : Codec) (cwd : Path) (fs : FS) (o : ToolOptions) (args : List Bytes) : Prop
  | noUser (h : args.head? = some (ascii "show_user_article_list") ∨ args.head? = some (ascii "show_user_comment_list")) (db : DB)
      (ho : openDB fs cwd o = .ok db) (hu : ∀ u, ¬ Given args "user_id" u)
  | articles (h : args.head? = some (ascii "show_user_article_list")) (db : DB) (ho : openDB fs cwd o = .ok db) (bs : List BoardHeader)
      (hb : db.readBoardRecords c fs = .ok bs) (hs : StumblesOn (fun x => ∃ ars, db.readArticleRecords c fs x.brdName = .ok ars) bs)
  | comments (h : args.head? = some (ascii "show_user_comment_list")) (db : DB) (ho : openDB fs cwd o = .ok db) (u : Bytes)
      (hu : Given args "user_id" u) (bs : List BoardHeader) (hb : db.readBoardRecords c fs = .ok bs)
      (hs : StumblesOn (fun x => ∃ cs, db.boardUserComments c fs x.brdName u = .ok cs) bs)
  | list (h : args.head? = some (ascii "show_board_article_list")) (b : Bytes) (hb : Given args "board" b)
      (hx : b = [] ∨ ∀ db, openDB fs cwd o ≠ .ok db)
  | show (h : args.head? = some (ascii "show_board_article")) (b f : Bytes) (hb : Given args "board" b) (hf : Given args "filename" f)
      (hx : b = [] ∨ ∀ db, openDB fs cwd o ≠ .ok db)
  | add (h : args.head? = some (ascii "add_board_article")) (b ow d t x : Bytes) (hb : Given args "board" b) (ho : Given args "owner" ow)
      (hd : Given args "date" d) (ht : Given args "title" t) (hc : ContentIs fs cwd args x) (hx : b = [] ∨ ∀ db, openDB fs cwd o ≠ .ok db)

theorem must_panic (m : StrMap) (k : Bytes) : m.must k = .panic ↔ m k = none := by
  unfold StrMap.must
  cases m k <;> simp

theorem must_ok (m : StrMap) (k x : Bytes) : m.must k = .ok x ↔ m k = some x := by
  unfold StrMap.must
  cases m k <;> simp

theorem none_given (args : List Bytes) (k : String) : parseArgsToMap args (ascii k) = none ↔ ∀ u, ¬ Given args k u := by
  unfold Given
  cases parseArgsToMap args (ascii k) <;> simp

theorem openDB_split (fs : FS) (cwd : Path) (o : ToolOptions) (db : DB) :
    openDB fs cwd o = .ok db ↔ chkIsDir fs cwd o.home = .ok () ∧ toolOpen cwd o = .ok db := by
  unfold openDB
  rw [Res.bind_eq_ok]
  exact ⟨fun ⟨⟨⟩, h⟩ => h, fun h => ⟨(), h⟩⟩

theorem chkIsDir_ne_panic (fs : FS) (cwd : Path) (p : Bytes) : chkIsDir fs cwd p ≠ .panic := by
  unfold chkIsDir
  rcases lookup_cases fs cwd p with ⟨l, hl⟩ | ⟨e, he⟩
  · rw [hl, Res.ok_bind]
    cases fs.get l with
    | none => simp
    | some n => cases n <;> simp
  · rw [he]
    simp

theorem toolOpen_ne_panic (cwd : Path) (o : ToolOptions) : toolOpen cwd o ≠ .panic := by
  unfold toolOpen Registry.openDB
  cases toolRegistry.drivers o.driver with
  | none => intro h; cases h
  | some k => intro h; cases h

/-- Opening as the older subcommands do it. -/
theorem opened_crash {fs : FS} {cwd : Path} {o : ToolOptions} {p q : String} {k : DB → Run} :
    (orComplain fs p (chkIsDir fs cwd o.home) fun _ => orComplain fs q (toolOpen cwd o) k).exit = .crash ↔
      ∃ db, openDB fs cwd o = .ok db ∧ (k db).exit = .crash := by
  simp only [orComplain_crash, chkIsDir_ne_panic, toolOpen_ne_panic, false_or, openDB_split]
  constructor
  · rintro ⟨⟨⟩, h1, db, h2, h3⟩
    exact ⟨db, ⟨h1, h2⟩, h3⟩
  · rintro ⟨db, ⟨h1, h2⟩, h3⟩
    exact ⟨(), h1, db, h2, h3⟩

theorem createArticleRecord_panic (db : DB) (fs : FS) (board owner date title : Bytes) (draw : Nat → Int × Fin 4096) (fuel : Nat) :
    db.createArticleRecord fs board owner date title draw fuel = .panic ↔ board = [] ∧ 0 < fuel := by
  rw [← createFilename_panic db fs board draw fuel 0]
  unfold DB.createArticleRecord
  cases db.createFilename fs board draw fuel 0 <;> simp

theorem content_ok (fs : FS) (cwd : Path) (args : List Bytes) (x : Bytes) :
    articleText fs cwd (parseArgsToMap args) = .ok x ↔ ContentIs fs cwd args x := by
  unfold ContentIs Given articleText
  cases parseArgsToMap args (ascii "content") with
  | some y => simp
  | none =>
    simp only [reduceCtorEq, not_false_eq_true, implies_true, true_and, false_or]
    cases parseArgsToMap args (ascii "content_file") with
    | some f => simp
    | none => simp

theorem content_ne_panic (fs : FS) (cwd : Path) (args : List Bytes) :
    articleText fs cwd (parseArgsToMap args) ≠ .panic := by
  unfold articleText
  cases parseArgsToMap args (ascii "content") with
  | some y => simp
  | none => exact readFile_ne_panic _ _ _

theorem loaded_panic {α : Type} (r : Res (List α)) : loaded r = .panic ↔ r = .panic := by
  cases r <;> simp [loaded]

/-- **C77**, exactly, for every subcommand. -/
theorem C77_crash_command (c : Codec) (cwd : Path) (fs : FS) (o : ToolOptions) (args : List Bytes) (draw : Nat → Int × Fin 4096)
    (fuel : Nat) (hf : 0 < fuel) : (toolCommand c cwd fs o args draw fuel).exit = .crash ↔ Crashes c cwd fs o args := by
  have hcmd : ∀ s, s ≠ [] → (args.headD [] = s ↔ args.head? = some s) := by
    intro s hs
    cases args with
    | nil =>
      constructor
      · intro e; exact absurd e.symm hs
      · intro e; cases e
    | cons a as => simp
  have harticles : (showUserArticleList c cwd fs o args).exit = .crash ↔ ∃ db, openDB fs cwd o = .ok db ∧
      ((∀ u, ¬ Given args "user_id" u) ∨ ∃ bs, db.readBoardRecords c fs = .ok bs ∧
        StumblesOn (fun x => ∃ ars, db.readArticleRecords c fs x.brdName = .ok ars) bs) := by
    unfold showUserArticleList
    rw [opened_crash]
    simp only [Run.after_exit, orComplain_crash, must_panic, must_ok, none_given, userArticles_panic, reduceCtorEq, and_false,
      exists_false, or_false]
    constructor
    · rintro ⟨db, h1, h2 | ⟨u, h2, h3⟩⟩
      · exact ⟨db, h1, .inl h2⟩
      · exact ⟨db, h1, .inr h3⟩
    · rintro ⟨db, h1, h2 | h2⟩
      · exact ⟨db, h1, .inl h2⟩
      · refine ⟨db, h1, ?_⟩
        by_cases hu : ∀ u, ¬ Given args "user_id" u
        · exact .inl hu
        · obtain ⟨u, hu⟩ := Classical.not_forall.mp hu
          exact .inr ⟨u, Classical.not_not.mp hu, h2⟩
  have hcomments : (showUserCommentList c cwd fs o args).exit = .crash ↔ ∃ db, openDB fs cwd o = .ok db ∧
      ((∀ u, ¬ Given args "user_id" u) ∨ ∃ u, Given args "user_id" u ∧ ∃ bs, db.readBoardRecords c fs = .ok bs ∧
        StumblesOn (fun x => ∃ cs, db.boardUserComments c fs x.brdName u = .ok cs) bs) := by
    unfold showUserCommentList
    rw [opened_crash]
    simp only [Run.after_exit, orComplain_crash, must_panic, must_ok, none_given, userComments_panic, reduceCtorEq, and_false,
      exists_false, or_false]
    rfl
  have hlist : (showBoardArticleList c cwd fs o args).exit = .crash ↔
      ∃ b, Given args "board" b ∧ (b = [] ∨ ∀ db, openDB fs cwd o ≠ .ok db) := by
    unfold showBoardArticleList
    rw [withDB_crash]
    simp only [Run.after_exit, orAsk_crash, orComplain_crash, loaded_panic, onDB, readArticleRecords_panic, reduceCtorEq, and_false,
      exists_false, or_false, and_true]
    rcases openDB_cases fs cwd o with ⟨db, h⟩ | ⟨e, h⟩ <;> simp [h, Given]
  have hshow : (showBoardArticle c cwd fs o args).exit = .crash ↔
      ∃ b f, Given args "board" b ∧ Given args "filename" f ∧ (b = [] ∨ ∀ db, openDB fs cwd o ≠ .ok db) := by
    unfold showBoardArticle
    simp only
    rw [withDB_crash]
    simp only [Run.after_exit, orAsk_crash, orComplain_crash, onDB, readBoardArticleFile_panic, reduceCtorEq, and_false,
      exists_false, or_false, and_true]
    rcases openDB_cases fs cwd o with ⟨db, h⟩ | ⟨e, h⟩ <;> simp [h, Given]
  have hadd : (addBoardArticle c cwd fs o args draw fuel).exit = .crash ↔
      ∃ b ow d t x, Given args "board" b ∧ Given args "owner" ow ∧ Given args "date" d ∧ Given args "title" t ∧
        ContentIs fs cwd args x ∧ (b = [] ∨ ∀ db, openDB fs cwd o ≠ .ok db) := by
    unfold addBoardArticle
    simp only
    rw [withDB_crash]
    simp only [Run.after_exit, orAsk_crash, orComplain_crash, onDB, content_ne_panic, content_ok, false_or, createArticleRecord_panic,
      addArticleRecord_panic, writeBoardArticleFile_panic, reduceCtorEq, and_false, exists_false, or_false, and_true, hf]
    rcases openDB_cases fs cwd o with ⟨db, h⟩ | ⟨e, h⟩
    · simp only [h, Res.ok.injEq, reduceCtorEq, false_and, exists_false, or_false, ne_eq, exists_eq_left']
      have hno : ∀ (p : FileHeader × FS) b ow d t, db.createArticleRecord fs b ow d t draw fuel = .ok p → b ≠ [] := by
        rintro p b ow d t hp rfl
        rw [(createArticleRecord_panic db fs [] ow d t draw fuel).mpr ⟨rfl, hf⟩] at hp
        cases hp
      constructor
      · rintro ⟨b, h1, ow, h2, d, h3, t, h4, x, h5, h6⟩
        refine ⟨b, ow, d, t, x, h1, h2, h3, h4, h5, .inl ?_⟩
        rcases h6 with h6 | ⟨p, hp, h6⟩
        · exact h6
        · rcases h6 with h6 | ⟨fs2, _, h6⟩
          · exact h6
          · exact h6
      · rintro ⟨b, ow, d, t, x, h1, h2, h3, h4, h5, h6⟩
        refine ⟨b, h1, ow, h2, d, h3, t, h4, x, h5, .inl ?_⟩
        rcases h6 with h6 | h6
        · exact h6
        · exact absurd rfl (h6 db)
    · simp [h, Given]
  have hb1 : (showBoardList c cwd fs o).exit ≠ .crash := by
    unfold showBoardList
    rw [ne_eq, opened_crash]
    simp [orComplain_crash, readBoardRecords_ne_panic]
  have hb2 : (showUserList c cwd fs o).exit ≠ .crash := by
    unfold showUserList
    rw [ne_eq, opened_crash]
    simp [orComplain_crash, readUserRecords_ne_panic]
  have hb3 : (addBoard c cwd fs o args).exit ≠ .crash := by
    unfold addBoard
    rw [ne_eq, opened_crash]
    simp [orComplain_crash, newBoardRecord_ne_panic, addBoardRecord_ne_panic, Run.after_exit]
  unfold toolCommand
  simp only
  have pat : ∀ {X Y : Bytes}, args.head? = some X → args.head? = some Y → X = Y :=
    fun h h' => Option.some.inj (h.symm.trans h')
  by_cases h1 : args.headD [] = ascii "show_board_list"
  · rw [if_pos h1]
    have h := (hcmd _ (by decide)).mp h1
    refine ⟨fun e => absurd e hb1, fun e => ?_⟩
    rcases e with ⟨h' | h', _⟩ | ⟨h', _⟩ | ⟨h', _⟩ | ⟨h', _⟩ | ⟨h', _⟩ | ⟨h', _⟩ <;> exact absurd (pat h h') (by decide)
  rw [if_neg h1]
  by_cases h2 : args.headD [] = ascii "add_board"
  · rw [if_pos h2]
    have h := (hcmd _ (by decide)).mp h2
    refine ⟨fun e => absurd e hb3, fun e => ?_⟩
    rcases e with ⟨h' | h', _⟩ | ⟨h', _⟩ | ⟨h', _⟩ | ⟨h', _⟩ | ⟨h', _⟩ | ⟨h', _⟩ <;> exact absurd (pat h h') (by decide)
  rw [if_neg h2]
  by_cases h3 : args.headD [] = ascii "show_user_list"
  · rw [if_pos h3]
    have h := (hcmd _ (by decide)).mp h3
    refine ⟨fun e => absurd e hb2, fun e => ?_⟩
    rcases e with ⟨h' | h', _⟩ | ⟨h', _⟩ | ⟨h', _⟩ | ⟨h', _⟩ | ⟨h', _⟩ | ⟨h', _⟩ <;> exact absurd (pat h h') (by decide)
  rw [if_neg h3]
  by_cases h4 : args.headD [] = ascii "show_user_article_list"
  · rw [if_pos h4]
    have h := (hcmd _ (by decide)).mp h4
    rw [harticles]
    constructor
    · rintro ⟨db, ho, hu | ⟨bs, hb, hs⟩⟩
      · exact .noUser (.inl h) db ho hu
      · exact .articles h db ho bs hb hs
    · intro e
      rcases e with ⟨h' | h', db, ho, hu⟩ | ⟨h', db, ho, bs, hb, hs⟩ | ⟨h', _⟩ | ⟨h', _⟩ | ⟨h', _⟩ | ⟨h', _⟩
      · exact ⟨db, ho, .inl hu⟩
      · exact absurd (pat h h') (by decide)
      · exact ⟨db, ho, .inr ⟨bs, hb, hs⟩⟩
      all_goals exact absurd (pat h h') (by decide)
  rw [if_neg h4]
  by_cases h5 : args.headD [] = ascii "show_user_comment_list"
  · rw [if_pos h5]
    have h := (hcmd _ (by decide)).mp h5
    rw [hcomments]
    constructor
    · rintro ⟨db, ho, hu | ⟨u, hu, bs, hb, hs⟩⟩
      · exact .noUser (.inr h) db ho hu
      · exact .comments h db ho u hu bs hb hs
    · intro e
      rcases e with ⟨h' | h', db, ho, hu⟩ | ⟨h', _⟩ | ⟨h', db, ho, u, hu, bs, hb, hs⟩ | ⟨h', _⟩ | ⟨h', _⟩ | ⟨h', _⟩
      · exact absurd (pat h h') (by decide)
      · exact ⟨db, ho, .inl hu⟩
      · exact absurd (pat h h') (by decide)
      · exact ⟨db, ho, .inr ⟨u, hu, bs, hb, hs⟩⟩
      all_goals exact absurd (pat h h') (by decide)
  rw [if_neg h5]
  by_cases h6 : args.headD [] = ascii "show_board_article_list"
  · rw [if_pos h6]
    have h := (hcmd _ (by decide)).mp h6
    rw [hlist]
    constructor
    · rintro ⟨b, hb, hx⟩
      exact .list h b hb hx
    · intro e
      rcases e with ⟨h' | h', _⟩ | ⟨h', _⟩ | ⟨h', _⟩ | ⟨h', b, hb, hx⟩ | ⟨h', _⟩ | ⟨h', _⟩
      case list => exact ⟨b, hb, hx⟩
      all_goals exact absurd (pat h h') (by decide)
  rw [if_neg h6]
  by_cases h7 : args.headD [] = ascii "add_board_article"
  · rw [if_pos h7]
    have h := (hcmd _ (by decide)).mp h7
    rw [hadd]
    constructor
    · rintro ⟨b, ow, d, t, x, k1, k2, k3, k4, k5, hx⟩
      exact .add h b ow d t x k1 k2 k3 k4 k5 hx
    · intro e
      rcases e with ⟨h' | h', _⟩ | ⟨h', _⟩ | ⟨h', _⟩ | ⟨h', _⟩ | ⟨h', _⟩ | ⟨h', b, ow, d, t, x, k1, k2, k3, k4, k5, hx⟩
      case add => exact ⟨b, ow, d, t, x, k1, k2, k3, k4, k5, hx⟩
      all_goals exact absurd (pat h h') (by decide)
  rw [if_neg h7]
  by_cases h8 : args.headD [] = ascii "show_board_article"
  · rw [if_pos h8]
    have h := (hcmd _ (by decide)).mp h8
    rw [hshow]
    constructor
    · rintro ⟨b, f, k1, k2, hx⟩
      exact .show h b f k1 k2 hx
    · intro e
      rcases e with ⟨h' | h', _⟩ | ⟨h', _⟩ | ⟨h', _⟩ | ⟨h', _⟩ | ⟨h', b, f, k1, k2, hx⟩ | ⟨h', _⟩
      case «show» => exact ⟨b, f, k1, k2, hx⟩
      all_goals exact absurd (pat h h') (by decide)
  rw [if_neg h8]
  refine ⟨fun e => (nomatch e), fun e => ?_⟩
  rcases e with ⟨h' | h', _⟩ | ⟨h', _⟩ | ⟨h', _⟩ | ⟨h', _⟩ | ⟨h', _⟩ | ⟨h', _⟩
  · exact absurd ((hcmd _ (by decide)).mpr h') h4
  · exact absurd ((hcmd _ (by decide)).mpr h') h5
  · exact absurd ((hcmd _ (by decide)).mpr h') h4
  · exact absurd ((hcmd _ (by decide)).mpr h') h5
  · exact absurd ((hcmd _ (by decide)).mpr h') h6
  · exact absurd ((hcmd _ (by decide)).mpr h') h8
  · exact absurd ((hcmd _ (by decide)).mpr h') h7

/-- **C77**, exactly: the tool crashes iff its options are right and the subcommand meets one of the conditions of `Crashes`. -/
theorem C77_crash_exact (c : Codec) (cwd : Path) (fs : FS) (argv : List Bytes) (draw : Nat → Int × Fin 4096) (fuel : Nat) (hf : 0 < fuel) :
    (toolMain c cwd fs argv draw fuel).exit = .crash ↔ ∃ o args, Flags .default argv (.parsed o args) ∧ Crashes c cwd fs o args := by
  unfold toolMain
  simp only [← C73_flags]
  cases hp : parseFlags .default argv with
  | help => simp
  | bad => simp
  | parsed o args =>
    simp only [Run.after_exit, C77_crash_command c cwd fs o args draw fuel hf, FlagResult.parsed.injEq]
    exact ⟨fun h => ⟨o, args, ⟨rfl, rfl⟩, h⟩, fun ⟨_, _, ⟨rfl, rfl⟩, h⟩ => h⟩

/-- A crashing command line: the articles of nobody. -/
theorem C77_no_user (c : Codec) (draw : Nat → Int × Fin 4096) :
    (toolMain c [] sampleFS [ascii "-bbshome", ascii "/bbs", ascii "show_user_article_list"] draw 1).exit = .crash := by
  refine (C77_crash_exact _ _ _ _ _ _ (by omega)).mpr ⟨⟨ascii "pttbbs", ascii "/bbs"⟩, [ascii "show_user_article_list"],
    (C73_flags _ _ _).mp (by decide +kernel), .noUser (.inl rfl) sampleDB ?_ ?_⟩
  · exact (C74_exact _ _ _ _).mpr ⟨rfl, ⟨[ascii "bbs"], by decide +kernel, by decide +kernel⟩, by decide⟩
  · exact (none_given _ _).mp (by decide +kernel)

/-- **C77 is false of the code.** -/
theorem C77_crash_refuted : ¬ Spec.ToolNeverCrashes := fun h => h _ _ _ _ _ _ (C77_no_user asciiCodec (fun _ => (0, 0)))

end Verif
