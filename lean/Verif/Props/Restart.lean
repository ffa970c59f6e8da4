import Verif.Props.ToolWork
import Verif.Props.ServerMain
/-!
# C156: boards added with the tool, and the service

`add_board` of the tool (/repo/cmd/bbstool/main.go) writes the list of boards that the service (/repo/serverlet/main.go) loads when it starts.
-/

namespace Verif
open Spec

namespace Spec

/-- The tool was called with `add_board`, and this is what it left. -/
structure AddBoardRun (c : Codec) (cwd : Path) (o : ToolOptions) (args : List Bytes) (fs fs' : FS) : Prop where
  command : args.head? = some (ascii "add_board")
  left : ∃ draw fuel, fs' = (toolCommand c cwd fs o args draw fuel).fs ∧
    ∀ p e, Out.complaint p e ∉ (toolCommand c cwd fs o args draw fuel).out

/-- Runs of the tool one after the other, each adding a board without complaint. -/
inductive AddBoardRuns (c : Codec) (cwd : Path) (o : ToolOptions) : List (List Bytes) → FS → FS → Prop where
  | none (fs : FS) : AddBoardRuns c cwd o [] fs fs
  | more {args : List Bytes} {rest : List (List Bytes)} {fs fs' fs'' : FS} : AddBoardRun c cwd o args fs fs' →
      AddBoardRuns c cwd o rest fs' fs'' → AddBoardRuns c cwd o (args :: rest) fs fs''

/-- The tool and the service mean the same list of boards. -/
def SameList (fs : FS) (cwd : Path) (o : ToolOptions) (sd l : Path) : Prop :=
  ∃ db, openDB fs cwd o = .ok db ∧ fs.lookup db.cwd (db.home ++ ascii "/.BRD") = .ok l ∧ fs.lookup sd (ascii "../home/bbs/.BRD") = .ok l

/-- The list at a place, if there is one, holds whole records. -/
def WholeAt (fs : FS) (l : Path) : Prop := ∀ d, fs.get l = some (.file d) → 256 ∣ d.length

/-- The record of a board made from these options. -/
def BoardFrom (c : Codec) (args : List Bytes) (b : BoardHeader) : Prop :=
  ∃ id title, Given args "board_id" id ∧ Given args "title" title ∧ b.brdName = c.dec (cut 13 (c.enc id)) ∧ b.title = c.dec (cut 49 (c.enc title))

/-- One board for each run, in order. -/
def FromRuns (c : Codec) (runs : List (List Bytes)) (bs : List BoardHeader) : Prop :=
  bs.length = runs.length ∧ ∀ (i : Nat) args b, runs[i]? = some args → bs[i]? = some b → BoardFrom c args b

/-- **C156** in full: once the tool has added boards without complaint, a service started afterwards lists what it listed before and those boards. -/
def C156 : Prop := ∀ (c : Codec) (cwd sd l : Path) (o : ToolOptions) (runs : List (List Bytes)) (fs fs' : FS) (st : ServerState)
    (sign : Claims → Bytes) (auth n p : Bytes), AddBoardRuns c cwd o runs fs fs' → SameList fs cwd o sd l → startServer c sd fs = .ok st →
  ∃ st' bs, startServer c sd fs' = .ok st' ∧ FromRuns c runs bs ∧
    serve sign st' ⟨ascii "GET", ascii "/v1/boards", auth, n, p⟩ = .ok (.boards (st.boardHeader ++ bs))

end Spec

/-- What `add_board` without complaint has done. -/
theorem addBoard_did {c : Codec} {cwd : Path} {fs fs' : FS} {o : ToolOptions} {args : List Bytes} {db : DB}
    (h : AddBoardRun c cwd o args fs fs') (ho : openDB fs cwd o = .ok db) :
    ∃ r, newBoardRecord (parseArgsToMap args).args = .ok r ∧ db.addBoardRecord c fs r = .ok fs' := by
  obtain ⟨hc, draw, fuel, hfs, hok⟩ := h
  rw [addBoard_command hc ho] at hfs hok
  cases hn : newBoardRecord (parseArgsToMap args).args with
  | panic => exact absurd hn (newBoardRecord_ne_panic _)
  | err e => rw [hn] at hok; exact absurd (by simp [Run.after, orComplain]) (hok "addboard: NewBoardRecord" e)
  | diverge =>
    exfalso
    unfold newBoardRecord Args.need at hn
    revert hn
    split <;> try split
    all_goals simp [Res.ok_bind, Res.err_bind]
  | ok r =>
    rw [hn] at hok hfs
    simp only [orComplain] at hok hfs
    refine ⟨r, rfl, ?_⟩
    cases ha : db.addBoardRecord c fs r with
    | panic => exact absurd ha (addBoardRecord_ne_panic _ _ _ _)
    | err e => rw [ha] at hok; exact absurd (by simp [Run.after]) (hok "addboard: AddBoardRecordFileRecord" e)
    | diverge =>
      exfalso
      simp only [DB.addBoardRecord, getBoardPath, Res.ok_bind, FS.appendCreate, FS.openCreate] at ha
      rcases lookup_cases fs db.cwd (db.home ++ ascii "/.BRD") with ⟨l, hl⟩ | ⟨e, he⟩
      · rw [hl, Res.ok_bind] at ha
        revert ha
        cases fs.get l with
        | none => simp
        | some n => cases n <;> simp
      · rw [he] at ha
        cases ha
    | ok fs2 =>
      rw [ha] at hfs
      exact congrArg Res.ok (show fs2 = fs' from hfs.symm)

/-- One board. -/
theorem C156_step (c : Codec) (cwd sd l : Path) (o : ToolOptions) (args : List Bytes) (fs fs' : FS) (st : ServerState)
    (h : AddBoardRun c cwd o args fs fs') (hs : SameList fs cwd o sd l) (hw : WholeAt fs l) (hst : startServer c sd fs = .ok st) :
    ∃ b, startServer c sd fs' = .ok ⟨st.userRecs, st.boardHeader ++ [b]⟩ ∧ BoardFrom c args b ∧ SameList fs' cwd o sd l ∧ WholeAt fs' l := by
  obtain ⟨db, ho, hl, hl'⟩ := hs
  obtain ⟨r, hr, ha⟩ := addBoard_did h ho
  obtain ⟨draw, fuel, hfs, hok⟩ := h.left
  have hwb : WholeBoards db fs := by
    intro p d hp hd
    have hp := Res.ok.inj hp
    subst hp
    rw [FS.readFile_of hl] at hd
    revert hd
    split
    · intro e; cases e
    · intro e; cases e
    · next x hx => intro e; cases e; exact hw _ hx
  have had := ha
  simp only [DB.addBoardRecord, getBoardPath, Res.ok_bind, FS.appendCreate] at had
  obtain ⟨⟨l1, d⟩, q1, q2⟩ := Res.bind_eq_ok.mp had
  obtain ⟨q0, q3, q4⟩ := FS.openCreate_ok q1
  rw [hl] at q0
  have q0 := Res.ok.inj q0
  subst q0
  have q2 := Res.ok.inj q2
  have hm : ∀ q, fs.get q = some .dir → fs'.get q = some .dir := by
    rw [← q2]
    exact FS.set_file_dirs q3
  have hg : ∀ q, fs'.get q = if q = l then some (.file (d ++ r.marshal c)) else fs.get q := by
    intro q
    rw [← q2, FS.get_set (FS.ne_root q3)]
  obtain ⟨id, title, old, b, g1, g2, k1, k2, e1, e2, -⟩ :=
    C80_add_board c cwd fs o args draw fuel db h.command ho hwb fs' hfs hok
  have hrb : ∀ f : FS, f.lookup db.cwd (db.home ++ ascii "/.BRD") = .ok l → f.lookup sd (ascii "../home/bbs/.BRD") = .ok l →
      DB.readBoardRecords ⟨ascii "../home/bbs", sd⟩ c f = db.readBoardRecords c f := by
    intro f h1 h2
    have h2 : f.lookup sd (ascii "../home/bbs" ++ ascii "/.BRD") = .ok l := h2
    simp only [DB.readBoardRecords, getBoardPath, Res.ok_bind, DB.openBoardList, h1, h2]
  have hwhole : WholeAt fs' l := by
    intro x hx
    rw [hg, if_pos rfl] at hx
    have hx := Option.some.inj hx
    injection hx with hx
    rw [← hx, List.length_append, BoardHeader.marshal_length]
    refine Nat.dvd_add ?_ ⟨1, rfl⟩
    rw [q4]
    unfold fileAt
    cases hn : fs.get l with
    | none => exact ⟨0, rfl⟩
    | some n =>
      cases n with
      | dir => exact absurd hn q3
      | file y => exact hw y hn
  have hsame : SameList fs' cwd o sd l := ⟨db, openDB_mono hm ho, FS.lookup_mono hm hl, FS.lookup_mono hm hl'⟩
  refine ⟨b, ?_, ⟨id, title, g1, g2, e1, e2⟩, hsame, hwhole⟩
  have hu : DB.readUserRecords ⟨ascii "../home/bbs", sd⟩ c fs' = DB.readUserRecords ⟨ascii "../home/bbs", sd⟩ c fs := by
    obtain ⟨L, p1, p2⟩ := FS.lookup_parent (p := ascii "../home/bbs") (c := ascii ".BRD") (by decide) hl'
    have c1 := FS.lookup_child (c := ascii ".BRD") p1 p2 (by constructor <;> decide) (by decide)
    have c2 := FS.lookup_child (c := ascii ".PASSWDS") p1 p2 (by constructor <;> decide) (by decide)
    have c1 : fs.lookup sd (ascii "../home/bbs/.BRD") = .ok (L ++ [ascii ".BRD"]) := c1
    have c2 : fs.lookup sd (ascii "../home/bbs/.PASSWDS") = .ok (L ++ [ascii ".PASSWDS"]) := c2
    have hne : L ++ [ascii ".PASSWDS"] ≠ l := by
      rw [hl'] at c1
      rw [Res.ok.inj c1]
      intro e
      exact absurd (List.append_cancel_left e) (by decide)
    have c3 := FS.lookup_mono hm c2
    show (fs'.lookup sd (ascii "../home/bbs/.PASSWDS") >>= _) = (fs.lookup sd (ascii "../home/bbs/.PASSWDS") >>= _)
    rw [c2, c3, Res.ok_bind, Res.ok_bind, hg, if_neg hne]
  unfold startServer at hst ⊢
  simp only at hst ⊢
  rw [hu, hrb fs' (FS.lookup_mono hm hl) (FS.lookup_mono hm hl'), k2]
  rw [hrb fs hl hl'] at hst
  obtain ⟨us, u1, hst⟩ := Res.bind_eq_ok.mp hst
  obtain ⟨bs, u2, hst⟩ := Res.bind_eq_ok.mp hst
  have hst := Res.ok.inj hst
  subst hst
  have : bs = old := by
    rcases k1 with k1 | ⟨k1, rfl⟩
    · rw [k1] at u2
      exact (Res.ok.inj u2).symm
    · rw [k1] at u2
      exact (Res.ok.inj u2).symm
  rw [u1, this]
  rfl

/-- **C156.** If the list on the disk holds whole records, every board added with the tool is listed by a service that starts afterwards: last, in order,
with the id and the title as stored; the other boards and the users are the ones from before. -/
theorem C156_partial (c : Codec) (cwd sd l : Path) (o : ToolOptions) (runs : List (List Bytes)) (fs fs' : FS) (st : ServerState)
    (h : AddBoardRuns c cwd o runs fs fs') (hs : SameList fs cwd o sd l) (hw : WholeAt fs l) (hst : startServer c sd fs = .ok st) :
    ∃ bs, startServer c sd fs' = .ok ⟨st.userRecs, st.boardHeader ++ bs⟩ ∧ FromRuns c runs bs ∧
      ∀ sign auth n p, serve sign ⟨st.userRecs, st.boardHeader ++ bs⟩ ⟨ascii "GET", ascii "/v1/boards", auth, n, p⟩ =
        .ok (.boards (st.boardHeader ++ bs)) := by
  suffices ∃ bs, startServer c sd fs' = .ok ⟨st.userRecs, st.boardHeader ++ bs⟩ ∧ FromRuns c runs bs by
    obtain ⟨bs, h1, h2⟩ := this
    exact ⟨bs, h1, h2, fun sign auth n p => C64_everyone sign _ auth n p⟩
  induction h generalizing st with
  | none fs => exact ⟨[], by rw [List.append_nil]; exact hst, rfl, fun i args b hi => by simp at hi⟩
  | more h _ ih =>
    obtain ⟨b, h1, h2, h3, h4⟩ := C156_step c cwd sd l o _ _ _ st h hs hw hst
    obtain ⟨bs, h5, h6, h7⟩ := ih _ h3 h4 h1
    refine ⟨b :: bs, by simpa using h5, by simp [h6], ?_⟩
    intro i args b' hi hb
    cases i with
    | zero =>
      simp only [List.getElem?_cons_zero, Option.some.injEq] at hi hb
      rw [← hi, ← hb]
      exact h2
    | succ i => exact h7 i args b' (by simpa using hi) (by simpa using hb)

/-- **C156, the service that runs.** It answers as before, whatever the tool adds. -/
theorem C156_running (sign : Claims → Bytes) (st : ServerState) (fs' : FS) (auth n p : Bytes) :
    answers sign st [.disk fs', .request ⟨ascii "GET", ascii "/v1/boards", auth, n, p⟩] = [.ok (.boards st.boardHeader)] := by
  show [serve sign st _] = _
  rw [C64_everyone]

/-! ## A list that ends within a record -/

/-- The options of the examples. -/
def restartOptions : ToolOptions := ⟨ascii "pttbbs", ascii "/home/bbs"⟩

def restartArgs : List Bytes := [ascii "add_board", ascii "--board_id", ascii "Test", ascii "--title", ascii "hello"]

/-- What is written for the board. -/
def restartBoard : Bytes := BoardHeader.marshal asciiCodec { BoardHeader.zero with brdName := ascii "Test", title := ascii "hello" }

theorem restart_run (content : Bytes) : AddBoardRun asciiCodec [] restartOptions restartArgs (disk content)
    ((disk content).set [ascii "home", ascii "bbs", ascii ".BRD"] (.file (content ++ restartBoard))) := by
  refine ⟨rfl, fun _ => (0, 0), 0, ?_⟩
  have ho : openDB (disk content) [] restartOptions = .ok ⟨ascii "/home/bbs", []⟩ := rfl
  rw [addBoard_command rfl ho]
  have hn : newBoardRecord (parseArgsToMap restartArgs).args =
    .ok { BoardHeader.zero with brdName := ascii "Test", title := ascii "hello" } := by decide +kernel
  have hp : parseArgsNotice restartArgs 1 = [] := by decide +kernel
  rw [hn, hp]
  have ha : DB.addBoardRecord ⟨ascii "/home/bbs", []⟩ asciiCodec (disk content) { BoardHeader.zero with brdName := ascii "Test", title := ascii "hello" } =
      .ok ((disk content).set [ascii "home", ascii "bbs", ascii ".BRD"] (.file (content ++ restartBoard))) := by
    have e : (disk content).openCreate [] (ascii "/home/bbs" ++ ascii "/.BRD") = .ok ([ascii "home", ascii "bbs", ascii ".BRD"], content) := rfl
    simp only [DB.addBoardRecord, getBoardPath, Res.ok_bind, FS.appendCreate, e]
    rfl
  simp only [orComplain, ha, Run.after]
  exact ⟨trivial, fun p e h => by simp at h⟩

theorem restart_same (content : Bytes) : SameList (disk content) [] restartOptions [ascii "serverlet"] [ascii "home", ascii "bbs", ascii ".BRD"] :=
  ⟨⟨ascii "/home/bbs", []⟩, rfl, rfl, rfl⟩

/-- The list is one byte long; the board is added without complaint, but its record is cut in two by the reader. -/
theorem C156_refuted : ¬ Spec.C156 := by
  intro h
  obtain ⟨st', bs, h1, ⟨h2, h3⟩, h4⟩ := h asciiCodec [] [ascii "serverlet"] _ restartOptions [restartArgs] (disk [0]) _ _ (fun _ => []) [] [] []
    (.more (restart_run [0]) (.none _)) (restart_same [0]) (start_disk [0])
  have hs : ∀ x, startServer asciiCodec [ascii "serverlet"] ((disk [0]).set [ascii "home", ascii "bbs", ascii ".BRD"] (.file x)) =
      .ok ⟨[], (slots 256 x).map (BoardHeader.parse asciiCodec)⟩ := by
    intro x
    rw [((C66_exact asciiCodec [ascii "serverlet"] _).1 _)]
    constructor
    · exact .absent [ascii "home", ascii "bbs", ascii ".PASSWDS"] rfl rfl
    · exact .present [ascii "home", ascii "bbs", ascii ".BRD"] _ rfl rfl
  rw [hs] at h1
  have h1 := Res.ok.inj h1
  rw [← h1, C64_everyone] at h4
  have h4 := Response.boards.inj (Res.ok.inj h4)
  match bs, h2 with
  | [b], _ =>
    obtain ⟨id, title, g1, g2, e1, e2⟩ := h3 0 _ b rfl rfl
    have g0 : Given restartArgs "board_id" (ascii "Test") := by unfold Given; decide +kernel
    have : id = ascii "Test" := by
      unfold Given at g0 g1
      rw [g0] at g1
      exact (Option.some.inj g1).symm
    subst this
    have hx := congrArg (fun l => l.map BoardHeader.brdName) h4
    have hy := congrArg (fun l => l.getLast?) hx
    simp only [List.map_append, List.map_cons, List.map_nil, List.getLast?_append, List.getLast?_singleton, Option.some_or] at hy
    rw [e1] at hy
    revert hy
    decide +kernel

/-! ## Examples -/

/-- A run of the tool on a list of whole records. -/
example : ∃ fs', AddBoardRuns asciiCodec [] restartOptions [restartArgs] (disk (zeros 256)) fs' ∧
    SameList (disk (zeros 256)) [] restartOptions [ascii "serverlet"] [ascii "home", ascii "bbs", ascii ".BRD"] ∧
    WholeAt (disk (zeros 256)) [ascii "home", ascii "bbs", ascii ".BRD"] ∧
    ∃ st, startServer asciiCodec [ascii "serverlet"] (disk (zeros 256)) = .ok st :=
  ⟨_, .more (restart_run _) (.none _), restart_same _, fun d hd => by
    rw [← show zeros 256 = d by
      have := Option.some.inj (show some (Node.file (zeros 256)) = some (.file d) from hd)
      injection this]
    exact ⟨1, List.length_replicate⟩, _, start_disk _⟩

end Verif
