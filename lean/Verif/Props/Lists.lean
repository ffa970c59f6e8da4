import Verif.Model.Lists
import Verif.Props.Comment
import Verif.Props.RecordFiles
import Verif.Proofs.FS
import Verif.Props.Drafts
/-!
# C32–C35: what a user has written
-/

namespace Verif
open Spec

/-! ## Lines of an article -/

/-- The lines of a text, without their newline; what follows the last newline is a line unless it is empty. -/
def Spec.rawLines (d : Bytes) : List Bytes :=
  if (splitByte 10 d).getLast? = some [] then (splitByte 10 d).dropLast else splitByte 10 d

/-- The lines of a text, without newline and carriage return. -/
def Spec.textLines (d : Bytes) : List Bytes := (rawLines d).map dropCR

theorem rawLines_nil : rawLines [] = [] := rfl

theorem rawLines_last {raw : Bytes} (h : (10 : UInt8) ∉ raw) (hne : raw ≠ []) : rawLines raw = [raw] := by
  unfold rawLines
  rw [splitByte_of_not_mem h]
  simp [hne]

theorem rawLines_cons {raw rest : Bytes} (h : (10 : UInt8) ∉ raw) : rawLines (raw ++ 10 :: rest) = raw :: rawLines rest := by
  unfold rawLines
  rw [splitByte_sep, splitByte_of_not_mem h]
  cases hs : splitByte 10 rest with
  | nil => exact absurd hs (splitByte_ne_nil 10 rest)
  | cons a as =>
    simp only [List.singleton_append, List.getLast?_cons_cons]
    split <;> simp

/-- The scanner delivers the lines up to the first one of 64 KiB or more. -/
theorem scanAux_eq : ∀ (fuel : Nat) (d : Bytes), d.length ≤ fuel →
    scanAux fuel d = (((rawLines d).takeWhile (fun l => decide (l.length < maxToken))).map dropCR,
      !(rawLines d).all (fun l => decide (l.length < maxToken))) := by
  intro fuel
  induction fuel with
  | zero =>
    intro d hd
    have : d = [] := List.length_eq_zero_iff.mp (by omega)
    subst this
    rw [rawLines_nil]; rfl
  | succ fuel ih =>
    intro d hd
    simp only [scanAux]
    by_cases h : d = []
    · subst h
      rw [if_pos rfl, rawLines_nil]; rfl
    · rw [if_neg h]
      have hsplit : d.takeWhile (· != 10) ++ d.dropWhile (· != 10) = d := List.takeWhile_append_dropWhile
      have hraw : (10 : UInt8) ∉ d.takeWhile (· != 10) := by
        intro hm
        simpa using List.all_eq_true.mp (List.all_takeWhile (p := (· != (10 : UInt8))) (l := d)) 10 hm
      cases hr : d.dropWhile (· != 10) with
      | nil =>
        rw [hr, List.append_nil] at hsplit
        rw [hsplit] at hraw
        rw [hsplit, rawLines_last hraw h]
        by_cases hl : maxToken ≤ d.length
        · rw [if_pos hl]; simp [Nat.not_lt.mpr hl]
        · rw [if_neg hl]; simp [Nat.lt_of_not_le hl]
      | cons b rest =>
        have hb : b = 10 := by
          have := List.head_dropWhile_not (p := (· != (10 : UInt8))) (l := d) (by rw [hr]; simp)
          simp only [hr, List.head_cons] at this
          simpa using this
        subst hb
        rw [hr] at hsplit
        generalize hg : d.takeWhile (· != 10) = raw at hsplit hraw
        have hlen : rest.length ≤ fuel := by
          have := congrArg List.length hsplit
          simp at this; omega
        rw [← hsplit, rawLines_cons hraw]
        by_cases hl : maxToken ≤ raw.length
        · rw [if_pos hl]; simp [Nat.not_lt.mpr hl]
        · rw [if_neg hl]
          have := Nat.lt_of_not_le hl
          simp only [ih rest hlen]
          simp [this]

theorem scanLines_eq (d : Bytes) : (scanLines d).1 =
    ((rawLines d).takeWhile (fun l => decide (l.length < 65536))).map dropCR := by
  unfold scanLines
  rw [scanAux_eq _ d (Nat.le_refl _)]
  rfl

/-! ## Comments of an article -/

/-- What the parser finds in a line of an article. -/
def Spec.lineComment (l : Bytes) : Option (Bytes × Civil × Bytes) :=
  match parseUserComment (filterANSI l) with
  | .ok x => some x
  | _ => none

/-- The line is a comment or is recognised as not being one (its time is not out of range). -/
def Spec.Readable (l : Bytes) : Prop :=
  (∃ x, parseUserComment (filterANSI l) = .ok x) ∨ parseUserComment (filterANSI l) = .err errNotUserComment

/-- Comment records numbered from 1. -/
def Spec.numbered (board file : Bytes) (xs : List (Bytes × Civil × Bytes)) : List UserComment :=
  xs.mapIdx (fun i x => ⟨UInt32.ofNat (i + 1), x.2.1, x.1, board, file, x.2.2⟩)

theorem commentLoop_eq (board file : Bytes) (ls : List Bytes) :
    ∀ (n : Nat) (cs : List UserComment), commentLoop board file (UInt32.ofNat n) ls = .ok cs ↔
      (∀ l ∈ ls, Readable l) ∧ cs = (ls.filterMap lineComment).mapIdx
        (fun i x => ⟨UInt32.ofNat (i + n), x.2.1, x.1, board, file, x.2.2⟩) := by
  induction ls with
  | nil =>
    intro n cs
    simp only [commentLoop, List.filterMap_nil, List.mapIdx_nil]
    constructor
    · intro h; exact ⟨by simp, (Res.ok.inj h).symm⟩
    · rintro ⟨_, rfl⟩; rfl
  | cons l ls ih =>
    intro n cs
    simp only [commentLoop, newUserComment]
    cases hp : parseUserComment (filterANSI l) with
    | ok x =>
      obtain ⟨o, t, x⟩ := x
      have hl : lineComment l = some (o, t, x) := by simp [lineComment, hp]
      have hR : Readable l := Or.inl ⟨_, hp⟩
      simp only [Res.ok_bind]
      rw [List.filterMap_cons_some hl, List.mapIdx_cons]
      have e : UInt32.ofNat n + 1 = UInt32.ofNat (n + 1) := by
        apply UInt32.toNat_inj.mp; simp
      rw [e, Res.bind_eq_ok]
      constructor
      · rintro ⟨rest, h1, h2⟩
        obtain ⟨h3, h4⟩ := (ih (n + 1) rest).mp h1
        refine ⟨by simpa [hR] using h3, ?_⟩
        rw [← Res.ok.inj h2, h4]
        simp only [Nat.zero_add, List.cons.injEq, true_and]
        congr 1
        funext i y
        rw [show i + (n + 1) = i + 1 + n by omega]
      · rintro ⟨h1, h2⟩
        refine ⟨_, (ih (n + 1) _).mpr ⟨fun y hy => h1 y (by simp [hy]), rfl⟩, ?_⟩
        rw [h2]
        simp only [Nat.zero_add, Res.ok.injEq, List.cons.injEq, true_and]
        congr 1
        funext i y
        rw [show i + (n + 1) = i + 1 + n by omega]
    | err e =>
      have hl : lineComment l = none := by simp [lineComment, hp]
      rw [List.filterMap_cons_none hl]
      show (if e = errNotUserComment then _ else _) = _ ↔ _
      by_cases he : e = errNotUserComment
      · rw [if_pos he, ih n cs]
        subst he
        have hR : Readable l := Or.inr hp
        simp [hR]
      · rw [if_neg he]
        constructor
        · intro h; cases h
        · rintro ⟨h, _⟩
          rcases h l (by simp) with ⟨x, hx⟩ | hx
          · rw [hp] at hx; cases hx
          · rw [hp] at hx; exact absurd (Res.err.inj hx) he
    | panic =>
      constructor
      · intro h; cases h
      · rintro ⟨h, _⟩
        rcases h l (by simp) with ⟨x, hx⟩ | hx <;> (rw [hp] at hx; cases hx)
    | diverge =>
      constructor
      · intro h; cases h
      · rintro ⟨h, _⟩
        rcases h l (by simp) with ⟨x, hx⟩ | hx <;> (rw [hp] at hx; cases hx)

/-- Exact description: the comments of an article are those of the lines before the first one of 64 KiB or more,
numbered from 1; reading fails exactly if one of these lines looks like a comment with an impossible time. -/
theorem articleComments_exact (board file content : Bytes) (cs : List UserComment) :
    articleComments board file content = .ok cs ↔
      (∀ l ∈ ((rawLines content).takeWhile (fun l => decide (l.length < 65536))).map dropCR, Readable l) ∧
      cs = numbered board file
        ((((rawLines content).takeWhile (fun l => decide (l.length < 65536))).map dropCR).filterMap lineComment) := by
  unfold articleComments
  rw [scanLines_eq]
  exact commentLoop_eq board file _ 1 cs

/-- C34: comment number `i` (from 0) of an article has floor `i + 1`, whatever lines lie in between. -/
theorem C34_floors (board file content : Bytes) (cs : List UserComment)
    (h : articleComments board file content = .ok cs) (hlen : cs.length < 2 ^ 32) :
    cs.map (fun c => c.order.toNat) = (List.range cs.length).map (· + 1) ∧
    cs.map (fun c => (c.owner, c.time, c.comment)) =
      (((rawLines content).takeWhile (fun l => decide (l.length < 65536))).map dropCR).filterMap lineComment ∧
    (∀ c ∈ cs, c.board = board ∧ c.filename = file) := by
  obtain ⟨_, e⟩ := (articleComments_exact board file content cs).mp h
  generalize (((rawLines content).takeWhile (fun l => decide (l.length < 65536))).map dropCR).filterMap lineComment = xs at e
  subst e
  have hl : (numbered board file xs).length = xs.length := by simp [numbered]
  refine ⟨?_, ?_, ?_⟩
  · apply List.ext_getElem?
    intro i
    simp only [List.getElem?_map, numbered, List.getElem?_mapIdx, List.length_mapIdx]
    by_cases hi : i < xs.length
    · rw [List.getElem?_eq_getElem hi, List.getElem?_range hi]
      simp only [Option.map_some, Option.some.injEq, UInt32.toNat_ofNat']
      apply Nat.mod_eq_of_lt
      rw [hl] at hlen
      omega
    · rw [List.getElem?_eq_none (by omega), List.getElem?_eq_none (by simpa using hi)]; rfl
  · apply List.ext_getElem?
    intro i
    simp only [List.getElem?_map, numbered, List.getElem?_mapIdx]
    cases xs[i]? <;> rfl
  · intro c hc
    obtain ⟨i, hi, e⟩ := List.mem_mapIdx.mp hc
    subst e
    exact ⟨rfl, rfl⟩

/-- Non-vacuity of C34: two comments around a line that is none. -/
theorem C34_sample : articleComments (ascii "SYSOP") (ascii "M.1.A.1")
    (ascii "hi" ++ 10 :: (ascii "Push lex: a 02/28 23:59" ++ 10 :: (ascii "a line" ++ 10 :: ascii "Boo tom: b 03/01 00:01"))) =
    .ok [⟨1, ⟨0, 2, 28, 23, 59, 0⟩, ascii "lex", ascii "SYSOP", ascii "M.1.A.1", ascii "a"⟩,
      ⟨2, ⟨0, 3, 1, 0, 1, 0⟩, ascii "tom", ascii "SYSOP", ascii "M.1.A.1", ascii "b"⟩] := by
  decide +kernel

/-! ## C35 -/

/-- The full claim of C35. -/
def Spec.LongLinesHarmless : Prop :=
  ∀ board file content : Bytes, (∃ e, articleComments board file content = .err e) ∨
    articleComments board file content = .ok (numbered board file ((textLines content).filterMap lineComment))

theorem takeWhile_all {α : Type} {p : α → Bool} {l : List α} (h : ∀ x ∈ l, p x = true) : l.takeWhile p = l := by
  induction l with
  | nil => rfl
  | cons a l ih => rw [List.takeWhile_cons, if_pos (h a (by simp)), ih (fun x hx => h x (by simp [hx]))]

/-- C35 for articles whose lines are all shorter than 64 KiB. What is missing: longer lines, see
`C35_long_lines_refuted`; what is reported then is said by `articleComments_exact`. -/
theorem C35_long_lines_partial (board file content : Bytes) (h : ∀ l ∈ rawLines content, l.length < 65536) :
    ((∀ l ∈ textLines content, Readable l) ∧
      articleComments board file content = .ok (numbered board file ((textLines content).filterMap lineComment))) ∨
    ((∃ l ∈ textLines content, ¬ Readable l) ∧ ∀ cs, articleComments board file content ≠ .ok cs) := by
  have e : (rawLines content).takeWhile (fun l => decide (l.length < 65536)) = rawLines content :=
    takeWhile_all (fun x hx => by simpa using h x hx)
  have key := articleComments_exact board file content
  rw [e] at key
  by_cases hR : ∀ l ∈ textLines content, Readable l
  · exact Or.inl ⟨hR, (key _).mpr ⟨hR, rfl⟩⟩
  · refine Or.inr ⟨by simpa using hR, ?_⟩
    intro cs hcs
    exact hR ((key cs).mp hcs).1

theorem rawLines_long (n : Nat) (rest : Bytes) :
    rawLines (List.replicate n 120 ++ 10 :: rest) = List.replicate n 120 :: rawLines rest := by
  apply rawLines_cons
  intro h
  exact absurd (List.eq_of_mem_replicate h) (by decide)

/-- C35 is false: a line of 64 KiB or more hides the comments after it, and no error is returned. -/
theorem C35_long_lines_refuted : ¬ LongLinesHarmless := by
  intro h
  obtain ⟨n, hn⟩ : ∃ n, 65536 ≤ n := ⟨65536, Nat.le_refl _⟩
  obtain ⟨l, hl⟩ : ∃ l, l = ascii "Push lex: a 02/28 23:59" := ⟨_, rfl⟩
  have hc : articleComments [] [] (List.replicate n 120 ++ 10 :: l) = .ok [] := by
    rw [articleComments_exact, rawLines_long, List.takeWhile_cons,
      if_neg (by simp only [List.length_replicate, decide_eq_true_eq]; omega)]
    simp [numbered]
  rcases h [] [] (List.replicate n 120 ++ 10 :: l) with ⟨e, h⟩ | h
  · rw [hc] at h; cases h
  · rw [hc] at h
    have h := Res.ok.inj h
    have hlc : lineComment (dropCR l) = some (ascii "lex", ⟨0, 2, 28, 23, 59, 0⟩, ascii "a") := by
      subst hl; decide +kernel
    have hr : rawLines l = [l] := by subst hl; decide +kernel
    unfold textLines at h
    rw [rawLines_long, hr] at h
    have h := congrArg List.length h
    simp only [numbered, List.length_mapIdx, List.length_nil, List.map_cons, List.map_nil, List.filterMap_cons, hlc,
      List.filterMap_nil] at h
    split at h <;> simp at h

/-- Non-vacuity of the partial: the sample article of C34. -/
example : ∀ l ∈ rawLines (ascii "hi" ++ 10 :: ascii "Push lex: a 02/28 23:59"), l.length < 65536 := by decide +kernel

/-! ## What is on disk -/

/-- The path of a board's index. -/
def Spec.indexPath (home board : Bytes) : Bytes := boardDir home board ++ ascii "/.DIR"

/-- The path of an article. -/
def Spec.articlePath (home board file : Bytes) : Bytes := boardDir home board ++ ascii "/" ++ file

/-- On disk are the board list `boards` and, for every board, the index `index`: a file with these records, or no file
at all if there are none (nothing can be stored under the empty name). -/
structure Spec.OnDisk (db : DB) (c : Codec) (fs : FS) (boards : List BoardHeader) (index : Bytes → List FileHeader) :
    Prop where
  boardList : fs.readFile db.cwd (db.home ++ ascii "/.BRD") = .ok (boards.map (fun b => b.marshal c)).flatten
  storable : ∀ b ∈ boards, b.Storable c
  indexFile : ∀ b ∈ boards, b.brdName ≠ ascii "ALLPOST" → b.brdName ≠ [] →
    fs.readFile db.cwd (indexPath db.home b.brdName) = .ok ((index b.brdName).map (fun r => r.marshal c)).flatten ∨
    (fs.readFile db.cwd (indexPath db.home b.brdName) = .err "no such file or directory" ∧ index b.brdName = [])
  noIndex : index [] = []
  indexStorable : ∀ b ∈ boards, ∀ r ∈ index b.brdName, r.Storable c

/-- The records of the user on the boards that are searched. -/
def Spec.articlesOf (boards : List BoardHeader) (index : Bytes → List FileHeader) (user : Bytes) : List UserArticle :=
  (boards.filter (fun b => b.brdName ≠ ascii "ALLPOST")).flatMap (fun b =>
    ((index b.brdName).filter (fun r => r.owner = user)).map (fun r => ⟨b.brdName, r.title, r.owner, r.filename⟩))

/-- The full claim of C32. -/
def Spec.ArticleListComplete : Prop :=
  ∀ (db : DB) (c : Codec) (fs : FS) (boards : List BoardHeader) (index : Bytes → List FileHeader) (user : Bytes),
    OnDisk db c fs boards index → db.userArticles c fs user = .ok (articlesOf boards index user)

theorem readBoardRecords_of {db : DB} {c : Codec} {fs : FS} {boards : List BoardHeader}
    (h : fs.readFile db.cwd (db.home ++ ascii "/.BRD") = .ok (boards.map (fun b => b.marshal c)).flatten)
    (hs : ∀ b ∈ boards, b.Storable c) : db.readBoardRecords c fs = .ok boards := by
  obtain ⟨l, h1, h2⟩ := FS.readFile_ok h
  simp only [DB.readBoardRecords, getBoardPath, Res.ok_bind, DB.openBoardList, h1, h2, openBoardHeaderFile]
  rw [readFile_slots (by omega) (BoardHeader.unmarshal_eq c),
    slots_flatten (by omega) (by intro r hr; obtain ⟨b, _, rfl⟩ := List.mem_map.mp hr; exact b.marshal_length c)]
  have e : ∀ bs : List BoardHeader, (∀ b ∈ bs, b.Storable c) →
      (bs.map (fun b => b.marshal c)).map (BoardHeader.parse c) = bs := by
    intro bs
    induction bs with
    | nil => intro _; rfl
    | cons b bs ih =>
      intro hs
      rw [List.map_cons, List.map_cons, ih (fun x hx => hs x (by simp [hx])), b.parse_marshal c (hs b (by simp))]
  rw [e boards hs]

theorem indexPath_of {home board : Bytes} (h : board ≠ []) :
    getBoardArticlesDirectoryPath home board = .ok (indexPath home board) := by
  cases board with
  | nil => exact absurd rfl h
  | cons a b => rfl

theorem articlePath_of {home board : Bytes} (file : Bytes) (h : board ≠ []) :
    getBoardArticleFilePath home board file = .ok (articlePath home board file) := by
  cases board with
  | nil => exact absurd rfl h
  | cons a b => rfl

theorem readArticleRecords_of {db : DB} {c : Codec} {fs : FS} {board : Bytes} {recs : List FileHeader} (hb : board ≠ [])
    (h : fs.readFile db.cwd (indexPath db.home board) = .ok (recs.map (fun r => r.marshal c)).flatten ∨
      (fs.readFile db.cwd (indexPath db.home board) = .err "no such file or directory" ∧ recs = []))
    (hs : ∀ r ∈ recs, r.Storable c) : db.readArticleRecords c fs board = .ok (recs.map persisted) := by
  rw [DB.readArticleRecords, indexPath_of hb, Res.ok_bind]
  rcases h with h | ⟨h, e⟩
  · obtain ⟨l, h1, h2⟩ := FS.readFile_ok h
    simp only [DB.openArticleList, Res.ok_bind, h1, h2, openFileHeaderFile]
    rw [readFile_slots (by omega) (FileHeader.unmarshal_eq c),
      slots_flatten (by omega) (by intro r hr; obtain ⟨b, _, rfl⟩ := List.mem_map.mp hr; exact b.marshal_length c)]
    have e : ∀ rs : List FileHeader, (∀ r ∈ rs, r.Storable c) →
        (rs.map (fun r => r.marshal c)).map (FileHeader.parse c) = rs.map persisted := by
      intro rs
      induction rs with
      | nil => intro _; rfl
      | cons r rs ih =>
        intro hs
        rw [List.map_cons, List.map_cons, List.map_cons, ih (fun x hx => hs x (by simp [hx])),
          r.parse_marshal c (hs r (by simp))]
    rw [e recs hs]
  · subst e
    have : db.openArticleList c fs (indexPath db.home board) = .err "no such file or directory" := by
      unfold FS.readFile at h
      unfold DB.openArticleList
      cases hl : fs.lookup db.cwd (indexPath db.home board) with
      | ok l =>
        rw [hl] at h
        simp only [Res.ok_bind] at h ⊢
        cases hg : fs.get l with
        | none => rfl
        | some n =>
          cases n with
          | dir => rw [hg] at h; exact absurd (Res.err.inj h) (by decide)
          | file d => rw [hg] at h; cases h
      | err e => rw [hl] at h; have := Res.err.inj h; subst this; rfl
      | panic => rw [hl] at h; cases h
      | diverge => rw [hl] at h; cases h
    rw [this]
    rfl

/-- C32 for board lists without an empty name. What is missing: a slot with an empty name (a removed board), see
`C32_empty_name_refuted`. -/
theorem C32_article_list_partial (db : DB) (c : Codec) (fs : FS) (boards : List BoardHeader)
    (index : Bytes → List FileHeader) (user : Bytes) (h : OnDisk db c fs boards index)
    (hn : ∀ b ∈ boards, b.brdName ≠ []) : db.userArticles c fs user = .ok (articlesOf boards index user) := by
  have key : ∀ bs : List BoardHeader, (∀ b ∈ bs, b ∈ boards) →
      db.userArticleLoop c fs user bs = .ok (articlesOf bs index user) := by
    intro bs
    induction bs with
    | nil => intro _; rfl
    | cons b bs ih =>
      intro hm
      have hb := hm b (by simp)
      have ih := ih (fun x hx => hm x (by simp [hx]))
      unfold DB.userArticleLoop
      by_cases hsk : b.brdName = ascii "ALLPOST"
      · rw [if_pos (by simp [DB.shouldSkip, hsk]), ih]
        simp [articlesOf, hsk]
      · rw [if_neg (by simp [DB.shouldSkip, hsk]),
          readArticleRecords_of (hn b hb) (h.indexFile b hb hsk (hn b hb)) (h.indexStorable b hb), Res.ok_bind, ih]
        simp [articlesOf, hsk, List.filter_map, Function.comp_def, persisted]
        rfl
  rw [DB.userArticles, readBoardRecords_of h.boardList h.storable, Res.ok_bind]
  exact key boards (fun _ hb => hb)

/-! ### Examples -/

/-- A home with the boards `S`, `ALLPOST` and `T`; `S` has two articles, `T` has no index. -/
def listBoards : List BoardHeader :=
  [{ sampleBoard with brdName := ascii "S" }, { sampleBoard with brdName := ascii "ALLPOST" },
   { sampleBoard with brdName := ascii "T" }]

def listIndex (b : Bytes) : List FileHeader :=
  if b = ascii "S" then
    [{ FileHeader.zero with filename := ascii "M.1.A.1", owner := ascii "lex", title := ascii "t", modified := 1 },
     { FileHeader.zero with filename := ascii "M.2.A.2", owner := ascii "tom", title := ascii "u", modified := 2 }]
  else []

def listContent : Bytes := ascii "hi" ++ 10 :: ascii "Push tom: a 02/28 23:59"

def listFS : FS :=
  ⟨[([ascii "bbs"], .dir), ([ascii "bbs", ascii "boards"], .dir), ([ascii "bbs", ascii "boards", ascii "S"], .dir),
    ([ascii "bbs", ascii "boards", ascii "S", ascii "S"], .dir),
    ([ascii "bbs", ascii "boards", ascii "S", ascii "S", ascii ".DIR"],
      .file ((listIndex (ascii "S")).map (fun r => r.marshal asciiCodec)).flatten),
    ([ascii "bbs", ascii "boards", ascii "S", ascii "S", ascii "M.1.A.1"], .file listContent),
    ([ascii "bbs", ascii "boards", ascii "S", ascii "S", ascii "M.2.A.2"], .file []),
    ([ascii "bbs", ascii ".BRD"], .file (listBoards.map (fun b => b.marshal asciiCodec)).flatten)]⟩

theorem list_onDisk : OnDisk sampleDB asciiCodec listFS listBoards listIndex where
  boardList := by
    have h : listFS.lookup sampleDB.cwd (sampleDB.home ++ ascii "/.BRD") = .ok [ascii "bbs", ascii ".BRD"] := by
      decide +kernel
    rw [FS.readFile_of h]
    rfl
  storable := by
    intro b hb
    simp only [listBoards, List.mem_cons, List.not_mem_nil, or_false] at hb
    rcases hb with rfl | rfl | rfl <;> constructor <;> decide
  indexFile := by
    intro b hb _ _
    simp only [listBoards, List.mem_cons, List.not_mem_nil, or_false] at hb
    rcases hb with rfl | rfl | rfl
    · left
      have h : listFS.lookup sampleDB.cwd (indexPath sampleDB.home (ascii "S")) =
          .ok [ascii "bbs", ascii "boards", ascii "S", ascii "S", ascii ".DIR"] := by decide +kernel
      show listFS.readFile sampleDB.cwd (indexPath sampleDB.home (ascii "S")) = _
      rw [FS.readFile_of h]
      rfl
    · right
      exact ⟨by decide +kernel, by decide⟩
    · right
      exact ⟨by decide +kernel, by decide⟩
  noIndex := by decide
  indexStorable := by
    intro b hb r hr
    simp only [listBoards, List.mem_cons, List.not_mem_nil, or_false] at hb
    rcases hb with rfl | rfl | rfl
    · simp only [listIndex, if_pos, List.mem_cons, List.not_mem_nil, or_false] at hr
      rcases hr with rfl | rfl <;> constructor <;> decide
    · exact absurd (show r ∈ ([] : List FileHeader) from hr) (List.not_mem_nil)
    · exact absurd (show r ∈ ([] : List FileHeader) from hr) (List.not_mem_nil)

/-- Non-vacuity of C32. -/
example : OnDisk sampleDB asciiCodec listFS listBoards listIndex ∧ (∀ b ∈ listBoards, b.brdName ≠ []) ∧
    articlesOf listBoards listIndex (ascii "lex") = [⟨ascii "S", ascii "t", ascii "lex", ascii "M.1.A.1"⟩] :=
  ⟨list_onDisk, by decide, by decide⟩

/-- A vacated slot of the board list. -/
def vacantBoard : BoardHeader := { sampleBoard with brdName := [] }

/-- A board list with one vacated slot. -/
def vacantFS : FS := ⟨[([ascii "bbs"], .dir), ([ascii "bbs", ascii ".BRD"], .file (vacantBoard.marshal asciiCodec))]⟩

theorem vacant_onDisk : OnDisk sampleDB asciiCodec vacantFS [vacantBoard] (fun _ => []) where
  boardList := by
    have h : vacantFS.lookup sampleDB.cwd (sampleDB.home ++ ascii "/.BRD") = .ok [ascii "bbs", ascii ".BRD"] := by
      decide +kernel
    rw [FS.readFile_of h]
    simp only [List.map_cons, List.map_nil, List.flatten_cons, List.flatten_nil, List.append_nil]
    rfl
  storable := by
    intro b hb
    have : b = vacantBoard := by simpa using hb
    subst this
    constructor <;> decide
  indexFile := by
    intro b hb _ h
    have : b = vacantBoard := by simpa using hb
    subst this
    exact absurd rfl h
  noIndex := rfl
  indexStorable := by simp

theorem vacant_boards : sampleDB.readBoardRecords asciiCodec vacantFS = .ok [vacantBoard] :=
  readBoardRecords_of vacant_onDisk.boardList vacant_onDisk.storable

/-- C32 is false: a slot with an empty name in the board list makes the search panic. -/
theorem C32_empty_name_refuted : ¬ ArticleListComplete := by
  intro h
  have := h _ _ _ _ _ [] vacant_onDisk
  rw [DB.userArticles, vacant_boards, Res.ok_bind] at this
  cases this

/-- C32, in general: an empty name anywhere before which no board fails makes the search panic, for every user. -/
theorem C32_empty_name_panics (db : DB) (c : Codec) (fs : FS) (bs bs' : List BoardHeader) (b : BoardHeader)
    (index : Bytes → List FileHeader) (user : Bytes) (h : OnDisk db c fs (bs ++ b :: bs') index)
    (hn : ∀ x ∈ bs, x.brdName ≠ []) (hb : b.brdName = []) : db.userArticles c fs user = .panic := by
  have key : ∀ l : List BoardHeader, (∀ x ∈ l, x ∈ bs) → db.userArticleLoop c fs user (l ++ b :: bs') = .panic := by
    intro l
    induction l with
    | nil =>
      intro _
      rw [List.nil_append, DB.userArticleLoop, if_neg (by rw [hb]; decide)]
      rw [DB.readArticleRecords, hb]
      rfl
    | cons x l ih =>
      intro hm
      have hx := hm x (by simp)
      have ih := ih (fun y hy => hm y (by simp [hy]))
      rw [List.cons_append, DB.userArticleLoop]
      split
      · exact ih
      · rename_i hsk
        have hsk : x.brdName ≠ ascii "ALLPOST" := by simpa [DB.shouldSkip] using hsk
        rw [readArticleRecords_of (hn x hx) (h.indexFile x (by simp [hx]) hsk (hn x hx))
          (h.indexStorable x (by simp [hx])), Res.ok_bind, ih]
        rfl
  rw [DB.userArticles, readBoardRecords_of h.boardList h.storable, Res.ok_bind]
  exact key bs (fun _ hx => hx)

/-! ## C33 -/

/-- The articles named in the indexes have the contents `content`; a missing file has none. -/
def Spec.Contents (db : DB) (fs : FS) (boards : List BoardHeader) (index : Bytes → List FileHeader)
    (content : Bytes → Bytes → Bytes) : Prop :=
  ∀ b ∈ boards, b.brdName ≠ ascii "ALLPOST" → b.brdName ≠ [] → ∀ r ∈ index b.brdName,
    fs.readFile db.cwd (articlePath db.home b.brdName r.filename) = .ok (content b.brdName r.filename) ∨
    (fs.readFile db.cwd (articlePath db.home b.brdName r.filename) = .err "no such file or directory" ∧
      content b.brdName r.filename = [])

/-- The comments of the user in the articles of the boards that are searched. -/
def Spec.commentsOf (boards : List BoardHeader) (index : Bytes → List FileHeader) (content : Bytes → Bytes → Bytes)
    (user : Bytes) : List UserComment :=
  (boards.filter (fun b => b.brdName ≠ ascii "ALLPOST")).flatMap (fun b => (index b.brdName).flatMap (fun r =>
    (numbered b.brdName r.filename ((textLines (content b.brdName r.filename)).filterMap lineComment)).filter
      (fun x => x.owner = user)))

/-- The full claim of C33. -/
def Spec.CommentListComplete : Prop :=
  ∀ (db : DB) (c : Codec) (fs : FS) (boards : List BoardHeader) (index : Bytes → List FileHeader)
    (content : Bytes → Bytes → Bytes) (user : Bytes),
    OnDisk db c fs boards index → Contents db fs boards index content →
    db.userComments c fs user = .ok (commentsOf boards index content user)

/-- C33 for boards with names, articles that exist, lines shorter than 64 KiB and no comment-like line with an
impossible time. What is missing: each of the other cases (`C33_missing_article_refuted`, `C33_bad_time`,
`C35_long_lines_refuted`, `C32_empty_name_panics`). -/
theorem C33_comment_list_partial (db : DB) (c : Codec) (fs : FS) (boards : List BoardHeader)
    (index : Bytes → List FileHeader) (content : Bytes → Bytes → Bytes) (user : Bytes)
    (h : OnDisk db c fs boards index) (hn : ∀ b ∈ boards, b.brdName ≠ [])
    (hc : ∀ b ∈ boards, b.brdName ≠ ascii "ALLPOST" → ∀ r ∈ index b.brdName,
      fs.readFile db.cwd (articlePath db.home b.brdName r.filename) = .ok (content b.brdName r.filename))
    (hl : ∀ b ∈ boards, b.brdName ≠ ascii "ALLPOST" → ∀ r ∈ index b.brdName,
      (∀ l ∈ rawLines (content b.brdName r.filename), l.length < 65536) ∧
      (∀ l ∈ textLines (content b.brdName r.filename), Readable l)) :
    db.userComments c fs user = .ok (commentsOf boards index content user) := by
  have inner : ∀ b ∈ boards, b.brdName ≠ ascii "ALLPOST" → ∀ rs : List FileHeader, (∀ r ∈ rs, r ∈ index b.brdName) →
      db.boardUserCommentLoop fs b.brdName user (rs.map persisted) = .ok (rs.flatMap (fun r =>
        (numbered b.brdName r.filename ((textLines (content b.brdName r.filename)).filterMap lineComment)).filter
          (fun x => x.owner = user))) := by
    intro b hb hsk rs
    induction rs with
    | nil => intro _; rfl
    | cons r rs ih =>
      intro hm
      have hr := hm r (by simp)
      have ih := ih (fun x hx => hm x (by simp [hx]))
      obtain ⟨h1, h2⟩ := hl b hb hsk r hr
      have hac := C35_long_lines_partial b.brdName r.filename (content b.brdName r.filename) h1
      have hac : articleComments b.brdName r.filename (content b.brdName r.filename) =
          .ok (numbered b.brdName r.filename ((textLines (content b.brdName r.filename)).filterMap lineComment)) := by
        rcases hac with hac | ⟨⟨l, hl1, hl2⟩, _⟩
        · exact hac.2
        · exact absurd (h2 l hl1) hl2
      rw [List.map_cons, DB.boardUserCommentLoop, ih]
      show (do
        let crs ← db.boardArticleComments fs b.brdName r.filename
        let rest ← Res.ok (rs.flatMap (fun r : FileHeader =>
          (numbered b.brdName r.filename ((textLines (content b.brdName r.filename)).filterMap lineComment)).filter
            (fun x : UserComment => x.owner = user)))
        Res.ok (crs.filter (fun cr : UserComment => cr.owner = user) ++ rest)) = _
      rw [DB.boardArticleComments, DB.readBoardArticleFile, articlePath_of _ (hn b hb), Res.ok_bind, hc b hb hsk r hr,
        Res.ok_bind, hac]
      rfl
  have key : ∀ bs : List BoardHeader, (∀ b ∈ bs, b ∈ boards) →
      db.userCommentLoop c fs user bs = .ok (commentsOf bs index content user) := by
    intro bs
    induction bs with
    | nil => intro _; rfl
    | cons b bs ih =>
      intro hm
      have hb := hm b (by simp)
      have ih := ih (fun x hx => hm x (by simp [hx]))
      unfold DB.userCommentLoop
      by_cases hsk : b.brdName = ascii "ALLPOST"
      · rw [if_pos (by simp [DB.shouldSkip, hsk]), ih]
        simp [commentsOf, hsk]
      · rw [if_neg (by simp [DB.shouldSkip, hsk]), DB.boardUserComments,
          readArticleRecords_of (hn b hb) (h.indexFile b hb hsk (hn b hb)) (h.indexStorable b hb), Res.ok_bind,
          inner b hb hsk _ (fun _ hr => hr), Res.ok_bind, ih]
        simp [commentsOf, hsk]
  rw [DB.userComments, readBoardRecords_of h.boardList h.storable, Res.ok_bind]
  exact key boards (fun _ hb => hb)

def listContents (_ f : Bytes) : Bytes := if f = ascii "M.1.A.1" then listContent else []

/-- Non-vacuity of C33. -/
example : (∀ b ∈ listBoards, b.brdName ≠ ascii "ALLPOST" → ∀ r ∈ listIndex b.brdName,
      listFS.readFile sampleDB.cwd (articlePath sampleDB.home b.brdName r.filename) = .ok (listContents b.brdName r.filename)) ∧
    commentsOf listBoards listIndex listContents (ascii "tom") =
      [⟨1, ⟨0, 2, 28, 23, 59, 0⟩, ascii "tom", ascii "S", ascii "M.1.A.1", ascii "a"⟩] ∧
    commentsOf listBoards listIndex listContents (ascii "lex") = [] := by
  refine ⟨?_, by decide +kernel, by decide +kernel⟩
  decide +kernel

/-- A home with board `S` whose index names an article that is not there. -/
def missingFS : FS :=
  ⟨[([ascii "bbs"], .dir), ([ascii "bbs", ascii "boards"], .dir), ([ascii "bbs", ascii "boards", ascii "S"], .dir),
    ([ascii "bbs", ascii "boards", ascii "S", ascii "S"], .dir),
    ([ascii "bbs", ascii "boards", ascii "S", ascii "S", ascii ".DIR"],
      .file ((listIndex (ascii "S")).map (fun r => r.marshal asciiCodec)).flatten),
    ([ascii "bbs", ascii ".BRD"], .file (listBoards.map (fun b => b.marshal asciiCodec)).flatten)]⟩

theorem missing_onDisk : OnDisk sampleDB asciiCodec missingFS listBoards listIndex where
  boardList := by
    have h : missingFS.lookup sampleDB.cwd (sampleDB.home ++ ascii "/.BRD") = .ok [ascii "bbs", ascii ".BRD"] := by
      decide +kernel
    rw [FS.readFile_of h]
    rfl
  storable := list_onDisk.storable
  indexFile := by
    intro b hb _ _
    simp only [listBoards, List.mem_cons, List.not_mem_nil, or_false] at hb
    rcases hb with rfl | rfl | rfl
    · left
      have h : missingFS.lookup sampleDB.cwd (indexPath sampleDB.home (ascii "S")) =
          .ok [ascii "bbs", ascii "boards", ascii "S", ascii "S", ascii ".DIR"] := by decide +kernel
      show missingFS.readFile sampleDB.cwd (indexPath sampleDB.home (ascii "S")) = _
      rw [FS.readFile_of h]
      rfl
    · right
      exact ⟨by decide +kernel, by decide⟩
    · right
      exact ⟨by decide +kernel, by decide⟩
  noIndex := list_onDisk.noIndex
  indexStorable := list_onDisk.indexStorable

/-- A failing article among those of the boards makes the whole search fail: nothing of the user is listed. -/
theorem userComments_ok {db : DB} {c : Codec} {fs : FS} {boards : List BoardHeader} {index : Bytes → List FileHeader}
    {user : Bytes} (h : OnDisk db c fs boards index) {cs : List UserComment} (hcs : db.userComments c fs user = .ok cs) :
    ∀ b ∈ boards, b.brdName ≠ ascii "ALLPOST" → b.brdName ≠ [] ∧ ∀ r ∈ index b.brdName, ∃ content xs,
      fs.readFile db.cwd (articlePath db.home b.brdName r.filename) = .ok content ∧
      articleComments b.brdName r.filename content = .ok xs ∧ ∀ x ∈ xs, x.owner = user → x ∈ cs := by
  rw [DB.userComments, readBoardRecords_of h.boardList h.storable, Res.ok_bind] at hcs
  have key : ∀ (bs : List BoardHeader) (cs : List UserComment), (∀ b ∈ bs, b ∈ boards) →
      db.userCommentLoop c fs user bs = .ok cs → ∀ b ∈ bs, b.brdName ≠ ascii "ALLPOST" → b.brdName ≠ [] ∧
        ∀ r ∈ index b.brdName, ∃ content xs,
          fs.readFile db.cwd (articlePath db.home b.brdName r.filename) = .ok content ∧
          articleComments b.brdName r.filename content = .ok xs ∧ ∀ x ∈ xs, x.owner = user → x ∈ cs := by
    intro bs
    induction bs with
    | nil => intro cs _ _ b hb; cases hb
    | cons d ds ih =>
      intro cs hm hcs b hb hsk
      unfold DB.userCommentLoop at hcs
      by_cases hd : d.brdName = ascii "ALLPOST"
      · rw [if_pos (by simp [DB.shouldSkip, hd])] at hcs
        rcases List.mem_cons.mp hb with rfl | hb
        · exact absurd hd hsk
        · exact ih cs (fun x hx => hm x (by simp [hx])) hcs b hb hsk
      · rw [if_neg (by simp [DB.shouldSkip, hd])] at hcs
        obtain ⟨ucr, h1, h2⟩ := Res.bind_eq_ok.mp hcs
        obtain ⟨rest, h3, h4⟩ := Res.bind_eq_ok.mp h2
        have h4 := Res.ok.inj h4
        subst h4
        rcases List.mem_cons.mp hb with e | hb
        · subst e
          have hne : b.brdName ≠ [] := by
            intro e
            rw [DB.boardUserComments, DB.readArticleRecords, e] at h1
            cases h1
          refine ⟨hne, ?_⟩
          rw [DB.boardUserComments, readArticleRecords_of hne (h.indexFile b (hm b (by simp)) hsk hne)
            (h.indexStorable b (hm b (by simp))), Res.ok_bind] at h1
          have inner : ∀ (rs : List FileHeader) (ucr : List UserComment),
              db.boardUserCommentLoop fs b.brdName user (rs.map persisted) = .ok ucr → ∀ r ∈ rs, ∃ content xs,
              fs.readFile db.cwd (articlePath db.home b.brdName r.filename) = .ok content ∧
              articleComments b.brdName r.filename content = .ok xs ∧ ∀ x ∈ xs, x.owner = user → x ∈ ucr := by
            intro rs
            induction rs with
            | nil => intro _ _ r hr; cases hr
            | cons q qs ih =>
              intro ucr hu r hr
              rw [List.map_cons, DB.boardUserCommentLoop] at hu
              obtain ⟨crs, g1, g2⟩ := Res.bind_eq_ok.mp hu
              obtain ⟨rest', g3, g4⟩ := Res.bind_eq_ok.mp g2
              have g4 := Res.ok.inj g4
              subst g4
              rcases List.mem_cons.mp hr with e | hr
              · subst e
                have g1 : db.boardArticleComments fs b.brdName r.filename = .ok crs := g1
                rw [DB.boardArticleComments, DB.readBoardArticleFile, articlePath_of _ hne, Res.ok_bind] at g1
                obtain ⟨content, k1, k2⟩ := Res.bind_eq_ok.mp g1
                exact ⟨content, crs, k1, k2, fun x hx hu => by simp [hx, hu]⟩
              · obtain ⟨content, xs, k1, k2, k3⟩ := ih rest' g3 r hr
                exact ⟨content, xs, k1, k2, fun x hx hu => by simp [k3 x hx hu]⟩
          intro r hr
          obtain ⟨content, xs, k1, k2, k3⟩ := inner _ ucr h1 r hr
          exact ⟨content, xs, k1, k2, fun x hx hu => by simp [k3 x hx hu]⟩
        · obtain ⟨k0, k⟩ := ih rest (fun x hx => hm x (by simp [hx])) h3 b hb hsk
          refine ⟨k0, fun r hr => ?_⟩
          obtain ⟨content, xs, k1, k2, k3⟩ := k r hr
          exact ⟨content, xs, k1, k2, fun x hx hu => by simp [k3 x hx hu]⟩
  exact key boards cs (fun _ hb => hb) hcs

/-- C33 is false: an index entry whose file is gone makes the list of every user fail. -/
theorem C33_missing_article_refuted : ¬ CommentListComplete := by
  intro h
  have hm : missingFS.readFile sampleDB.cwd (articlePath sampleDB.home (ascii "S") (ascii "M.1.A.1")) =
      .err "no such file or directory" := by decide +kernel
  have := h sampleDB asciiCodec missingFS listBoards listIndex (fun _ _ => []) [] missing_onDisk (by
    intro b hb hsk _ r hr
    right
    refine ⟨?_, rfl⟩
    simp only [listBoards, List.mem_cons, List.not_mem_nil, or_false] at hb
    rcases hb with rfl | rfl | rfl
    · simp only [listIndex, if_pos, List.mem_cons, List.not_mem_nil, or_false] at hr
      rcases hr with rfl | rfl <;> decide +kernel
    · exact absurd rfl hsk
    · exact absurd (show r ∈ ([] : List FileHeader) from hr) (List.not_mem_nil))
  obtain ⟨_, k⟩ := userComments_ok missing_onDisk this { sampleBoard with brdName := ascii "S" } (by simp [listBoards])
    (by decide)
  obtain ⟨content, _, k1, _⟩ := k { FileHeader.zero with filename := ascii "M.1.A.1", owner := ascii "lex", title := ascii "t", modified := 1 }
    (by simp [listIndex])
  have k1 : missingFS.readFile sampleDB.cwd (articlePath sampleDB.home (ascii "S") (ascii "M.1.A.1")) = .ok content := k1
  rw [hm] at k1
  cases k1

/-- C33, in general: one comment-like line with an impossible time, in any article of any board, makes the list of every
user fail. -/
theorem C33_bad_time (db : DB) (c : Codec) (fs : FS) (boards : List BoardHeader) (index : Bytes → List FileHeader)
    (user : Bytes) (h : OnDisk db c fs boards index) (b : BoardHeader) (hb : b ∈ boards)
    (hsk : b.brdName ≠ ascii "ALLPOST") (r : FileHeader) (hr : r ∈ index b.brdName) (content l : Bytes)
    (hc : fs.readFile db.cwd (articlePath db.home b.brdName r.filename) = .ok content)
    (hs : ∀ l ∈ rawLines content, l.length < 65536) (hl : l ∈ textLines content) (hbad : ¬ Readable l) :
    ∀ cs, db.userComments c fs user ≠ .ok cs := by
  intro cs hcs
  obtain ⟨content', xs, k1, k2, _⟩ := (userComments_ok h hcs b hb hsk).2 r hr
  rw [hc] at k1
  have := Res.ok.inj k1
  subst this
  rcases C35_long_lines_partial b.brdName r.filename content hs with ⟨g, _⟩ | ⟨_, g⟩
  · exact hbad (g l hl)
  · exact g xs k2

/-- Such a line. -/
theorem bad_time_line : ¬ Readable (ascii "see foo: 99/99 99:99") := by
  have h : parseUserComment (filterANSI (ascii "see foo: 99/99 99:99")) = .err "month out of range" := by decide +kernel
  rintro (⟨x, hx⟩ | hx)
  · rw [h] at hx; cases hx
  · rw [h] at hx; exact absurd (Res.err.inj hx) (by decide)

end Verif
