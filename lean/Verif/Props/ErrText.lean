import Verif.Model.ErrText
import Verif.Props.ToolWork
import Verif.Props.Crashes
/-!
# C126: a list that cannot be opened is not taken for an empty one
-/

namespace Verif
open Spec

/-! ## What is claimed -/

/-- There is nothing at the place a path names. -/
def Spec.NothingAt (fs : FS) (cwd : Path) (p : Bytes) : Prop :=
  fs.lookup cwd p = .err "no such file or directory" ∨ ∃ l, fs.lookup cwd p = .ok l ∧ fs.get l = none

/-- An empty file is at the place a path names. -/
def Spec.EmptyFileAt (fs : FS) (cwd : Path) (p : Bytes) : Prop := ∃ l, fs.lookup cwd p = .ok l ∧ fs.get l = some (.file [])

/-- The full claim of C126: the answer is an empty list only if there is no list or the list is empty. -/
def Spec.EmptyIsTrue : Prop :=
  ∀ (db : DB) (c : Codec) (fs : FS) (board p : Bytes), getBoardArticlesDirectoryPath db.home board = .ok p →
    db.readArticleRecordsText c fs board = .ok [] → NothingAt fs db.cwd p ∨ EmptyFileAt fs db.cwd p

/-! ## Searching a text -/

theorem containsPhrase_iff (w t : Bytes) : containsPhrase w t = true ↔ w <:+: t := by
  induction t with
  | nil => cases w <;> simp [containsPhrase]
  | cons c cs ih => simp [containsPhrase, ih, List.infix_cons_iff]

/-- A phrase without the separator lies on one side of it. -/
theorem infix_sep {s : UInt8} {w : Bytes} (hs : s ∉ w) (a b : Bytes) : w <:+: a ++ s :: b ↔ w <:+: a ∨ w <:+: b := by
  constructor
  · intro ⟨x, y, h⟩
    rw [List.append_assoc] at h
    rcases List.append_eq_append_iff.mp h with ⟨u, h1, h2⟩ | ⟨u, h1, h2⟩
    · rcases List.append_eq_append_iff.mp h2 with ⟨v, h3, h4⟩ | ⟨v, h3, h4⟩
      · exact .inl ⟨x, v, by rw [h1, h3, List.append_assoc]⟩
      · cases v with
        | nil => exact .inl ⟨x, [], by rw [h1, h3]; simp⟩
        | cons k v =>
          rw [List.cons_append, List.cons.injEq] at h4
          exact absurd (by rw [h3, ← h4.1]; simp) hs
    · cases u with
      | nil =>
        cases w with
        | nil => exact .inl ⟨[], a, rfl⟩
        | cons k w =>
          rw [List.nil_append, List.cons_append, List.cons.injEq] at h2
          exact absurd (by rw [h2.1]; simp) hs
      | cons k u =>
        rw [List.cons_append, List.cons.injEq] at h2
        exact .inr ⟨u, y, by rw [h2.2, List.append_assoc]⟩
  · rintro (h | h)
    · exact h.trans ⟨[], s :: b, by simp⟩
    · exact h.trans ⟨a ++ [s], [], by simp⟩

theorem not_prefix_missing {c : UInt8} (h : c ≠ 110) (t : Bytes) : ¬ missingPhrase <+: c :: t := by
  intro h1
  have : missingPhrase = 110 :: missingPhrase.tail := by decide +kernel
  rw [this, List.cons_prefix_cons] at h1
  exact h h1.1.symm

theorem missing_cons {c : UInt8} (h : c ≠ 110) (t : Bytes) : missingPhrase <:+: c :: t ↔ missingPhrase <:+: t := by
  rw [List.infix_cons_iff, or_iff_right (not_prefix_missing h t)]

theorem missing_open (t : Bytes) : missingPhrase <:+: ascii "open " ++ t ↔ missingPhrase <:+: t := by
  have e : ascii "open " ++ t = 111 :: 112 :: 101 :: 110 :: 32 :: t := by
    rw [show ascii "open " = [111, 112, 101, 110, 32] by decide +kernel]; rfl
  rw [e, missing_cons (by decide), missing_cons (by decide), missing_cons (by decide), List.infix_cons_iff, missing_cons (by decide),
    or_iff_right]
  intro h
  have : missingPhrase = 110 :: 111 :: missingPhrase.tail.tail := by decide +kernel
  rw [this, List.cons_prefix_cons, List.cons_prefix_cons] at h
  exact absurd h.2.1 (by decide)

/-- Where the phrase may be in the text of an error. -/
theorem missing_text (p : Bytes) (e : String) :
    containsPhrase missingPhrase (openErrorText p e) = true ↔ missingPhrase <:+: p ∨ missingPhrase <:+: ascii e := by
  have e1 : ascii ": " ++ ascii e = 58 :: 32 :: ascii e := by rw [show ascii ": " = [58, 32] by decide +kernel]; rfl
  rw [containsPhrase_iff, openErrorText, List.append_assoc, List.append_assoc, missing_open, e1,
    infix_sep (by decide +kernel), missing_cons (by decide)]

/-- Where the phrase may be in the path of a list. -/
theorem missing_path {home board p : Bytes} (h : getBoardArticlesDirectoryPath home board = .ok p) :
    missingPhrase <:+: p ↔ missingPhrase <:+: home ∨ missingPhrase <:+: board := by
  have hb : board ≠ [] := by intro e; subst e; cases h
  obtain ⟨c, cs, rfl⟩ := List.exists_cons_of_ne_nil hb
  have hs : slash ∉ missingPhrase := by decide +kernel
  have hp : p = home ++ slash :: (ascii "boards" ++ slash :: (fmtC c ++ slash :: (c :: cs ++ slash :: ascii ".DIR"))) := by
    have e1 : ascii "/boards/" = slash :: (ascii "boards" ++ [slash]) := by decide +kernel
    have e2 : ascii "/" = [slash] := by decide +kernel
    have e3 : ascii "/.DIR" = slash :: ascii ".DIR" := by decide +kernel
    have : p = home ++ ascii "/boards/" ++ fmtC c ++ ascii "/" ++ (c :: cs) ++ ascii "/.DIR" := by
      have := h; simp only [getBoardArticlesDirectoryPath, firstByte, Res.ok_bind] at this; exact (Res.ok.inj this).symm
    rw [this, e1, e2, e3]; simp
  have short : ∀ t : Bytes, t.length < 25 → ¬ missingPhrase <:+: t := by
    intro t ht h1
    have := h1.length_le
    rw [show missingPhrase.length = 25 by decide +kernel] at this
    omega
  have hc : (fmtC c).length < 25 := by unfold fmtC; split <;> simp
  rw [hp, infix_sep hs, infix_sep hs, infix_sep hs, infix_sep hs, or_iff_right (short (ascii "boards") (by decide +kernel)),
    or_iff_right (short _ hc), or_iff_left (short (ascii ".DIR") (by decide +kernel))]

/-! ## The errors of opening -/

theorem walk_errs (fs : FS) : ∀ (cs : List Bytes) (cur : Path) (e : String), fs.walk cur cs = .err e →
    e = "no such file or directory" ∨ e = "not a directory"
  | [], _, _, h => by cases h
  | c :: cs, cur, e, h => by
    rw [FS.walk] at h
    split at h
    · exact .inl (Res.err.inj h).symm
    · exact .inr (Res.err.inj h).symm
    · exact walk_errs fs cs _ e h

theorem lookup_errs {fs : FS} {cwd : Path} {p : Bytes} {e : String} (h : fs.lookup cwd p = .err e) :
    e = "no such file or directory" ∨ e = "not a directory" ∨ e = "invalid argument" := by
  unfold FS.lookup at h
  split at h
  · exact .inl (Res.err.inj h).symm
  · split at h
    · exact .inr (.inr (Res.err.inj h).symm)
    · rcases walk_errs _ _ _ _ h with h | h
      · exact .inl h
      · exact .inr (.inl h)

/-- What opening a list gives. -/
theorem openArticleList_split (db : DB) (c : Codec) (fs : FS) (p : Bytes) :
    (NothingAt fs db.cwd p ∧ db.openArticleList c fs p = .err "no such file or directory") ∨
    (∃ e, fs.lookup db.cwd p = .err e ∧ (e = "not a directory" ∨ e = "invalid argument") ∧ db.openArticleList c fs p = .err e) ∨
    (IsDir fs db.cwd p ∧ db.openArticleList c fs p = .diverge) ∨
    ∃ l d, fs.lookup db.cwd p = .ok l ∧ fs.get l = some (.file d) ∧ db.openArticleList c fs p = .ok ((slots 128 d).map (FileHeader.parse c)) := by
  rcases lookup_cases fs db.cwd p with ⟨l, hl⟩ | ⟨e, he⟩
  · have ho : db.openArticleList c fs p = match fs.get l with
      | none => .err "no such file or directory"
      | some .dir => .diverge
      | some (.file d) => openFileHeaderFile c (some d) := by rw [DB.openArticleList, hl]; rfl
    cases hg : fs.get l with
    | none => exact .inl ⟨.inr ⟨l, hl, hg⟩, by rw [ho, hg]⟩
    | some n =>
      cases n with
      | dir => exact .inr (.inr (.inl ⟨⟨l, hl, hg⟩, by rw [ho, hg]⟩))
      | file d =>
        refine .inr (.inr (.inr ⟨l, d, hl, hg, ?_⟩))
        rw [ho, hg]
        exact readFile_slots (by omega) (FileHeader.unmarshal_eq c) d
  · have ho : db.openArticleList c fs p = .err e := by rw [DB.openArticleList, he]; rfl
    rcases lookup_errs he with h | h | h
    · subst h; exact .inl ⟨.inl he, ho⟩
    · exact .inr (.inl ⟨e, he, .inl h, ho⟩)
    · exact .inr (.inl ⟨e, he, .inr h, ho⟩)

theorem slots_nil_iff (c : Codec) (d : Bytes) : (slots 128 d).map (FileHeader.parse c) = [] ↔ d = [] := by
  rw [List.map_eq_nil_iff]
  constructor
  · intro h
    have := congrArg List.length h
    simp only [slots, List.length_map, List.length_range, List.length_nil] at this
    exact List.eq_nil_of_length_eq_zero (by omega)
  · intro h; subst h; rfl

/-! ## The claims -/

/-- **C126, exactly**: the answer is an empty list if there is nothing, if the list is empty, or if the list cannot be reached and the name of the
store or of the board contains the phrase. -/
theorem C126_exact (db : DB) (c : Codec) (fs : FS) (board p : Bytes) (hp : getBoardArticlesDirectoryPath db.home board = .ok p) :
    db.readArticleRecordsText c fs board = .ok [] ↔
      NothingAt fs db.cwd p ∨ EmptyFileAt fs db.cwd p ∨
      ((fs.lookup db.cwd p = .err "not a directory" ∨ fs.lookup db.cwd p = .err "invalid argument") ∧
        (ascii "no such file or directory" <:+: db.home ∨ ascii "no such file or directory" <:+: board)) := by
  have hm : missingPhrase = ascii "no such file or directory" := rfl
  rw [← hm, ← missing_path hp, DB.readArticleRecordsText, hp, Res.ok_bind]
  rcases openArticleList_split db c fs p with ⟨h1, h2⟩ | ⟨e, h1, h2, h3⟩ | ⟨⟨l, hl, hg⟩, h2⟩ | ⟨l, d, h1, h2, h3⟩
  · have : containsPhrase missingPhrase (openErrorText p "no such file or directory") = true :=
      (missing_text _ _).mpr (.inr ⟨[], [], by simp [missingPhrase]⟩)
    rw [h2]
    simp [this, h1]
  · rw [h3]
    have hn : ¬ NothingAt fs db.cwd p := by
      rintro (h | ⟨l, h, _⟩) <;> rw [h1] at h
      · have := Res.err.inj h; subst this; rcases h2 with h2 | h2 <;> exact absurd h2 (by decide)
      · cases h
    have he : ¬ EmptyFileAt fs db.cwd p := by rintro ⟨l, h, _⟩; rw [h1] at h; cases h
    have hx : ¬ missingPhrase <:+: ascii e := by
      rw [← containsPhrase_iff]; rcases h2 with rfl | rfl <;> decide +kernel
    have ht := missing_text p e
    rw [or_iff_left hx] at ht
    have hl : fs.lookup db.cwd p = .err "not a directory" ∨ fs.lookup db.cwd p = .err "invalid argument" := by
      rw [h1]; rcases h2 with rfl | rfl <;> simp
    by_cases hc : containsPhrase missingPhrase (openErrorText p e) = true
    · simp [hc, hl, ht.mp hc]
    · simp [hc, hn, he, mt ht.mpr hc]
  · rw [h2]
    simp [NothingAt, EmptyFileAt, hl, hg]
  · rw [h3]
    simp only [Res.ok.injEq, slots_nil_iff, NothingAt, EmptyFileAt, h1]
    simp [h2]

/-- **C126, what holds**: in a store and on a board whose names do not contain the phrase an empty answer is true, and errors are told. -/
theorem C126_partial (db : DB) (c : Codec) (fs : FS) (board p : Bytes) (hp : getBoardArticlesDirectoryPath db.home board = .ok p)
    (hh : ¬ ascii "no such file or directory" <:+: db.home) (hb : ¬ ascii "no such file or directory" <:+: board) :
    (db.readArticleRecordsText c fs board = .ok [] ↔ NothingAt fs db.cwd p ∨ EmptyFileAt fs db.cwd p) ∧
    ∀ e, db.readArticleRecordsText c fs board = .err e ↔ fs.lookup db.cwd p = .err e ∧ e ≠ "no such file or directory" := by
  refine ⟨by rw [C126_exact db c fs board p hp]; simp [hh, hb], fun e => ?_⟩
  have hmp : ¬ missingPhrase <:+: p := by rw [missing_path hp]; exact fun h => h.elim hh hb
  rw [DB.readArticleRecordsText, hp, Res.ok_bind]
  rcases openArticleList_split db c fs p with ⟨h1, h2⟩ | ⟨e', h1, h2, h3⟩ | ⟨⟨l, hl, hg⟩, h2⟩ | ⟨l, d, h1, h2, h3⟩
  · have : containsPhrase missingPhrase (openErrorText p "no such file or directory") = true :=
      (missing_text _ _).mpr (.inr ⟨[], [], by simp [missingPhrase]⟩)
    rw [h2]
    simp only [this, if_true, reduceCtorEq, false_iff]
    rintro ⟨h, hne⟩
    rcases h1 with h1 | ⟨l, h1, _⟩ <;> rw [h1] at h
    · exact hne (Res.err.inj h).symm
    · cases h
  · rw [h3]
    have hx : ¬ missingPhrase <:+: ascii e' := by
      rw [← containsPhrase_iff]; rcases h2 with rfl | rfl <;> decide +kernel
    have hc : ¬ containsPhrase missingPhrase (openErrorText p e') = true := by
      rw [missing_text]; exact fun h => h.elim hmp hx
    simp only [hc, h1, Res.err.injEq, Bool.false_eq_true, if_false]
    constructor
    · intro h; subst h; refine ⟨rfl, ?_⟩; rcases h2 with rfl | rfl <;> decide
    · exact fun h => h.1
  · rw [h2]; simp [hl]
  · rw [h3]; simp [h1]

/-- In such a store and on such a board the reader is the one the other theorems are about. -/
theorem C126_agrees_partial (db : DB) (c : Codec) (fs : FS) (board : Bytes) (hh : ¬ ascii "no such file or directory" <:+: db.home)
    (hb : ¬ ascii "no such file or directory" <:+: board) : db.readArticleRecordsText c fs board = db.readArticleRecords c fs board := by
  by_cases h0 : board = []
  · subst h0; rfl
  · have hp := indexPath_of (home := db.home) h0
    have hmp : ¬ missingPhrase <:+: indexPath db.home board := by rw [missing_path hp]; exact fun h => h.elim hh hb
    rw [DB.readArticleRecordsText, DB.readArticleRecords, hp, Res.ok_bind, Res.ok_bind]
    rcases openArticleList_split db c fs (indexPath db.home board) with ⟨h1, h2⟩ | ⟨e', h1, h2, h3⟩ | ⟨⟨l, hl, hg⟩, h2⟩ | ⟨l, d, h1, h2, h3⟩
    · rw [h2]
      have : containsPhrase missingPhrase (openErrorText (indexPath db.home board) "no such file or directory") = true :=
        (missing_text _ _).mpr (.inr ⟨[], [], by simp [missingPhrase]⟩)
      simp [this]
    · rw [h3]
      have hx : ¬ missingPhrase <:+: ascii e' := by
        rw [← containsPhrase_iff]; rcases h2 with rfl | rfl <;> decide +kernel
      have hc : ¬ containsPhrase missingPhrase (openErrorText (indexPath db.home board) e') = true := by
        rw [missing_text]; exact fun h => h.elim hmp hx
      have hne : e' ≠ "no such file or directory" := by rcases h2 with rfl | rfl <;> decide
      simp [hc, hne]
    · rw [h2]
    · rw [h3]

/-- A store whose directory is called `no such file or directory`, with a file in the place of the board `S`. -/
def phraseHome : Bytes := ascii "no such file or directory"

def phraseDB : DB := ⟨slash :: phraseHome, []⟩

def phraseFS : FS :=
  ⟨[([phraseHome], .dir), ([phraseHome, ascii "boards"], .dir), ([phraseHome, ascii "boards", ascii "S"], .dir),
    ([phraseHome, ascii "boards", ascii "S", ascii "S"], .file (ascii "x"))]⟩

/-- **C126 is false of the code**: the board's place is taken by a file, and the answer is an empty list. -/
theorem C126_refuted : ¬ Spec.EmptyIsTrue := by
  intro h
  have hp := indexPath_of (home := phraseDB.home) (board := ascii "S") (by decide)
  have hl : phraseFS.lookup phraseDB.cwd (indexPath phraseDB.home (ascii "S")) = .err "not a directory" := by decide +kernel
  have := h phraseDB asciiCodec phraseFS (ascii "S") _ hp ((C126_exact _ _ _ _ _ hp).mpr (.inr (.inr ⟨.inl hl, .inl ?_⟩)))
  · rcases this with (h | ⟨l, h, _⟩) | ⟨l, h, _⟩ <;> rw [hl] at h
    · exact absurd (Res.err.inj h) (by decide)
    · cases h
    · cases h
  · rw [← containsPhrase_iff]; decide +kernel

/-- The same with a board name: any caller may ask for such a board. -/
example : sampleDB.readArticleRecordsText asciiCodec blockedFS (ascii "S/no such file or directory") = .ok [] ∧
    sampleDB.readArticleRecords asciiCodec blockedFS (ascii "S/no such file or directory") = .err "not a directory" := by decide +kernel

/-- Non-vacuity of the hypotheses: the sample store, with an error that is told, a list that is not there, and a board with an article. -/
example : (¬ ascii "no such file or directory" <:+: sampleDB.home) ∧ (¬ ascii "no such file or directory" <:+: ascii "S") ∧
    sampleDB.readArticleRecordsText asciiCodec blockedFS (ascii "S") = .err "not a directory" ∧
    sampleDB.readArticleRecordsText asciiCodec sampleFS (ascii "S") = .ok [] ∧
    (match sampleDB.readArticleRecordsText asciiCodec (sampleFS.set [ascii "bbs", ascii "boards", ascii "S", ascii "S", ascii ".DIR"]
      (.file ((DB.newArticleRecord (ascii "M.1.A.1") (ascii "pichu") (ascii "11/16") (ascii "hi")).marshal asciiCodec))) (ascii "S") with
     | .ok l => l.map (·.filename)
     | _ => []) = [ascii "M.1.A.1"] := by
  refine ⟨?_, ?_, by decide +kernel, by decide +kernel, by decide +kernel⟩ <;> rw [← containsPhrase_iff] <;> decide +kernel

end Verif
