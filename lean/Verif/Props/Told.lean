import Verif.Model.Told
import Verif.Props.Api
import Verif.Props.RecordFiles
/-!
# The log tells of failures

C162: what can be told from the log about the outcome of a call. C163: what the start of the service writes.
-/

namespace Verif
open Spec

/-! ## How words are put together -/

theorem told_complain_result (m : Told α) (who : String) : (m.complain who).result = m.result := by
  unfold Told.complain
  split <;> simp_all

theorem told_andThen_result (m : Told α) (f : α → Told β) : (m.andThen f).result = m.result >>= fun a => (f a).result := by
  unfold Told.andThen
  split <;> rename_i h <;> rw [h] <;> rfl

theorem told_path_result (r : Res Bytes) (who : String) (f : Bytes → Told α) : (Told.path r who f).result = r >>= fun p => (f p).result := by
  rw [Told.path, told_andThen_result, told_complain_result]
  rfl

theorem told_path_ok {r : Res Bytes} {p : Bytes} (h : r = .ok p) (who : String) (f : Bytes → Told α) :
    (Told.path r who f).lines = .path p :: (f p).lines := by
  subst h
  rfl

theorem told_path_panic {r : Res Bytes} (h : r = .panic) (who : String) (f : Bytes → Told α) : (Told.path r who f).lines = [] := by
  subst h
  rfl

/-- Trouble is written only of what comes to it. -/
def SoundWord (m : Told α) : Prop := ∀ who e, LogWord.trouble who e ∈ m.lines → m.result = .err e

/-- What comes to an error is written. -/
def FullWord (m : Told α) : Prop := ∀ e, m.result = .err e → ∃ who, LogWord.trouble who e ∈ m.lines

theorem soundWord_of (r : Res α) : SoundWord (.of r) := fun _ _ h => absurd h List.not_mem_nil

theorem SoundWord.complain {m : Told α} (h : SoundWord m) (who : String) : SoundWord (m.complain who) := by
  intro w e he
  rw [told_complain_result]
  unfold Told.complain at he
  split at he
  · rename_i e' he'
    rcases List.mem_append.mp he with he | he
    · exact h w e he
    · cases List.mem_singleton.mp he
      exact he'
  · exact h w e he

theorem fullWord_complain (m : Told α) (who : String) : FullWord (m.complain who) := by
  intro e he
  rw [told_complain_result] at he
  unfold Told.complain
  rw [he]
  exact ⟨who, List.mem_append_right _ (List.mem_singleton.mpr rfl)⟩

theorem SoundWord.andThen {m : Told α} {f : α → Told β} (h : SoundWord m) (hf : ∀ a, SoundWord (f a)) : SoundWord (m.andThen f) := by
  intro w e he
  unfold Told.andThen at he ⊢
  split at he <;> rename_i hr
  · rcases List.mem_append.mp he with he | he
    · exact absurd (hr.symm.trans (h w e he)) (by simp)
    · exact hf _ w e he
  · have := hr.symm.trans (h w e he)
    cases this
    rfl
  · exact absurd (hr.symm.trans (h w e he)) (by simp)
  · exact absurd (hr.symm.trans (h w e he)) (by simp)

theorem SoundWord.path {r : Res Bytes} {who : String} {f : Bytes → Told α} (hf : ∀ p, SoundWord (f p)) : SoundWord (Told.path r who f) :=
  ((soundWord_of r).complain who).andThen fun p => SoundWord.andThen (m := ⟨[.path p], .ok ()⟩)
    (fun _ _ h => by cases List.mem_singleton.mp h) fun _ => hf p

/-- A path is made, or the name is empty and it crashes. -/
theorem path_or_crash (home : Bytes) (op : Call) :
    (∃ p, op.loggedPath home = .ok p) ∨ op.loggedPath home = .panic ∨ op.loggedPath home = .err "none" := by
  have h : ∀ (n : Bytes) (f : UInt8 → Bytes), (∃ p, (firstByte n >>= fun c => Res.ok (f c)) = .ok p) ∨ (firstByte n >>= fun c => Res.ok (f c)) = .panic := by
    intro n f
    cases n
    · exact .inr rfl
    · exact .inl ⟨_, rfl⟩
  cases op
  case createArticle => exact .inr (.inr rfl)
  case appendArticle => exact .inr (.inr rfl)
  case readUsers => exact .inl ⟨_, rfl⟩
  case readBoards => exact .inl ⟨_, rfl⟩
  case addBoard => exact .inl ⟨_, rfl⟩
  all_goals exact (h _ _).imp id .inl

theorem FullWord.path {r : Res Bytes} {who : String} {f : Bytes → Told α} (hf : ∀ p, FullWord (f p)) : FullWord (Told.path r who f) := by
  intro e he
  rw [told_path_result] at he
  cases r with
  | ok p =>
    obtain ⟨w, hw⟩ := hf p e he
    exact ⟨w, by rw [told_path_ok rfl]; exact List.mem_cons_of_mem _ hw⟩
  | err e' => cases he; exact ⟨who, List.mem_singleton.mpr rfl⟩
  | panic => cases he
  | diverge => cases he

/-! ## The answers are the same -/

theorem finished_writes (fs : FS) (r : Res FS) : finished r = (writes fs r).2 := by
  cases r <;> rfl

theorem bind_assoc_res {α β γ : Type} (r : Res α) (f : α → Res β) (g : β → Res γ) : ((r >>= f) >>= g) = r >>= fun a => f a >>= g := by
  cases r <;> rfl

theorem opened_result (r : Res α) (f : α → Answer) : (DB.opened r f).result = r >>= fun a => .ok (f a) := by
  rw [DB.opened, told_complain_result]
  rfl

theorem listed_result (db : DB) (c : Codec) (fs : FS) (p : Bytes) : (db.listedTold c fs p).result =
    (match db.openArticleList c fs p with
      | .err e => if e = "no such file or directory" then .ok [] else .err e
      | r => r) >>= fun l => .ok (.articles l) := by
  have h := opened_result (db.openArticleList c fs p) .articles
  unfold DB.listedTold
  cases hr : db.openArticleList c fs p with
  | ok l => rfl
  | err e =>
    show (if e = "no such file or directory" then _ else _ : Told Answer).result = _
    by_cases he : e = "no such file or directory"
    · simp only [if_pos he]; rfl
    · simp only [if_neg he]; rfl
  | panic => rfl
  | diverge => rfl

theorem favourites_result (db : DB) (c : Codec) (fs : FS) (p : Bytes) :
    (db.favouritesTold c fs p).result = (do .ok (.favourites (← db.readFavoriteFile c fs p))) := by
  unfold DB.favouritesTold DB.readFavoriteFile
  split
  · rfl
  · simp only [told_andThen_result, told_complain_result, Told.of, bind_assoc_res, Res.ok_bind]

/-- **C162.** With all that is written the calls answer as before. -/
theorem C162_same (db : DB) (c : Codec) (fs : FS) (op : Call) : (op.told db c fs).result = (op.exec db c fs).2 := by
  cases op with
  | createArticle b o d t draw fuel =>
    simp only [Call.told, Call.exec, Told.of]
    cases db.createArticleRecord fs b o d t draw fuel <;> rfl
  | readFavourites u =>
    simp only [Call.told, Call.exec, told_path_result, told_complain_result, favourites_result, reads, DB.readFavorites, bind_assoc_res]
  | listArticles b =>
    rw [Call.told, told_path_result]
    simp only [listed_result]
    exact (bind_assoc_res _ _ _).symm
  | readDraft u d =>
    rw [Call.told, told_path_result]
    exact (bind_assoc_res _ _ _).symm
  | _ =>
    simp only [Call.told, Call.exec, told_path_result, told_complain_result, opened_result, Told.of, reads, ← finished_writes, finished,
      DB.readUserRecords, DB.readBoardRecords, DB.readTreasureRecords, DB.readBoardArticleFile, DB.readTreasureFile, DB.addBoardRecord,
      DB.addArticleRecord, DB.writeBoardArticleFile, DB.deleteUserDraft, DB.writeUserDraft, bind_assoc_res]

/-! ## C162 -/

/-- The calls whose failures are written. -/
def Spec.reported : Call → Bool
  | .createArticle .. | .addRecord .. | .appendArticle .. | .readDraft .. | .deleteDraft .. | .writeDraft .. => false
  | _ => true

/-- The full claim of C162: the failure of a call can be read in the log, and only failures are read there. -/
def Spec.C162 : Prop := ∀ (db : DB) (c : Codec) (fs : FS) (op : Call) (e : String),
  (∃ who, LogWord.trouble who e ∈ (op.told db c fs).lines) ↔ (op.exec db c fs).2 = .err e

/-- No path is written. -/
def NoPath (m : Told α) : Prop := ∀ q, LogWord.path q ∉ m.lines

theorem noPath_of (r : Res α) : NoPath (.of r) := fun _ => List.not_mem_nil

theorem NoPath.complain {m : Told α} (h : NoPath m) (who : String) : NoPath (m.complain who) := by
  intro q hq
  unfold Told.complain at hq
  split at hq
  · rcases List.mem_append.mp hq with hq | hq
    · exact h q hq
    · cases List.mem_singleton.mp hq
  · exact h q hq

theorem NoPath.andThen {m : Told α} {f : α → Told β} (h : NoPath m) (hf : ∀ a, NoPath (f a)) : NoPath (m.andThen f) := by
  intro q hq
  unfold Told.andThen at hq
  split at hq
  · rcases List.mem_append.mp hq with hq | hq
    · exact h q hq
    · exact hf _ q hq
  all_goals exact h q hq

theorem noPath_opened (r : Res α) (f : α → Answer) : NoPath (DB.opened r f) := (noPath_of _).complain _

theorem noPath_listed (db : DB) (c : Codec) (fs : FS) (p : Bytes) : NoPath (db.listedTold c fs p) := by
  intro q hq
  have h := noPath_opened (db.openArticleList c fs p) .articles q
  unfold DB.listedTold at hq
  split at hq
  · rename_i lines e he
    rw [he] at h
    split at hq
    · exact h hq
    · rcases List.mem_append.mp hq with hq | hq
      · exact h hq
      · cases List.mem_singleton.mp hq
  · exact h hq

theorem noPath_favourites (db : DB) (c : Codec) (fs : FS) (p : Bytes) : NoPath (db.favouritesTold c fs p) := by
  unfold DB.favouritesTold
  split
  · exact noPath_of _
  · exact (noPath_of _).andThen fun _ => (noPath_of _).andThen fun _ => (noPath_of _).andThen fun _ =>
      ((noPath_of _).complain _).andThen fun _ => noPath_of _

/-- What a call is: a path and the rest, or without a path. -/
theorem told_shape (db : DB) (c : Codec) (fs : FS) (op : Call) :
    (∃ who f, op.told db c fs = .path (op.loggedPath db.home) who f ∧ (∀ p, NoPath (f p)) ∧ op.loggedPath db.home ≠ .err "none") ∨
    (∃ r, op.told db c fs = .of r ∧ op.loggedPath db.home = .err "none") := by
  have h : ∀ (n : Bytes) (f : UInt8 → Bytes), (firstByte n >>= fun c => Res.ok (f c)) ≠ .err "none" := by
    intro n f
    cases n <;> exact fun h => by cases h
  cases op with
  | createArticle => exact .inr ⟨_, rfl, rfl⟩
  | appendArticle => exact .inr ⟨_, rfl, rfl⟩
  | readUsers => exact .inl ⟨_, _, rfl, fun _ => (noPath_opened _ _).complain _, (fun h => by cases h)⟩
  | readBoards => exact .inl ⟨_, _, rfl, fun _ => (noPath_opened _ _).complain _, (fun h => by cases h)⟩
  | addBoard => exact .inl ⟨_, _, rfl, fun _ => (noPath_of _).complain _, (fun h => by cases h)⟩
  | readFavourites => exact .inl ⟨_, _, rfl, fun _ => (noPath_favourites _ _ _ _).complain _, h _ _⟩
  | listArticles => exact .inl ⟨_, _, rfl, fun _ => noPath_listed _ _ _ _, h _ _⟩
  | listTreasure => exact .inl ⟨_, _, rfl, fun _ => (noPath_opened _ _).complain _, h _ _⟩
  | readArticle => exact .inl ⟨_, _, rfl, fun _ => (noPath_of _).complain _, h _ _⟩
  | readTreasure => exact .inl ⟨_, _, rfl, fun _ => (noPath_of _).complain _, h _ _⟩
  | writeArticle => exact .inl ⟨_, _, rfl, fun _ => (noPath_of _).complain _, h _ _⟩
  | addRecord => exact .inl ⟨_, _, rfl, fun _ => noPath_of _, h _ _⟩
  | readDraft => exact .inl ⟨_, _, rfl, fun _ => noPath_of _, h _ _⟩
  | deleteDraft => exact .inl ⟨_, _, rfl, fun _ => noPath_of _, h _ _⟩
  | writeDraft => exact .inl ⟨_, _, rfl, fun _ => noPath_of _, h _ _⟩

/-- The path is written as before, once, and first; no other. -/
theorem C162_path (db : DB) (c : Codec) (fs : FS) (op : Call) :
    (∀ p, op.loggedPath db.home = .ok p → ∃ rest, (op.told db c fs).lines = .path p :: rest ∧ ∀ q, LogWord.path q ∉ rest) ∧
    ((∀ p, op.loggedPath db.home ≠ .ok p) → (op.told db c fs).lines = []) := by
  rcases told_shape db c fs op with ⟨who, f, h, hf, hne⟩ | ⟨r, h, he⟩
  · rw [h]
    refine ⟨fun p hp => ⟨_, told_path_ok hp who f, hf p⟩, fun hn => ?_⟩
    rcases path_or_crash db.home op with ⟨p, hp⟩ | hp | hp
    · exact absurd hp (hn p)
    · exact told_path_panic hp who f
    · exact absurd hp hne
  · rw [h, he]
    exact ⟨fun p hp => (by cases hp), fun _ => rfl⟩

/-- Calls not reported write the path and no more, whatever comes of them. -/
theorem C162_silent (db : DB) (c : Codec) (fs : FS) (op : Call) (h : reported op = false) :
    (op.told db c fs).lines = match op.loggedPath db.home with | .ok p => [.path p] | _ => [] := by
  have key : ∀ (r : Res Bytes) who (f : Bytes → Res Answer), (∃ p, r = .ok p) ∨ r = .panic ∨ r = .err "none" → r ≠ .err "none" →
      (Told.path r who fun p => .of (f p)).lines = match r with | .ok p => [.path p] | _ => [] := by
    intro r who f hr hne
    rcases hr with ⟨p, rfl⟩ | rfl | rfl
    · rfl
    · rfl
    · exact absurd rfl hne
  have hc := path_or_crash db.home op
  have hn : ∀ (n : Bytes) (f : UInt8 → Bytes), (firstByte n >>= fun c => Res.ok (f c)) ≠ .err "none" := by
    intro n f
    cases n <;> exact fun h => by cases h
  cases op with
  | createArticle => rfl
  | appendArticle => rfl
  | addRecord => exact key _ _ _ hc (hn _ _)
  | readDraft => exact key _ _ _ hc (hn _ _)
  | deleteDraft => exact key _ _ _ hc (hn _ _)
  | writeDraft => exact key _ _ _ hc (hn _ _)
  | _ => cases h

theorem soundWord_opened (r : Res α) (f : α → Answer) : SoundWord (DB.opened r f) := (soundWord_of _).complain _

theorem soundWord_favourites (db : DB) (c : Codec) (fs : FS) (p : Bytes) : SoundWord (db.favouritesTold c fs p) := by
  unfold DB.favouritesTold
  split
  · exact soundWord_of _
  · exact (soundWord_of _).andThen fun _ => (soundWord_of _).andThen fun _ => (soundWord_of _).andThen fun _ =>
      ((soundWord_of _).complain _).andThen fun _ => soundWord_of _

/-- All but the list of articles write trouble only when they fail with it. -/
theorem soundWord_call (db : DB) (c : Codec) (fs : FS) (op : Call) (h : ∀ b, op ≠ .listArticles b) : SoundWord (op.told db c fs) := by
  cases op with
  | listArticles b => exact absurd rfl (h b)
  | createArticle => exact soundWord_of _
  | appendArticle => exact soundWord_of _
  | readUsers => exact .path fun _ => (soundWord_opened _ _).complain _
  | readBoards => exact .path fun _ => (soundWord_opened _ _).complain _
  | addBoard => exact .path fun _ => (soundWord_of _).complain _
  | readFavourites => exact .path fun _ => (soundWord_favourites _ _ _ _).complain _
  | listTreasure => exact .path fun _ => (soundWord_opened _ _).complain _
  | readArticle => exact .path fun _ => (soundWord_of _).complain _
  | readTreasure => exact .path fun _ => (soundWord_of _).complain _
  | writeArticle => exact .path fun _ => (soundWord_of _).complain _
  | addRecord => exact .path fun _ => soundWord_of _
  | readDraft => exact .path fun _ => soundWord_of _
  | deleteDraft => exact .path fun _ => soundWord_of _
  | writeDraft => exact .path fun _ => soundWord_of _

theorem fullWord_listed (db : DB) (c : Codec) (fs : FS) (p : Bytes) : FullWord (db.listedTold c fs p) := by
  intro e he
  have h := fullWord_complain (Told.of (do .ok (Answer.articles (← db.openArticleList c fs p)))) ""
  unfold DB.listedTold at he ⊢
  split at he
  · rename_i lines e' hl
    by_cases hn : e' = "no such file or directory"
    · rw [if_pos hn] at he; cases he
    · rw [if_neg hn] at he ⊢
      cases he
      exact ⟨_, List.mem_append_right _ (List.mem_singleton.mpr rfl)⟩
  · exact h e he

theorem fullWord_call (db : DB) (c : Codec) (fs : FS) (op : Call) (h : reported op = true) : FullWord (op.told db c fs) := by
  cases op with
  | listArticles => exact .path fun _ => fullWord_listed _ _ _ _
  | readUsers => exact .path fun _ => fullWord_complain _ _
  | readBoards => exact .path fun _ => fullWord_complain _ _
  | addBoard => exact .path fun _ => fullWord_complain _ _
  | readFavourites => exact .path fun _ => fullWord_complain _ _
  | listTreasure => exact .path fun _ => fullWord_complain _ _
  | readArticle => exact .path fun _ => fullWord_complain _ _
  | readTreasure => exact .path fun _ => fullWord_complain _ _
  | writeArticle => exact .path fun _ => fullWord_complain _ _
  | _ => cases h

/-- A list of articles is written of as it was opened. -/
theorem listed_words (db : DB) (c : Codec) (fs : FS) (p : Bytes) (e : String) :
    (∃ who, LogWord.trouble who e ∈ (db.listedTold c fs p).lines) ↔ db.openArticleList c fs p = .err e := by
  unfold DB.listedTold
  cases hr : db.openArticleList c fs p with
  | err e' =>
    show (∃ who, LogWord.trouble who e ∈ (if e' = "no such file or directory" then (⟨[.trouble "" e'], .ok (.articles [])⟩ : Told Answer)
      else ⟨[.trouble "" e'] ++ [.trouble "bbs: ReadArticleRecordsFile error:" e'], .err e'⟩).lines) ↔ _
    constructor
    · rintro ⟨who, h⟩
      split at h
      · cases List.mem_singleton.mp h; rfl
      · rcases List.mem_append.mp h with h | h <;> (cases List.mem_singleton.mp h; rfl)
    · intro h
      cases h
      refine ⟨"", ?_⟩
      split
      · exact List.mem_singleton.mpr rfl
      · exact List.mem_append_left _ (List.mem_singleton.mpr rfl)
  | ok l => exact ⟨fun ⟨_, h⟩ => absurd h List.not_mem_nil, (fun h => by cases h)⟩
  | panic => exact ⟨fun ⟨_, h⟩ => absurd h List.not_mem_nil, (fun h => by cases h)⟩
  | diverge => exact ⟨fun ⟨_, h⟩ => absurd h List.not_mem_nil, (fun h => by cases h)⟩

/-- **C162, exactly.** An error is in the log if the call is one whose failures are written and fails with it, or if it lists the articles of
a board without a list; then the call succeeds with no articles. -/
theorem C162_exact (db : DB) (c : Codec) (fs : FS) (op : Call) (e : String) :
    (∃ who, LogWord.trouble who e ∈ (op.told db c fs).lines) ↔
      (reported op = true ∧ (op.exec db c fs).2 = .err e) ∨
      (e = "no such file or directory" ∧ ∃ b p, op = .listArticles b ∧ getBoardArticlesDirectoryPath db.home b = .ok p ∧
        db.openArticleList c fs p = .err e) := by
  by_cases hl : ∃ b, op = .listArticles b
  · obtain ⟨b, rfl⟩ := hl
    rw [← C162_same]
    simp only [Call.told, told_path_result, listed_result]
    rcases path_or_crash db.home (.listArticles b) with ⟨p, hp⟩ | hp | hp
    · have hp : getBoardArticlesDirectoryPath db.home b = .ok p := hp
      rw [told_path_ok hp]
      simp only [hp, Res.ok_bind]
      have hw := listed_words db c fs p e
      constructor
      · rintro ⟨who, h⟩
        have h := hw.mp ⟨who, (List.mem_cons.mp h).resolve_left (by simp)⟩
        by_cases he : e = "no such file or directory"
        · exact .inr ⟨he, b, p, rfl, hp ▸ rfl, h⟩
        · refine .inl ⟨rfl, ?_⟩
          rw [h]
          simp only [if_neg he]
          rfl
      · rintro (⟨-, h⟩ | ⟨he, b', p', hb, hp', h⟩)
        · have : db.openArticleList c fs p = .err e := by
            revert h
            cases db.openArticleList c fs p with
            | err e' =>
              by_cases he : e' = "no such file or directory"
              · simp only [if_pos he]; exact fun h => by cases h
              · simp only [if_neg he]; exact fun h => by cases h; rfl
            | ok l => exact fun h => by cases h
            | panic => exact fun h => by cases h
            | diverge => exact fun h => by cases h
          obtain ⟨w, hw⟩ := hw.mpr this
          exact ⟨w, List.mem_cons_of_mem _ hw⟩
        · cases hb
          cases hp.symm.trans hp'
          obtain ⟨w, hw⟩ := hw.mpr h
          exact ⟨w, List.mem_cons_of_mem _ hw⟩
    · have hp : getBoardArticlesDirectoryPath db.home b = .panic := hp
      rw [told_path_panic hp]
      constructor
      · rintro ⟨_, h⟩; exact absurd h List.not_mem_nil
      · rintro (⟨-, h⟩ | ⟨-, b', p', hb, hp', -⟩)
        · rw [hp] at h; cases h
        · cases hb; cases hp.symm.trans hp'
    · have hp : (firstByte b >>= fun c => Res.ok _) = Res.err "none" := hp
      cases b <;> cases hp
  · have hs := soundWord_call db c fs op fun b hb => hl ⟨b, hb⟩
    constructor
    · rintro ⟨who, h⟩
      refine .inl ⟨?_, (C162_same db c fs op).symm.trans (hs who e h)⟩
      by_cases hr : reported op = true
      · exact hr
      · rw [C162_silent db c fs op (by simpa using hr)] at h
        split at h
        · cases List.mem_singleton.mp h
        · exact absurd h List.not_mem_nil
    · rintro (⟨hr, h⟩ | ⟨-, b, -, hb, -⟩)
      · exact fullWord_call db c fs op hr e ((C162_same db c fs op).trans h)
      · exact absurd ⟨b, hb⟩ hl

/-- When the log tells of a failure. -/
theorem C162_partial (db : DB) (c : Codec) (fs : FS) (op : Call) (e : String) (hr : reported op = true) (hl : ∀ b, op ≠ .listArticles b) :
    (∃ who, LogWord.trouble who e ∈ (op.told db c fs).lines) ↔ (op.exec db c fs).2 = .err e := by
  rw [C162_exact]
  constructor
  · rintro (⟨-, h⟩ | ⟨-, b, -, hb, -⟩)
    · exact h
    · exact absurd hb (hl b)
  · exact fun h => .inl ⟨hr, h⟩

/-- A board whose list is not there. -/
def toldDisk : FS := ⟨[([ascii "home"], Node.dir), ([ascii "home", ascii "boards"], Node.dir)]⟩

def toldBase : DB := ⟨ascii "home", []⟩

/-- The log says that there is no such file, and the call that there are no articles. -/
theorem told_false_alarm (c : Codec) :
    ((Call.listArticles (ascii "SYSOP")).told toldBase c toldDisk).lines =
      [.path (ascii "home/boards/S/SYSOP/.DIR"), .trouble "" "no such file or directory"] ∧
    ((Call.listArticles (ascii "SYSOP")).exec toldBase c toldDisk).2 = .ok (.articles []) := ⟨rfl, rfl⟩

/-- Nothing is said of a draft that cannot be deleted. -/
theorem told_nothing (c : Codec) :
    ((Call.deleteDraft (ascii "SYSOP") (ascii "1")).told toldBase c toldDisk).lines = [.path (ascii "home/home/S/SYSOP/buf.1")] ∧
    ((Call.deleteDraft (ascii "SYSOP") (ascii "1")).exec toldBase c toldDisk).2 = .err "no such file or directory" := ⟨rfl, rfl⟩

/-- **C162 is false** both ways: failures are not written, and what is written may not be a failure. -/
theorem C162_refuted : ¬ Spec.C162 ∧
    (¬ ∀ (db : DB) (c : Codec) (fs : FS) (op : Call) (e : String), (op.exec db c fs).2 = .err e → ∃ who, LogWord.trouble who e ∈ (op.told db c fs).lines) ∧
    (¬ ∀ (db : DB) (c : Codec) (fs : FS) (op : Call) (e : String), (∃ who, LogWord.trouble who e ∈ (op.told db c fs).lines) → ∃ e', (op.exec db c fs).2 = .err e') := by
  have one : ¬ ∀ (db : DB) (c : Codec) (fs : FS) (op : Call) (e : String), (op.exec db c fs).2 = .err e → ∃ who, LogWord.trouble who e ∈ (op.told db c fs).lines := by
    intro h
    obtain ⟨who, hw⟩ := h toldBase asciiCodec toldDisk _ _ (told_nothing asciiCodec).2
    rw [(told_nothing asciiCodec).1] at hw
    cases List.mem_singleton.mp hw
  refine ⟨fun h => one fun db c fs op e => (h db c fs op e).mpr, one, fun h => ?_⟩
  obtain ⟨e, he⟩ := h toldBase asciiCodec toldDisk (.listArticles (ascii "SYSOP")) "no such file or directory"
    ⟨"", by rw [(told_false_alarm asciiCodec).1]; exact List.mem_cons_of_mem _ (List.mem_singleton.mpr rfl)⟩
  rw [(told_false_alarm asciiCodec).2] at he
  cases he

/-- A call that crashes, or never ends, writes no trouble. -/
theorem C162_crash (db : DB) (c : Codec) (fs : FS) (op : Call) (h : (op.exec db c fs).2 = .panic ∨ (op.exec db c fs).2 = .diverge) (who e : String) :
    LogWord.trouble who e ∉ (op.told db c fs).lines := by
  intro hw
  rcases (C162_exact db c fs op e).mp ⟨who, hw⟩ with ⟨-, h'⟩ | ⟨he, b, p, rfl, hp, ho⟩
  · rcases h with h | h <;> cases h.symm.trans h'
  · have : ((Call.listArticles b).exec db c fs).2 = .ok (.articles []) := by
      rw [← C162_same]
      simp only [Call.told, told_path_result, listed_result, hp, Res.ok_bind, ho]
      simp only [if_pos he]
      rfl
    rcases h with h | h <;> cases h.symm.trans this

/-- Two lines of trouble in one call are of one error. -/
theorem C162_one (db : DB) (c : Codec) (fs : FS) (op : Call) (w w' e e' : String) (h : LogWord.trouble w e ∈ (op.told db c fs).lines)
    (h' : LogWord.trouble w' e' ∈ (op.told db c fs).lines) : e = e' := by
  rcases (C162_exact db c fs op e).mp ⟨w, h⟩ with ⟨-, h1⟩ | ⟨-, b, p, hb, hp, h1⟩ <;>
    rcases (C162_exact db c fs op e').mp ⟨w', h'⟩ with ⟨-, h2⟩ | ⟨he', b', p', hb', hp', h2⟩
  · cases h1.symm.trans h2; rfl
  · subst hb'
    rw [← C162_same] at h1
    simp only [Call.told, told_path_result, listed_result, hp', Res.ok_bind, h2, if_pos he'] at h1
    cases h1
  · subst hb
    rw [← C162_same] at h2
    simp only [Call.told, told_path_result, listed_result, hp, Res.ok_bind, h1] at h2
    split at h2
    · cases h2
    · cases h2; rfl
  · subst hb
    cases hb'
    cases hp.symm.trans hp'
    cases h1.symm.trans h2
    rfl

/-! ## C163 -/

/-- How a reading ended: how many records, or why not. -/
def Spec.howEnded (r : Res Answer) : Res Nat := r >>= fun a => .ok a.count

/-- The lines of a reading that ended so, and whether it goes on. -/
def Spec.startLines (p : Bytes) (inner outer : String) : Res Nat → List LogWord
  | .ok n => [.path p, .pointers n]
  | .err e => [.path p, .trouble "" e, .trouble inner e, .trouble outer e]
  | _ => [.path p]

theorem loadTold_lines (r : Res α) (f : α → Answer) (p : Bytes) (who inner outer : String) :
    (loadTold outer (Told.path (.ok p) who fun _ => (DB.opened r f).complain inner) Answer.count).lines =
      startLines p inner outer (howEnded (r >>= fun a => .ok (f a))) := by
  cases r <;> rfl

theorem loadTold_result (r : Res α) (f : α → Answer) (p : Bytes) (who inner outer : String) :
    (loadTold outer (Told.path (.ok p) who fun _ => (DB.opened r f).complain inner) Answer.count).result =
      match howEnded (r >>= fun a => .ok (f a)) with | .panic => .panic | .diverge => .diverge | _ => .ok () := by
  cases r <;> rfl

/-- The service, at its start, writes what comes of the readings and no more. -/
theorem C163_lines (c : Codec) (cwd : Path) (fs : FS) :
    (startTold c cwd fs).lines =
      startLines (ascii "../home/bbs/.PASSWDS") "bbs: get user rec error:" "get user rec error:"
        (howEnded (Call.readUsers.exec ⟨ascii "../home/bbs", cwd⟩ c fs).2) ++
      match howEnded (Call.readUsers.exec ⟨ascii "../home/bbs", cwd⟩ c fs).2 with
      | .ok _ | .err _ => startLines (ascii "../home/bbs/.BRD") "bbs: get user rec error:" "get board header error:"
          (howEnded (Call.readBoards.exec ⟨ascii "../home/bbs", cwd⟩ c fs).2)
      | _ => [] := by
  have hu : (Call.readUsers.exec ⟨ascii "../home/bbs", cwd⟩ c fs).2 =
      ((DB.openUserList ⟨ascii "../home/bbs", cwd⟩ c fs (ascii "../home/bbs/.PASSWDS")) >>= fun a => .ok (.users a)) := rfl
  have hb : (Call.readBoards.exec ⟨ascii "../home/bbs", cwd⟩ c fs).2 =
      ((DB.openBoardList ⟨ascii "../home/bbs", cwd⟩ c fs (ascii "../home/bbs/.BRD")) >>= fun a => .ok (.boards a)) := rfl
  rw [hu, hb]
  have h : startTold c cwd fs =
    (loadTold "get user rec error:" (Told.path (.ok (ascii "../home/bbs/.PASSWDS")) "bbs: open file error:" fun _ =>
      (DB.opened (DB.openUserList ⟨ascii "../home/bbs", cwd⟩ c fs (ascii "../home/bbs/.PASSWDS")) .users).complain "bbs: get user rec error:") Answer.count).andThen
    fun _ => loadTold "get board header error:" (Told.path (.ok (ascii "../home/bbs/.BRD")) "bbs: open file error:" fun _ =>
      (DB.opened (DB.openBoardList ⟨ascii "../home/bbs", cwd⟩ c fs (ascii "../home/bbs/.BRD")) .boards).complain "bbs: get user rec error:") Answer.count := rfl
  rw [h, ← loadTold_lines _ Answer.boards _ "bbs: open file error:", ← loadTold_lines _ Answer.users _ "bbs: open file error:"]
  generalize loadTold "get board header error:" _ _ = B
  cases DB.openUserList ⟨ascii "../home/bbs", cwd⟩ c fs (ascii "../home/bbs/.PASSWDS") <;> rfl

/-- The service comes to listen unless a reading crashes or never ends. -/
theorem C163_listens (c : Codec) (cwd : Path) (fs : FS) :
    (startTold c cwd fs).result = .ok () ↔
      ((∃ n, howEnded (Call.readUsers.exec ⟨ascii "../home/bbs", cwd⟩ c fs).2 = .ok n) ∨ (∃ e, howEnded (Call.readUsers.exec ⟨ascii "../home/bbs", cwd⟩ c fs).2 = .err e)) ∧
      ((∃ n, howEnded (Call.readBoards.exec ⟨ascii "../home/bbs", cwd⟩ c fs).2 = .ok n) ∨ (∃ e, howEnded (Call.readBoards.exec ⟨ascii "../home/bbs", cwd⟩ c fs).2 = .err e)) := by
  have hu : (Call.readUsers.exec ⟨ascii "../home/bbs", cwd⟩ c fs).2 =
      ((DB.openUserList ⟨ascii "../home/bbs", cwd⟩ c fs (ascii "../home/bbs/.PASSWDS")) >>= fun a => .ok (.users a)) := rfl
  have hb : (Call.readBoards.exec ⟨ascii "../home/bbs", cwd⟩ c fs).2 =
      ((DB.openBoardList ⟨ascii "../home/bbs", cwd⟩ c fs (ascii "../home/bbs/.BRD")) >>= fun a => .ok (.boards a)) := rfl
  have h : (startTold c cwd fs).result =
    ((loadTold "get user rec error:" (Told.path (.ok (ascii "../home/bbs/.PASSWDS")) "bbs: open file error:" fun _ =>
      (DB.opened (DB.openUserList ⟨ascii "../home/bbs", cwd⟩ c fs (ascii "../home/bbs/.PASSWDS")) .users).complain "bbs: get user rec error:") Answer.count).result >>=
    fun _ => (loadTold "get board header error:" (Told.path (.ok (ascii "../home/bbs/.BRD")) "bbs: open file error:" fun _ =>
      (DB.opened (DB.openBoardList ⟨ascii "../home/bbs", cwd⟩ c fs (ascii "../home/bbs/.BRD")) .boards).complain "bbs: get user rec error:") Answer.count).result) :=
    told_andThen_result _ _
  rw [h, hu, hb, loadTold_result, loadTold_result]
  generalize DB.openUserList _ _ _ _ = U
  generalize DB.openBoardList _ _ _ _ = B
  cases U <;> cases B <;> simp [howEnded, Res.ok_bind] <;> first | rfl | (intro h; cases h) | skip

/-- **C163.** Whatever the users and the boards are: two starts write the same if and only if the readings ended alike. Of the records
there is no more than their number. -/
theorem C163_starts_say_no_more (c : Codec) (cwd : Path) (fs fs' : FS)
    (h : (startTold c cwd fs).result = .ok ()) (h' : (startTold c cwd fs').result = .ok ()) :
    (startTold c cwd fs).lines = (startTold c cwd fs').lines ↔
      howEnded (Call.readUsers.exec ⟨ascii "../home/bbs", cwd⟩ c fs).2 = howEnded (Call.readUsers.exec ⟨ascii "../home/bbs", cwd⟩ c fs').2 ∧
      howEnded (Call.readBoards.exec ⟨ascii "../home/bbs", cwd⟩ c fs).2 = howEnded (Call.readBoards.exec ⟨ascii "../home/bbs", cwd⟩ c fs').2 := by
  obtain ⟨hu, hb⟩ := (C163_listens c cwd fs).mp h
  obtain ⟨hu', hb'⟩ := (C163_listens c cwd fs').mp h'
  rw [C163_lines, C163_lines]
  revert hu hb hu' hb'
  generalize howEnded (Call.readUsers.exec ⟨ascii "../home/bbs", cwd⟩ c fs).2 = u
  generalize howEnded (Call.readUsers.exec ⟨ascii "../home/bbs", cwd⟩ c fs').2 = u'
  generalize howEnded (Call.readBoards.exec ⟨ascii "../home/bbs", cwd⟩ c fs).2 = b
  generalize howEnded (Call.readBoards.exec ⟨ascii "../home/bbs", cwd⟩ c fs').2 = b'
  rintro (⟨n, rfl⟩ | ⟨n, rfl⟩) (⟨m, rfl⟩ | ⟨m, rfl⟩) (⟨n', rfl⟩ | ⟨n', rfl⟩) (⟨m', rfl⟩ | ⟨m', rfl⟩) <;>
    simp [startLines]

/-- Among the lines of a start: paths, numbers of records, reasons of failure. No line holds anything read from a record. -/
theorem C163_words (c : Codec) (cwd : Path) (fs : FS) (w : LogWord) (hw : w ∈ (startTold c cwd fs).lines) :
    w = .path (ascii "../home/bbs/.PASSWDS") ∨ w = .path (ascii "../home/bbs/.BRD") ∨
    (∃ l, (Call.readUsers.exec ⟨ascii "../home/bbs", cwd⟩ c fs).2 = .ok (.users l) ∧ w = .pointers l.length) ∨
    (∃ l, (Call.readBoards.exec ⟨ascii "../home/bbs", cwd⟩ c fs).2 = .ok (.boards l) ∧ w = .pointers l.length) ∨
    (∃ who e, w = .trouble who e ∧ ((Call.readUsers.exec ⟨ascii "../home/bbs", cwd⟩ c fs).2 = .err e ∨
      (Call.readBoards.exec ⟨ascii "../home/bbs", cwd⟩ c fs).2 = .err e)) := by
  rw [C163_lines] at hw
  have hu : (Call.readUsers.exec ⟨ascii "../home/bbs", cwd⟩ c fs).2 =
      ((DB.openUserList ⟨ascii "../home/bbs", cwd⟩ c fs (ascii "../home/bbs/.PASSWDS")) >>= fun a => .ok (.users a)) := rfl
  have hb : (Call.readBoards.exec ⟨ascii "../home/bbs", cwd⟩ c fs).2 =
      ((DB.openBoardList ⟨ascii "../home/bbs", cwd⟩ c fs (ascii "../home/bbs/.BRD")) >>= fun a => .ok (.boards a)) := rfl
  rw [hu, hb] at hw ⊢
  revert hw
  generalize DB.openUserList _ _ _ _ = U
  generalize DB.openBoardList _ _ _ _ = B
  intro hw
  rcases List.mem_append.mp hw with hw | hw
  · cases U with
    | ok l =>
      rcases List.mem_cons.mp hw with rfl | hw
      · exact .inl rfl
      · exact .inr (.inr (.inl ⟨l, rfl, List.mem_singleton.mp hw⟩))
    | err e =>
      rcases List.mem_cons.mp hw with rfl | hw
      · exact .inl rfl
      · rcases List.mem_cons.mp hw with rfl | hw
        · exact .inr (.inr (.inr (.inr ⟨_, e, rfl, .inl rfl⟩)))
        · rcases List.mem_cons.mp hw with rfl | hw
          · exact .inr (.inr (.inr (.inr ⟨_, e, rfl, .inl rfl⟩)))
          · exact .inr (.inr (.inr (.inr ⟨_, e, List.mem_singleton.mp hw, .inl rfl⟩)))
    | panic => exact .inl (List.mem_singleton.mp hw)
    | diverge => exact .inl (List.mem_singleton.mp hw)
  · have hw : w ∈ startLines (ascii "../home/bbs/.BRD") "bbs: get user rec error:" "get board header error:" (howEnded (B >>= fun a => .ok (.boards a))) := by
      cases U with
      | ok => exact hw
      | err => exact hw
      | panic => exact absurd hw List.not_mem_nil
      | diverge => exact absurd hw List.not_mem_nil
    cases B with
    | ok l =>
      rcases List.mem_cons.mp hw with rfl | hw
      · exact .inr (.inl rfl)
      · exact .inr (.inr (.inr (.inl ⟨l, rfl, List.mem_singleton.mp hw⟩)))
    | err e =>
      rcases List.mem_cons.mp hw with rfl | hw
      · exact .inr (.inl rfl)
      · rcases List.mem_cons.mp hw with rfl | hw
        · exact .inr (.inr (.inr (.inr ⟨_, e, rfl, .inr rfl⟩)))
        · rcases List.mem_cons.mp hw with rfl | hw
          · exact .inr (.inr (.inr (.inr ⟨_, e, rfl, .inr rfl⟩)))
          · exact .inr (.inr (.inr (.inr ⟨_, e, List.mem_singleton.mp hw, .inr rfl⟩)))
    | panic => exact .inr (.inl (List.mem_singleton.mp hw))
    | diverge => exact .inr (.inl (List.mem_singleton.mp hw))

/-! ## Cases -/

/-- C162_partial: an article that is not there. -/
example (c : Codec) : ∃ who, LogWord.trouble who "no such file or directory" ∈
    ((Call.readArticle (ascii "SYSOP") (ascii "M.1")).told toldBase c toldDisk).lines :=
  (C162_partial toldBase c toldDisk _ _ rfl (fun _ h => by cases h)).mpr rfl

/-- C162_silent: a record for a board that is not there. -/
example (c : Codec) (r : FileHeader) : ((Call.addRecord (ascii "SYSOP") r).told toldBase c toldDisk).lines =
    [.path (ascii "home/boards/S/SYSOP/.DIR")] :=
  C162_silent toldBase c toldDisk _ rfl

/-- C162_crash: a board without a name. -/
example (c : Codec) (who e : String) : LogWord.trouble who e ∉ ((Call.listArticles []).told toldBase c toldDisk).lines :=
  C162_crash toldBase c toldDisk _ (.inl rfl) who e

/-- C162_one: both lines of a missing list of users. -/
example (c : Codec) : (Call.readUsers.told toldBase c toldDisk).lines =
    [.path (ascii "home/.PASSWDS"), .trouble "" "no such file or directory", .trouble "bbs: get user rec error:" "no such file or directory"] := rfl

/-- The directories of the service, with users and no list of boards. -/
def startDisk (d : Bytes) : FS := ⟨[([ascii "home"], .dir), ([ascii "home", ascii "bbs"], .dir), ([ascii "serverlet"], .dir),
  ([ascii "home", ascii "bbs", ascii ".PASSWDS"], .file d)]⟩

theorem startDisk_users (c : Codec) (d : Bytes) :
    howEnded (Call.readUsers.exec ⟨ascii "../home/bbs", [ascii "serverlet"]⟩ c (startDisk d)).2 = .ok ((d.length + 511) / 512) := by
  have h : (Call.readUsers.exec ⟨ascii "../home/bbs", [ascii "serverlet"]⟩ c (startDisk d)).2 = (openUserecFile c (some d) >>= fun a => .ok (.users a)) := rfl
  rw [h, (C17_read_regular_file c d).2.2]
  show Res.ok _ = _
  rw [Answer.count, List.length_map, slots, List.length_map, List.length_range]
  rfl

theorem startDisk_boards (c : Codec) (d : Bytes) :
    howEnded (Call.readBoards.exec ⟨ascii "../home/bbs", [ascii "serverlet"]⟩ c (startDisk d)).2 = .err "no such file or directory" := rfl

/-- C163_listens: there is no list of boards, and the service listens. -/
theorem startDisk_listens (c : Codec) (d : Bytes) : (startTold c [ascii "serverlet"] (startDisk d)).result = .ok () :=
  (C163_listens c _ _).mpr ⟨.inl ⟨_, startDisk_users c d⟩, .inr ⟨_, startDisk_boards c d⟩⟩

/-- C163_lines: two records, or one and a torn one. -/
example (c : Codec) (d : Bytes) (h : 512 < d.length ∧ d.length ≤ 1024) : (startTold c [ascii "serverlet"] (startDisk d)).lines =
    [.path (ascii "../home/bbs/.PASSWDS"), .pointers 2, .path (ascii "../home/bbs/.BRD"), .trouble "" "no such file or directory",
      .trouble "bbs: get user rec error:" "no such file or directory", .trouble "get board header error:" "no such file or directory"] := by
  rw [C163_lines, startDisk_users, startDisk_boards, show (d.length + 511) / 512 = 2 by omega]
  rfl

/-- C163_starts_say_no_more: two lists of users of one length, whatever is in them. -/
example (c : Codec) (d d' : Bytes) (h : d.length = d'.length) :
    (startTold c [ascii "serverlet"] (startDisk d)).lines = (startTold c [ascii "serverlet"] (startDisk d')).lines :=
  (C163_starts_say_no_more c _ _ _ (startDisk_listens c d) (startDisk_listens c d')).mpr
    ⟨by rw [startDisk_users, startDisk_users, h], rfl⟩

end Verif
