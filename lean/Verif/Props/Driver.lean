import Verif.Spec.Driver
import Verif.Props.ErrText
import Verif.Props.ToolMain
/-!
# The database in front of any driver — C135, C136
-/

namespace Verif
open Spec

/-! ## What is written down changes nothing -/

/-- The same method, written down. -/
def SameAs {σ α : Type} (m' : Method (σ × List Asked) α) (m : Method σ α) : Prop := ∀ s l, (m' (s, l)).1.1 = (m s).1 ∧ (m' (s, l)).2 = (m s).2

theorem SameAs.andThen {σ α β : Type} {m' : Method (σ × List Asked) α} {m : Method σ α} {f' : α → Method (σ × List Asked) β} {f : α → Method σ β}
    (h : SameAs m' m) (hf : ∀ a, SameAs (f' a) (f a)) : SameAs (m'.andThen f') (m.andThen f) := by
  intro s l
  have h1 := h s l
  unfold Method.andThen
  cases e : m' (s, l) with
  | mk x r =>
    obtain ⟨s', l'⟩ := x
    cases e2 : m s with
    | mk s2 r2 =>
      rw [e, e2] at h1
      obtain ⟨h1, h2⟩ := h1
      simp only at h1 h2
      subst h1 h2
      cases r with
      | ok a => exact hf a s' l'
      | _ => exact ⟨rfl, rfl⟩

theorem SameAs.pure {σ α : Type} (r : Res α) : SameAs (Method.pure (σ := σ × List Asked) r) (Method.pure r) := fun _ _ => ⟨rfl, rfl⟩

theorem SameAs.noted {σ α : Type} (w : Meth) (t : List Bytes) (p : α → Option Bytes) (m : Method σ α) : SameAs (noted w t p m) m := fun _ _ => ⟨rfl, rfl⟩

theorem SameAs.map {σ α β : Type} {m' : Method (σ × List Asked) α} {m : Method σ α} (f : α → β) (h : SameAs m' m) : SameAs (m'.map f) (m.map f) :=
  h.andThen fun _ => .pure _

section
variable {σ : Type} {K : Kinds} (d : Driver σ K)

theorem same_readOrEmpty (p : Bytes) : SameAs ((taped d).readOrEmpty p) (d.readOrEmpty p) := by
  intro s l
  unfold Driver.readOrEmpty
  have h : (taped d).readArticles p (s, l) = noted .readArticles [p] (fun _ => none) (d.readArticles p) (s, l) := rfl
  rw [h]
  unfold noted
  cases e : d.readArticles p s with
  | mk s' r =>
    cases r with
    | err t => by_cases hc : containsPhrase missingPhrase (ascii t) = true <;> simp [hc]
    | _ => exact ⟨rfl, rfl⟩

theorem same_listArticles (b : Bytes) : SameAs ((taped d).listArticles b) (d.listArticles b) :=
  (SameAs.noted _ _ _ _).andThen fun p => same_readOrEmpty d p

theorem same_readBoardRecords : SameAs (taped d).readBoardRecords d.readBoardRecords := (SameAs.noted _ _ _ _).andThen fun _ => .noted _ _ _ _

theorem same_userArticleLoop (u : Bytes) (bs : List K.Board) : ∀ recs, SameAs ((taped d).userArticleLoop u bs recs) (d.userArticleLoop u bs recs) := by
  induction bs with
  | nil => exact fun _ => .pure _
  | cons b bs ih =>
    intro recs
    unfold Driver.userArticleLoop
    by_cases hb : DB.shouldSkip (K.boardID b) = true
    · rw [if_pos hb, if_pos hb]; exact ih _
    · rw [if_neg hb, if_neg hb]; exact (same_listArticles d _).andThen fun _ => ih _

theorem same_articleComments (b : Bytes) (ar : K.Article) : SameAs ((taped d).articleCommentsOf b ar) (d.articleCommentsOf b ar) :=
  ((SameAs.noted _ _ _ _).andThen fun _ => .noted _ _ _ _).andThen fun _ => .pure _

theorem same_boardUserCommentLoop (b u : Bytes) (ars : List K.Article) :
    ∀ recs, SameAs ((taped d).boardUserCommentLoop b u ars recs) (d.boardUserCommentLoop b u ars recs) := by
  induction ars with
  | nil => exact fun _ => .pure _
  | cons ar ars ih => exact fun recs => (same_articleComments d b ar).andThen fun _ => ih _

theorem same_boardUserComments (b u : Bytes) : SameAs ((taped d).boardUserComments b u) (d.boardUserComments b u) :=
  (same_listArticles d b).andThen fun _ => same_boardUserCommentLoop d b u _ _

theorem same_userCommentLoop (u : Bytes) (bs : List K.Board) : ∀ recs, SameAs ((taped d).userCommentLoop u bs recs) (d.userCommentLoop u bs recs) := by
  induction bs with
  | nil => exact fun _ => .pure _
  | cons b bs ih =>
    intro recs
    unfold Driver.userCommentLoop
    by_cases hb : DB.shouldSkip (K.boardID b) = true
    · rw [if_pos hb, if_pos hb]; exact ih _
    · rw [if_neg hb, if_neg hb]; exact (same_boardUserComments d _ _).andThen fun _ => ih _

theorem same_userArticles (u : Bytes) : SameAs ((taped d).userArticles u) (d.userArticles u) := by
  have hs : ∀ recs, SameAs ((taped d).readBoardRecords.andThen fun bs => (taped d).userArticleLoop u bs recs)
      (d.readBoardRecords.andThen fun bs => d.userArticleLoop u bs recs) := fun _ => (same_readBoardRecords d).andThen fun _ => same_userArticleLoop d u _ _
  unfold Driver.userArticles
  have hk : (taped d).articleKeeper = d.articleKeeper.map _ := rfl
  rw [hk]
  cases d.articleKeeper with
  | none => exact hs []
  | some k =>
    refine (SameAs.noted _ _ _ _).andThen fun p => (SameAs.noted _ _ _ _).andThen fun recs => ?_
    by_cases h : recs.length ≠ 0
    · rw [if_pos h, if_pos h]; exact .pure _
    · rw [if_neg h, if_neg h]; exact hs recs

theorem same_userComments (u : Bytes) : SameAs ((taped d).userComments u) (d.userComments u) := by
  have hs : ∀ recs, SameAs ((taped d).readBoardRecords.andThen fun bs => (taped d).userCommentLoop u bs recs)
      (d.readBoardRecords.andThen fun bs => d.userCommentLoop u bs recs) := fun _ => (same_readBoardRecords d).andThen fun _ => same_userCommentLoop d u _ _
  unfold Driver.userComments
  have hk : (taped d).commentKeeper = d.commentKeeper.map _ := rfl
  rw [hk]
  cases d.commentKeeper with
  | none => exact hs []
  | some k =>
    refine (SameAs.noted _ _ _ _).andThen fun p => (SameAs.noted _ _ _ _).andThen fun recs => ?_
    by_cases h : recs.length ≠ 0
    · rw [if_pos h, if_pos h]; exact .pure _
    · rw [if_neg h, if_neg h]; exact hs recs

/-- Writing down what the driver is asked changes neither what it does nor the answer. -/
theorem C135_tape_changes_nothing (op : FrontCall K) (s : σ) (l : List Asked) :
    ((taped d).call op (s, l)).1.1 = (d.call op s).1 ∧ ((taped d).call op (s, l)).2 = (d.call op s).2 := by
  suffices h : SameAs ((taped d).call op) (d.call op) from h s l
  cases op with
  | readUsers => exact .map _ ((SameAs.noted _ _ _ _).andThen fun _ => .noted _ _ _ _)
  | readFavourites => exact .map _ ((SameAs.noted _ _ _ _).andThen fun _ => .noted _ _ _ _)
  | readBoards => exact .map _ (same_readBoardRecords d)
  | listArticles => exact .map _ (same_listArticles d _)
  | listTreasure => exact .map _ ((SameAs.noted _ _ _ _).andThen fun _ => .noted _ _ _ _)
  | readArticle => exact .map _ ((SameAs.noted _ _ _ _).andThen fun _ => .noted _ _ _ _)
  | readTreasure => exact .map _ ((SameAs.noted _ _ _ _).andThen fun _ => .noted _ _ _ _)
  | newBoard =>
    refine .map _ ?_
    unfold Driver.newBoard
    have hk : (taped d).boardWriter = d.boardWriter.map _ := rfl
    rw [hk]
    cases d.boardWriter with
    | none => exact .pure _
    | some w => exact .noted _ _ _ _
  | addBoard =>
    refine .map _ ((SameAs.noted _ _ _ _).andThen fun p => ?_)
    have hk : (taped d).boardWriter = d.boardWriter.map _ := rfl
    rw [hk]
    cases d.boardWriter with
    | none => exact .pure _
    | some w => exact .noted _ _ _ _
  | updateBoard => exact .pure _
  | readBoard => exact .pure _
  | removeBoard => exact .pure _
  | createArticle =>
    refine .map _ ?_
    unfold Driver.createArticle
    have hk : (taped d).articleWriter = d.articleWriter.map _ := rfl
    rw [hk]
    cases d.articleWriter with
    | none => exact .pure _
    | some w => exact (SameAs.noted _ _ _ _).andThen fun _ => .noted _ _ _ _
  | addRecord =>
    refine .map _ ((SameAs.noted _ _ _ _).andThen fun p => ?_)
    have hk : (taped d).articleWriter = d.articleWriter.map _ := rfl
    rw [hk]
    cases d.articleWriter with
    | none => exact .pure _
    | some w => exact .noted _ _ _ _
  | writeArticle =>
    refine .map _ ?_
    unfold Driver.writeArticle
    have hk : (taped d).articleWriter = d.articleWriter.map _ := rfl
    rw [hk]
    cases d.articleWriter with
    | none => exact .pure _
    | some w => exact (SameAs.noted _ _ _ _).andThen fun _ => .noted _ _ _ _
  | appendArticle =>
    refine .map _ ((SameAs.noted _ _ _ _).andThen fun p => ?_)
    have hk : (taped d).articleWriter = d.articleWriter.map _ := rfl
    rw [hk]
    cases d.articleWriter with
    | none => exact .pure _
    | some w => exact .noted _ _ _ _
  | userArticles => exact .map _ (same_userArticles d _)
  | userComments => exact .map _ (same_userComments d _)
  | boardUserComments => exact .map _ (same_boardUserComments d _ _)
  | articleComments => exact .map _ (same_articleComments d _ _)
  | readDraft =>
    refine .map _ ?_
    unfold Driver.readDraft
    have hk : (taped d).drafts = d.drafts.map _ := rfl
    rw [hk]
    cases d.drafts with
    | none => exact .pure _
    | some w => exact (SameAs.noted _ _ _ _).andThen fun _ => .noted _ _ _ _
  | deleteDraft =>
    refine .map _ ?_
    unfold Driver.deleteDraft
    have hk : (taped d).drafts = d.drafts.map _ := rfl
    rw [hk]
    cases d.drafts with
    | none => exact .pure _
    | some w => exact (SameAs.noted _ _ _ _).andThen fun _ => .noted _ _ _ _
  | writeDraft u n x =>
    refine .map _ ?_
    unfold Driver.writeDraft
    have hk : (taped d).drafts = d.drafts.map _ := rfl
    rw [hk]
    cases d.drafts with
    | none => exact .pure _
    | some w =>
      refine (SameAs.noted _ _ _ _).andThen fun _ => ?_
      cases x with
      | none => exact .pure _
      | some _ => exact .noted _ _ _ _

end

/-! ## What is asked, and in which order -/

/-- What a method, or a part of a call, asks: paths before files, nothing after a failure, and only reading if `rd`. `pre` has been asked right before. -/
def Good {σ α : Type} (ok : Asked → Prop) (rd : Bool) (pre : List Asked) (m : Method (σ × List Asked) α) : Prop :=
  ∀ s l, ∃ new, (m (s, l)).1.2 = l ++ new ∧ OwnPaths (pre ++ new) ∧
    ((∀ e ∈ new, ok e) ∨ ∃ l' e, new = l' ++ [e] ∧ (∀ e' ∈ l', ok e') ∧ ¬ ok e ∧ outcome (m (s, l)).2 = e.ended) ∧
    (rd = true → ∀ e ∈ new, e.what.changes = false)

theorem own_nil : OwnPaths [] := by
  intro l1 e l2 h
  cases l1 <;> cases h

theorem own_append {l l' : List Asked} (h : OwnPaths l) (h' : OwnPaths l') : OwnPaths (l ++ l') := by
  intro l1 e l2 he hn
  rcases List.append_eq_append_iff.mp he with ⟨a, h1, h2⟩ | ⟨a, h1, h2⟩
  · obtain ⟨l0, e', p, hl, hw⟩ := h' a e l2 h2 hn
    exact ⟨l ++ l0, e', p, by rw [h1, hl, List.append_assoc], hw⟩
  · cases a with
    | nil =>
      obtain ⟨l0, e', p, hl, hw⟩ := h' [] e l2 (by simpa using h2.symm) hn
      cases l0 <;> cases hl
    | cons x a =>
      obtain ⟨rfl, rfl⟩ : e = x ∧ l2 = a ++ l' := by simpa using h2
      obtain ⟨l0, e', p, hl, hw⟩ := h l1 e a h1 hn
      exact ⟨l0, e', p, hl, hw⟩

theorem own_single {e : Asked} (h : e.what.namedBy = []) : OwnPaths [e] := by
  intro l1 e' l2 he hn
  cases l1 with
  | nil =>
    obtain ⟨rfl, _⟩ : e = e' ∧ [] = l2 := by simpa using he
    exact absurd h hn
  | cons x l1 => cases l1 <;> simp at he

theorem own_pair {x e : Asked} {p : Bytes} {rest : List Bytes} (hx : x.what.namedBy = []) (hw : x.what ∈ e.what.namedBy) (hk : x.ended = .ok ())
    (hp : x.path = some p) (ht : e.told = p :: rest) : OwnPaths [x, e] := by
  intro l1 e' l2 he hn
  cases l1 with
  | nil =>
    obtain ⟨rfl, _⟩ : x = e' ∧ [e] = l2 := by simpa using he
    exact absurd hx hn
  | cons y l1 =>
    cases l1 with
    | nil =>
      obtain ⟨rfl, rfl, _⟩ : x = y ∧ e = e' ∧ [] = l2 := by simpa using he
      exact ⟨[], x, p, rfl, hw, hk, hp, by rw [ht]; rfl⟩
    | cons z l1 => cases l1 <;> simp at he

section
variable {σ α β : Type} {ok : Asked → Prop} {rd : Bool}

theorem Good.pure (pre : List Asked) (hp : OwnPaths pre) (r : Res α) : Good (σ := σ) ok rd pre (Method.pure r) := fun s l =>
  ⟨[], (List.append_nil l).symm, by rwa [List.append_nil], .inl (fun _ h => by cases h), (fun _ _ h => by cases h)⟩

/-- What ends well is passable. -/
def Lenient (ok : Asked → Prop) : Prop := ∀ e : Asked, e.ended = .ok () → ok e

theorem Good.noted {pre : List Asked} {w : Meth} {t : List Bytes} {f : α → Option Bytes} {m : Method σ α}
    (hp : ∀ e : Asked, e.what = w → e.told = t → OwnPaths (pre ++ [e])) (hr : rd = true → w.changes = false) : Good ok rd pre (noted w t f m) := by
  intro s l
  refine ⟨[⟨w, t, match (m s).2 with | .ok a => f a | _ => none, outcome (m s).2⟩], rfl, hp _ rfl rfl, ?_, ?_⟩
  · by_cases h : ok ⟨w, t, match (m s).2 with | .ok a => f a | _ => none, outcome (m s).2⟩
    · exact .inl fun e he => by rwa [List.mem_singleton.mp he]
    · exact .inr ⟨[], _, rfl, (fun _ h => by cases h), h, rfl⟩
  · intro h e he
    rw [List.mem_singleton.mp he]
    exact hr h

/-- A method that is told no file name. -/
theorem Good.free {pre : List Asked} (hp : OwnPaths pre) {w : Meth} {t : List Bytes} {f : α → Option Bytes} {m : Method σ α}
    (hw : w.namedBy = []) (hr : rd = true → w.changes = false) : Good ok rd pre (Spec.noted w t f m) :=
  .noted (fun e h _ => own_append hp (own_single (by rw [h, hw]))) hr

theorem Good.andThen (hl : Lenient ok) {pre : List Asked} {m : Method (σ × List Asked) α} {f : α → Method (σ × List Asked) β} (h : Good ok rd pre m)
    (hf : ∀ a, Good ok rd [] (f a)) : Good ok rd pre (m.andThen f) := by
  intro s l
  obtain ⟨new, h1, h2, h3, h4⟩ := h s l
  unfold Method.andThen
  cases e : m (s, l) with
  | mk x r =>
    obtain ⟨s', l'⟩ := x
    rw [e] at h1 h3
    simp only at h1 h3
    subst h1
    cases r with
    | ok a =>
      obtain ⟨new', g1, g2, g3, g4⟩ := hf a s' (l ++ new)
      have hall : ∀ e ∈ new, ok e := by
        rcases h3 with h3 | ⟨l0, x, _, _, hx, hk⟩
        · exact h3
        · exact absurd (hl x hk.symm) hx
      refine ⟨new ++ new', ?_, ?_, ?_, ?_⟩
      · show (f a (s', l ++ new)).1.2 = _
        rw [g1, List.append_assoc]
      · rw [← List.append_assoc]
        exact own_append h2 g2
      · rcases g3 with g3 | ⟨l0, x, rfl, hl0, hx, hk⟩
        · exact .inl fun e he => (List.mem_append.mp he).elim (hall e) (g3 e)
        · exact .inr ⟨new ++ l0, x, by rw [List.append_assoc], fun e he => (List.mem_append.mp he).elim (hall e) (hl0 e), hx, hk⟩
      · exact fun hr e he => (List.mem_append.mp he).elim (h4 hr e) (g4 hr e)
    | err t => exact ⟨new, rfl, h2, h3, h4⟩
    | panic => exact ⟨new, rfl, h2, h3, h4⟩
    | diverge => exact ⟨new, rfl, h2, h3, h4⟩

/-- A path is asked for, and then something with it. -/
theorem Good.path (hl : Lenient ok) {w : Meth} {t : List Bytes} {m : Method σ Bytes} {f : Bytes → Method (σ × List Asked) β} (hw : w.namedBy = [])
    (hr : rd = true → w.changes = false)
    (hf : ∀ p x, x.what = w → x.ended = .ok () → x.path = some p → Good ok rd [x] (f p)) : Good ok rd [] ((Spec.noted w t some m).andThen f) := by
  intro s l
  unfold Method.andThen Spec.noted
  cases e : m s with
  | mk s' r =>
    cases r with
    | ok p =>
      obtain ⟨new, g1, g2, g3, g4⟩ := hf p ⟨w, t, some p, .ok ()⟩ rfl rfl rfl s' (l ++ [⟨w, t, some p, .ok ()⟩])
      have hx : ok ⟨w, t, some p, .ok ()⟩ := hl _ rfl
      refine ⟨⟨w, t, some p, .ok ()⟩ :: new, ?_, g2, ?_, ?_⟩
      · show (f p (s', l ++ [⟨w, t, some p, .ok ()⟩])).1.2 = _
        rw [g1, List.append_assoc]; rfl
      · rcases g3 with g3 | ⟨l0, x, rfl, hl0, hx', hk⟩
        · refine .inl fun e he => ?_
          rcases List.mem_cons.mp he with rfl | he
          · exact hx
          · exact g3 e he
        · refine .inr ⟨_ :: l0, x, rfl, fun e he => ?_, hx', hk⟩
          rcases List.mem_cons.mp he with rfl | he
          · exact hx
          · exact hl0 e he
      · intro h e he
        rcases List.mem_cons.mp he with rfl | he
        · exact hr h
        · exact g4 h e he
    | err t' =>
      refine ⟨[⟨w, t, none, .err t'⟩], rfl, own_single hw, ?_, (fun h e he => by rw [List.mem_singleton.mp he]; exact hr h)⟩
      by_cases h : ok ⟨w, t, none, .err t'⟩
      · exact .inl fun e he => by rwa [List.mem_singleton.mp he]
      · exact .inr ⟨[], _, rfl, (fun _ h => by cases h), h, rfl⟩
    | panic =>
      refine ⟨[⟨w, t, none, .panic⟩], rfl, own_single hw, ?_, (fun h e he => by rw [List.mem_singleton.mp he]; exact hr h)⟩
      by_cases h : ok ⟨w, t, none, .panic⟩
      · exact .inl fun e he => by rwa [List.mem_singleton.mp he]
      · exact .inr ⟨[], _, rfl, (fun _ h => by cases h), h, rfl⟩
    | diverge =>
      refine ⟨[⟨w, t, none, .diverge⟩], rfl, own_single hw, ?_, (fun h e he => by rw [List.mem_singleton.mp he]; exact hr h)⟩
      by_cases h : ok ⟨w, t, none, .diverge⟩
      · exact .inl fun e he => by rwa [List.mem_singleton.mp he]
      · exact .inr ⟨[], _, rfl, (fun _ h => by cases h), h, rfl⟩

/-- The method that is told the path. -/
theorem Good.file {x : Asked} {p : Bytes} {w w' : Meth} (hx : x.what = w') (hk : x.ended = .ok ()) (hp : x.path = some p) {rest : List Bytes}
    {f : α → Option Bytes} {m : Method σ α} (hn : w'.namedBy = []) (hw : w' ∈ w.namedBy) (hr : rd = true → w.changes = false) :
    Good ok rd [x] (Spec.noted w (p :: rest) f m) :=
  .noted (fun e h h' => own_pair (by rw [hx, hn]) (by rw [hx, h]; exact hw) hk hp h') hr

theorem Good.map (hl : Lenient ok) {pre : List Asked} {m : Method (σ × List Asked) α} (f : α → β) (h : Good ok rd pre m) : Good ok rd pre (m.map f) :=
  h.andThen hl fun _ => .pure [] own_nil _

/-- A path and the method it is for. -/
theorem Good.pathFile (hl : Lenient ok) {w w' : Meth} {t : List Bytes} {m : Method σ Bytes} {g : Bytes → List Bytes} {f : α → Option Bytes}
    {m' : Bytes → Method σ α} (hn : w'.namedBy = []) (hw : w' ∈ w.namedBy) (hr' : rd = true → w'.changes = false) (hr : rd = true → w.changes = false) :
    Good ok rd [] ((Spec.noted w' t some m).andThen fun p => Spec.noted w (p :: g p) f (m' p)) :=
  .path hl hn hr' fun _ _ hx hk hp => .file hx hk hp hn hw hr

end

section
variable {σ : Type} {K : Kinds} (d : Driver σ K) {op : FrontCall K} {rd : Bool}

theorem passable_ok (op : FrontCall K) : Lenient (Passable op) := fun _ h => .inl h

theorem good_readOrEmpty (ho : ∀ b ds, op ≠ .listTreasure b ds) {x : Asked} {p : Bytes} (hx : x.what = .articlesPath) (hk : x.ended = .ok ())
    (hp : x.path = some p) : Good (Passable op) rd [x] ((taped d).readOrEmpty p) := by
  intro s l
  unfold Driver.readOrEmpty
  have h : (taped d).readArticles p (s, l) = noted .readArticles [p] (fun _ => none) (d.readArticles p) (s, l) := rfl
  rw [h]
  unfold noted
  cases e : d.readArticles p s with
  | mk s' r =>
    have hown : ∀ o, OwnPaths [x, ⟨.readArticles, [p], none, o⟩] := fun o =>
      own_pair (by rw [hx]; rfl) (by rw [hx]; simp [Meth.namedBy]) hk hp rfl
    have hch : ∀ o, rd = true → ∀ e ∈ [(⟨.readArticles, [p], none, o⟩ : Asked)], e.what.changes = false := fun o _ e he => by
      rw [List.mem_singleton.mp he]; rfl
    cases r with
    | ok a => exact ⟨[⟨.readArticles, [p], none, .ok ()⟩], rfl, hown _, .inl (fun e he => by rw [List.mem_singleton.mp he]; exact .inl rfl), hch _⟩
    | err t =>
      refine ⟨[⟨.readArticles, [p], none, .err t⟩], ?_, hown _, ?_, hch _⟩
      · by_cases hc : containsPhrase missingPhrase (ascii t) = true <;> simp [hc, outcome]
      · by_cases hc : containsPhrase missingPhrase (ascii t) = true
        · refine .inl fun e he => ?_
          rw [List.mem_singleton.mp he]
          exact .inr ⟨rfl, ho, t, rfl, (containsPhrase_iff _ _).mp hc⟩
        · refine .inr ⟨[], _, rfl, (fun _ h => by cases h), ?_, by simp [hc, outcome]⟩
          rintro (h | ⟨_, _, t', ht, hi⟩)
          · cases h
          · cases ht
            exact hc ((containsPhrase_iff _ _).mpr hi)
    | panic =>
      refine ⟨[⟨.readArticles, [p], none, .panic⟩], rfl, hown _, .inr ⟨[], _, rfl, (fun _ h => by cases h), ?_, rfl⟩, hch _⟩
      rintro (h | ⟨_, _, t', ht, hi⟩) <;> contradiction
    | diverge =>
      refine ⟨[⟨.readArticles, [p], none, .diverge⟩], rfl, hown _, .inr ⟨[], _, rfl, (fun _ h => by cases h), ?_, rfl⟩, hch _⟩
      rintro (h | ⟨_, _, t', ht, hi⟩) <;> contradiction

theorem good_listArticles (ho : ∀ b ds, op ≠ .listTreasure b ds) (b : Bytes) : Good (Passable op) rd [] ((taped d).listArticles b) :=
  .path (passable_ok op) rfl (fun _ => rfl) fun _ _ hx hk hp => good_readOrEmpty d ho hx hk hp

theorem good_readBoardRecords : Good (Passable op) rd [] (taped d).readBoardRecords :=
  .pathFile (passable_ok op) (g := fun _ => []) rfl (by simp [Meth.namedBy]) (fun _ => rfl) (fun _ => rfl)

theorem good_userArticleLoop (ho : ∀ b ds, op ≠ .listTreasure b ds) (u : Bytes) (bs : List K.Board) :
    ∀ recs, Good (Passable op) rd [] ((taped d).userArticleLoop u bs recs) := by
  induction bs with
  | nil => exact fun _ => .pure [] own_nil _
  | cons b bs ih =>
    intro recs
    unfold Driver.userArticleLoop
    by_cases hb : DB.shouldSkip (K.boardID b) = true
    · rw [if_pos hb]; exact ih _
    · rw [if_neg hb]; exact (good_listArticles d ho _).andThen (passable_ok op) fun _ => ih _

theorem good_articleComments (b : Bytes) (ar : K.Article) : Good (Passable op) rd [] ((taped d).articleCommentsOf b ar) :=
  Good.andThen (passable_ok op)
    (.pathFile (passable_ok op) (g := fun _ => []) rfl (by simp [Meth.namedBy]) (fun _ => rfl) (fun _ => rfl)) fun _ => .pure [] own_nil _

theorem good_boardUserCommentLoop (b u : Bytes) (ars : List K.Article) :
    ∀ recs, Good (Passable op) rd [] ((taped d).boardUserCommentLoop b u ars recs) := by
  induction ars with
  | nil => exact fun _ => .pure [] own_nil _
  | cons ar ars ih => exact fun recs => (good_articleComments d b ar).andThen (passable_ok op) fun _ => ih _

theorem good_boardUserComments (ho : ∀ b ds, op ≠ .listTreasure b ds) (b u : Bytes) : Good (Passable op) rd [] ((taped d).boardUserComments b u) :=
  (good_listArticles d ho b).andThen (passable_ok op) fun _ => good_boardUserCommentLoop d b u _ _

theorem good_userCommentLoop (ho : ∀ b ds, op ≠ .listTreasure b ds) (u : Bytes) (bs : List K.Board) :
    ∀ recs, Good (Passable op) rd [] ((taped d).userCommentLoop u bs recs) := by
  induction bs with
  | nil => exact fun _ => .pure [] own_nil _
  | cons b bs ih =>
    intro recs
    unfold Driver.userCommentLoop
    by_cases hb : DB.shouldSkip (K.boardID b) = true
    · rw [if_pos hb]; exact ih _
    · rw [if_neg hb]; exact (good_boardUserComments d ho _ _).andThen (passable_ok op) fun _ => ih _

theorem good_userArticles (ho : ∀ b ds, op ≠ .listTreasure b ds) (u : Bytes) : Good (Passable op) rd [] ((taped d).userArticles u) := by
  have hs : ∀ recs, Good (Passable op) rd [] ((taped d).readBoardRecords.andThen fun bs => (taped d).userArticleLoop u bs recs) :=
    fun _ => (good_readBoardRecords d).andThen (passable_ok op) fun _ => good_userArticleLoop d ho u _ _
  unfold Driver.userArticles
  have hk : (taped d).articleKeeper = d.articleKeeper.map _ := rfl
  rw [hk]
  cases d.articleKeeper with
  | none => exact hs []
  | some k =>
    refine .path (passable_ok op) rfl (fun _ => rfl) fun p x hx hk hp =>
      Good.andThen (passable_ok op) (.file hx hk hp rfl (by simp [Meth.namedBy]) fun _ => rfl) fun recs => ?_
    by_cases h : recs.length ≠ 0
    · rw [if_pos h]; exact .pure [] own_nil _
    · rw [if_neg h]; exact hs recs

theorem good_userComments (ho : ∀ b ds, op ≠ .listTreasure b ds) (u : Bytes) : Good (Passable op) rd [] ((taped d).userComments u) := by
  have hs : ∀ recs, Good (Passable op) rd [] ((taped d).readBoardRecords.andThen fun bs => (taped d).userCommentLoop u bs recs) :=
    fun _ => (good_readBoardRecords d).andThen (passable_ok op) fun _ => good_userCommentLoop d ho u _ _
  unfold Driver.userComments
  have hk : (taped d).commentKeeper = d.commentKeeper.map _ := rfl
  rw [hk]
  cases d.commentKeeper with
  | none => exact hs []
  | some k =>
    refine .path (passable_ok op) rfl (fun _ => rfl) fun p x hx hk hp =>
      Good.andThen (passable_ok op) (.file hx hk hp rfl (by simp [Meth.namedBy]) fun _ => rfl) fun recs => ?_
    by_cases h : recs.length ≠ 0
    · rw [if_pos h]; exact .pure [] own_nil _
    · rw [if_neg h]; exact hs recs

theorem good_call (op : FrontCall K) : Good (Passable op) (readsOnly op) [] ((taped d).call op) := by
  have hl := passable_ok op
  have hpf : ∀ {α : Type} {w w' : Meth} {t : List Bytes} {m : Method σ Bytes} {g : Bytes → List Bytes} {f : α → Option Bytes}
      {m' : Bytes → Method σ α}, w'.namedBy = [] → w' ∈ w.namedBy → w'.changes = false → (readsOnly op = true → w.changes = false) →
      Good (Passable op) (readsOnly op) [] ((noted w' t some m).andThen fun p => noted w (p :: g p) f (m' p)) :=
    fun h1 h2 h3 h4 => .pathFile hl h1 h2 (fun _ => h3) h4
  cases op with
  | readUsers => exact .map hl _ (hpf (g := fun _ => []) rfl (by simp [Meth.namedBy]) rfl (fun _ => rfl))
  | readFavourites => exact .map hl _ (hpf (g := fun _ => []) rfl (by simp [Meth.namedBy]) rfl (fun _ => rfl))
  | readBoards => exact .map hl _ (good_readBoardRecords d)
  | listArticles => exact .map hl _ (good_listArticles d (fun _ _ h => by cases h) _)
  | listTreasure => exact .map hl _ (hpf (g := fun _ => []) rfl (by simp [Meth.namedBy]) rfl (fun _ => rfl))
  | readArticle => exact .map hl _ (hpf (g := fun _ => []) rfl (by simp [Meth.namedBy]) rfl (fun _ => rfl))
  | readTreasure => exact .map hl _ (hpf (g := fun _ => []) rfl (by simp [Meth.namedBy]) rfl (fun _ => rfl))
  | newBoard =>
    refine .map hl _ ?_
    unfold Driver.newBoard
    have hk : (taped d).boardWriter = d.boardWriter.map _ := rfl
    rw [hk]
    cases d.boardWriter with
    | none => exact .pure [] own_nil _
    | some w => exact .free own_nil rfl fun _ => rfl
  | addBoard =>
    refine .map hl _ (.path hl rfl (fun _ => rfl) fun p x hx he hp => ?_)
    have hk : (taped d).boardWriter = d.boardWriter.map _ := rfl
    rw [hk]
    cases d.boardWriter with
    | none => exact .pure [x] (own_single (by rw [hx]; rfl)) _
    | some w => exact .file hx he hp rfl (by simp [Meth.namedBy]) fun h => by cases h
  | updateBoard => exact .pure [] own_nil _
  | readBoard => exact .pure [] own_nil _
  | removeBoard => exact .pure [] own_nil _
  | createArticle =>
    refine .map hl _ ?_
    unfold Driver.createArticle
    have hk : (taped d).articleWriter = d.articleWriter.map _ := rfl
    rw [hk]
    cases d.articleWriter with
    | none => exact .pure [] own_nil _
    | some w => exact Good.andThen hl (.free own_nil rfl fun h => by cases h) fun _ => .free own_nil rfl fun _ => rfl
  | addRecord =>
    refine .map hl _ (.path hl rfl (fun _ => rfl) fun p x hx he hp => ?_)
    have hk : (taped d).articleWriter = d.articleWriter.map _ := rfl
    rw [hk]
    cases d.articleWriter with
    | none => exact .pure [x] (own_single (by rw [hx]; rfl)) _
    | some w => exact .file hx he hp rfl (by simp [Meth.namedBy]) fun h => by cases h
  | writeArticle b f x =>
    refine .map hl _ ?_
    unfold Driver.writeArticle
    have hk : (taped d).articleWriter = d.articleWriter.map _ := rfl
    rw [hk]
    cases d.articleWriter with
    | none => exact .pure [] own_nil _
    | some w => exact hpf (g := fun _ => [x]) rfl (by simp [Meth.namedBy]) rfl fun h => by cases h
  | appendArticle =>
    refine .map hl _ (.path hl rfl (fun _ => rfl) fun p x hx he hp => ?_)
    have hk : (taped d).articleWriter = d.articleWriter.map _ := rfl
    rw [hk]
    cases d.articleWriter with
    | none => exact .pure [x] (own_single (by rw [hx]; rfl)) _
    | some w => exact .file hx he hp rfl (by simp [Meth.namedBy]) fun h => by cases h
  | userArticles => exact .map hl _ (good_userArticles d (fun _ _ h => by cases h) _)
  | userComments => exact .map hl _ (good_userComments d (fun _ _ h => by cases h) _)
  | boardUserComments => exact .map hl _ (good_boardUserComments d (fun _ _ h => by cases h) _ _)
  | articleComments => exact .map hl _ (good_articleComments d _ _)
  | readDraft =>
    refine .map hl _ ?_
    unfold Driver.readDraft
    have hk : (taped d).drafts = d.drafts.map _ := rfl
    rw [hk]
    cases d.drafts with
    | none => exact .pure [] own_nil _
    | some w => exact hpf (g := fun _ => []) rfl (by simp [Meth.namedBy]) rfl fun _ => rfl
  | deleteDraft =>
    refine .map hl _ ?_
    unfold Driver.deleteDraft
    have hk : (taped d).drafts = d.drafts.map _ := rfl
    rw [hk]
    cases d.drafts with
    | none => exact .pure [] own_nil _
    | some w => exact hpf (g := fun _ => []) rfl (by simp [Meth.namedBy]) rfl fun h => by cases h
  | writeDraft u n x =>
    refine .map hl _ ?_
    unfold Driver.writeDraft
    have hk : (taped d).drafts = d.drafts.map _ := rfl
    rw [hk]
    cases d.drafts with
    | none => exact .pure [] own_nil _
    | some w =>
      refine .path hl rfl (fun _ => rfl) fun p y hx he hp => ?_
      cases x with
      | none => exact .pure [y] (own_single (by rw [hx]; rfl)) _
      | some _ => exact .file hx he hp rfl (by simp [Meth.namedBy]) fun h => by cases h

theorem tape_eq (op : FrontCall K) (s : σ) : OwnPaths (tape d op s) ∧
    ((∀ e ∈ tape d op s, Passable op e) ∨ ∃ l' e, tape d op s = l' ++ [e] ∧ (∀ e' ∈ l', Passable op e') ∧ ¬ Passable op e ∧
      outcome (d.call op s).2 = e.ended) ∧ (readsOnly op = true → ∀ e ∈ tape d op s, e.what.changes = false) := by
  obtain ⟨new, h1, h2, h3, h4⟩ := good_call d op s []
  rw [(C135_tape_changes_nothing d op s []).2] at h3
  have h : tape d op s = new := by unfold tape; rw [h1]; rfl
  rw [h]
  exact ⟨h2, h3, h4⟩

/-- Whatever the driver: every file the database names to it has the path that the driver gave right before, by the method that is for it. -/
theorem C135_own_paths (op : FrontCall K) (s : σ) : OwnPaths (tape d op s) := (tape_eq d op s).1

/-- Whatever the driver: after the first failure it is asked for nothing more, and the failure is the answer. The only failure that is passed over is that of
reading the list of a board whose error contains "no such file or directory". -/
theorem C135_stops_partial (op : FrontCall K) (s : σ) : StopsAtFailure op (tape d op s) (d.call op s).2 := (tape_eq d op s).2.1

/-- So a call that succeeds has had no other failing method. -/
theorem C135_success_partial (op : FrontCall K) (s s' : σ) (a : FrontAnswer K) (h : d.call op s = (s', .ok a)) : ∀ e ∈ tape d op s, Passable op e := by
  rcases C135_stops_partial d op s with h' | ⟨_, e, _, _, hx, hk⟩
  · exact h'
  · rw [h] at hk
    exact absurd (.inl hk.symm) hx

/-- Whatever the driver: calls that read ask for nothing that changes the store. -/
theorem C135_readers (op : FrontCall K) (s : σ) (h : readsOnly op = true) : ∀ e ∈ tape d op s, e.what.changes = false := (tape_eq d op s).2.2 h

end

/-! ## Crashes -/

/-- It does not panic. -/
def NoPanic {σ α : Type} (m : Method σ α) : Prop := ∀ s, (m s).2 ≠ .panic

theorem NoPanic.andThen {σ α β : Type} {m : Method σ α} {f : α → Method σ β} (h : NoPanic m) (hf : ∀ a, NoPanic (f a)) : NoPanic (m.andThen f) := by
  intro s
  unfold Method.andThen
  have h1 := h s
  cases e : m s with
  | mk s' r =>
    rw [e] at h1
    cases r with
    | ok a => exact hf a s'
    | err t => exact fun h => by cases h
    | panic => exact absurd rfl h1
    | diverge => exact fun h => by cases h

theorem NoPanic.pure {σ α : Type} {r : Res α} (h : r ≠ .panic) : NoPanic (Method.pure (σ := σ) r) := fun _ => h

theorem NoPanic.map {σ α β : Type} {m : Method σ α} (f : α → β) (h : NoPanic m) : NoPanic (m.map f) := h.andThen fun _ => .pure fun h => by cases h

theorem map_panic {σ α β : Type} (m : Method σ α) (f : α → β) (s : σ) : (m.map f s).2 = .panic ↔ (m s).2 = .panic := by
  unfold Method.map Method.andThen Method.pure
  cases m s with
  | mk s' r => cases r <;> simp

/-- A path is asked for; if it is there the method ends in a crash. -/
theorem then_panic {σ α β : Type} {m : Method σ α} (h : NoPanic m) (s : σ) :
    ((m.andThen fun _ => (Method.pure .panic : Method σ β)) s).2 = .panic ↔ ∃ s' p, m s = (s', .ok p) := by
  unfold Method.andThen Method.pure
  have h1 := h s
  cases e : m s with
  | mk s' r =>
    rw [e] at h1
    cases r <;> simp at h1 ⊢

section
variable {σ : Type} {K : Kinds} {d : Driver σ K} (h : Calm d)
include h

theorem calm_readOrEmpty (p : Bytes) : NoPanic (d.readOrEmpty p) := by
  intro s
  unfold Driver.readOrEmpty
  have h1 := h.readArticles p s
  cases e : d.readArticles p s with
  | mk s' r =>
    rw [e] at h1
    cases r with
    | err t => by_cases hc : containsPhrase missingPhrase (ascii t) = true <;> simp [hc]
    | ok a => exact fun h => by cases h
    | panic => exact absurd rfl h1
    | diverge => exact fun h => by cases h

theorem calm_listArticles (b : Bytes) : NoPanic (d.listArticles b) := NoPanic.andThen (h.articlesPath b) fun p => calm_readOrEmpty h p

theorem calm_readBoardRecords : NoPanic d.readBoardRecords := NoPanic.andThen h.boardsPath fun p => h.readBoards p

theorem calm_userArticleLoop (u : Bytes) (bs : List K.Board) : ∀ recs, NoPanic (d.userArticleLoop u bs recs) := by
  induction bs with
  | nil => exact fun _ => .pure fun h => by cases h
  | cons b bs ih =>
    intro recs
    unfold Driver.userArticleLoop
    by_cases hb : DB.shouldSkip (K.boardID b) = true
    · rw [if_pos hb]; exact ih _
    · rw [if_neg hb]; exact (calm_listArticles h _).andThen fun _ => ih _

theorem calm_articleComments (b : Bytes) (ar : K.Article) : NoPanic (d.articleCommentsOf b ar) :=
  NoPanic.andThen (NoPanic.andThen (h.articlePath b _) fun p => h.readArticle p) fun x => .pure fun hp => by
    have hr := C34_returns b (K.filename ar) x
    rw [hp] at hr
    exact hr

theorem calm_boardUserCommentLoop (b u : Bytes) (ars : List K.Article) : ∀ recs, NoPanic (d.boardUserCommentLoop b u ars recs) := by
  induction ars with
  | nil => exact fun _ => .pure fun h => by cases h
  | cons ar ars ih => exact fun recs => (calm_articleComments h b ar).andThen fun _ => ih _

theorem calm_boardUserComments (b u : Bytes) : NoPanic (d.boardUserComments b u) :=
  (calm_listArticles h b).andThen fun _ => calm_boardUserCommentLoop h b u _ _

theorem calm_userCommentLoop (u : Bytes) (bs : List K.Board) : ∀ recs, NoPanic (d.userCommentLoop u bs recs) := by
  induction bs with
  | nil => exact fun _ => .pure fun h => by cases h
  | cons b bs ih =>
    intro recs
    unfold Driver.userCommentLoop
    by_cases hb : DB.shouldSkip (K.boardID b) = true
    · rw [if_pos hb]; exact ih _
    · rw [if_neg hb]; exact (calm_boardUserComments h _ _).andThen fun _ => ih _

theorem calm_userArticles (u : Bytes) : NoPanic (d.userArticles u) := by
  have hs : ∀ recs, NoPanic (d.readBoardRecords.andThen fun bs => d.userArticleLoop u bs recs) :=
    fun _ => (calm_readBoardRecords h).andThen fun _ => calm_userArticleLoop h u _ _
  unfold Driver.userArticles
  cases hk : d.articleKeeper with
  | none => exact hs []
  | some k =>
    obtain ⟨h1, h2⟩ := h.articleKeeper k hk
    refine NoPanic.andThen (h1 u) fun p => NoPanic.andThen (h2 p) fun recs => ?_
    by_cases hr : recs.length ≠ 0
    · rw [if_pos hr]; exact .pure fun h => by cases h
    · rw [if_neg hr]; exact hs recs

theorem calm_userComments (u : Bytes) : NoPanic (d.userComments u) := by
  have hs : ∀ recs, NoPanic (d.readBoardRecords.andThen fun bs => d.userCommentLoop u bs recs) :=
    fun _ => (calm_readBoardRecords h).andThen fun _ => calm_userCommentLoop h u _ _
  unfold Driver.userComments
  cases hk : d.commentKeeper with
  | none => exact hs []
  | some k =>
    obtain ⟨h1, h2⟩ := h.commentKeeper k hk
    refine NoPanic.andThen (h1 u) fun p => NoPanic.andThen (h2 p) fun recs => ?_
    by_cases hr : recs.length ≠ 0
    · rw [if_pos hr]; exact .pure fun h => by cases h
    · rw [if_neg hr]; exact hs recs

/-- In front of a driver that does not crash, a call crashes exactly if it needs an optional interface that the driver does not have — unless it is one of the
two calls that check for it, or fails before — or if it is to save a draft that is nil. -/
theorem C136_crash_exact (op : FrontCall K) (s : σ) : (d.call op s).2 = .panic ↔ Lacks d s op := by
  have no : ∀ {α : Type} {m : Method σ α} (f : α → FrontAnswer K), NoPanic m → ((m.map f s).2 = .panic ↔ False) :=
    fun f hm => iff_false_intro fun hp => hm s ((map_panic _ f s).mp hp)
  cases op with
  | readUsers => exact no _ (NoPanic.andThen h.usersPath fun p => h.readUsers p)
  | readFavourites u => exact no _ (NoPanic.andThen (h.favouritesPath u) fun p => h.readFavourites p)
  | readBoards => exact no _ (calm_readBoardRecords h)
  | listArticles => exact no _ (calm_listArticles h _)
  | listTreasure b ds => exact no _ (NoPanic.andThen (h.treasuresPath b ds) fun p => h.readArticles p)
  | readArticle b f => exact no _ (NoPanic.andThen (h.articlePath b f) fun p => h.readArticle p)
  | readTreasure b ds f => exact no _ (NoPanic.andThen (h.treasurePath b ds f) fun p => h.readArticle p)
  | newBoard a =>
    show ((d.newBoard a).map _ s).2 = .panic ↔ d.boardWriter = none
    rw [map_panic]
    unfold Driver.newBoard
    cases hk : d.boardWriter with
    | none => simp [Method.pure]
    | some w => simp [(h.boardWriter w hk).1 a s]
  | addBoard r =>
    show ((d.addBoard r).map _ s).2 = .panic ↔ d.boardWriter = none ∧ _
    rw [map_panic]
    unfold Driver.addBoard
    cases hk : d.boardWriter with
    | none => rw [then_panic h.boardsPath]; simp
    | some w =>
      have := NoPanic.andThen h.boardsPath (fun p => (h.boardWriter w hk).2 p r) s
      simp [this]
  | updateBoard => simp [Driver.call, Method.pure, Lacks]
  | readBoard => simp [Driver.call, Method.pure, Lacks]
  | removeBoard => simp [Driver.call, Method.pure, Lacks]
  | createArticle b o t' t =>
    show ((d.createArticle b o t' t).map _ s).2 = .panic ↔ d.articleWriter = none
    rw [map_panic]
    unfold Driver.createArticle
    cases hk : d.articleWriter with
    | none => simp [Method.pure]
    | some w =>
      have := NoPanic.andThen ((h.articleWriter w hk).1 b) (fun f => (h.articleWriter w hk).2.1 f o t' t) s
      simp [this]
  | addRecord b r =>
    show ((d.addArticle b r).map _ s).2 = .panic ↔ d.articleWriter = none ∧ _
    rw [map_panic]
    unfold Driver.addArticle
    cases hk : d.articleWriter with
    | none => rw [then_panic (h.articlesPath b)]; simp
    | some w =>
      have := NoPanic.andThen (h.articlesPath b) (fun p => (h.articleWriter w hk).2.2.1 p r) s
      simp [this]
  | writeArticle b f x =>
    refine no _ ?_
    unfold Driver.writeArticle
    cases hk : d.articleWriter with
    | none => exact .pure fun h => by cases h
    | some w => exact NoPanic.andThen (h.articlePath b f) (fun p => (h.articleWriter w hk).2.2.2.1 p x)
  | appendArticle b f x =>
    refine no _ (NoPanic.andThen (h.articlePath b f) fun p => ?_)
    cases hk : d.articleWriter with
    | none => exact .pure fun h => by cases h
    | some w => exact (h.articleWriter w hk).2.2.2.2 p x
  | userArticles => exact no _ (calm_userArticles h _)
  | userComments => exact no _ (calm_userComments h _)
  | boardUserComments => exact no _ (calm_boardUserComments h _ _)
  | articleComments => exact no _ (calm_articleComments h _ _)
  | readDraft u n =>
    show ((d.readDraft u n).map _ s).2 = .panic ↔ d.drafts = none
    rw [map_panic]
    unfold Driver.readDraft
    cases hk : d.drafts with
    | none => simp [Method.pure]
    | some w =>
      have := NoPanic.andThen ((h.drafts w hk).1 u n) (fun p => (h.drafts w hk).2.1 p) s
      simp [this]
  | deleteDraft u n =>
    show ((d.deleteDraft u n).map _ s).2 = .panic ↔ d.drafts = none
    rw [map_panic]
    unfold Driver.deleteDraft
    cases hk : d.drafts with
    | none => simp [Method.pure]
    | some w =>
      have := NoPanic.andThen ((h.drafts w hk).1 u n) (fun p => (h.drafts w hk).2.2.1 p) s
      simp [this]
  | writeDraft u n x =>
    show ((d.writeDraft u n x).map _ s).2 = .panic ↔ d.drafts = none ∨ _
    rw [map_panic]
    unfold Driver.writeDraft
    cases hk : d.drafts with
    | none => simp [Method.pure]
    | some w =>
      cases x with
      | none =>
        have := then_panic (β := Unit) ((h.drafts w hk).1 u n) s
        simpa using this
      | some x =>
        have := NoPanic.andThen ((h.drafts w hk).1 u n) (fun p => (h.drafts w hk).2.2.2 p x) s
        simp [this]

/-- So no call crashes in front of a driver that does not and has the optional interfaces, unless a nil draft is to be saved. -/
theorem C136_partial (op : FrontCall K) (s : σ) (hb : d.boardWriter ≠ none) (ha : d.articleWriter ≠ none) (hd : d.drafts ≠ none)
    (hn : ∀ u n, op ≠ .writeDraft u n none) : (d.call op s).2 ≠ .panic := by
  rw [ne_eq, C136_crash_exact h op s]
  cases op with
  | writeDraft u n x => exact fun hx => hx.elim hd fun hx => hn u n (by rw [hx.1])
  | newBoard => exact hb
  | addBoard => exact fun hx => hb hx.1
  | createArticle => exact ha
  | addRecord => exact fun hx => ha hx.1
  | readDraft => exact hd
  | deleteDraft => exact hd
  | _ => exact id

end

/-! ## The driver `pttbbs` -/

section
variable (db : DB) (c : Codec) (draw : Nat → Int × Fin 4096) (fuel : Nat) (fs : FS)

theorem pure_then {σ α β : Type} (r : Res α) (f : α → Method σ β) (s : σ) : (Method.pure r).andThen f s = match r with
    | .ok a => f a s
    | .err e => (s, .err e)
    | .panic => (s, .panic)
    | .diverge => (s, .diverge) := by cases r <;> rfl

/-- A method that leaves the disk alone. -/
theorem still_map {α β : Type} {m : Method FS α} {r : Res α} (h : m fs = (fs, r)) (f : α → β) : m.map f fs = (fs, inFront f r) := by
  unfold Method.map Method.andThen
  rw [h]
  cases r <;> rfl

theorem still_then {α β : Type} {m : Method FS α} {r : Res α} (h : m fs = (fs, r)) (f : α → Method FS β) : m.andThen f fs = match (generalizing := false) r with
    | .ok a => f a fs
    | .err e => (fs, .err e)
    | .panic => (fs, .panic)
    | .diverge => (fs, .diverge) := by
  unfold Method.andThen
  rw [h]
  cases r <;> rfl

theorem reads_front {α : Type} (f : α → Answer) (r : Res α) :
    ((reads fs f r).1, inFront frontAnswer (reads fs f r).2) = (fs, inFront (fun a => frontAnswer (f a)) r) := by
  unfold reads
  cases r <;> rfl

/-- A path, and a method that reads. -/
theorem path_read {α : Type} (r : Res Bytes) (g : Bytes → FS → Res α) :
    ((Method.pure r).andThen fun p => onDisk (g p)) fs = (fs, do g (← r) fs) := by
  cases r <;> rfl

theorem writes_front (r : Res FS) : (toDisk (fun _ => r)).map (fun _ => FrontAnswer.done (K := pttKinds)) fs =
    ((writes fs r).1, inFront frontAnswer (writes fs r).2) := by
  unfold Method.map Method.andThen toDisk writes
  cases r <;> rfl

/-- A path, and a method that writes. -/
theorem path_write (r : Res Bytes) (g : Bytes → FS → Res FS) :
    ((Method.pure r).andThen fun p => toDisk (g p)).map (fun _ => FrontAnswer.done (K := pttKinds)) fs =
      ((writes fs (do g (← r) fs)).1, inFront frontAnswer (writes fs (do g (← r) fs)).2) := by
  cases r with
  | ok p => exact writes_front fs (g p fs)
  | _ => rfl

theorem missing_exact {db : DB} {c : Codec} {fs : FS} {p : Bytes} {e : String} (h : db.openArticleList c fs p = .err e) :
    containsPhrase missingPhrase (ascii e) = true ↔ e = "no such file or directory" := by
  rcases openArticleList_split db c fs p with ⟨_, h'⟩ | ⟨_, _, rfl | rfl, h'⟩ | ⟨_, h'⟩ | ⟨_, _, _, _, h'⟩ <;> rw [h'] at h <;> cases h
  · exact iff_of_true (by decide +kernel) rfl
  · exact iff_of_false (by decide +kernel) (by decide)
  · exact iff_of_false (by decide +kernel) (by decide)

theorem ptt_listArticles (b : Bytes) : (pttDriver db c draw fuel).listArticles b fs = (fs, inFront (·.map Given.own) (db.readArticleRecords c fs b)) := by
  unfold Driver.listArticles
  rw [show (pttDriver db c draw fuel).articlesPath b = Method.pure (getBoardArticlesDirectoryPath db.home b) from rfl, pure_then]
  unfold DB.readArticleRecords
  cases getBoardArticlesDirectoryPath db.home b with
  | ok p =>
    show (pttDriver db c draw fuel).readOrEmpty p fs = _
    unfold Driver.readOrEmpty
    rw [show (pttDriver db c draw fuel).readArticles p fs = (fs, do .ok ((← db.openArticleList c fs p).map Given.own)) from rfl]
    show _ = (fs, inFront (·.map Given.own) (match db.openArticleList c fs p with
      | .err e => if e = "no such file or directory" then .ok [] else .err e
      | r => r))
    cases h : db.openArticleList c fs p with
    | err e =>
      show (if containsPhrase missingPhrase (ascii e) = true then (fs, Res.ok []) else (fs, Res.err e)) = _
      by_cases he : e = "no such file or directory"
      · rw [if_pos ((missing_exact h).mpr he)]
        simp only [if_pos he]
        rfl
      · rw [if_neg (fun hc => he ((missing_exact h).mp hc))]
        simp only [if_neg he]
        rfl
    | _ => rfl
  | _ => rfl

theorem ptt_readBoards : (pttDriver db c draw fuel).readBoardRecords fs = (fs, inFront (·.map Given.own) (db.readBoardRecords c fs)) := by
  refine (path_read fs _ _).trans ?_
  unfold DB.readBoardRecords
  cases getBoardPath db.home with
  | ok p =>
    show (fs, do .ok ((← db.openBoardList c fs p).map Given.own)) = (fs, inFront _ (db.openBoardList c fs p))
    cases db.openBoardList c fs p <;> rfl
  | _ => rfl

/-- In front of `pttbbs` the database makes the calls that the rest of the model is about. -/
theorem C135_pttbbs (op : Call) (hop : ∀ b o t' t dr fu, op = .createArticle b o t' t dr fu → dr = draw ∧ fu = fuel) :
    (pttDriver db c draw fuel).call (frontCall op) fs = ((op.exec db c fs).1, inFront frontAnswer (op.exec db c fs).2) := by
  cases op with
  | readUsers => exact (still_map fs (path_read fs _ _) _).trans (reads_front fs Answer.users _).symm
  | readFavourites => exact (still_map fs (path_read fs _ _) _).trans (reads_front fs Answer.favourites _).symm
  | readBoards =>
    refine (still_map fs (ptt_readBoards db c draw fuel fs) _).trans (Eq.trans ?_ (reads_front fs _ _).symm)
    cases db.readBoardRecords c fs <;> rfl
  | listArticles b =>
    refine (still_map fs (ptt_listArticles db c draw fuel fs b) _).trans (Eq.trans ?_ (reads_front fs _ _).symm)
    cases db.readArticleRecords c fs b <;> rfl
  | listTreasure b ds =>
    refine (still_map fs (path_read fs _ _) _).trans (Eq.trans ?_ (reads_front fs _ _).symm)
    unfold DB.readTreasureRecords
    cases getBoardTreasuresDirectoryPath db.home b ds with
    | ok p =>
      show (fs, inFront _ (do .ok ((← db.openArticleList c fs p).map Given.own))) = (fs, inFront _ (db.openArticleList c fs p))
      cases db.openArticleList c fs p <;> rfl
    | _ => rfl
  | readArticle => exact (still_map fs (path_read fs _ _) _).trans (reads_front fs Answer.bytes _).symm
  | readTreasure => exact (still_map fs (path_read fs _ _) _).trans (reads_front fs Answer.bytes _).symm
  | addBoard r => exact path_write fs _ _
  | createArticle b o t' t dr fu =>
    obtain ⟨rfl, rfl⟩ := hop _ _ _ _ _ _ rfl
    show ((pttDriver db c dr fu).createArticle b o t' t).map _ fs = _
    unfold Driver.createArticle Method.map Method.andThen Call.exec DB.createArticleRecord
    simp only [pttDriver]
    cases db.createFilename fs b dr fu 0 with
    | ok x => obtain ⟨f, fs'⟩ := x; rfl
    | _ => rfl
  | addRecord b r => exact path_write fs _ _
  | writeArticle b f x => exact path_write fs _ _
  | appendArticle b f x => exact path_write fs _ _
  | readDraft u n => exact (still_map fs (path_read fs _ _) _).trans (reads_front fs Answer.bytes _).symm
  | deleteDraft u n => exact path_write fs _ _
  | writeDraft u n x => exact path_write fs _ _

theorem filter_through {α β γ : Type} (g : α → β) (p : β → Bool) (f : β → γ) (l : List α) :
    ((l.map g).filter p).map f = (l.filter fun a => p (g a)).map fun a => f (g a) := by
  rw [List.filter_map, List.map_map]; rfl

theorem ptt_userArticleLoop (u : Bytes) (bs : List BoardHeader) : ∀ recs, (pttDriver db c draw fuel).userArticleLoop u (bs.map Given.own) recs fs =
    (fs, inFront (recs ++ ·) (db.userArticleLoop c fs u bs)) := by
  induction bs with
  | nil => intro recs; show (fs, Res.ok recs) = (fs, Res.ok (recs ++ [])); rw [List.append_nil]
  | cons b bs ih =>
    intro recs
    show (pttDriver db c draw fuel).userArticleLoop u (Given.own b :: bs.map Given.own) recs fs = _
    unfold Driver.userArticleLoop DB.userArticleLoop
    rw [show pttKinds.boardID (Given.own b) = b.brdName from rfl]
    by_cases hb : DB.shouldSkip b.brdName = true
    · rw [if_pos hb, if_pos hb]; exact ih recs
    · rw [if_neg hb, if_neg hb, still_then fs (ptt_listArticles db c draw fuel fs b.brdName)]
      cases db.readArticleRecords c fs b.brdName with
      | ok ars =>
        show (pttDriver db c draw fuel).userArticleLoop u (bs.map Given.own) _ fs = _
        rw [ih]
        have hm : ((ars.map Given.own).filter (fun ar => pttKinds.owner ar = u)).map (fun ar => (⟨b.brdName, pttKinds.title ar, pttKinds.owner ar,
            pttKinds.filename ar⟩ : UserArticle)) = (ars.filter (fun ar => ar.owner = u)).map (fun ar => ⟨b.brdName, ar.title, ar.owner, ar.filename⟩) := by
          exact filter_through Given.own _ _ ars
        rw [hm]
        show _ = (fs, inFront (recs ++ ·) (do let rest ← db.userArticleLoop c fs u bs; .ok (_ ++ rest)))
        cases db.userArticleLoop c fs u bs with
        | ok rest => exact congrArg (fun x => (fs, Res.ok x)) (List.append_assoc _ _ _)
        | _ => rfl
      | _ => rfl

theorem ptt_articleComments (b : Bytes) (r : FileHeader) : (pttDriver db c draw fuel).articleCommentsOf b (.own r) fs =
    (fs, db.boardArticleComments fs b r.filename) := by
  unfold Driver.articleCommentsOf DB.boardArticleComments
  rw [show pttKinds.filename (Given.own r) = r.filename from rfl]
  have h : (pttDriver db c draw fuel).articleText b r.filename fs = (fs, db.readBoardArticleFile fs b r.filename) := path_read fs _ _
  rw [still_then fs h]
  cases db.readBoardArticleFile fs b r.filename <;> rfl

theorem ptt_boardUserCommentLoop (b u : Bytes) (ars : List FileHeader) : ∀ recs,
    (pttDriver db c draw fuel).boardUserCommentLoop b u (ars.map Given.own) recs fs = (fs, inFront (recs ++ ·) (db.boardUserCommentLoop fs b u ars)) := by
  induction ars with
  | nil => intro recs; show (fs, Res.ok recs) = (fs, Res.ok (recs ++ [])); rw [List.append_nil]
  | cons ar ars ih =>
    intro recs
    show (pttDriver db c draw fuel).boardUserCommentLoop b u (Given.own ar :: ars.map Given.own) recs fs = _
    unfold Driver.boardUserCommentLoop DB.boardUserCommentLoop
    rw [still_then fs (ptt_articleComments db c draw fuel fs b ar)]
    cases db.boardArticleComments fs b ar.filename with
    | ok crs =>
      show (pttDriver db c draw fuel).boardUserCommentLoop b u (ars.map Given.own) _ fs = _
      rw [ih]
      show _ = (fs, inFront (recs ++ ·) (do let rest ← db.boardUserCommentLoop fs b u ars; .ok (_ ++ rest)))
      cases db.boardUserCommentLoop fs b u ars with
      | ok rest => exact congrArg (fun x => (fs, Res.ok x)) (List.append_assoc _ _ _)
      | _ => rfl
    | _ => rfl

theorem ptt_boardUserComments (b u : Bytes) : (pttDriver db c draw fuel).boardUserComments b u fs = (fs, db.boardUserComments c fs b u) := by
  unfold Driver.boardUserComments DB.boardUserComments
  rw [still_then fs (ptt_listArticles db c draw fuel fs b)]
  cases db.readArticleRecords c fs b with
  | ok ars =>
    show (pttDriver db c draw fuel).boardUserCommentLoop b u (ars.map Given.own) [] fs = (fs, db.boardUserCommentLoop fs b u ars)
    rw [ptt_boardUserCommentLoop]
    cases db.boardUserCommentLoop fs b u ars <;> rfl
  | _ => rfl

theorem ptt_userCommentLoop (u : Bytes) (bs : List BoardHeader) : ∀ recs, (pttDriver db c draw fuel).userCommentLoop u (bs.map Given.own) recs fs =
    (fs, inFront (recs ++ ·) (db.userCommentLoop c fs u bs)) := by
  induction bs with
  | nil => intro recs; show (fs, Res.ok recs) = (fs, Res.ok (recs ++ [])); rw [List.append_nil]
  | cons b bs ih =>
    intro recs
    show (pttDriver db c draw fuel).userCommentLoop u (Given.own b :: bs.map Given.own) recs fs = _
    unfold Driver.userCommentLoop DB.userCommentLoop
    rw [show pttKinds.boardID (Given.own b) = b.brdName from rfl]
    by_cases hb : DB.shouldSkip b.brdName = true
    · rw [if_pos hb, if_pos hb]; exact ih recs
    · rw [if_neg hb, if_neg hb, still_then fs (ptt_boardUserComments db c draw fuel fs b.brdName u)]
      cases db.boardUserComments c fs b.brdName u with
      | ok ucr =>
        show (pttDriver db c draw fuel).userCommentLoop u (bs.map Given.own) _ fs = _
        rw [ih]
        show _ = (fs, inFront (recs ++ ·) (do let rest ← db.userCommentLoop c fs u bs; .ok (_ ++ rest)))
        cases db.userCommentLoop c fs u bs with
        | ok rest => exact congrArg (fun x => (fs, Res.ok x)) (List.append_assoc _ _ _)
        | _ => rfl
      | _ => rfl

/-- So do the searches. -/
theorem C135_pttbbs_searches (b u : Bytes) (r : FileHeader) :
    (pttDriver db c draw fuel).call (.userArticles u) fs = (fs, inFront .userArticles (db.userArticles c fs u)) ∧
    (pttDriver db c draw fuel).call (.userComments u) fs = (fs, inFront .userComments (db.userComments c fs u)) ∧
    (pttDriver db c draw fuel).call (.boardUserComments b u) fs = (fs, inFront .userComments (db.boardUserComments c fs b u)) ∧
    (pttDriver db c draw fuel).call (.articleComments b (.own r)) fs = (fs, inFront .userComments (db.boardArticleComments fs b r.filename)) := by
  refine ⟨still_map fs ?_ _, still_map fs ?_ _, still_map fs (ptt_boardUserComments db c draw fuel fs b u) _,
    still_map fs (ptt_articleComments db c draw fuel fs b r) _⟩
  · show ((pttDriver db c draw fuel).readBoardRecords.andThen fun bs => (pttDriver db c draw fuel).userArticleLoop u bs []) fs = _
    unfold DB.userArticles
    rw [still_then fs (ptt_readBoards db c draw fuel fs)]
    cases db.readBoardRecords c fs with
    | ok bs =>
      show (pttDriver db c draw fuel).userArticleLoop u (bs.map Given.own) [] fs = (fs, db.userArticleLoop c fs u bs)
      rw [ptt_userArticleLoop]
      cases db.userArticleLoop c fs u bs <;> rfl
    | _ => rfl
  · show ((pttDriver db c draw fuel).readBoardRecords.andThen fun bs => (pttDriver db c draw fuel).userCommentLoop u bs []) fs = _
    unfold DB.userComments
    rw [still_then fs (ptt_readBoards db c draw fuel fs)]
    cases db.readBoardRecords c fs with
    | ok bs =>
      show (pttDriver db c draw fuel).userCommentLoop u (bs.map Given.own) [] fs = (fs, db.userCommentLoop c fs u bs)
      rw [ptt_userCommentLoop]
      cases db.userCommentLoop c fs u bs <;> rfl
    | _ => rfl

/-- A record that is not one of its own `pttbbs` refuses, and nothing has changed. -/
theorem C135_foreign (b p q : Bytes) (hp : getBoardPath db.home = .ok p) (hq : getBoardArticlesDirectoryPath db.home b = .ok q) :
    (pttDriver db c draw fuel).call (.addBoard .foreign) fs = (fs, .err "brd should be create with NewBoardRecord") ∧
    (pttDriver db c draw fuel).call (.addRecord b .foreign) fs = (fs, .err "article should be create with NewArticleRecord") := by
  constructor
  · show ((Method.pure (getBoardPath db.home)).andThen _).map _ fs = _
    rw [hp]; rfl
  · show ((Method.pure (getBoardArticlesDirectoryPath db.home b)).andThen _).map _ fs = _
    rw [hq]; rfl

/-- A nil pointer of its own type makes `pttbbs` panic, and the file it was for has been made by then. -/
theorem C135_null (b p q : Bytes) (fs1 fs2 : FS) (hp : getBoardPath db.home = .ok p) (hq : getBoardArticlesDirectoryPath db.home b = .ok q)
    (h1 : fs.appendCreate db.cwd p [] = .ok fs1) (h2 : fs.appendCreate db.cwd q [] = .ok fs2) :
    (pttDriver db c draw fuel).call (.addBoard .null) fs = (fs1, .panic) ∧ (pttDriver db c draw fuel).call (.addRecord b .null) fs = (fs2, .panic) := by
  constructor
  · show ((Method.pure (getBoardPath db.home)).andThen fun p => pttAdd db "brd should be create with NewBoardRecord" (fun r => BoardHeader.marshal c r) p .null).map _ fs = _
    rw [hp]
    simp only [Method.map, Method.andThen, Method.pure, pttAdd, h1]
  · show ((Method.pure (getBoardArticlesDirectoryPath db.home b)).andThen fun p => pttAdd db "article should be create with NewArticleRecord" (fun r => FileHeader.marshal c r) p .null).map _ fs = _
    rw [hq]
    simp only [Method.map, Method.andThen, Method.pure, pttAdd, h2]

/-- Where the file cannot be opened the nil pointer is never looked at: the call fails as it would with a record, and nothing has changed. -/
theorem C135_null_unopened (b p q : Bytes) (e1 e2 : String) (hp : getBoardPath db.home = .ok p) (hq : getBoardArticlesDirectoryPath db.home b = .ok q)
    (h1 : fs.appendCreate db.cwd p [] = .err e1) (h2 : fs.appendCreate db.cwd q [] = .err e2) :
    (pttDriver db c draw fuel).call (.addBoard .null) fs = (fs, .err e1) ∧ (pttDriver db c draw fuel).call (.addRecord b .null) fs = (fs, .err e2) := by
  constructor
  · show ((Method.pure (getBoardPath db.home)).andThen fun p => pttAdd db "brd should be create with NewBoardRecord" (fun r => BoardHeader.marshal c r) p .null).map _ fs = _
    rw [hp]
    simp only [Method.map, Method.andThen, Method.pure, pttAdd, h1]
  · show ((Method.pure (getBoardArticlesDirectoryPath db.home b)).andThen fun p => pttAdd db "article should be create with NewArticleRecord" (fun r => FileHeader.marshal c r) p .null).map _ fs = _
    rw [hq]
    simp only [Method.map, Method.andThen, Method.pure, pttAdd, h2]

end

section
variable {σ : Type} {K : Kinds} {d : Driver σ K} {s : σ}

/-- Before it crashes for want of an interface the database has asked for nothing that changes the store. -/
theorem C136_nothing_done (op : FrontCall K) (h : Lacks d s op) : ∀ e ∈ tape d op s, e.what.changes = false := by
  have none_of : ∀ {α β : Type} {f : α → β} {o : Option α}, o = none → o.map f = none := fun e => by rw [e]; rfl
  have one : ∀ {α : Type} {what : Meth} {told : List Bytes} {path : α → Option Bytes} {m : Method σ α} {s' : σ} {a : α} {f : Unit → FrontAnswer K} {g : α → Res Unit},
      what.changes = false → m s = (s', .ok a) → ∀ e ∈ (((noted what told path m).andThen fun p => .pure (g p)).map f (s, [])).1.2, e.what.changes = false := by
    intro α what told path m s' a f g hw hm e he
    unfold Method.map Method.andThen noted Method.pure at he
    simp only [hm] at he
    cases hg : g a <;> simp only [hg, List.nil_append, List.mem_singleton] at he <;> (subst he; exact hw)
  cases op with
  | newBoard a =>
    have e : tape d (.newBoard a) s = [] := by
      show (((taped d).newBoard a).map _ (s, [])).1.2 = _
      unfold Driver.newBoard
      rw [show (taped d).boardWriter = none from none_of h]; rfl
    rw [e]; exact fun _ he => by cases he
  | createArticle b o t' t =>
    have e : tape d (.createArticle b o t' t) s = [] := by
      show (((taped d).createArticle b o t' t).map _ (s, [])).1.2 = _
      unfold Driver.createArticle
      rw [show (taped d).articleWriter = none from none_of h]; rfl
    rw [e]; exact fun _ he => by cases he
  | readDraft u n =>
    have e : tape d (.readDraft u n) s = [] := by
      show (((taped d).readDraft u n).map _ (s, [])).1.2 = _
      unfold Driver.readDraft
      rw [show (taped d).drafts = none from none_of h]; rfl
    rw [e]; exact fun _ he => by cases he
  | deleteDraft u n =>
    have e : tape d (.deleteDraft u n) s = [] := by
      show (((taped d).deleteDraft u n).map _ (s, [])).1.2 = _
      unfold Driver.deleteDraft
      rw [show (taped d).drafts = none from none_of h]; rfl
    rw [e]; exact fun _ he => by cases he
  | addBoard r =>
    obtain ⟨h1, s', p, hp⟩ := h
    show ∀ e ∈ (((taped d).addBoard r).map _ (s, [])).1.2, _
    unfold Driver.addBoard
    rw [show (taped d).boardWriter = none from none_of h1]
    exact one rfl hp
  | addRecord b r =>
    obtain ⟨h1, s', p, hp⟩ := h
    show ∀ e ∈ (((taped d).addArticle b r).map _ (s, [])).1.2, _
    unfold Driver.addArticle
    rw [show (taped d).articleWriter = none from none_of h1]
    exact one rfl hp
  | writeDraft u n x =>
    rcases h with h1 | ⟨rfl, w, hw, s', p, hp⟩
    · have e : tape d (.writeDraft u n x) s = [] := by
        show (((taped d).writeDraft u n x).map _ (s, [])).1.2 = _
        unfold Driver.writeDraft
        rw [show (taped d).drafts = none from none_of h1]; rfl
      rw [e]; exact fun _ he => by cases he
    · show ∀ e ∈ (((taped d).writeDraft u n none).map _ (s, [])).1.2, _
      unfold Driver.writeDraft
      rw [show (taped d).drafts = d.drafts.map _ from rfl, hw]
      exact one rfl hp
  | _ => exact h.elim

/-- Where the database looks first, a missing interface is an error, and nothing has changed but by asking for the path. -/
theorem C136_checked (h : d.articleWriter = none) (b f x : Bytes) :
    d.call (.writeArticle b f x) s = (s, .err "bbs: connector don't support WriteArticleConnector") ∧
    (d.call (.appendArticle b f x) s).1 = (d.articlePath b f s).1 ∧
    ∀ s' p, d.articlePath b f s = (s', .ok p) → (d.call (.appendArticle b f x) s).2 = .err "bbs: connector don't support WriteArticleConnector" := by
  refine ⟨?_, ?_, ?_⟩
  · show (d.writeArticle b f x).map _ s = _
    unfold Driver.writeArticle
    rw [h]; rfl
  · show ((d.appendArticle b f x).map _ s).1 = _
    unfold Driver.appendArticle
    rw [h]
    simp only [Method.map, Method.andThen, Method.pure]
    rcases d.articlePath b f s with ⟨s', _ | _ | _ | _⟩ <;> rfl
  · intro s' p hp
    show ((d.appendArticle b f x).map _ s).2 = _
    unfold Driver.appendArticle
    rw [h]
    simp only [Method.map, Method.andThen, Method.pure, hp]

end

/-! ## A driver with none of the optional interfaces -/

/-- Boards are their names; an article is its file name and its owner. -/
def plainKinds : Kinds where
  User := Unit
  Favourite := Unit
  Board := Bytes
  Article := Bytes × Bytes
  boardID b := b
  filename a := a.1
  title _ := ascii "t"
  owner a := a.2

/-- It counts how often it is asked. -/
def plainDriver : Driver Nat plainKinds where
  usersPath n := (n + 1, .ok (ascii "U"))
  readUsers _ n := (n + 1, .ok [()])
  favouritesPath u n := (n + 1, .ok u)
  readFavourites _ n := (n + 1, .err "EOF")
  boardsPath n := (n + 1, .ok (ascii "B"))
  readBoards _ n := (n + 1, .ok [ascii "ALLPOST", ascii "a", ascii "b"])
  articlesPath b n := (n + 1, .ok (b ++ ascii "/D"))
  treasuresPath b _ n := (n + 1, .ok (b ++ ascii "/T"))
  readArticles p n := (n + 1, if p = ascii "a/D" then .ok [(ascii "M.1", ascii "u"), (ascii "M.2", ascii "v")]
    else .err "open b/D: no such file or directory")
  articlePath b f n := (n + 1, .ok (b ++ f))
  treasurePath b _ f n := (n + 1, .ok (b ++ f))
  readArticle _ n := (n + 1, .ok [])
  boardWriter := none
  articleWriter := none
  articleKeeper := none
  commentKeeper := none
  drafts := none

theorem plain_calm : Calm plainDriver := by
  refine ⟨?_, ?_, ?_, ?_, ?_, ?_, ?_, ?_, ?_, ?_, ?_, ?_, fun _ h => (by cases h), fun _ h => (by cases h), fun _ h => (by cases h), fun _ h => (by cases h), fun _ h => (by cases h)⟩ <;> intros <;>
    intro h
  all_goals first
    | (unfold plainDriver at h; dsimp only at h; split at h <;> cases h)
    | cases h

/-- A list that is not there is an empty list, so a success may hide a failure. -/
theorem C135_refuted : ¬ SuccessIsSuccess := by
  intro h
  have h1 := h Nat plainKinds plainDriver (.listArticles (ascii "b")) 0 2 (.articles []) (by rfl)
    ⟨.readArticles, [ascii "b/D"], none, .err "open b/D: no such file or directory"⟩ (List.Mem.tail _ (List.Mem.head _))
  cases h1

/-- A driver that does not keep drafts. -/
theorem C136_refuted : ¬ FrontNeverCrashes := fun h => h Nat plainKinds plainDriver plain_calm (.readDraft (ascii "u") (ascii "0")) 0 rfl

example : (tape plainDriver (.userArticles (ascii "u")) 0).map (fun e => (e.what, e.told)) = [(.boardsPath, []), (.readBoards, [ascii "B"]),
    (.articlesPath, [ascii "a"]), (.readArticles, [ascii "a/D"]), (.articlesPath, [ascii "b"]), (.readArticles, [ascii "b/D"])] := by rfl

example : plainDriver.call (.userArticles (ascii "u")) 0 = (6, .ok (.userArticles [⟨ascii "a", ascii "t", ascii "u", ascii "M.1"⟩])) := by rfl

example : (tape plainDriver (.readFavourites (ascii "u")) 0).map (fun e => (e.what, e.told, e.ended)) =
    [(.favouritesPath, [ascii "u"], .ok ()), (.readFavourites, [ascii "u"], .err "EOF")] ∧ (plainDriver.call (.readFavourites (ascii "u")) 0).2 = .err "EOF" := by
  constructor <;> rfl

example : ∃ e ∈ tape plainDriver (.listTreasure (ascii "a") []) 0, ¬ Passable (.listTreasure (ascii "a") [] : FrontCall plainKinds) e := by
  refine ⟨_, List.Mem.tail _ (List.Mem.head _), ?_⟩
  rintro (h | ⟨_, h, _⟩)
  · cases h
  · exact h _ _ rfl

example : Lacks plainDriver 0 (.addBoard (ascii "c")) ∧ (plainDriver.call (.addBoard (ascii "c")) 0) = (1, .panic) ∧
    (tape plainDriver (.addBoard (ascii "c")) 0).map (·.what) = [.boardsPath] := ⟨⟨rfl, 1, _, rfl⟩, rfl, rfl⟩

example : plainDriver.call (.writeArticle (ascii "a") (ascii "M.1") []) 5 = (5, .err "bbs: connector don't support WriteArticleConnector") :=
  (C136_checked (d := plainDriver) rfl _ _ _).1

example : ∃ d : Driver Nat plainKinds, Calm d ∧ d.boardWriter ≠ none ∧ d.articleWriter ≠ none ∧ d.drafts ≠ none := by
  refine ⟨{ plainDriver with
    boardWriter := some ⟨fun _ n => (n, .ok []), fun _ _ n => (n, .ok ())⟩
    articleWriter := some ⟨fun _ n => (n, .ok []), fun _ _ _ _ n => (n, .err "no"), fun _ _ n => (n, .ok ()), fun _ _ n => (n, .ok ()), fun _ _ n => (n, .ok ())⟩
    drafts := some ⟨fun _ _ n => (n, .ok []), fun _ n => (n, .ok []), fun _ n => (n, .ok ()), fun _ _ n => (n, .ok ())⟩ }, ?_, nofun, nofun, nofun⟩
  obtain ⟨h1, h2, h3, h4, h5, h6, h7, h8, h9, h10, h11, h12, _, _, h15, h16, _⟩ := plain_calm
  refine ⟨h1, h2, h3, h4, h5, h6, h7, h8, h9, h10, h11, h12, ?_, ?_, h15, h16, ?_⟩
  · intro w hw; cases hw; exact ⟨nofun, nofun⟩
  · intro w hw; cases hw; exact ⟨nofun, nofun, nofun, nofun, nofun⟩
  · intro w hw; cases hw; exact ⟨nofun, nofun, nofun, nofun⟩

/-- On a disk without the home directory neither file can be opened. -/
example : ∃ p q, getBoardPath (ascii "/bbs") = .ok p ∧ getBoardArticlesDirectoryPath (ascii "/bbs") (ascii "Test") = .ok q ∧
    (⟨[]⟩ : FS).appendCreate [] p [] = .err "no such file or directory" ∧ (⟨[]⟩ : FS).appendCreate [] q [] = .err "no such file or directory" :=
  ⟨_, _, rfl, rfl, rfl, rfl⟩

end Verif
