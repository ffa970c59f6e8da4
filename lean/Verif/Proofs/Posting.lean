import Verif.Proofs.Decent
/-!
# Helper lemmas for clients that post articles
-/

namespace Verif
open Spec

/-- The record that client `p` has put into the list of the board `b`, if it has. -/
def entry (c : Codec) (posts : Nat → Option Post) (name : Nat → Option Bytes) (b : Bytes) (p : Nat) : Option FileHeader :=
  match posts p, name p with
  | some P, some n => if P.board = b then some (storedArticle c (P.record n)) else none
  | _, _ => none

/-- What follows the answer to the first call of a post. -/
def Spec.Post.next1 (P : Post) : Res Answer → Script
  | .ok (.record r) => P.second r
  | _ => .stop

/-- What follows the answer to its second call. -/
def Spec.Post.next2 (P : Post) (r : FileHeader) : Res Answer → Script
  | .ok _ => P.third r
  | _ => .stop

/-- How far client `p` has got with its post: the name of its file is `n`, the list has its record if `l`, and no name
was found only if `g`. -/
inductive Stage (P : Post) (k : Ken) (g : Prop) : Option Bytes → Prop → Turn → Prop where
  | idle0 {l : Prop} (hl : ¬ l) : Stage P k g none l (.idle P.script)
  | called0 {l : Prop} (hl : ¬ l) : Stage P k g none l (.called (.createArticle P.board P.owner P.date P.title P.draw P.fuel) P.next1)
  | failed {l : Prop} (hl : ¬ l) : Stage P k g none l (.decided .diverge P.next1)
  | gone {l : Prop} (hl : ¬ l) (hg : g) : Stage P k g none l (.idle .stop)
  | decided1 {n : Bytes} {l : Prop} (hl : ¬ l) (ho : k.own P.board n = some []) :
    Stage P k g (some n) l (.decided (.ok (.record (P.record n))) P.next1)
  | idle1 {n : Bytes} {l : Prop} (hl : ¬ l) (ho : k.own P.board n = some []) : Stage P k g (some n) l (.idle (P.second (P.record n)))
  | called1 {n : Bytes} {l : Prop} (hl : ¬ l) (ho : k.own P.board n = some []) :
    Stage P k g (some n) l (.called (.writeArticle P.board n P.text) (P.next2 (P.record n)))
  | decided2 {n : Bytes} {l : Prop} (hl : ¬ l) (ho : k.own P.board n = some P.text) :
    Stage P k g (some n) l (.decided (.ok .done) (P.next2 (P.record n)))
  | idle2 {n : Bytes} {l : Prop} (hl : ¬ l) (ho : k.own P.board n = some P.text) : Stage P k g (some n) l (.idle (P.third (P.record n)))
  | called2 {n : Bytes} {l : Prop} (hl : ¬ l) (ho : k.own P.board n = some P.text) :
    Stage P k g (some n) l (.called (.addRecord P.board (P.record n)) fun _ => .stop)
  | decided3 {n : Bytes} {l : Prop} (hl : l) : Stage P k g (some n) l (.decided (.ok .done) fun _ => .stop)
  | idle3 {n : Bytes} {l : Prop} (hl : l) : Stage P k g (some n) l (.idle .stop)

/-- The client puts nothing into lists. -/
def QuietTurn : Turn → Prop
  | .idle s => Quiet s
  | .called op next => Quiet (.make op next)
  | .decided _ next => ∀ r, Quiet (next r)

/-- What has been posted: by whom, in which order, under which names. -/
structure Ledger (R : Rules) (posts : Nat → Option Post) (m : Holding) (past : List Event) (i : Atomic) (k : Nat → Ken)
    (name : Nat → Option Bytes) (order : List Nat) : Prop where
  stages : ∀ p P, posts p = some P → Stage P (k p) (.ret p .diverge ∈ past) (name p) (p ∈ order) (i.turn p)
  quiet : ∀ p, posts p = none → QuietTurn (i.turn p)
  only : ∀ p ∈ order, posts p ≠ none
  nodup : order.Nodup
  drawn : ∀ p P n, posts p = some P → name p = some n → ∃ j, n = DB.articleName (P.draw j).1 (P.draw j).2
  there : ∀ p P n, posts p = some P → name p = some n → i.hold (.article P.board n) ≠ none
  stay : ∀ b f, m (.article b f) ≠ none → i.hold (.article b f) ≠ none
  fresh : ∀ p P n, posts p = some P → name p = some n → m (.article P.board n) = none
  apart : ∀ p q P Q n, p ≠ q → posts p = some P → posts q = some Q → P.board = Q.board → name p = some n → name q ≠ some n
  lists : ∀ b, R.placed (.articleIndex b) → articlesIn R.c ((i.hold (.articleIndex b)).getD []) =
    articlesIn R.c ((m (.articleIndex b)).getD []) ++ order.filterMap (entry R.c posts name b)
  texts : ∀ p ∈ order, ∀ P n, posts p = some P → name p = some n → ∃ z, i.hold (.article P.board n) = some (P.text ++ z)

theorem Stage.order {P : Post} {k : Ken} {g : Prop} {n : Option Bytes} {l l' : Prop} {t : Turn} (h : Stage P k g n l t) (hl : l ↔ l') :
    Stage P k g n l' t := by
  rw [← propext hl]; exact h

theorem Stage.more {P : Post} {k : Ken} {g g' : Prop} {n : Option Bytes} {l : Prop} {t : Turn} (h : Stage P k g n l t) (hg : g → g') :
    Stage P k g' n l t := by
  cases h with
  | idle0 hl => exact .idle0 hl
  | called0 hl => exact .called0 hl
  | failed hl => exact .failed hl
  | gone hl h => exact .gone hl (hg h)
  | decided1 hl ho => exact .decided1 hl ho
  | idle1 hl ho => exact .idle1 hl ho
  | called1 hl ho => exact .called1 hl ho
  | decided2 hl ho => exact .decided2 hl ho
  | idle2 hl ho => exact .idle2 hl ho
  | called2 hl ho => exact .called2 hl ho
  | decided3 hl => exact .decided3 hl
  | idle3 hl => exact .idle3 hl

section
variable {R : Rules} {draft : Nat → Bytes → Bytes → Prop} {i : Atomic} {k : Nat → Ken} {posts : Nat → Option Post} {m : Holding}
  {past : List Event} {name : Nat → Option Bytes} {order : List Nat}

/-- Lists of articles change only by added records, and articles that exist remain. -/
theorem intended_index (c : Codec) (m : Holding) (op : Call) (hop : ∀ b r, op ≠ .addRecord b r) (b : Bytes) :
    (intended c m op).1 (.articleIndex b) = m (.articleIndex b) := by
  cases op with
  | addRecord b r => exact absurd rfl (hop b r)
  | createArticle b o d t draw fuel => simp only [intended]; split <;> simp [Holding.put]
  | appendArticle b f x => simp only [intended]; split <;> simp [Holding.put]
  | deleteDraft u d => simp only [intended]; split <;> simp [Holding.put]
  | _ => simp [intended, Holding.put]

/-- What a call does to an article. -/
theorem intended_article (c : Codec) (m : Holding) (op : Call) (b f : Bytes) :
    (intended c m op).1 (.article b f) = m (.article b f) ∨ (m (.article b f) = none ∧ (intended c m op).1 (.article b f) = some []) ∨
    (∃ x, op = .writeArticle b f x ∧ (intended c m op).1 (.article b f) = some (x ++ ((m (.article b f)).getD []).drop x.length)) ∨
    ∃ x y, op = .appendArticle b f x ∧ m (.article b f) = some y ∧ (intended c m op).1 (.article b f) = some (y ++ x) := by
  cases op with
  | createArticle b' o d t draw fuel =>
    simp only [intended]
    split
    · next n hn =>
      by_cases e : Obj.article b f = .article b' n
      · cases e
        obtain ⟨_, _, hfree⟩ := free_drawn hn
        exact Or.inr (Or.inl ⟨hfree, put_self' _ _ _⟩)
      · exact Or.inl (put_other' _ _ e)
    · exact Or.inl rfl
  | appendArticle b' f' x =>
    simp only [intended]
    split
    · next y hy =>
      by_cases e : Obj.article b f = .article b' f'
      · cases e
        exact Or.inr (Or.inr (Or.inr ⟨x, y, rfl, hy, put_self' _ _ _⟩))
      · exact Or.inl (put_other' _ _ e)
    · exact Or.inl rfl
  | writeArticle b' f' x =>
    by_cases e : Obj.article b f = .article b' f'
    · cases e
      exact Or.inr (Or.inr (Or.inl ⟨x, rfl, put_self' _ _ _⟩))
    · exact Or.inl (put_other' _ _ e)
  | deleteDraft u d =>
    simp only [intended]
    split
    · exact Or.inl (by simp [Holding.put])
    · exact Or.inl rfl
  | addBoard r => exact Or.inl (by simp [intended, Holding.put])
  | addRecord b r => exact Or.inl (by simp [intended, Holding.put])
  | writeDraft u d x => exact Or.inl (by simp [intended, Holding.put])
  | readUsers => exact Or.inl rfl
  | readFavourites u => exact Or.inl rfl
  | readBoards => exact Or.inl rfl
  | listArticles b => exact Or.inl rfl
  | listTreasure b ds => exact Or.inl rfl
  | readArticle b f => exact Or.inl rfl
  | readTreasure b ds f => exact Or.inl rfl
  | readDraft u d => exact Or.inl rfl

theorem article_stays (c : Codec) (m : Holding) (op : Call) (b f : Bytes) (h : m (.article b f) ≠ none) :
    (intended c m op).1 (.article b f) ≠ none := by
  rcases intended_article c m op b f with e | ⟨e, _⟩ | ⟨x, _, e⟩ | ⟨x, y, _, _, e⟩
  · rw [e]; exact h
  · exact absurd e h
  · rw [e]; simp
  · rw [e]; simp

/-- An article that is in a list is only added to. -/
theorem article_grows (h : Orderly R draft i k) {p : Nat} {op : Call} {next : Res Answer → Script} (hp : i.turn p = .called op next) {b f y : Bytes}
    (hb : R.placed (.articleIndex b)) (hl : ∃ r ∈ articlesIn R.c ((i.hold (.articleIndex b)).getD []), r.filename = f)
    (hy : i.hold (.article b f) = some y) : ∃ z, (intended R.c i.hold op).1 (.article b f) = some (y ++ z) := by
  rcases intended_article R.c i.hold op b f with e | ⟨e, _⟩ | ⟨x, rfl, _⟩ | ⟨x, y', rfl, h1, e⟩
  · exact ⟨[], by rw [e, hy, List.append_nil]⟩
  · rw [hy] at e; cases e
  · obtain ⟨r, hr, rfl⟩ := hl
    cases hd : i.hold (.articleIndex b) with
    | none => rw [hd] at hr; cases hr
    | some d =>
      rw [hd] at hr
      have hO := h.listed b d hb hd r hr
      have ht := h.turns p
      rw [hp] at ht
      exact absurd (hO.2 p) ht.1
  · rw [hy] at h1
    cases h1
    exact ⟨x, e⟩

theorem stored_name {c : Codec} {P : Post} {n : Bytes} (hn : ∃ j, n = DB.articleName (P.draw j).1 (P.draw j).2)
    (hd : ∀ j, -2 ^ 63 ≤ (P.draw j).1 ∧ (P.draw j).1 < 2 ^ 63) : (storedArticle c (P.record n)).filename = n := by
  obtain ⟨j, rfl⟩ := hn
  exact cutTrim_of_fits (articleName_fits _ (hd j) _)

/-- Client `p` gets a name. -/
def setName (name : Nat → Option Bytes) (p : Nat) (x : Option Bytes) : Nat → Option Bytes := fun q => if q = p then x else name q

theorem setName_self (name : Nat → Option Bytes) (p : Nat) (x : Option Bytes) : setName name p x p = x := if_pos rfl
theorem setName_other (name : Nat → Option Bytes) {p q : Nat} (x : Option Bytes) (h : q ≠ p) : setName name p x q = name q := if_neg h

/-- The lists contain what has been posted. -/
theorem posted_listed (hL : Ledger R posts m past i k name order) (hb : ∀ p P, posts p = some P → R.placed (.articleIndex P.board))
    (hd : ∀ p P, posts p = some P → ∀ j, -2 ^ 63 ≤ (P.draw j).1 ∧ (P.draw j).1 < 2 ^ 63) {p : Nat} (hp : p ∈ order) {P : Post} {n : Bytes}
    (hP : posts p = some P) (hn : name p = some n) :
    ∃ r ∈ articlesIn R.c ((i.hold (.articleIndex P.board)).getD []), r.filename = n := by
  refine ⟨storedArticle R.c (P.record n), ?_, stored_name (hL.drawn p P n hP hn) (hd p P hP)⟩
  rw [hL.lists P.board (hb p P hP), List.mem_append, List.mem_filterMap]
  exact Or.inr ⟨p, hp, by simp only [entry, hP, hn, if_true]⟩

theorem filterMap_same {α β : Type} {f g : α → Option β} : ∀ {l : List α}, (∀ x ∈ l, f x = g x) → l.filterMap f = l.filterMap g := by
  intro l
  induction l with
  | nil => intro _; rfl
  | cons a l ih =>
    intro h
    rw [List.filterMap_cons, List.filterMap_cons, h a (by simp), ih (fun x hx => h x (by simp [hx]))]

/-- A step that puts nothing into a list. -/
theorem ledger_step (hO : Orderly R draft i k) (hL : Ledger R posts m past i k name order)
    (hb : ∀ p P, posts p = some P → R.placed (.articleIndex P.board))
    (hd : ∀ p P, posts p = some P → ∀ j, -2 ^ 63 ≤ (P.draw j).1 ∧ (P.draw j).1 < 2 ^ 63) {p : Nat} {op : Call} {next : Res Answer → Script}
    (hp : i.turn p = .called op next) (hop : ∀ b r, op ≠ .addRecord b r) {k' : Ken} {t : Turn} {nm : Option Bytes}
    (hst : ∀ P, posts p = some P → Stage P k' (.ret p .diverge ∈ past) nm (p ∈ order) t) (hq : posts p = none → QuietTurn t)
    (hnm : nm = name p ∨ (p ∉ order ∧ ∀ P n, posts p = some P → nm = some n → (∃ j, n = DB.articleName (P.draw j).1 (P.draw j).2) ∧
      i.hold (.article P.board n) = none ∧ (intended R.c i.hold op).1 (.article P.board n) ≠ none)) :
    Ledger R posts m past (i.setTurn (intended R.c i.hold op).1 p t) (setKen k p k') (setName name p nm) order where
  stages := by
    intro q Q hQ
    by_cases e : q = p
    · subst e; rw [setTurn_self, setKen_self, setName_self]; exact hst Q hQ
    · rw [setTurn_other _ _ _ e, setKen_other _ _ e, setName_other _ _ e]; exact hL.stages q Q hQ
  quiet := by
    intro q hQ
    by_cases e : q = p
    · subst e; rw [setTurn_self]; exact hq hQ
    · rw [setTurn_other _ _ _ e]; exact hL.quiet q hQ
  only := hL.only
  nodup := hL.nodup
  drawn := by
    intro q Q n hQ hn
    by_cases e : q = p
    · subst e
      rw [setName_self] at hn
      rcases hnm with h | ⟨_, h⟩
      · rw [h] at hn; exact hL.drawn q Q n hQ hn
      · exact (h Q n hQ hn).1
    · rw [setName_other _ _ e] at hn; exact hL.drawn q Q n hQ hn
  there := by
    intro q Q n hQ hn
    by_cases e : q = p
    · subst e
      rw [setName_self] at hn
      rcases hnm with h | ⟨_, h⟩
      · rw [h] at hn; exact article_stays _ _ _ _ _ (hL.there q Q n hQ hn)
      · exact (h Q n hQ hn).2.2
    · rw [setName_other _ _ e] at hn; exact article_stays _ _ _ _ _ (hL.there q Q n hQ hn)
  stay := fun b f h => article_stays _ _ _ _ _ (hL.stay b f h)
  fresh := by
    intro q Q n hQ hn
    by_cases e : q = p
    · subst e
      rw [setName_self] at hn
      rcases hnm with h | ⟨_, h⟩
      · rw [h] at hn; exact hL.fresh q Q n hQ hn
      · cases hm : m (.article Q.board n) with
        | none => rfl
        | some y => exact absurd (h Q n hQ hn).2.1 (hL.stay _ _ (by rw [hm]; simp))
    · rw [setName_other _ _ e] at hn; exact hL.fresh q Q n hQ hn
  apart := by
    intro q q' Q Q' n hne hQ hQ' hbd hn hn'
    by_cases e : q = p
    · subst e
      rw [setName_self] at hn
      rw [setName_other _ _ (fun h => hne h.symm)] at hn'
      rcases hnm with h | ⟨_, h⟩
      · rw [h] at hn; exact hL.apart q q' Q Q' n hne hQ hQ' hbd hn hn'
      · have := hL.there q' Q' n hQ' hn'
        rw [← hbd] at this
        exact this (h Q n hQ hn).2.1
    · rw [setName_other _ _ e] at hn
      by_cases e' : q' = p
      · subst e'
        rw [setName_self] at hn'
        rcases hnm with h | ⟨_, h⟩
        · rw [h] at hn'; exact hL.apart q q' Q Q' n hne hQ hQ' hbd hn hn'
        · have := hL.there q Q n hQ hn
          rw [hbd] at this
          exact this (h Q' n hQ' hn').2.1
      · rw [setName_other _ _ e'] at hn'
        exact hL.apart q q' Q Q' n hne hQ hQ' hbd hn hn'
  lists := by
    intro b hpl
    show articlesIn R.c (((intended R.c i.hold op).1 (.articleIndex b)).getD []) = _
    rw [intended_index R.c i.hold op hop b, hL.lists b hpl]
    congr 1
    refine filterMap_same fun q hqo => ?_
    unfold entry
    by_cases e : q = p
    · subst e
      rw [setName_self]
      rcases hnm with h | ⟨h, _⟩
      · rw [h]
      · exact absurd hqo h
    · rw [setName_other _ _ e]
  texts := by
    intro q hqo Q n hQ hn
    have hn0 : name q = some n := by
      by_cases e : q = p
      · subst e
        rw [setName_self] at hn
        rcases hnm with h | ⟨h, _⟩
        · rw [← h]; exact hn
        · exact absurd hqo h
      · rw [setName_other _ _ e] at hn; exact hn
    obtain ⟨z, hz⟩ := hL.texts q hqo Q n hQ hn0
    obtain ⟨z', hz'⟩ := article_grows hO hp (hb q Q hQ) (posted_listed hL hb hd hqo hQ hn0) hz
    exact ⟨z ++ z', by rw [← List.append_assoc]; exact hz'⟩

/-- A step that changes neither the contents nor what is known. -/
theorem ledger_same (hL : Ledger R posts m past i k name order) {p : Nat} {t : Turn} {e : Event}
    (hst : ∀ P, posts p = some P → Stage P (k p) (.ret p .diverge ∈ past ++ [e]) (name p) (p ∈ order) t) (hq : posts p = none → QuietTurn t) :
    Ledger R posts m (past ++ [e]) (i.setTurn i.hold p t) (setKen k p (k p)) name order := by
  rw [setKen_same]
  refine ⟨?_, ?_, hL.only, hL.nodup, hL.drawn, hL.there, hL.stay, hL.fresh, hL.apart, hL.lists, hL.texts⟩
  · intro q Q hQ
    by_cases e : q = p
    · subst e; rw [setTurn_self]; exact hst Q hQ
    · rw [setTurn_other _ _ _ e]; exact (hL.stages q Q hQ).more (fun h => List.mem_append_left _ h)
  · intro q hQ
    by_cases e : q = p
    · subst e; rw [setTurn_self]; exact hq hQ
    · rw [setTurn_other _ _ _ e]; exact hL.quiet q hQ

/-- One move of the ideal database. -/
theorem ledger_move (hO : Orderly R draft i k) (hf : ∀ b f y x, R.fine b f y → R.adds x → R.fine b f (y ++ x)) (hL : Ledger R posts m past i k name order)
    (hb : ∀ p P, posts p = some P → R.placed (.articleIndex P.board))
    (hd : ∀ p P, posts p = some P → ∀ j, -2 ^ 63 ≤ (P.draw j).1 ∧ (P.draw j).1 < 2 ^ 63) {x : Mark} {i' : Atomic} (hm : Atomic.Move R.c i x i') :
    ∃ k' name' order', Orderly R draft i' k' ∧ Ledger R posts m (past ++ (x.seen).toList) i' k' name' order' := by
  cases hm with
  | @call p op next hp =>
    have ht := hO.turns p
    rw [hp] at ht
    refine ⟨_, name, order, orderly_same hO rfl rfl ht, ledger_same hL ?_ ?_⟩
    · intro P hP
      have hs := (hL.stages p P hP).more (g' := .ret p .diverge ∈ past ++ [.call p op]) (fun h => List.mem_append_left _ h)
      rw [hp] at hs
      generalize hn : name p = nm at hs
      generalize ht' : Turn.idle (Script.make op next) = t at hs
      cases hs with
      | idle0 hl => cases ht'; exact .called0 hl
      | idle1 hl ho => cases ht'; exact .called1 hl ho
      | idle2 hl ho => cases ht'; exact .called2 hl ho
      | _ => cases ht'
    · intro hP
      have hs := hL.quiet p hP
      rw [hp] at hs
      exact hs
  | @ret p r next hp =>
    have ht := hO.turns p
    rw [hp] at ht
    refine ⟨_, name, order, orderly_same hO rfl rfl ht, ledger_same hL ?_ ?_⟩
    · intro P hP
      have hs := (hL.stages p P hP).more (g' := .ret p .diverge ∈ past ++ [.ret p r]) (fun h => List.mem_append_left _ h)
      rw [hp] at hs
      generalize hn : name p = nm at hs
      generalize ht' : Turn.decided r next = t at hs
      cases hs with
      | failed hl => cases ht'; exact .gone hl (by simp)
      | decided1 hl ho => cases ht'; exact .idle1 hl ho
      | decided2 hl ho => cases ht'; exact .idle2 hl ho
      | decided3 hl => cases ht'; exact .idle3 hl
      | _ => cases ht'
    · intro hP
      have hs := hL.quiet p hP
      rw [hp] at hs
      exact hs r
  | @point p op next hp =>
    rw [show past ++ (Mark.point p).seen.toList = past from List.append_nil _]
    have hO' := orderly_point hO hf hp
    cases hP : posts p with
    | none =>
      have hs := hL.quiet p hP
      rw [hp] at hs
      have := ledger_step hO hL hb hd hp hs.1 (k' := (k p).after R.c op (intended R.c i.hold op).2)
        (t := .decided (intended R.c i.hold op).2 next) (nm := name p) (fun P hP' => by rw [hP] at hP'; cases hP') (fun _ => hs.2) (Or.inl rfl)
      exact ⟨_, _, _, hO', this⟩
    | some P =>
      have hs := hL.stages p P hP
      rw [hp] at hs
      generalize hn : name p = nm at hs
      generalize ht' : Turn.called op next = t at hs
      cases hs with
      | called0 hl =>
        cases ht'
        cases hfree : freeName i.hold P.board P.draw P.fuel 0 with
        | none =>
          have e : intended R.c i.hold (.createArticle P.board P.owner P.date P.title P.draw P.fuel) = (i.hold, .diverge) := by
            simp only [intended, hfree]
          refine ⟨_, _, _, hO', ledger_step hO hL hb hd hp (by intro b r e; cases e) (nm := none) ?_ (fun h => by rw [hP] at h; cases h)
            (Or.inl hn.symm)⟩
          intro P' hP'
          rw [hP] at hP'
          cases hP'
          rw [e]
          exact .failed hl
        | some n =>
          have e : intended R.c i.hold (.createArticle P.board P.owner P.date P.title P.draw P.fuel) =
              (i.hold.put (.article P.board n) (some []), .ok (.record (P.record n))) := by
            simp only [intended, hfree]; rfl
          obtain ⟨j, hj, hnone⟩ := free_drawn hfree
          refine ⟨_, _, _, hO', ledger_step hO hL hb hd hp (by intro b r e; cases e) (nm := some n) ?_ (fun h => by rw [hP] at h; cases h)
            (Or.inr ⟨hl, ?_⟩)⟩
          · intro P' hP'
            rw [hP] at hP'
            cases hP'
            rw [e]
            exact .decided1 hl (if_pos ⟨rfl, rfl⟩)
          · intro P' n' hP' hn'
            rw [hP] at hP'
            cases hP'
            cases hn'
            refine ⟨⟨j, hj⟩, hnone, ?_⟩
            rw [e]
            show i.hold.put (.article P.board n) (some []) (.article P.board n) ≠ none
            rw [put_self']
            simp
      | @called1 n l hl ho =>
        cases ht'
        refine ⟨_, _, _, hO', ledger_step hO hL hb hd hp (by intro b r e; cases e) (nm := some n) ?_ (fun h => by rw [hP] at h; cases h)
          (Or.inl hn.symm)⟩
        intro P' hP'
        rw [hP] at hP'
        cases hP'
        refine .decided2 hl ?_
        show ((k p).keep P.board n (((k p).own P.board n).map fun y => P.text ++ y.drop P.text.length)).own P.board n = _
        rw [keep_own, if_pos ⟨rfl, rfl⟩, ho]
        simp
      | @called2 n l hl ho =>
        cases ht'
        obtain ⟨hpl, htext⟩ := hO.own p _ _ _ ho
        have hbp := hb p P hP
        have al : 128 ∣ ((i.hold (.articleIndex P.board)).getD []).length := by
          cases e : i.hold (.articleIndex P.board) with
          | none => exact ⟨0, rfl⟩
          | some d => exact hO.lists _ d hbp e
        have hart : ∀ b f, (intended R.c i.hold (.addRecord P.board (P.record n))).1 (.article b f) = i.hold (.article b f) :=
          fun b f => by simp [intended, Holding.put]
        refine ⟨_, name, order ++ [p], hO', ?_⟩
        refine ⟨?_, ?_, ?_, ?_, hL.drawn, ?_, ?_, hL.fresh, hL.apart, ?_, ?_⟩
        · intro q Q hQ
          by_cases e : q = p
          · subst e
            rw [setTurn_self, setKen_self, hn]
            exact .decided3 (by simp)
          · rw [setTurn_other _ _ _ e, setKen_other _ _ e]
            exact (hL.stages q Q hQ).order (by simp [e])
        · intro q hQ
          by_cases e : q = p
          · subst e; rw [hP] at hQ; cases hQ
          · rw [setTurn_other _ _ _ e]; exact hL.quiet q hQ
        · intro q hq
          rcases List.mem_append.mp hq with hq | hq
          · exact hL.only q hq
          · rw [List.mem_singleton.mp hq, hP]; simp
        · exact List.nodup_append.mpr ⟨hL.nodup, by simp, fun a ha b hb e => hl (by rw [← List.mem_singleton.mp hb, ← e]; exact ha)⟩
        · intro q Q n' hQ hn'
          show (intended R.c i.hold (.addRecord P.board (P.record n))).1 (.article Q.board n') ≠ none
          rw [hart]
          exact hL.there q Q n' hQ hn'
        · intro b f hbf
          show (intended R.c i.hold (.addRecord P.board (P.record n))).1 (.article b f) ≠ none
          rw [hart]
          exact hL.stay b f hbf
        · intro b hpb
          show articlesIn R.c ((i.hold.put (.articleIndex P.board) (some ((i.hold (.articleIndex P.board)).getD [] ++ (P.record n).marshal R.c))
            (.articleIndex b)).getD []) = _
          by_cases e : b = P.board
          · subst e
            rw [put_self', Option.getD_some, articlesIn_append R.c al, hL.lists _ hpb, List.filterMap_append, List.append_assoc]
            congr 2
            simp only [List.filterMap_cons, List.filterMap_nil, entry, hP, hn, if_true]
          · rw [put_other' _ _ (by intro e'; cases e'; exact e rfl), hL.lists _ hpb, List.filterMap_append]
            congr 1
            simp only [List.filterMap_cons, List.filterMap_nil, entry, hP, hn, if_neg (fun h : P.board = b => e h.symm), List.append_nil]
        · intro q hq Q n' hQ hn'
          show ∃ z, (intended R.c i.hold (.addRecord P.board (P.record n))).1 (.article Q.board n') = some (Q.text ++ z)
          rw [hart]
          rcases List.mem_append.mp hq with hq | hq
          · exact hL.texts q hq Q n' hQ hn'
          · rw [List.mem_singleton.mp hq] at hQ hn'
            rw [hP] at hQ
            rw [hn] at hn'
            cases hQ
            cases hn'
            exact ⟨[], by rw [htext, List.append_nil]⟩
      | _ => cases ht'

theorem ledger_run (hf : ∀ b f y x, R.fine b f y → R.adds x → R.fine b f (y ++ x))
    (hb : ∀ p P, posts p = some P → R.placed (.articleIndex P.board))
    (hd : ∀ p P, posts p = some P → ∀ j, -2 ^ 63 ≤ (P.draw j).1 ∧ (P.draw j).1 < 2 ^ 63) {marks : List Mark} {i i' : Atomic}
    (hr : Atomic.Run R.c i marks i') : ∀ past k name order, Orderly R draft i k → Ledger R posts m past i k name order →
    ∃ k' name' order', Orderly R draft i' k' ∧ Ledger R posts m (past ++ marks.filterMap Mark.seen) i' k' name' order' := by
  induction hr with
  | nil => exact fun past k name order h1 h2 => ⟨k, name, order, h1, by rw [List.filterMap_nil, List.append_nil]; exact h2⟩
  | @cons _ _ _ x xs hm _ ih =>
    intro past k name order h1 h2
    obtain ⟨k', name', order', h1', h2'⟩ := ledger_move h1 hf h2 hb hd hm
    obtain ⟨k'', name'', order'', h1'', h2''⟩ := ih _ k' name' order' h1' h2'
    refine ⟨k'', name'', order'', h1'', ?_⟩
    have e : (x :: xs).filterMap Mark.seen = x.seen.toList ++ xs.filterMap Mark.seen := by
      rw [List.filterMap_cons]
      cases x.seen <;> rfl
    rw [e, ← List.append_assoc]
    exact h2''

end

theorem ledger_start {R : Rules} {posts : Nat → Option Post} {m : Holding} {script : Nat → Script}
    (hs : ∀ p P, posts p = some P → script p = P.script) (hq : ∀ p, posts p = none → Quiet (script p)) :
    Ledger R posts m [] (Atomic.start m script) (fun _ => Ken.blank) (fun _ => none) [] where
  stages := fun p P hP => by
    show Stage P Ken.blank (Event.ret p .diverge ∈ []) none (p ∈ []) (.idle (script p))
    rw [hs p P hP]; exact .idle0 (by simp)
  quiet := hq
  only := fun p hp => by cases hp
  nodup := List.nodup_nil
  drawn := fun _ _ _ _ h => by cases h
  there := fun _ _ _ _ h => by cases h
  stay := fun _ _ h => h
  fresh := fun _ _ _ _ h => by cases h
  apart := fun _ _ _ _ _ _ _ _ _ h => by cases h
  lists := fun b _ => by simp [Atomic.start]
  texts := fun p hp => by cases hp

end Verif
