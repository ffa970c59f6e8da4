import Verif.Spec.Search
import Verif.Proofs.Prog
import Verif.Proofs.Decent
import Verif.Props.Lists
/-!
# Helper lemmas for searches while others post and comment
-/

namespace Verif
open Spec

/-- The database has grown: lists have got longer, and listed articles have been added to. -/
structure Grows (R : Rules) (m m' : Holding) : Prop where
  boards : ∀ d, m .boardList = some d → ∃ d', m' .boardList = some d' ∧ boardsIn R.c d <+: boardsIn R.c d'
  lists : ∀ b, R.placed (.articleIndex b) → articlesIn R.c ((m (.articleIndex b)).getD []) <+: articlesIn R.c ((m' (.articleIndex b)).getD [])
  absent : ∀ b, R.placed (.articleIndex b) → ∀ r ∈ articlesIn R.c ((m (.articleIndex b)).getD []), m (.article b r.filename) = none →
    m' (.article b r.filename) = none
  present : ∀ b, R.placed (.articleIndex b) → ∀ r ∈ articlesIn R.c ((m (.articleIndex b)).getD []), ∀ y, m (.article b r.filename) = some y →
    ∃ z, m' (.article b r.filename) = some (y ++ z) ∧ (z = [] ∨ R.fine b r.filename y)
  tidy : Tidy R m → Tidy R m'

theorem grows_refl {R : Rules} (m : Holding) : Grows R m m where
  boards := fun d h => ⟨d, h, List.prefix_refl _⟩
  lists := fun _ _ => List.prefix_refl _
  absent := fun _ _ _ _ h => h
  present := fun _ _ _ _ y h => ⟨[], by rw [List.append_nil]; exact h, Or.inl rfl⟩
  tidy := id

theorem grows_trans {R : Rules} (m m' m'' : Holding) (h : Grows R m m') (h' : Grows R m' m'') : Grows R m m'' where
  boards := by
    intro d hd
    obtain ⟨d1, h1, p1⟩ := h.boards d hd
    obtain ⟨d2, h2, p2⟩ := h'.boards d1 h1
    exact ⟨d2, h2, p1.trans p2⟩
  lists := fun b hb => (h.lists b hb).trans (h'.lists b hb)
  absent := fun b hb r hr hn => h'.absent b hb r ((h.lists b hb).subset hr) (h.absent b hb r hr hn)
  present := by
    intro b hb r hr y hy
    obtain ⟨z, hz, e⟩ := h.present b hb r hr y hy
    obtain ⟨z', hz', e'⟩ := h'.present b hb r ((h.lists b hb).subset hr) _ hz
    refine ⟨z ++ z', by rw [hz', List.append_assoc], ?_⟩
    rcases e with rfl | e
    · rw [List.append_nil] at e'
      exact e'
    · exact Or.inr e
  tidy := fun ht => h'.tidy (h.tidy ht)

section
variable {R : Rules} {draft : Nat → Bytes → Bytes → Prop} {i : Atomic} {k : Nat → Ken}

theorem orderly_tidy (h : Orderly R draft i k) : Tidy R i.hold where
  boards := h.boards
  lists := h.lists
  listed := fun b d hb hd r hr => (h.listed b d hb hd r hr).1

theorem orderly_open' (h : Orderly R draft i k) {b : Bytes} (hb : R.placed (.articleIndex b)) {r : FileHeader}
    (hr : r ∈ articlesIn R.c ((i.hold (.articleIndex b)).getD [])) : Open R i.hold k b r.filename := by
  cases hd : i.hold (.articleIndex b) with
  | none => rw [hd] at hr; cases hr
  | some d => rw [hd] at hr; exact h.listed b d hb hd r hr

theorem grows_same {m m' : Holding} (ht : Tidy R m') (h1 : m' .boardList = m .boardList) (h2 : ∀ b, m' (.articleIndex b) = m (.articleIndex b))
    (h3 : ∀ b f, m' (.article b f) = m (.article b f)) : Grows R m m' where
  boards := fun d h => ⟨d, by rw [h1]; exact h, List.prefix_refl _⟩
  lists := fun b _ => by rw [h2]; exact List.prefix_refl _
  absent := fun b _ r _ h => by rw [h3]; exact h
  present := fun b _ r _ y h => ⟨[], by rw [h3, List.append_nil]; exact h, Or.inl rfl⟩
  tidy := fun _ => ht

/-- Another article changes. -/
theorem grows_article {m : Holding} {b f : Bytes} {x : Option Bytes} (ht : Tidy R (m.put (.article b f) x))
    (hx : ∀ r ∈ articlesIn R.c ((m (.articleIndex b)).getD []), R.placed (.articleIndex b) → r.filename = f →
      (m (.article b f) = none → x = none) ∧ ∀ y, m (.article b f) = some y → ∃ z, x = some (y ++ z) ∧ (z = [] ∨ R.fine b f y)) :
    Grows R m (m.put (.article b f) x) where
  boards := fun d h => ⟨d, by rw [put_other' _ _ (by intro e; cases e)]; exact h, List.prefix_refl _⟩
  lists := fun b' _ => by rw [put_other' _ _ (by intro e; cases e)]; exact List.prefix_refl _
  absent := by
    intro b' hb r hr h
    by_cases e : Obj.article b' r.filename = .article b f
    · injection e with e1 e2
      subst e1 e2
      rw [put_self']
      exact (hx r hr hb rfl).1 h
    · rw [put_other' _ _ e]; exact h
  present := by
    intro b' hb r hr y h
    by_cases e : Obj.article b' r.filename = .article b f
    · injection e with e1 e2
      subst e1 e2
      rw [put_self']
      exact (hx r hr hb rfl).2 y h
    · rw [put_other' _ _ e]; exact ⟨[], by rw [List.append_nil]; exact h, Or.inl rfl⟩
  tidy := fun _ => ht

/-- Clients that keep to the rules only make the database grow. -/
theorem grows_point (h : Orderly R draft i k) (hf : ∀ b f y x, R.fine b f y → R.adds x → R.fine b f (y ++ x)) {p : Nat} {op : Call}
    {next : Res Answer → Script} (hp : i.turn p = .called op next) : Grows R i.hold (intended R.c i.hold op).1 := by
  have ht : Tidy R (intended R.c i.hold op).1 := orderly_tidy (orderly_point h hf hp)
  have ha := h.turns p
  rw [hp] at ha
  have ha := ha.1
  cases op with
  | readUsers => exact grows_refl _
  | readFavourites u => exact grows_refl _
  | readBoards => exact grows_refl _
  | listTreasure b ds => exact grows_refl _
  | readArticle b f => exact grows_refl _
  | readTreasure b ds f => exact grows_refl _
  | readDraft u d => exact grows_refl _
  | listArticles b => exact grows_refl _
  | addBoard r =>
    obtain ⟨d, hd, hdl, hpl⟩ := h.boards
    have e : (intended R.c i.hold (.addBoard r)).1 = i.hold.put .boardList (some (d ++ r.marshal R.c)) := by
      simp only [intended, hd, Option.getD_some]
    rw [e] at ht ⊢
    refine ⟨?_, ?_, ?_, ?_, fun _ => ht⟩
    · intro d' hd'
      rw [hd] at hd'
      cases hd'
      exact ⟨_, put_self' _ _ _, by rw [boardsIn_append R.c hdl]; exact List.prefix_append _ _⟩
    · intro b _; rw [put_other' _ _ (by intro e; cases e)]; exact List.prefix_refl _
    · intro b _ r _ h; rw [put_other' _ _ (by intro e; cases e)]; exact h
    · intro b _ r _ y h; rw [put_other' _ _ (by intro e; cases e)]; exact ⟨[], by rw [List.append_nil]; exact h, Or.inl rfl⟩
  | deleteDraft u d =>
    cases hd : i.hold (.draft u d) with
    | none =>
      have e : (intended R.c i.hold (.deleteDraft u d)).1 = i.hold := by simp only [intended, hd]
      rw [e]; exact grows_refl _
    | some z =>
      have e : (intended R.c i.hold (.deleteDraft u d)).1 = i.hold.put (.draft u d) none := by simp only [intended, hd]
      rw [e] at ht ⊢
      exact grows_same ht (put_other' _ _ (by intro e; cases e)) (fun b => put_other' _ _ (by intro e; cases e))
        (fun b f => put_other' _ _ (by intro e; cases e))
  | writeDraft u d z =>
    have e : (intended R.c i.hold (.writeDraft u d z)).1 = i.hold.put (.draft u d) (some z) := rfl
    rw [e] at ht ⊢
    exact grows_same ht (put_other' _ _ (by intro e; cases e)) (fun b => put_other' _ _ (by intro e; cases e))
      (fun b f => put_other' _ _ (by intro e; cases e))
  | createArticle b o d t draw fuel =>
    cases hn : freeName i.hold b draw fuel 0 with
    | none =>
      have e : (intended R.c i.hold (.createArticle b o d t draw fuel)).1 = i.hold := by simp only [intended, hn]
      rw [e]; exact grows_refl _
    | some name =>
      have e : (intended R.c i.hold (.createArticle b o d t draw fuel)).1 = i.hold.put (.article b name) (some []) := by simp only [intended, hn]
      rw [e] at ht ⊢
      obtain ⟨j, hj, hfree⟩ := free_drawn hn
      refine grows_article ht ?_
      intro r hr hb e
      have ho := (orderly_open' h hb hr).1.2
      rw [e] at ho
      rcases ho with ho | ho
      · exact absurd hfree ho
      · exact absurd hj (ho _ _)
  | writeArticle b f z =>
    obtain ⟨y, hy⟩ := Option.ne_none_iff_exists'.mp ha
    refine grows_article ht ?_
    intro r hr hb e
    have ho := (orderly_open' h hb hr).2 p
    rw [e, hy] at ho
    cases ho
  | appendArticle b f z =>
    have hk := h.known p b f ha.1
    cases hy : i.hold (.article b f) with
    | none =>
      have e : (intended R.c i.hold (.appendArticle b f z)).1 = i.hold := by simp only [intended, hy]
      rw [e]; exact grows_refl _
    | some y =>
      have e : (intended R.c i.hold (.appendArticle b f z)).1 = i.hold.put (.article b f) (some (y ++ z)) := by simp only [intended, hy]
      rw [e] at ht ⊢
      refine grows_article ht ?_
      intro r hr hb e
      rw [hy]
      refine ⟨fun hn => (by cases hn), ?_⟩
      intro y' hy'
      cases hy'
      exact ⟨z, rfl, Or.inr (h.fine b f y hk.1.1 hy hk.2)⟩
  | addRecord b r =>
    have hd : 128 ∣ ((i.hold (.articleIndex b)).getD []).length := by
      cases e : i.hold (.articleIndex b) with
      | none => exact ⟨0, rfl⟩
      | some d => exact h.lists b d ha.1 e
    have e : (intended R.c i.hold (.addRecord b r)).1 =
      i.hold.put (.articleIndex b) (some ((i.hold (.articleIndex b)).getD [] ++ r.marshal R.c)) := rfl
    rw [e] at ht ⊢
    refine ⟨?_, ?_, ?_, ?_, fun _ => ht⟩
    · intro d hd; exact ⟨d, (put_other' _ _ (by intro e; cases e)).trans hd, List.prefix_refl _⟩
    · intro b' _
      by_cases e : Obj.articleIndex b' = .articleIndex b
      · injection e with e; subst e
        rw [put_self', Option.getD_some, articlesIn_append R.c hd]
        exact List.prefix_append _ _
      · rw [put_other' _ _ e]; exact List.prefix_refl _
    · intro b _ r _ h; exact (put_other' _ _ (by intro e; cases e)).trans h
    · intro b _ r _ y h; exact ⟨[], by rw [List.append_nil]; exact (put_other' _ _ (by intro e; cases e)).trans h, Or.inl rfl⟩

end

/-! ## Following a client -/

/-- Client `p`, which began the function `P` at `m0`, has been told `as`; the rest of `P` lies before it. -/
def Track (c : Codec) (Le : Holding → Holding → Prop) {α : Type} (p : Nat) (m0 : Holding) (P : Prog α) (as : List (Res Answer)) (i : Atomic) : Prop :=
  ∃ (Q : Prog α) (m : Holding), Le m i.hold ∧ Q.Reader c ∧ (∀ m1 a, Yields c Le m Q m1 a → Yields c Le m0 P m1 a) ∧
    ((i.turn p = .idle Q.script ∧ ∀ rs, P.after (as ++ rs) = Q.after rs) ∨
     (∃ op next, Q = .ask op next ∧ i.turn p = .called op (fun r => (next r).script) ∧ ∀ rs, P.after (as ++ rs) = Q.after rs) ∨
     ∃ (r : Res Answer) (next : Res Answer → Prog α), Q = next r ∧ i.turn p = .decided r (fun r => (next r).script) ∧ P.after as = none ∧ ∀ rs, P.after (as ++ r :: rs) = Q.after rs)

theorem told_append (p : Nat) (h h' : List Event) : told p (h ++ h') = told p h ++ told p h' := List.filterMap_append ..

section
variable {R : Rules} {draft : Nat → Bytes → Bytes → Prop} {i : Atomic} {k : Nat → Ken}

theorem track_move {α : Type} {p : Nat} {m0 : Holding} {P : Prog α} {as : List (Res Answer)} (h : Orderly R draft i k)
    (hf : ∀ b f y x, R.fine b f y → R.adds x → R.fine b f (y ++ x)) (ht : Track R.c (Grows R) p m0 P as i) {x : Mark} {i' : Atomic}
    (hm : Atomic.Move R.c i x i') : Track R.c (Grows R) p m0 P (as ++ told p ([x].filterMap Mark.seen)) i' := by
  obtain ⟨Q, m, hle, hr, hy, ht⟩ := ht
  cases hm with
  | @call q op next hq =>
    have e : as ++ told p ([Mark.event (.call q op)].filterMap Mark.seen) = as := List.append_nil as
    rw [e]
    by_cases hqp : q = p
    · subst hqp
      rcases ht with ⟨h1, h2⟩ | ⟨_, _, _, h1, _⟩ | ⟨_, _, _, h1, _⟩
      · rw [hq] at h1
        cases Q with
        | ret a => cases h1
        | ask op' next' =>
          cases h1
          exact ⟨_, m, hle, hr, hy, Or.inr (Or.inl ⟨_, _, rfl, setTurn_self _ _ _ _, h2⟩)⟩
      · rw [hq] at h1; cases h1
      · rw [hq] at h1; cases h1
    · refine ⟨Q, m, hle, hr, hy, ?_⟩
      rw [setTurn_other _ _ _ (fun e => hqp e.symm)]
      exact ht
  | @point q op next hq =>
    have e : as ++ told p ([Mark.point q].filterMap Mark.seen) = as := List.append_nil as
    rw [e]
    have hg := grows_point h hf hq
    by_cases hqp : q = p
    · subst hqp
      rcases ht with ⟨h1, _⟩ | ⟨op', next', rfl, h1, h2⟩ | ⟨_, _, _, h1, _⟩
      · rw [hq] at h1; cases h1
      · rw [hq] at h1
        cases h1
        refine ⟨next' (intended R.c i.hold op).2, i.hold, ?_, hr.2 _, ?_, Or.inr (Or.inr ⟨_, _, rfl, setTurn_self _ _ _ _, ?_, ?_⟩)⟩
        · show Grows R i.hold (intended R.c i.hold op).1
          exact hg
        · exact fun m1 a hs => hy m1 a (.ask hle hs)
        · have := h2 []
          rw [List.append_nil] at this
          exact this
        · exact fun rs => h2 _
      · rw [hq] at h1; cases h1
    · refine ⟨Q, m, grows_trans _ _ _ hle hg, hr, hy, ?_⟩
      rw [setTurn_other _ _ _ (fun e => hqp e.symm)]
      exact ht
  | @ret q r next hq =>
    by_cases hqp : q = p
    · subst hqp
      have e : told q ([Mark.event (.ret q r)].filterMap Mark.seen) = [r] := by simp [told, Mark.seen]
      rw [e]
      rcases ht with ⟨h1, _⟩ | ⟨_, _, _, h1, _⟩ | ⟨r', next', rfl, h1, h2, h3⟩
      · rw [hq] at h1; cases h1
      · rw [hq] at h1; cases h1
      · rw [hq] at h1
        cases h1
        refine ⟨_, m, hle, hr, hy, Or.inl ⟨setTurn_self _ _ _ _, ?_⟩⟩
        intro rs
        rw [List.append_assoc]
        exact h3 rs
    · have e : told p ([Mark.event (.ret q r)].filterMap Mark.seen) = [] := by simp [told, Mark.seen, hqp]
      rw [e, List.append_nil]
      refine ⟨Q, m, hle, hr, hy, ?_⟩
      rw [setTurn_other _ _ _ (fun e => hqp e.symm)]
      exact ht

theorem track_run (hf : ∀ b f y x, R.fine b f y → R.adds x → R.fine b f (y ++ x)) {α : Type} {p : Nat} {m0 : Holding} {P : Prog α}
    {marks : List Mark} {i i' : Atomic} (hr : Atomic.Run R.c i marks i') : ∀ k as, Orderly R draft i k → Track R.c (Grows R) p m0 P as i →
      Track R.c (Grows R) p m0 P (as ++ told p (marks.filterMap Mark.seen)) i' := by
  induction hr with
  | nil =>
    intro k as _ h
    rw [show as ++ told p ([].filterMap Mark.seen) = as from List.append_nil as]
    exact h
  | @cons s t u x xs hm _ ih =>
    intro k as h ht
    obtain ⟨k', h'⟩ := orderly_move h hf hm
    have := ih k' _ h' (track_move h hf ht hm)
    rw [List.append_assoc, ← told_append, ← List.filterMap_append] at this
    exact this

theorem track_start {α : Type} {p : Nat} {P : Prog α} {i : Atomic} (hr : P.Reader R.c) (ht : i.turn p = .idle P.script) :
    Track R.c (Grows R) p i.hold P [] i :=
  ⟨P, i.hold, grows_refl _, hr, fun _ _ h => h, Or.inl ⟨ht, fun _ => rfl⟩⟩

/-- When the function is through, its result comes from the moments of its calls. -/
theorem track_result {α : Type} {p : Nat} {m0 : Holding} {P : Prog α} {as : List (Res Answer)} (ht : Track R.c (Grows R) p m0 P as i) {a : α}
    (ha : P.after as = some a) : ∃ m1, Yields R.c (Grows R) m0 P m1 a ∧ Grows R m1 i.hold := by
  obtain ⟨Q, m, hle, _, hy, ht⟩ := ht
  have key : (∀ rs, P.after (as ++ rs) = Q.after rs) → ∃ m1, Yields R.c (Grows R) m0 P m1 a ∧ Grows R m1 i.hold := by
    intro h
    have h := h []
    rw [List.append_nil, ha] at h
    cases Q with
    | ret b =>
      cases h
      exact ⟨m, hy m _ .ret, hle⟩
    | ask op next => cases h
  rcases ht with ⟨_, h⟩ | ⟨_, _, _, _, h⟩ | ⟨_, _, _, _, h, _⟩
  · exact key h
  · exact key h
  · rw [ha] at h; cases h

/-- A client that has stopped has its result. -/
theorem track_stop {α : Type} {p : Nat} {m0 : Holding} {P : Prog α} {as : List (Res Answer)} (ht : Track R.c (Grows R) p m0 P as i)
    (hs : i.turn p = .idle .stop) : ∃ a, P.after as = some a := by
  obtain ⟨Q, m, _, _, _, ht⟩ := ht
  rcases ht with ⟨h1, h⟩ | ⟨_, _, _, h1, _⟩ | ⟨_, _, _, h1, _⟩
  · rw [hs] at h1
    cases Q with
    | ret b =>
      have h := h []
      rw [List.append_nil] at h
      exact ⟨b, h⟩
    | ask op next => cases h1
  · rw [hs] at h1; cases h1
  · rw [hs] at h1; cases h1

end

/-- A client that has made no call is where it was. -/
theorem run_still {c : Codec} {p : Nat} {x : Script} {marks : List Mark} {i i' : Atomic} (hr : Atomic.Run c i marks i') :
    i.turn p = .idle x → (∀ op, Event.call p op ∉ marks.filterMap Mark.seen) → i'.turn p = .idle x := by
  induction hr with
  | nil => exact fun h _ => h
  | @cons s t u y ys hm _ ih =>
    intro h hn
    have hn' : ∀ op, Event.call p op ∉ ys.filterMap Mark.seen := by
      intro op hop
      refine hn op ?_
      rw [List.filterMap_cons]
      split
      · exact hop
      · exact List.mem_cons_of_mem _ hop
    refine ih ?_ hn'
    cases hm with
    | @call q op next hq =>
      by_cases e : q = p
      · subst e
        refine absurd ?_ (hn op)
        exact List.mem_filterMap.mpr ⟨Mark.event (.call q op), List.mem_cons_self .., rfl⟩
      · rw [setTurn_other _ _ _ (fun e' => e e'.symm)]; exact h
    | @point q op next hq =>
      by_cases e : q = p
      · subst e; rw [hq] at h; cases h
      · rw [setTurn_other _ _ _ (fun e' => e e'.symm)]; exact h
    | @ret q r next hq =>
      by_cases e : q = p
      · subst e; rw [hq] at h; cases h
      · rw [setTurn_other _ _ _ (fun e' => e e'.symm)]; exact h

/-! ## The searches -/

section
variable {c : Codec} {Le : Holding → Holding → Prop}

theorem on_boards (m : Holding) : Prog.boards.on c m = (do .ok (boardsIn c (← m.need .boardList))) := by
  simp only [Prog.boards, Prog.on, intended]
  cases m.need .boardList <;> rfl

theorem on_articles (m : Holding) (b : Bytes) : (Prog.articles b).on c m = .ok (articlesIn c ((m (.articleIndex b)).getD [])) := rfl

theorem on_article (m : Holding) (b f : Bytes) : (Prog.article b f).on c m = m.need (.article b f) := by
  simp only [Prog.article, Prog.on, intended]
  cases m.need (.article b f) <;> rfl

/-- A function that makes one call returns what it finds at that moment. -/
theorem one_call {α : Type} {op : Call} {next : Res Answer → Prog α} (h : ∀ r, ∃ a, next r = .ret a) (m0 m1 : Holding) (a : α)
    (hy : Yields c Le m0 (.ask op next) m1 a) : a = (Prog.ask op next).on c m1 := by
  cases hy with
  | @ask _ m _ _ _ _ _ hs =>
    obtain ⟨a', e⟩ := h (intended c m op).2
    rw [e] at hs
    cases hs
    show a = (next (intended c m1 op).2).on c m1
    rw [e]
    rfl

theorem one_boards (m0 m1 : Holding) (a : Res (List BoardHeader)) (h : Yields c Le m0 Prog.boards m1 a) : a = Prog.boards.on c m1 :=
  one_call (fun r => by split <;> exact ⟨_, rfl⟩) m0 m1 a h

theorem one_articles (b : Bytes) (m0 m1 : Holding) (a : Res (List FileHeader)) (h : Yields c Le m0 (Prog.articles b) m1 a) :
    a = (Prog.articles b).on c m1 := one_call (fun r => by split <;> exact ⟨_, rfl⟩) m0 m1 a h

theorem one_article (b f : Bytes) (m0 m1 : Holding) (a : Res Bytes) (h : Yields c Le m0 (Prog.article b f) m1 a) :
    a = (Prog.article b f).on c m1 := one_call (fun r => by split <;> exact ⟨_, rfl⟩) m0 m1 a h

theorem reader_boards : Prog.boards.Reader c := by
  refine ⟨fun _ => rfl, fun r => ?_⟩
  dsimp only
  split <;> trivial

theorem reader_articles (b : Bytes) : (Prog.articles b).Reader c := by
  refine ⟨fun _ => rfl, fun r => ?_⟩
  dsimp only
  split <;> trivial

theorem reader_article (b f : Bytes) : (Prog.article b f).Reader c := by
  refine ⟨fun _ => rfl, fun r => ?_⟩
  dsimp only
  split <;> trivial

theorem reader_userArticles (user : Bytes) : (Prog.userArticles user).Reader c := by
  refine reader_andThen reader_boards fun bs => ?_
  induction bs with
  | nil => trivial
  | cons b bs ih =>
    unfold Prog.userArticleLoop
    split
    · exact ih
    · exact reader_andThen (reader_articles _) fun _ => reader_andThen ih fun _ => trivial

theorem reader_boardUserComments (b user : Bytes) : (Prog.boardUserComments b user).Reader c := by
  refine reader_andThen (reader_articles b) fun l => ?_
  induction l with
  | nil => trivial
  | cons r l ih =>
    exact reader_andThen (reader_andThen (reader_article _ _) fun _ => trivial) fun _ => reader_andThen ih fun _ => trivial

theorem reader_userComments (user : Bytes) : (Prog.userComments user).Reader c := by
  refine reader_andThen reader_boards fun bs => ?_
  induction bs with
  | nil => trivial
  | cons b bs ih =>
    unfold Prog.userCommentLoop
    split
    · exact ih
    · exact reader_andThen (reader_boardUserComments _ _) fun _ => reader_andThen ih fun _ => trivial

end

/-! ### More in the list, more in the result -/

section
variable {c : Codec} {m : Holding}

theorem articleLoop_prefix (user : Bytes) (bs : List BoardHeader) : ∀ bs', bs <+: bs' →
    Below ((Prog.userArticleLoop user bs).on c m) ((Prog.userArticleLoop user bs').on c m) := by
  induction bs with
  | nil => exact fun _ _ l _ => ⟨[], rfl, List.nil_sublist l⟩
  | cons b bs ih =>
    rintro bs' ⟨z, rfl⟩
    have hi := ih (bs ++ z) (List.prefix_append _ _)
    rw [List.cons_append]
    unfold Prog.userArticleLoop
    split
    · exact hi
    · intro l hl
      rw [on_andThen] at hl ⊢
      obtain ⟨u, hu, hl⟩ := bind_ok hl
      rw [on_andThen] at hl
      obtain ⟨v, hv, hl⟩ := bind_ok hl
      have hl := Res.ok.inj hl
      subst hl
      obtain ⟨v0, hv0, sv⟩ := hi v hv
      refine ⟨_, ?_, (List.Sublist.refl _).append sv⟩
      rw [hu, Res.ok_bind, on_andThen, hv0]
      rfl

theorem commentLoop_prefix (b user : Bytes) (l : List FileHeader) : ∀ l', l <+: l' →
    Below ((Prog.boardUserCommentLoop b user l).on c m) ((Prog.boardUserCommentLoop b user l').on c m) := by
  induction l with
  | nil => exact fun _ _ l _ => ⟨[], rfl, List.nil_sublist l⟩
  | cons r l ih =>
    rintro l' ⟨z, rfl⟩
    have hi := ih (l ++ z) (List.prefix_append _ _)
    rw [List.cons_append]
    unfold Prog.boardUserCommentLoop
    intro l hl
    rw [on_andThen] at hl ⊢
    obtain ⟨u, hu, hl⟩ := bind_ok hl
    rw [on_andThen] at hl
    obtain ⟨v, hv, hl⟩ := bind_ok hl
    have hl := Res.ok.inj hl
    subst hl
    obtain ⟨v0, hv0, sv⟩ := hi v hv
    refine ⟨_, ?_, (List.Sublist.refl _).append sv⟩
    rw [hu, Res.ok_bind, on_andThen, hv0]
    rfl

theorem userCommentLoop_prefix (user : Bytes) (bs : List BoardHeader) : ∀ bs', bs <+: bs' →
    Below ((Prog.userCommentLoop user bs).on c m) ((Prog.userCommentLoop user bs').on c m) := by
  induction bs with
  | nil => exact fun _ _ l _ => ⟨[], rfl, List.nil_sublist l⟩
  | cons b bs ih =>
    rintro bs' ⟨z, rfl⟩
    have hi := ih (bs ++ z) (List.prefix_append _ _)
    rw [List.cons_append]
    unfold Prog.userCommentLoop
    split
    · exact hi
    · intro l hl
      rw [on_andThen] at hl ⊢
      obtain ⟨u, hu, hl⟩ := bind_ok hl
      rw [on_andThen] at hl
      obtain ⟨v, hv, hl⟩ := bind_ok hl
      have hl := Res.ok.inj hl
      subst hl
      obtain ⟨v0, hv0, sv⟩ := hi v hv
      refine ⟨_, ?_, (List.Sublist.refl _).append sv⟩
      rw [hu, Res.ok_bind, on_andThen, hv0]
      rfl

end

/-! ### Lines -/

theorem rawLines_ended (y : Bytes) (h : Ended y) (z : Bytes) : rawLines (y ++ z) = rawLines y ++ rawLines z := by
  rcases h with rfl | ⟨w, rfl⟩
  · rw [rawLines_nil]; rfl
  · have key : ∀ n, ∀ w : Bytes, w.length ≤ n → rawLines (w ++ [10] ++ z) = rawLines (w ++ [10]) ++ rawLines z := by
      intro n
      induction n with
      | zero =>
        intro w hw
        have : w = [] := List.length_eq_zero_iff.mp (by omega)
        subst this
        show rawLines ([] ++ 10 :: z) = rawLines ([] ++ 10 :: []) ++ rawLines z
        rw [rawLines_cons (by simp), rawLines_cons (by simp), rawLines_nil]
        rfl
      | succ n ih =>
        intro w hw
        by_cases hm : (10 : UInt8) ∈ w
        · obtain ⟨a, t, e, ha⟩ := List.eq_append_cons_of_mem hm
          subst e
          rw [show a ++ 10 :: t ++ [10] ++ z = a ++ 10 :: (t ++ [10] ++ z) by simp, show a ++ 10 :: t ++ [10] = a ++ 10 :: (t ++ [10]) by simp,
            rawLines_cons ha, rawLines_cons ha, ih t (by simp at hw; omega)]
          rfl
        · rw [show w ++ [10] ++ z = w ++ 10 :: z by simp, rawLines_cons hm, rawLines_cons hm, rawLines_nil]
          rfl
    exact key w.length w (Nat.le_refl _)

theorem takeWhile_prefix_append {α : Type} (p : α → Bool) (l z : List α) : l.takeWhile p <+: (l ++ z).takeWhile p := by
  induction l with
  | nil => exact List.nil_prefix
  | cons a l ih =>
    rw [List.cons_append, List.takeWhile_cons, List.takeWhile_cons]
    split
    · exact List.cons_prefix_cons.mpr ⟨rfl, ih⟩
    · exact List.prefix_refl _

theorem comments_grow (b f y z : Bytes) (h : z = [] ∨ Ended y) : Below (articleComments b f y) (articleComments b f (y ++ z)) := by
  rcases h with rfl | h
  · rw [List.append_nil]; exact Below.refl _
  · intro l hl
    obtain ⟨h1, h2⟩ := (articleComments_exact _ _ _ _).mp hl
    have hp : (rawLines y).takeWhile (fun l => decide (l.length < 65536)) <+: (rawLines (y ++ z)).takeWhile (fun l => decide (l.length < 65536)) := by
      rw [rawLines_ended y h z]
      exact takeWhile_prefix_append _ _ _
    obtain ⟨t, ht⟩ := hp
    rw [← ht] at h1 h2
    rw [List.map_append] at h1 h2
    refine ⟨_, (articleComments_exact _ _ _ _).mpr ⟨fun x hx => h1 x (List.mem_append_left _ hx), rfl⟩, ?_⟩
    rw [h2, List.filterMap_append]
    unfold numbered
    rw [List.mapIdx_append]
    exact List.sublist_append_left _ _

/-! ### The searches are steady -/

section
variable {R : Rules} {m : Holding}

theorem boards_grow {m0 m1 : Holding} (ht : Tidy R m0) (hg : Grows R m0 m1) {l' : List BoardHeader} (h : Prog.boards.on R.c m1 = .ok l') :
    ∃ l, Prog.boards.on R.c m0 = .ok l ∧ l <+: l' := by
  obtain ⟨d, hd, _⟩ := ht.boards
  obtain ⟨d', hd', hp⟩ := hg.boards d hd
  have e0 : Prog.boards.on R.c m0 = .ok (boardsIn R.c d) := by rw [on_boards, Holding.need, hd]; rfl
  have e1 : Prog.boards.on R.c m1 = .ok (boardsIn R.c d') := by rw [on_boards, Holding.need, hd']; rfl
  rw [e1] at h
  cases h
  exact ⟨_, e0, hp⟩

theorem boards_placed {m0 : Holding} (ht : Tidy R m0) {l : List BoardHeader} (h : Prog.boards.on R.c m0 = .ok l) :
    ∀ b ∈ l, R.placed (.articleIndex b.brdName) := by
  obtain ⟨d, hd, _, hp⟩ := ht.boards
  have e0 : Prog.boards.on R.c m0 = .ok (boardsIn R.c d) := by rw [on_boards, Holding.need, hd]; rfl
  rw [e0] at h
  cases h
  exact hp

theorem articles_grow {b : Bytes} (hb : R.placed (.articleIndex b)) {m0 m1 : Holding} (hg : Grows R m0 m1) {l' : List FileHeader}
    (h : (Prog.articles b).on R.c m1 = .ok l') : ∃ l, (Prog.articles b).on R.c m0 = .ok l ∧ l <+: l' := by
  rw [on_articles] at h
  cases h
  exact ⟨_, on_articles m0 b, hg.lists b hb⟩

theorem steady_articles {b : Bytes} (hb : R.placed (.articleIndex b)) : Steady R.c (Grows R) m (Prog.articles b) :=
  steady_moment grows_refl grows_trans (one_articles b) fun m0 m1 _ h1 l hl => by
    obtain ⟨l0, e, hp⟩ := articles_grow hb h1 hl
    exact ⟨l0, e, hp.sublist⟩

theorem steady_userArticleLoop (user : Bytes) (bs : List BoardHeader) (hb : ∀ b ∈ bs, R.placed (.articleIndex b.brdName)) :
    Steady R.c (Grows R) m (Prog.userArticleLoop user bs) := by
  induction bs with
  | nil => exact steady_ret _
  | cons b bs ih =>
    have ih := ih fun b' h' => hb b' (List.mem_cons_of_mem _ h')
    unfold Prog.userArticleLoop
    split
    · exact ih
    · exact steady_append grows_refl grows_trans (f := fun ars => (ars.filter (fun ar => ar.owner = user)).map
        (fun ar => ⟨b.brdName, ar.title, ar.owner, ar.filename⟩)) (fun l l' h => (h.filter _).map _) (steady_articles (hb b (List.mem_cons_self ..))) ih

theorem steady_userArticles (user : Bytes) (ht : Tidy R m) : Steady R.c (Grows R) m (Prog.userArticles user) :=
  steady_read grows_refl grows_trans one_boards (fun _ _ _ h0 h1 h => boards_grow (h0.tidy ht) h1 h)
    (fun _ bs h0 h => steady_userArticleLoop user bs (boards_placed (h0.tidy ht) h)) (fun _ bs bs' => articleLoop_prefix user bs bs')

/-- The comments of a listed article. -/
theorem steady_articleComments (hend : ∀ b f y, R.fine b f y → Ended y) {b : Bytes} (hb : R.placed (.articleIndex b)) {r : FileHeader}
    (hr : r ∈ articlesIn R.c ((m (.articleIndex b)).getD [])) : Steady R.c (Grows R) m (Prog.articleComments b r.filename) := by
  have hon : ∀ m', (Prog.articleComments b r.filename).on R.c m' = (m'.need (.article b r.filename) >>= articleComments b r.filename) := by
    intro m'
    unfold Prog.articleComments
    rw [on_andThen, on_article]
    rfl
  refine steady_moment grows_refl grows_trans ?_ ?_
  · refine one_call (fun x => ?_)
    match x with
    | .ok (.bytes y) => exact ⟨_, rfl⟩
    | .ok (.users _) => exact ⟨_, rfl⟩
    | .ok (.favourites _) => exact ⟨_, rfl⟩
    | .ok (.boards _) => exact ⟨_, rfl⟩
    | .ok (.articles _) => exact ⟨_, rfl⟩
    | .ok (.record _) => exact ⟨_, rfl⟩
    | .ok .done => exact ⟨_, rfl⟩
    | .err e => exact ⟨_, rfl⟩
    | .panic => exact ⟨_, rfl⟩
    | .diverge => exact ⟨_, rfl⟩
  · intro m0 m1 h0 h1
    have hr0 := (h0.lists b hb).subset hr
    rw [hon, hon]
    cases hy : m0 (.article b r.filename) with
    | none =>
      rw [Holding.need, Holding.need, hy, h1.absent b hb r hr0 hy]
      exact Below.refl _
    | some y =>
      obtain ⟨z, hz, e⟩ := h1.present b hb r hr0 y hy
      rw [Holding.need, Holding.need, hy, hz]
      exact comments_grow b r.filename y z (e.imp id (hend b r.filename y))

theorem steady_boardUserCommentLoop (hend : ∀ b f y, R.fine b f y → Ended y) {b : Bytes} (hb : R.placed (.articleIndex b)) (user : Bytes)
    (l : List FileHeader) (hl : ∀ r ∈ l, r ∈ articlesIn R.c ((m (.articleIndex b)).getD [])) :
    Steady R.c (Grows R) m (Prog.boardUserCommentLoop b user l) := by
  induction l with
  | nil => exact steady_ret _
  | cons r l ih =>
    exact steady_append grows_refl grows_trans (f := fun crs => crs.filter (fun cr => cr.owner = user)) (fun l l' h => h.filter _)
      (steady_articleComments hend hb (hl r (List.mem_cons_self ..))) (ih fun r' h' => hl r' (List.mem_cons_of_mem _ h'))

theorem steady_boardUserComments (hend : ∀ b f y, R.fine b f y → Ended y) {b : Bytes} (hb : R.placed (.articleIndex b)) (user : Bytes) :
    Steady R.c (Grows R) m (Prog.boardUserComments b user) := by
  refine steady_read grows_refl grows_trans (one_articles b) (fun _ _ _ _ h1 h => articles_grow hb h1 h) ?_
    (fun _ l l' => commentLoop_prefix b user l l')
  intro m0 l _ h
  rw [on_articles] at h
  cases h
  exact steady_boardUserCommentLoop hend hb user _ fun _ h => h

theorem steady_userCommentLoop (hend : ∀ b f y, R.fine b f y → Ended y) (user : Bytes) (bs : List BoardHeader)
    (hb : ∀ b ∈ bs, R.placed (.articleIndex b.brdName)) : Steady R.c (Grows R) m (Prog.userCommentLoop user bs) := by
  induction bs with
  | nil => exact steady_ret _
  | cons b bs ih =>
    have ih := ih fun b' h' => hb b' (List.mem_cons_of_mem _ h')
    unfold Prog.userCommentLoop
    split
    · exact ih
    · exact steady_append grows_refl grows_trans (f := id) (fun l l' h => h) (steady_boardUserComments hend (hb b (List.mem_cons_self ..)) user) ih

theorem steady_userComments (hend : ∀ b f y, R.fine b f y → Ended y) (user : Bytes) (ht : Tidy R m) :
    Steady R.c (Grows R) m (Prog.userComments user) :=
  steady_read grows_refl grows_trans one_boards (fun _ _ _ h0 h1 h => boards_grow (h0.tidy ht) h1 h)
    (fun _ bs h0 h => steady_userCommentLoop hend user bs (boards_placed (h0.tidy ht) h)) (fun _ bs bs' => userCommentLoop_prefix user bs bs')

/-! ### The searches touch what has a place -/

variable {db : DB} {fs : FS}

theorem safe_boards (hp : Placed db fs .boardList) : Prog.boards.Safe db fs R.c m := by
  refine ⟨by rintro o rfl; exact hp, ?_⟩
  simp only [intended]
  cases m.need .boardList <;> trivial

theorem safe_articles {b : Bytes} (hp : Placed db fs (.articleIndex b)) : (Prog.articles b).Safe db fs R.c m :=
  ⟨by rintro o rfl; exact hp, trivial⟩

theorem safe_article {b f : Bytes} (hp : Placed db fs (.article b f)) : (Prog.article b f).Safe db fs R.c m := by
  refine ⟨by rintro o rfl; exact hp, ?_⟩
  simp only [intended]
  cases m.need (.article b f) <;> trivial

theorem safe_userArticles (hp : ∀ o, R.placed o → Placed db fs o) (hb : Placed db fs .boardList) (ht : Tidy R m) (user : Bytes) :
    (Prog.userArticles user).Safe db fs R.c m := by
  refine safe_andThen (safe_boards hb) fun bs hbs => ?_
  have hpl := boards_placed ht hbs
  clear hbs
  induction bs with
  | nil => trivial
  | cons b bs ih =>
    have ih := ih fun b' h' => hpl b' (List.mem_cons_of_mem _ h')
    unfold Prog.userArticleLoop
    split
    · exact ih
    · exact safe_andThen (safe_articles (hp _ (hpl b (List.mem_cons_self ..)))) fun _ _ => safe_andThen ih fun _ _ => trivial

theorem safe_boardUserComments (hp : ∀ o, R.placed o → Placed db fs o) (ht : Tidy R m) {b : Bytes} (hb : R.placed (.articleIndex b)) (user : Bytes) :
    (Prog.boardUserComments b user).Safe db fs R.c m := by
  refine safe_andThen (safe_articles (hp _ hb)) fun l hl => ?_
  rw [on_articles] at hl
  have hpl : ∀ r ∈ l, R.placed (.article b r.filename) := by
    intro r hr
    rw [← Res.ok.inj hl] at hr
    cases hd : m (.articleIndex b) with
    | none => rw [hd] at hr; cases hr
    | some d => rw [hd] at hr; exact (ht.listed b d hb hd r hr).1
  clear hl
  induction l with
  | nil => trivial
  | cons r l ih =>
    exact safe_andThen (safe_andThen (safe_article (hp _ (hpl r (List.mem_cons_self ..)))) fun _ _ => trivial) fun _ _ =>
      safe_andThen (ih fun r' h' => hpl r' (List.mem_cons_of_mem _ h')) fun _ _ => trivial

theorem safe_userComments (hp : ∀ o, R.placed o → Placed db fs o) (hb : Placed db fs .boardList) (ht : Tidy R m) (user : Bytes) :
    (Prog.userComments user).Safe db fs R.c m := by
  refine safe_andThen (safe_boards hb) fun bs hbs => ?_
  have hpl := boards_placed ht hbs
  clear hbs
  induction bs with
  | nil => trivial
  | cons b bs ih =>
    have ih := ih fun b' h' => hpl b' (List.mem_cons_of_mem _ h')
    unfold Prog.userCommentLoop
    split
    · exact ih
    · exact safe_andThen (safe_boardUserComments hp ht (hpl b (List.mem_cons_self ..)) user) fun _ _ => safe_andThen ih fun _ _ => trivial

/-- The search for articles does not fail in a database in good order. -/
theorem on_userArticles_ok (ht : Tidy R m) (user : Bytes) : ∃ l, (Prog.userArticles user).on R.c m = .ok l := by
  obtain ⟨d, hd, _⟩ := ht.boards
  have e0 : Prog.boards.on R.c m = .ok (boardsIn R.c d) := by rw [on_boards, Holding.need, hd]; rfl
  unfold Prog.userArticles
  rw [on_andThen, e0, Res.ok_bind]
  generalize boardsIn R.c d = bs
  induction bs with
  | nil => exact ⟨[], rfl⟩
  | cons b bs ih =>
    unfold Prog.userArticleLoop
    split
    · exact ih
    · obtain ⟨l, e⟩ := ih
      rw [on_andThen, on_articles, Res.ok_bind, on_andThen, e]
      exact ⟨_, rfl⟩

end

/-! ### The searches alone -/

section
variable (db : DB) (c : Codec) (fs : FS)

theorem alone_boards : Prog.boards.alone db c fs = (fs, db.readBoardRecords c fs) := by
  simp only [Prog.boards, Prog.alone, Call.exec, reads]
  cases db.readBoardRecords c fs <;> rfl

theorem alone_articles (b : Bytes) : (Prog.articles b).alone db c fs = (fs, db.readArticleRecords c fs b) := by
  simp only [Prog.articles, Prog.alone, Call.exec, reads]
  cases db.readArticleRecords c fs b <;> rfl

theorem alone_article (b f : Bytes) : (Prog.article b f).alone db c fs = (fs, db.readBoardArticleFile fs b f) := by
  simp only [Prog.article, Prog.alone, Call.exec, reads]
  cases db.readBoardArticleFile fs b f <;> rfl

theorem alone_userArticles (user : Bytes) : (Prog.userArticles user).alone db c fs = (fs, db.userArticles c fs user) := by
  refine alone_andThen (alone_boards db c fs) fun bs => ?_
  induction bs with
  | nil => rfl
  | cons b bs ih =>
    unfold Prog.userArticleLoop DB.userArticleLoop
    split
    · exact ih
    · exact alone_andThen (alone_articles db c fs b.brdName) fun ars => alone_andThen ih fun rest => rfl

theorem alone_boardUserComments (b user : Bytes) : (Prog.boardUserComments b user).alone db c fs = (fs, db.boardUserComments c fs b user) := by
  refine alone_andThen (alone_articles db c fs b) fun l => ?_
  induction l with
  | nil => rfl
  | cons r l ih => exact alone_andThen (alone_andThen (alone_article db c fs b r.filename) fun y => rfl) fun crs => alone_andThen ih fun rest => rfl

theorem alone_userComments (user : Bytes) : (Prog.userComments user).alone db c fs = (fs, db.userComments c fs user) := by
  refine alone_andThen (alone_boards db c fs) fun bs => ?_
  induction bs with
  | nil => rfl
  | cons b bs ih =>
    unfold Prog.userCommentLoop DB.userCommentLoop
    split
    · exact ih
    · exact alone_andThen (alone_boardUserComments db c fs b.brdName user) fun ucr => alone_andThen ih fun rest => rfl

end

end Verif
