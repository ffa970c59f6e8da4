import Verif.Proofs.Posting
/-!
# Helper lemmas for what clients are told
-/

namespace Verif
open Spec

theorem lastCall_append (p : Nat) (h : List Event) (e : Event) : lastCall p (h ++ [e]) = match e with
    | .call q op => if q = p then some op else lastCall p h
    | .ret _ _ => lastCall p h := by
  unfold lastCall
  rw [List.foldl_append]
  rfl

/-- Somebody has found the article in a list, and it contains `x`. -/
def Held (i : Atomic) (k : Nat → Ken) (b f x : Bytes) : Prop :=
  (∃ q, (k q).known b f) ∧ ∃ u v, i.hold (.article b f) = some (u ++ x ++ v)

/-- What the clients have been told so far, and will be told next. -/
structure Diary (R : Rules) (m : Holding) (past : List Event) (i : Atomic) (k : Nat → Ken) : Prop where
  called : ∀ p op next, i.turn p = .called op next → lastCall p past = some op
  reading : ∀ p r next, i.turn p = .decided r next → ∀ b f y, lastCall p past = some (.readArticle b f) → r = .ok (.bytes y) →
    R.fine b f y ∧ ∀ y0, m (.article b f) = some y0 → y0 <+: y
  adding : ∀ p r next, i.turn p = .decided r next → ∀ b f x, lastCall p past = some (.appendArticle b f x) → r = .ok .done → Held i k b f x
  reads : ∀ before after p b f y, past = before ++ .ret p (.ok (.bytes y)) :: after → lastCall p before = some (.readArticle b f) →
    R.fine b f y ∧ ∀ y0, m (.article b f) = some y0 → y0 <+: y
  adds : ∀ before after p b f x, past = before ++ .ret p (.ok .done) :: after → lastCall p before = some (.appendArticle b f x) → Held i k b f x
  old : ∀ b f y0, m (.article b f) = some y0 → (∃ z, i.hold (.article b f) = some (y0 ++ z)) ∧ ∀ p, (k p).own b f = none

theorem after_known (c : Codec) (k : Ken) (op : Call) (r : Res Answer) (b f : Bytes) (h : k.known b f) : (k.after c op r).known b f := by
  unfold Ken.after
  split
  · exact h
  · exact h
  · exact Or.inl h
  · exact Or.inl h
  · exact h
  · exact h

/-- A list that ends with `e`, cut before one of its elements. -/
theorem cut_last {α : Type} {past before after : List α} {e x : α} (h : past ++ [e] = before ++ x :: after) :
    (e = x ∧ past = before ∧ after = []) ∨ ∃ after', past = before ++ x :: after' := by
  rcases List.eq_nil_or_concat after with rfl | ⟨l, y, rfl⟩
  · obtain ⟨h1, h2⟩ := List.append_inj' h rfl
    exact Or.inl ⟨(List.cons.inj h2).1, h1, rfl⟩
  · right
    have h' : past ++ [e] = (before ++ x :: l) ++ [y] := by rw [h]; simp
    exact ⟨l, (List.append_inj' h' rfl).1⟩

section
variable {R : Rules} {draft : Nat → Bytes → Bytes → Prop} {i : Atomic} {k : Nat → Ken} {m : Holding} {past : List Event}

/-- What somebody has found in a list is only added to. -/
theorem held_point (h : Orderly R draft i k) {p : Nat} {op : Call} {next : Res Answer → Script} (hp : i.turn p = .called op next) {t : Turn}
    {b f x : Bytes} (hh : Held i k b f x) :
    Held (i.setTurn (intended R.c i.hold op).1 p t) (setKen k p ((k p).after R.c op (intended R.c i.hold op).2)) b f x := by
  obtain ⟨⟨q, hq⟩, u, v, hy⟩ := hh
  refine ⟨⟨q, ?_⟩, ?_⟩
  · by_cases e : q = p
    · subst e; rw [setKen_self]; exact after_known _ _ _ _ _ _ hq
    · rw [setKen_other _ _ e]; exact hq
  · show ∃ u v, (intended R.c i.hold op).1 (.article b f) = some (u ++ x ++ v)
    rcases intended_article R.c i.hold op b f with e | ⟨e, _⟩ | ⟨z, rfl, _⟩ | ⟨z, y', rfl, h1, e⟩
    · exact ⟨u, v, e.trans hy⟩
    · rw [hy] at e; cases e
    · have ht := h.turns p
      rw [hp] at ht
      exact absurd ((h.known q b f hq).2 p) ht.1
    · rw [hy] at h1
      cases h1
      exact ⟨u, v ++ z, by rw [e, List.append_assoc (u ++ x)]⟩

theorem diary_move (h : Orderly R draft i k) (hf : ∀ b f y x, R.fine b f y → R.adds x → R.fine b f (y ++ x)) (hD : Diary R m past i k) {x : Mark} {i' : Atomic}
    (hm : Atomic.Move R.c i x i') : ∃ k', Orderly R draft i' k' ∧ Diary R m (past ++ x.seen.toList) i' k' := by
  cases hm with
  | @call p op next hp =>
    have ht := h.turns p
    rw [hp] at ht
    refine ⟨_, orderly_same h rfl rfl ht, ?_⟩
    rw [setKen_same]
    show Diary R m (past ++ [.call p op]) _ k
    refine ⟨?_, ?_, ?_, ?_, ?_, hD.old⟩
    · intro q op' next' hq
      rw [lastCall_append]
      by_cases e : q = p
      · subst e
        rw [setTurn_self] at hq
        cases hq
        exact if_pos rfl
      · rw [setTurn_other _ _ _ e] at hq
        exact (if_neg (fun e' => e e'.symm)).trans (hD.called q op' next' hq)
    · intro q r next' hq b f y hc hr
      by_cases e : q = p
      · subst e; rw [setTurn_self] at hq; cases hq
      · rw [setTurn_other _ _ _ e] at hq
        rw [lastCall_append] at hc
        exact hD.reading q r next' hq b f y ((if_neg (fun e' => e e'.symm)).symm.trans hc) hr
    · intro q r next' hq b f y hc hr
      by_cases e : q = p
      · subst e; rw [setTurn_self] at hq; cases hq
      · rw [setTurn_other _ _ _ e] at hq
        rw [lastCall_append] at hc
        exact hD.adding q r next' hq b f y ((if_neg (fun e' => e e'.symm)).symm.trans hc) hr
    · intro before after q b f y hpast hc
      rcases cut_last hpast with ⟨e, _⟩ | ⟨after', e⟩
      · cases e
      · exact hD.reads before after' q b f y e hc
    · intro before after q b f y hpast hc
      rcases cut_last hpast with ⟨e, _⟩ | ⟨after', e⟩
      · cases e
      · exact hD.adds before after' q b f y e hc
  | @ret p r next hp =>
    have ht := h.turns p
    rw [hp] at ht
    refine ⟨_, orderly_same h rfl rfl ht, ?_⟩
    rw [setKen_same]
    show Diary R m (past ++ [.ret p r]) _ k
    refine ⟨?_, ?_, ?_, ?_, ?_, hD.old⟩
    · intro q op' next' hq
      rw [lastCall_append]
      by_cases e : q = p
      · subst e; rw [setTurn_self] at hq; cases hq
      · rw [setTurn_other _ _ _ e] at hq
        exact hD.called q op' next' hq
    · intro q r' next' hq b f y hc hr
      by_cases e : q = p
      · subst e; rw [setTurn_self] at hq; cases hq
      · rw [setTurn_other _ _ _ e] at hq
        rw [lastCall_append] at hc
        exact hD.reading q r' next' hq b f y hc hr
    · intro q r' next' hq b f y hc hr
      by_cases e : q = p
      · subst e; rw [setTurn_self] at hq; cases hq
      · rw [setTurn_other _ _ _ e] at hq
        rw [lastCall_append] at hc
        exact hD.adding q r' next' hq b f y hc hr
    · intro before after q b f y hpast hc
      rcases cut_last hpast with ⟨e, e', _⟩ | ⟨after', e⟩
      · cases e
        rw [← e'] at hc
        exact hD.reading p _ next hp b f y hc rfl
      · exact hD.reads before after' q b f y e hc
    · intro before after q b f y hpast hc
      rcases cut_last hpast with ⟨e, e', _⟩ | ⟨after', e⟩
      · cases e
        rw [← e'] at hc
        exact hD.adding p _ next hp b f y hc rfl
      · exact hD.adds before after' q b f y e hc
  | @point p op next hp =>
    refine ⟨_, orderly_point h hf hp, ?_⟩
    rw [show past ++ (Mark.point p).seen.toList = past from List.append_nil _]
    have hlast := hD.called p op next hp
    have ha := h.turns p
    rw [hp] at ha
    have ha := ha.1
    refine ⟨?_, ?_, ?_, hD.reads, ?_, ?_⟩
    · intro q op' next' hq
      by_cases e : q = p
      · subst e; rw [setTurn_self] at hq; cases hq
      · rw [setTurn_other _ _ _ e] at hq
        exact hD.called q op' next' hq
    · intro q r' next' hq b f y hc hr
      by_cases e : q = p
      · subst e
        rw [setTurn_self] at hq
        rw [hlast] at hc
        cases hc
        cases hq
        obtain ⟨⟨h1, _⟩, h3⟩ := h.known q b f ha
        cases hy : i.hold (.article b f) with
        | none => simp only [intended, Holding.need, hy] at hr; cases hr
        | some y' =>
          simp only [intended, Holding.need, hy] at hr
          cases hr
          refine ⟨h.fine b f _ h1 hy h3, ?_⟩
          intro y0 hy0
          obtain ⟨⟨z, hz⟩, _⟩ := hD.old b f y0 hy0
          rw [hy] at hz
          cases hz
          exact ⟨z, rfl⟩
      · rw [setTurn_other _ _ _ e] at hq
        exact hD.reading q r' next' hq b f y hc hr
    · intro q r' next' hq b f y hc hr
      by_cases e : q = p
      · subst e
        rw [setTurn_self] at hq
        rw [hlast] at hc
        cases hc
        cases hq
        cases hy : i.hold (.article b f) with
        | none => simp only [intended, hy] at hr; cases hr
        | some y' =>
          refine ⟨⟨q, by rw [setKen_self]; exact after_known _ _ _ _ _ _ ha.1⟩, y', [], ?_⟩
          show (intended R.c i.hold (.appendArticle b f y)).1 (.article b f) = _
          simp only [intended, hy, put_self', List.append_nil]
      · rw [setTurn_other _ _ _ e] at hq
        exact held_point h hp (hD.adding q r' next' hq b f y hc hr)
    · intro before after q b f y hpast hc
      exact held_point h hp (hD.adds before after q b f y hpast hc)
    · intro b f y0 hy0
      obtain ⟨⟨z, hz⟩, ho⟩ := hD.old b f y0 hy0
      refine ⟨?_, ?_⟩
      · show ∃ z, (intended R.c i.hold op).1 (.article b f) = some (y0 ++ z)
        rcases intended_article R.c i.hold op b f with e | ⟨e, _⟩ | ⟨x, rfl, _⟩ | ⟨x, y', rfl, h1, e⟩
        · exact ⟨z, e.trans hz⟩
        · rw [hz] at e; cases e
        · exact absurd (ho p) ha
        · rw [hz] at h1
          cases h1
          exact ⟨z ++ x, by rw [e, List.append_assoc]⟩
      · intro q
        by_cases e : q = p
        · subst e
          rw [setKen_self]
          have hk : ∀ b' f' x, (b', f') ≠ (b, f) → ((k q).keep b' f' x).own b f = none := by
            intro b' f' x hne
            rw [keep_own, if_neg (by rintro ⟨rfl, rfl⟩; exact hne rfl)]
            exact ho q
          cases op with
          | createArticle b' o d t draw fuel =>
            cases hn : freeName i.hold b' draw fuel 0 with
            | none => simp only [intended, hn, Ken.after]; exact ho q
            | some n =>
              obtain ⟨_, _, hfree⟩ := free_drawn hn
              simp only [intended, hn]
              refine hk b' n _ ?_
              intro e
              cases e
              rw [hz] at hfree
              cases hfree
          | writeArticle b' f' x =>
            refine hk b' f' _ ?_
            intro e
            cases e
            exact ha (ho q)
          | addRecord b' r =>
            show ((k q).keep b' (storedArticle R.c r).filename none).own b f = none
            rw [keep_own]
            split
            · rfl
            · exact ho q
          | appendArticle b' f' x => exact ho q
          | deleteDraft u d => exact ho q
          | readBoards =>
            obtain ⟨d, hd, _⟩ := h.boards
            simp only [intended, Holding.need, hd]
            exact ho q
          | _ => exact ho q
        · rw [setKen_other _ _ e]; exact ho q

theorem diary_run (hf : ∀ b f y x, R.fine b f y → R.adds x → R.fine b f (y ++ x)) {marks : List Mark} {i i' : Atomic}
    (hr : Atomic.Run R.c i marks i') : ∀ past k, Orderly R draft i k → Diary R m past i k →
    ∃ k', Orderly R draft i' k' ∧ Diary R m (past ++ marks.filterMap Mark.seen) i' k' := by
  induction hr with
  | nil => exact fun past k h1 h2 => ⟨k, h1, by rw [List.filterMap_nil, List.append_nil]; exact h2⟩
  | @cons _ _ _ x xs hm _ ih =>
    intro past k h1 h2
    obtain ⟨k', h1', h2'⟩ := diary_move h1 hf h2 hm
    obtain ⟨k'', h1'', h2''⟩ := ih _ k' h1' h2'
    refine ⟨k'', h1'', ?_⟩
    have e : (x :: xs).filterMap Mark.seen = x.seen.toList ++ xs.filterMap Mark.seen := by
      rw [List.filterMap_cons]
      cases x.seen <;> rfl
    rw [e, ← List.append_assoc]
    exact h2''

end

theorem diary_start {R : Rules} {m : Holding} {script : Nat → Script} : Diary R m [] (Atomic.start m script) (fun _ => Ken.blank) where
  called := fun _ _ _ h => by cases h
  reading := fun _ _ _ h => by cases h
  adding := fun _ _ _ h => by cases h
  reads := fun before after p b f y h => by simp at h
  adds := fun before after p b f y h => by simp at h
  old := fun b f y0 h => ⟨⟨[], by rw [List.append_nil]; exact h⟩, fun _ => rfl⟩

end Verif
