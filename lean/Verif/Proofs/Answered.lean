import Verif.Spec.Answered
import Verif.Proofs.Search
import Verif.Proofs.Diary
/-!
# Helper lemmas for what has been answered
-/

namespace Verif
open Spec

/-! ## Cutting a run of the ideal database -/

/-- The events of a run. -/
def seenIn (marks : List Mark) : List Event := marks.filterMap Mark.seen

theorem seenIn_point (p : Nat) (ms : List Mark) : seenIn (.point p :: ms) = seenIn ms := rfl
theorem seenIn_event (e : Event) (ms : List Mark) : seenIn (.event e :: ms) = e :: seenIn ms := rfl

/-- A run can be cut where its history is cut. -/
theorem run_cut {c : Codec} {marks : List Mark} {i i' : Atomic} (hr : Atomic.Run c i marks i') : ∀ {x y : List Event}, seenIn marks = x ++ y →
    ∃ ms1 ms2 j, Atomic.Run c i ms1 j ∧ Atomic.Run c j ms2 i' ∧ seenIn ms1 = x ∧ seenIn ms2 = y := by
  induction hr with
  | @nil s =>
    intro x y h
    obtain ⟨h1, h2⟩ := List.append_eq_nil_iff.mp h.symm
    exact ⟨[], [], s, .nil, .nil, h1.symm, h2.symm⟩
  | @cons s t u m ms hm hs ih =>
    intro x y h
    cases m with
    | point q =>
      obtain ⟨ms1, ms2, j, a, b, e1, e2⟩ := ih h
      exact ⟨_ :: ms1, ms2, j, .cons hm a, b, e1, e2⟩
    | event e =>
      rw [seenIn_event] at h
      cases x with
      | nil => exact ⟨[], _, s, .nil, .cons hm hs, rfl, by rw [seenIn_event]; exact h⟩
      | cons e' x =>
        rw [List.cons_append] at h
        injection h with h1 h2
        subst h1
        obtain ⟨ms1, ms2, j, a, b, e1, e2⟩ := ih h2
        exact ⟨_ :: ms1, ms2, j, .cons hm a, b, by rw [seenIn_event, e1], e2⟩

/-- Up to the first call there are only moments of calls. -/
theorem run_call {c : Codec} {marks : List Mark} {i i' : Atomic} (hr : Atomic.Run c i marks i') : ∀ {p : Nat} {op : Call} {y : List Event},
    seenIn marks = .call p op :: y → ∃ ms1 ms2 j next, Atomic.Run c i ms1 j ∧ seenIn ms1 = [] ∧ j.turn p = .idle (.make op next) ∧
      Atomic.Run c (j.setTurn j.hold p (.called op next)) ms2 i' ∧ seenIn ms2 = y := by
  induction hr with
  | nil => intro p op y h; cases h
  | @cons s t u m ms hm hs ih =>
    intro p op y h
    cases hm with
    | @call q op' next hq =>
      rw [seenIn_event] at h
      injection h with h1 h2
      injection h1 with h3 h4
      subst h3 h4
      exact ⟨[], ms, s, next, .nil, rfl, hq, hs, h2⟩
    | @point q op' next hq =>
      obtain ⟨ms1, ms2, j, n, a, b⟩ := ih h
      exact ⟨_ :: ms1, ms2, j, n, .cons (.point hq) a, b⟩
    | @ret q r next hq =>
      rw [seenIn_event] at h
      injection h with h1
      cases h1

/-- A client that waits for an answer that is already decided gets this answer. -/
theorem run_decided {c : Codec} {marks : List Mark} {i i' : Atomic} (hr : Atomic.Run c i marks i') : ∀ {p : Nat} {r0 r : Res Answer}
    {next : Res Answer → Script} {w y : List Event}, i.turn p = .decided r0 next → seenIn marks = w ++ .ret p r :: y → Silent p w → r = r0 := by
  induction hr with
  | nil => intro p r0 r next w y _ h; cases w <;> cases h
  | @cons s t u m ms hm hs ih =>
    intro p r0 r next w y ht h hw
    cases hm with
    | @call q op' next' hq =>
      rw [seenIn_event] at h
      cases w with
      | nil => injection h with h1; cases h1
      | cons e w =>
        injection h with h1 h2
        subst h1
        have hqp : p ≠ q := fun e => hw _ (List.mem_cons_self ..) e.symm
        exact ih (by rw [setTurn_other _ _ _ hqp]; exact ht) h2 (fun e he => hw e (List.mem_cons_of_mem _ he))
    | @point q op' next' hq =>
      have hqp : p ≠ q := by
        intro e
        subst e
        rw [hq] at ht
        cases ht
      exact ih (by rw [setTurn_other _ _ _ hqp]; exact ht) h hw
    | @ret q r' next' hq =>
      rw [seenIn_event] at h
      cases w with
      | nil =>
        injection h with h1
        cases h1
        rw [hq] at ht
        cases ht
        rfl
      | cons e w =>
        injection h with h1 h2
        subst h1
        have hqp : p ≠ q := fun e => hw _ (List.mem_cons_self ..) e.symm
        exact ih (by rw [setTurn_other _ _ _ hqp]; exact ht) h2 (fun e he => hw e (List.mem_cons_of_mem _ he))

theorem silent_cons {p : Nat} {e : Event} {ms : List Mark} (h : p ≠ clientOf e) (hs : Silent p (seenIn ms)) : Silent p (seenIn (.event e :: ms)) := by
  intro e' he
  rcases List.mem_cons.mp he with rfl | he
  · exact fun e => h e.symm
  · exact hs e' he

/-- The moment of a call that is answered. -/
theorem run_called {c : Codec} {marks : List Mark} {i i' : Atomic} (hr : Atomic.Run c i marks i') : ∀ {p : Nat} {op : Call} {r : Res Answer}
    {next : Res Answer → Script} {w y : List Event}, i.turn p = .called op next → seenIn marks = w ++ .ret p r :: y → Silent p w →
    ∃ ms1 ms2 j, (Silent p (seenIn ms1) ∧ Atomic.Run c i ms1 j) ∧ j.turn p = .called op next ∧ r = (intended c j.hold op).2 ∧
      Atomic.Run c (j.setTurn (intended c j.hold op).1 p (.decided r next)) ms2 i' := by
  induction hr with
  | nil => intro p op r next w y _ h; cases w <;> cases h
  | @cons s t u m ms hm hs ih =>
    intro p op r next w y ht h hw
    cases hm with
    | @call q op' next' hq =>
      rw [seenIn_event] at h
      cases w with
      | nil => injection h with h1; cases h1
      | cons e w =>
        injection h with h1 h2
        subst h1
        have hqp : p ≠ q := fun e => hw _ (List.mem_cons_self ..) e.symm
        obtain ⟨ms1, ms2, j, ⟨sl, a⟩, b⟩ := ih (by rw [setTurn_other _ _ _ hqp]; exact ht) h2 (fun e he => hw e (List.mem_cons_of_mem _ he))
        exact ⟨.event (.call q op') :: ms1, ms2, j, ⟨silent_cons (e := .call q op') hqp sl, .cons (.call hq) a⟩, b⟩
    | @point q op' next' hq =>
      by_cases hqp : p = q
      · subst hqp
        rw [hq] at ht
        cases ht
        have e := run_decided hs (setTurn_self _ _ _ _) h hw
        refine ⟨[], ms, s, ⟨fun _ he => (by cases he), .nil⟩, hq, e, ?_⟩
        rw [e]
        exact hs
      · obtain ⟨ms1, ms2, j, ⟨sl, a⟩, b⟩ := ih (by rw [setTurn_other _ _ _ hqp]; exact ht) h hw
        exact ⟨.point q :: ms1, ms2, j, ⟨sl, .cons (.point hq) a⟩, b⟩
    | @ret q r' next' hq =>
      rw [seenIn_event] at h
      cases w with
      | nil =>
        injection h with h1
        cases h1
        rw [hq] at ht
        cases ht
      | cons e w =>
        injection h with h1 h2
        subst h1
        have hqp : p ≠ q := fun e => hw _ (List.mem_cons_self ..) e.symm
        obtain ⟨ms1, ms2, j, ⟨sl, a⟩, b⟩ := ih (by rw [setTurn_other _ _ _ hqp]; exact ht) h2 (fun e he => hw e (List.mem_cons_of_mem _ he))
        exact ⟨.event (.ret q r') :: ms1, ms2, j, ⟨silent_cons (e := .ret q r') hqp sl, .cons (.ret hq) a⟩, b⟩

/-- A call that has been answered had its moment. -/
theorem run_answered {c : Codec} {marks : List Mark} {i i' : Atomic} (hr : Atomic.Run c i marks i') {p : Nat} {op : Call} {r : Res Answer}
    (h : Answered (seenIn marks) p op r) : ∃ ms1 ms2 j next, Atomic.Run c i ms1 j ∧ j.turn p = .called op next ∧ r = (intended c j.hold op).2 ∧
      Atomic.Run c (j.setTurn (intended c j.hold op).1 p (.decided r next)) ms2 i' := by
  obtain ⟨before, between, after, e, hw⟩ := h
  obtain ⟨ms1, ms2, j, a, b, _, e2⟩ := run_cut hr e
  obtain ⟨ms3, ms4, j', next, a', _, hc, b', e3⟩ := run_call b e2
  obtain ⟨ms5, ms6, j'', ⟨_, a''⟩, ht, hres, b''⟩ := run_called b' (setTurn_self _ _ _ _) e3 hw
  exact ⟨_, ms6, j'', next, a.append (a'.append (.cons (.call hc) a'')), ht, hres, b''⟩

/-- What a call may not change is as it was. -/
theorem unchanged_obj (c : Codec) (m : Holding) {op : Call} {o : Obj} (h : ¬ changes op o) : (intended c m op).1 o = m o := by
  cases op with
  | addBoard r => exact put_other' _ _ h
  | addRecord b r => exact put_other' _ _ h
  | writeArticle b f x => exact put_other' _ _ h
  | writeDraft u d x => exact put_other' _ _ h
  | appendArticle b f x =>
    simp only [intended]
    split
    · exact put_other' _ _ h
    · rfl
  | deleteDraft u d =>
    simp only [intended]
    split
    · exact put_other' _ _ h
    · rfl
  | createArticle b ow d t draw fuel =>
    simp only [intended]
    split
    · next n hn =>
      refine put_other' _ _ (fun e => h ?_)
      obtain ⟨j, hj, _⟩ := free_drawn hn
      exact ⟨j, by rw [e, hj]⟩
    · rfl
  | _ => rfl

/-! ## Later -/

/-- Later, lists have got longer, and what somebody has found in a list has been added to. -/
structure Advanced (R : Rules) (i : Atomic) (k : Nat → Ken) (i' : Atomic) (k' : Nat → Ken) : Prop where
  grows : Grows R i.hold i'.hold
  known : ∀ q b f, (k q).known b f → (k' q).known b f
  kept : ∀ q b f y, (k q).known b f → i.hold (.article b f) = some y → ∃ z, i'.hold (.article b f) = some (y ++ z)

theorem advanced_refl {R : Rules} (i : Atomic) (k : Nat → Ken) : Advanced R i k i k :=
  ⟨grows_refl _, fun _ _ _ h => h, fun _ _ _ y _ h => ⟨[], by rw [List.append_nil]; exact h⟩⟩

theorem advanced_trans {R : Rules} {i i' i'' : Atomic} {k k' k'' : Nat → Ken} (h : Advanced R i k i' k') (h' : Advanced R i' k' i'' k'') :
    Advanced R i k i'' k'' := by
  refine ⟨grows_trans _ _ _ h.grows h'.grows, fun q b f hk => h'.known q b f (h.known q b f hk), ?_⟩
  intro q b f y hk hy
  obtain ⟨z, hz⟩ := h.kept q b f y hk hy
  obtain ⟨z', hz'⟩ := h'.kept q b f _ (h.known q b f hk) hz
  exact ⟨z ++ z', by rw [hz', List.append_assoc]⟩

section
variable {R : Rules} {draft : Nat → Bytes → Bytes → Prop} {i : Atomic} {k : Nat → Ken}

theorem advanced_same {p : Nat} {x : Turn} : Advanced R i k (i.setTurn i.hold p x) k :=
  ⟨grows_refl _, fun _ _ _ h => h, fun _ _ _ y _ h => ⟨[], by rw [List.append_nil]; exact h⟩⟩

theorem advanced_point (h : Orderly R draft i k) (hf : ∀ b f y x, R.fine b f y → R.adds x → R.fine b f (y ++ x)) {p : Nat} {op : Call}
    {next : Res Answer → Script} (hp : i.turn p = .called op next) {t : Turn} :
    Advanced R i k (i.setTurn (intended R.c i.hold op).1 p t) (setKen k p ((k p).after R.c op (intended R.c i.hold op).2)) := by
  refine ⟨grows_point h hf hp, ?_, ?_⟩
  · intro q b f hq
    by_cases e : q = p
    · subst e; rw [setKen_self]; exact after_known _ _ _ _ _ _ hq
    · rw [setKen_other _ _ e]; exact hq
  · intro q b f y hq hy
    show ∃ z, (intended R.c i.hold op).1 (.article b f) = some (y ++ z)
    rcases intended_article R.c i.hold op b f with e | ⟨e, _⟩ | ⟨z, rfl, _⟩ | ⟨z, y', rfl, h1, e⟩
    · exact ⟨[], by rw [List.append_nil]; exact e.trans hy⟩
    · rw [hy] at e; cases e
    · have ht := h.turns p
      rw [hp] at ht
      exact absurd ((h.known q b f hq).2 p) ht.1
    · rw [hy] at h1
      cases h1
      exact ⟨z, e⟩

theorem advanced_move (h : Orderly R draft i k) (hf : ∀ b f y x, R.fine b f y → R.adds x → R.fine b f (y ++ x)) {x : Mark} {i' : Atomic}
    (hm : Atomic.Move R.c i x i') : ∃ k', Orderly R draft i' k' ∧ Advanced R i k i' k' := by
  cases hm with
  | @call p op next hp =>
    have ht := h.turns p
    rw [hp] at ht
    have := orderly_same h (p := p) (x := .called op next) rfl rfl ht
    rw [setKen_same] at this
    exact ⟨k, this, advanced_same⟩
  | @point p op next hp => exact ⟨_, orderly_point h hf hp, advanced_point h hf hp⟩
  | @ret p r next hp =>
    have ht := h.turns p
    rw [hp] at ht
    have := orderly_same h (p := p) (x := .idle (next r)) rfl rfl ht
    rw [setKen_same] at this
    exact ⟨k, this, advanced_same⟩

theorem advanced_run (hf : ∀ b f y x, R.fine b f y → R.adds x → R.fine b f (y ++ x)) {marks : List Mark} {i i' : Atomic}
    (hr : Atomic.Run R.c i marks i') : ∀ k, Orderly R draft i k → ∃ k', Orderly R draft i' k' ∧ Advanced R i k i' k' := by
  induction hr with
  | nil => exact fun k h => ⟨k, h, advanced_refl _ _⟩
  | cons hm _ ih =>
    intro k h
    obtain ⟨k', h1, l1⟩ := advanced_move h hf hm
    obtain ⟨k'', h2, l2⟩ := ih k' h1
    exact ⟨k'', h2, advanced_trans l1 l2⟩

/-- A call that has been answered had its moment, after which the database has only grown. -/
theorem advanced_answered (h : Orderly R draft i k) (hf : ∀ b f y x, R.fine b f y → R.adds x → R.fine b f (y ++ x)) {marks : List Mark} {i' : Atomic}
    (hr : Atomic.Run R.c i marks i') {p : Nat} {op : Call} {r : Res Answer} (ha : Answered (seenIn marks) p op r) :
    ∃ (j : Atomic) (kj : Nat → Ken) (next : Res Answer → Script) (k' : Nat → Ken), Orderly R draft j kj ∧ Advanced R i k j kj ∧ j.turn p = .called op next ∧
      r = (intended R.c j.hold op).2 ∧ Orderly R draft i' k' ∧
      Advanced R (j.setTurn (intended R.c j.hold op).1 p (.decided r next)) (setKen kj p ((kj p).after R.c op r)) i' k' := by
  obtain ⟨ms1, ms2, j, next, a, ht, e, b⟩ := run_answered hr ha
  obtain ⟨kj, hj, lj⟩ := advanced_run hf a k h
  have hp := orderly_point hj hf ht
  rw [← e] at hp
  obtain ⟨k', h', l'⟩ := advanced_run hf b _ hp
  exact ⟨j, kj, next, k', hj, lj, ht, e, h', l'⟩

/-- Nobody else touches the drafts of a client. -/
theorem draft_run (hf : ∀ b f y x, R.fine b f y → R.adds x → R.fine b f (y ++ x)) (hd : ∀ p q u d, p ≠ q → draft p u d → ¬ draft q u d)
    {u d x : Bytes} {p : Nat} (hp : draft p u d) {marks : List Mark} {i i' : Atomic} (hr : Atomic.Run R.c i marks i') : ∀ k, Orderly R draft i k →
    (∀ op, Event.call p op ∈ seenIn marks → ¬ changes op (.draft u d)) →
    ((∃ next, i.turn p = .called (.writeDraft u d x) next) ∨
      (i.hold (.draft u d) = some x ∧ ∀ op next, i.turn p = .called op next → ¬ changes op (.draft u d))) →
    (∃ next, i'.turn p = .called (.writeDraft u d x) next) ∨
      (i'.hold (.draft u d) = some x ∧ ∀ op next, i'.turn p = .called op next → ¬ changes op (.draft u d)) := by
  induction hr with
  | nil => exact fun _ _ _ h => h
  | @cons s t v m ms hm hs ih =>
    intro k hO hc hst
    obtain ⟨k', hO'⟩ := orderly_move hO hf hm
    refine ih k' hO' ?_ ?_
    · intro op hop
      refine hc op ?_
      cases m with
      | point q => exact hop
      | event e => rw [seenIn_event]; exact List.mem_cons_of_mem _ hop
    · cases hm with
      | @call q op next hq =>
        by_cases e : p = q
        · subst e
          rcases hst with ⟨n, hn⟩ | ⟨h1, _⟩
          · rw [hq] at hn; cases hn
          · right
            refine ⟨h1, ?_⟩
            intro op' next' h'
            rw [setTurn_self] at h'
            cases h'
            exact hc op (by rw [seenIn_event]; exact List.mem_cons_self ..)
        · rw [setTurn_other _ _ _ e]; exact hst
      | @ret q r next hq =>
        by_cases e : p = q
        · subst e
          rcases hst with ⟨n, hn⟩ | ⟨h1, _⟩
          · rw [hq] at hn; cases hn
          · right
            refine ⟨h1, ?_⟩
            intro op' next' h'
            rw [setTurn_self] at h'
            cases h'
        · rw [setTurn_other _ _ _ e]; exact hst
      | @point q op next hq =>
        by_cases e : p = q
        · subst e
          right
          refine ⟨?_, ?_⟩
          · rcases hst with ⟨n, hn⟩ | ⟨h1, h2⟩
            · rw [hq] at hn
              cases hn
              exact put_self' _ _ _
            · show (intended R.c s.hold op).1 (.draft u d) = some x
              rw [unchanged_obj R.c s.hold (h2 op next hq)]
              exact h1
          · intro op' next' h'
            rw [setTurn_self] at h'
            cases h'
        · rw [setTurn_other _ _ _ e]
          rcases hst with hst | ⟨h1, h2⟩
          · exact Or.inl hst
          · right
            refine ⟨?_, h2⟩
            show (intended R.c s.hold op).1 (.draft u d) = some x
            rw [unchanged_obj R.c s.hold]
            · exact h1
            · intro hch
              have ha := hO.turns q
              rw [hq] at ha
              have ha := ha.1
              cases op with
              | deleteDraft u' d' => cases hch; exact hd p q u d e hp ha.2
              | writeDraft u' d' z => cases hch; exact hd p q u d e hp ha.2
              | addBoard r => cases hch
              | createArticle b o d' t draw fuel => obtain ⟨_, hch⟩ := hch; cases hch
              | addRecord b r => cases hch
              | writeArticle b f z => cases hch
              | appendArticle b f z => cases hch
              | _ => exact hch.elim

end

/-! ## The search for articles -/

/-- Every article of the user in the list of a board is found. -/
theorem on_userArticles_mem {c : Codec} {m : Holding} {d : Bytes} (hd : m .boardList = some d) {rb : BoardHeader} (hb : rb ∈ boardsIn c d)
    (hs : DB.shouldSkip rb.brdName = false) {x : FileHeader} (hx : x ∈ articlesIn c ((m (.articleIndex rb.brdName)).getD [])) {user : Bytes}
    (ho : x.owner = user) {l : List UserArticle} (hl : (Prog.userArticles user).on c m = .ok l) : ⟨rb.brdName, x.title, user, x.filename⟩ ∈ l := by
  have e0 : Prog.boards.on c m = .ok (boardsIn c d) := by rw [on_boards, Holding.need, hd]; rfl
  unfold Prog.userArticles at hl
  rw [on_andThen, e0, Res.ok_bind] at hl
  revert hl l
  generalize boardsIn c d = bs at hb
  induction bs with
  | nil => cases hb
  | cons b bs ih =>
    intro l hl
    unfold Prog.userArticleLoop at hl
    split at hl
    · next hskip =>
      rcases List.mem_cons.mp hb with e | hb
      · subst e
        rw [hs] at hskip
        cases hskip
      · exact ih hb hl
    · rw [on_andThen, on_articles, Res.ok_bind, on_andThen] at hl
      obtain ⟨rest, hr, hl⟩ := bind_ok hl
      have hl := Res.ok.inj hl
      subst hl
      rcases List.mem_cons.mp hb with e | hb
      · subst e
        refine List.mem_append_left _ (List.mem_map.mpr ⟨x, List.mem_filter.mpr ⟨hx, by simpa using ho⟩, by rw [ho]⟩)
      · exact List.mem_append_right _ (ih hb hr)

theorem on_boardUserCommentLoop_mem {c : Codec} {m : Holding} {b user y : Bytes} {x : FileHeader} (hy : m (.article b x.filename) = some y) :
    ∀ {as : List FileHeader} {l : List UserComment}, x ∈ as → (Prog.boardUserCommentLoop b user as).on c m = .ok l →
      ∃ cs, articleComments b x.filename y = .ok cs ∧ ∀ cr ∈ cs, cr.owner = user → cr ∈ l := by
  intro as
  induction as with
  | nil => intro _ hx; cases hx
  | cons a as ih =>
    intro l hx hh
    unfold Prog.boardUserCommentLoop at hh
    rw [on_andThen] at hh
    obtain ⟨cs, hc, hh⟩ := bind_ok hh
    rw [on_andThen] at hh
    obtain ⟨more, hm, hh⟩ := bind_ok hh
    have hh := Res.ok.inj hh
    subst hh
    rcases List.mem_cons.mp hx with e | hx
    · subst e
      unfold Prog.articleComments at hc
      rw [on_andThen, on_article, Holding.need, hy] at hc
      exact ⟨cs, hc, fun cr h1 h2 => List.mem_append_left _ (List.mem_filter.mpr ⟨h1, by simpa using h2⟩)⟩
    · obtain ⟨cs', e, h⟩ := ih hx hm
      exact ⟨cs', e, fun cr h1 h2 => List.mem_append_right _ (h cr h1 h2)⟩

/-- Every comment of the user on an article in the list of a board is found. -/
theorem on_userComments_mem {c : Codec} {m : Holding} {d : Bytes} (hd : m .boardList = some d) {rb : BoardHeader} (hb : rb ∈ boardsIn c d)
    (hs : DB.shouldSkip rb.brdName = false) {x : FileHeader} (hx : x ∈ articlesIn c ((m (.articleIndex rb.brdName)).getD [])) {user y : Bytes}
    (hy : m (.article rb.brdName x.filename) = some y) {l : List UserComment} (hl : (Prog.userComments user).on c m = .ok l) :
    ∃ cs, articleComments rb.brdName x.filename y = .ok cs ∧ ∀ cr ∈ cs, cr.owner = user → cr ∈ l := by
  have e0 : Prog.boards.on c m = .ok (boardsIn c d) := by rw [on_boards, Holding.need, hd]; rfl
  unfold Prog.userComments at hl
  rw [on_andThen, e0, Res.ok_bind] at hl
  revert hl l
  generalize boardsIn c d = bs at hb
  induction bs with
  | nil => cases hb
  | cons b bs ih =>
    intro l hl
    unfold Prog.userCommentLoop at hl
    split at hl
    · next hskip =>
      rcases List.mem_cons.mp hb with e | hb
      · subst e
        rw [hs] at hskip
        cases hskip
      · exact ih hb hl
    · rw [on_andThen] at hl
      obtain ⟨here, hh, hl⟩ := bind_ok hl
      rw [on_andThen] at hl
      obtain ⟨rest, hr, hl⟩ := bind_ok hl
      have hl := Res.ok.inj hl
      subst hl
      rcases List.mem_cons.mp hb with e | hb
      · subst e
        unfold Prog.boardUserComments at hh
        rw [on_andThen, on_articles, Res.ok_bind] at hh
        obtain ⟨cs, e, h⟩ := on_boardUserCommentLoop_mem hy hx hh
        exact ⟨cs, e, fun cr h1 h2 => List.mem_append_left _ (h cr h1 h2)⟩
      · obtain ⟨cs, e, h⟩ := ih hb hr
        exact ⟨cs, e, fun cr h1 h2 => List.mem_append_right _ (h cr h1 h2)⟩

end Verif
