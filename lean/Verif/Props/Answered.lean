import Verif.Proofs.Answered
import Verif.Props.Search
/-!
# C131: what has been answered is found at once, though calls are always under way
-/

namespace Verif
open Spec

section
variable {db : DB} {fs : FS} {R : Rules} {draft : Nat → Bytes → Bytes → Prop} {script : Nat → Script}

/-- A history that is cut in two, on the ideal database. -/
theorem company_cut (hC : Company db fs R draft script) {sched : List (Nat × Nat)} {h1 h2 : List Event}
    (h : ((opening fs script).run db R.c sched).2 = h1 ++ h2) :
    ∃ ms1 ms2 i i', Atomic.Run R.c (Atomic.start (holdings db fs) script) ms1 i ∧ seenIn ms1 = h1 ∧ Atomic.Run R.c i ms2 i' ∧ seenIn ms2 = h2 := by
  obtain ⟨marks, s, a, e, _⟩ := C118_atomic hC sched
  obtain ⟨ms1, ms2, j, a1, a2, e1, e2⟩ := run_cut a (e.trans h)
  exact ⟨ms1, ms2, j, s, a1, e1, a2, e2⟩

/-- The board is in the list. -/
theorem board_there (hC : Company db fs R draft script) {ms : List Mark} {i : Atomic} (hr : Atomic.Run R.c (Atomic.start (holdings db fs) script) ms i)
    {b : Bytes} (hb : BoardIn db R.c fs (seenIn ms) b) : ∃ d, i.hold .boardList = some d ∧ ∃ x ∈ boardsIn R.c d, x.brdName = b := by
  have hstart := orderly_start hC.tidy hC.start hC.decent
  rcases hb with ⟨x, hx, e⟩ | ⟨q, x, ha, e⟩ | ⟨q, l, x, ha, hx, e⟩
  · obtain ⟨k, _, hg⟩ := advanced_run hC.grows hr _ hstart
    obtain ⟨d, hd, _⟩ := hC.tidy.boards
    rw [hd] at hx
    obtain ⟨d', hd', hp⟩ := hg.grows.boards d hd
    exact ⟨d', hd', x, hp.subset hx, e⟩
  · obtain ⟨j, kj, next, k, hj, _, _, _, _, hg⟩ := advanced_answered hstart hC.grows hr ha
    obtain ⟨d, hd, hl, _⟩ := hj.boards
    have e1 : (intended R.c j.hold (.addBoard x)).1 .boardList = some (d ++ x.marshal R.c) := by
      simp only [intended, hd, Option.getD_some]
      exact put_self' _ _ _
    obtain ⟨d', hd', hp⟩ := hg.grows.boards _ e1
    refine ⟨d', hd', storedBoard R.c x, hp.subset ?_, e⟩
    rw [boardsIn_append R.c hl]
    exact List.mem_append_right _ (List.mem_singleton.mpr rfl)
  · obtain ⟨j, kj, next, k, hj, _, _, hres, _, hg⟩ := advanced_answered hstart hC.grows hr ha
    obtain ⟨d, hd, _⟩ := hj.boards
    simp only [intended, Holding.need, hd, Res.ok_bind] at hres
    cases hres
    obtain ⟨d', hd', hp⟩ := hg.grows.boards d hd
    exact ⟨d', hd', x, hp.subset hx, e⟩

/-- The article is in the list. -/
theorem article_there (hC : Company db fs R draft script) {ms : List Mark} {i : Atomic} (hr : Atomic.Run R.c (Atomic.start (holdings db fs) script) ms i)
    {b : Bytes} (hb : R.placed (.articleIndex b)) {x : FileHeader} (hx : ArticleIn db R.c fs (seenIn ms) b x) :
    x ∈ articlesIn R.c ((i.hold (.articleIndex b)).getD []) := by
  have hstart := orderly_start hC.tidy hC.start hC.decent
  rcases hx with hx | ⟨q, y, ha, rfl⟩ | ⟨q, l, ha, hx⟩
  · obtain ⟨k, _, hg⟩ := advanced_run hC.grows hr _ hstart
    exact (hg.grows.lists b hb).subset hx
  · obtain ⟨j, kj, next, k, hj, _, _, _, _, hg⟩ := advanced_answered hstart hC.grows hr ha
    refine (hg.grows.lists b hb).subset ?_
    have hl : 128 ∣ ((j.hold (.articleIndex b)).getD []).length := by
      cases e : j.hold (.articleIndex b) with
      | none => exact ⟨0, rfl⟩
      | some d => exact hj.lists b d hb e
    show storedArticle R.c y ∈ articlesIn R.c ((j.hold.put (.articleIndex b) _ (.articleIndex b)).getD [])
    rw [put_self', Option.getD_some, articlesIn_append R.c hl]
    exact List.mem_append_right _ (List.mem_singleton.mpr rfl)
  · obtain ⟨j, kj, next, k, hj, _, _, hres, _, hg⟩ := advanced_answered hstart hC.grows hr ha
    cases hres
    exact (hg.grows.lists b hb).subset hx

/-- Lists are asked for only of boards that have a place. -/
theorem asked_placed {j : Atomic} {kj : Nat → Ken} (hj : Orderly R draft j kj) {p : Nat} {b : Bytes} {next : Res Answer → Script}
    (ht : j.turn p = .called (.listArticles b) next) : R.placed (.articleIndex b) := by
  have ha := hj.turns p
  rw [ht] at ha
  rcases ha.1 with ha | ha
  · exact ha
  · exact hj.met p b ha

/-- **C131, boards.** Clients that keep to the rules make calls, in any interleaving of their system calls, and some call is always under way. Whoever
reads the list of boards gets the list, and in it every board that was there at first, that anyone has been told was added, or that anyone has seen
there, before the list was asked for. -/
theorem C131_boards (hC : Company db fs R draft script) {sched : List (Nat × Nat)} {h1 h2 : List Event}
    (h : ((opening fs script).run db R.c sched).2 = h1 ++ h2) {p : Nat} {r : Res Answer} (ha : Answered h2 p .readBoards r) :
    ∃ l, r = .ok (.boards l) ∧ ∀ b, BoardIn db R.c fs h1 b → ∃ x ∈ l, x.brdName = b := by
  obtain ⟨ms1, ms2, i, i', a, e1, a', e2⟩ := company_cut hC h
  subst e1 e2
  obtain ⟨k, hO⟩ := orderly_run hC.grows a _ (orderly_start hC.tidy hC.start hC.decent)
  obtain ⟨j, kj, next, _, hj, hg, _, hres, _, _⟩ := advanced_answered hO hC.grows a' ha
  obtain ⟨d, hd, _⟩ := hj.boards
  simp only [intended, Holding.need, hd, Res.ok_bind] at hres
  refine ⟨_, hres, ?_⟩
  intro b hb
  obtain ⟨d0, hd0, x, hx, e⟩ := board_there hC a hb
  obtain ⟨d', hd', hp⟩ := hg.grows.boards d0 hd0
  rw [hd] at hd'
  cases hd'
  exact ⟨x, hp.subset hx, e⟩

/-- **C131, articles.** Whoever asks for the list of a board gets the list, and in it every article that was there at first, that anyone has been told
was put there, or that anyone has seen there, before the list was asked for. -/
theorem C131_articles (hC : Company db fs R draft script) {sched : List (Nat × Nat)} {h1 h2 : List Event}
    (h : ((opening fs script).run db R.c sched).2 = h1 ++ h2) {p : Nat} {b : Bytes} {r : Res Answer} (ha : Answered h2 p (.listArticles b) r) :
    ∃ l, r = .ok (.articles l) ∧ ∀ x, ArticleIn db R.c fs h1 b x → x ∈ l := by
  obtain ⟨ms1, ms2, i, i', a, e1, a', e2⟩ := company_cut hC h
  subst e1 e2
  obtain ⟨k, hO⟩ := orderly_run hC.grows a _ (orderly_start hC.tidy hC.start hC.decent)
  obtain ⟨j, kj, next, _, hj, hg, ht, hres, _, _⟩ := advanced_answered hO hC.grows a' ha
  have hb := asked_placed hj ht
  exact ⟨_, hres, fun x hx => (hg.grows.lists b hb).subset (article_there hC a hb hx)⟩

/-- **C131, lists only get longer.** A list that is asked for after another client got it begins with what that client got. -/
theorem C131_order (hC : Company db fs R draft script) {sched : List (Nat × Nat)} {h1 h2 : List Event}
    (h : ((opening fs script).run db R.c sched).2 = h1 ++ h2) {p q : Nat} :
    (∀ b l l', Answered h1 q (.listArticles b) (.ok (.articles l)) → Answered h2 p (.listArticles b) (.ok (.articles l')) → l <+: l') ∧
    (∀ l l', Answered h1 q .readBoards (.ok (.boards l)) → Answered h2 p .readBoards (.ok (.boards l')) → l <+: l') := by
  obtain ⟨ms1, ms2, i, i', a, e1, a', e2⟩ := company_cut hC h
  subst e1 e2
  have hstart := orderly_start hC.tidy hC.start hC.decent
  constructor
  · intro b l l' h1 h2
    obtain ⟨j, kj, next, k, hj, _, ht, hres, hO, hg⟩ := advanced_answered hstart hC.grows a h1
    obtain ⟨j', kj', next', _, _, hg', _, hres', _, _⟩ := advanced_answered hO hC.grows a' h2
    have hb := asked_placed hj ht
    cases hres
    cases hres'
    exact (hg.grows.lists b hb).trans (hg'.grows.lists b hb)
  · intro l l' h1 h2
    obtain ⟨j, kj, next, k, hj, _, ht, hres, hO, hg⟩ := advanced_answered hstart hC.grows a h1
    obtain ⟨j', kj', next', _, _, hg', _, hres', _, _⟩ := advanced_answered hO hC.grows a' h2
    obtain ⟨d, hd, _⟩ := hj.boards
    simp only [intended, Holding.need, hd, Res.ok_bind] at hres
    cases hres
    obtain ⟨d1, hd1, p1⟩ := hg.grows.boards d hd
    obtain ⟨d2, hd2, p2⟩ := hg'.grows.boards d1 hd1
    simp only [intended, Holding.need, hd2, Res.ok_bind] at hres'
    cases hres'
    exact p1.trans p2

/-- **C131, comments.** What a client has been told was added to an article is in it for everybody who opens the article afterwards. -/
theorem C131_comments (hC : Company db fs R draft script) {sched : List (Nat × Nat)} {h1 h2 : List Event}
    (h : ((opening fs script).run db R.c sched).2 = h1 ++ h2) {p q : Nat} {b f x : Bytes} {r : Res Answer}
    (ha : Answered h1 q (.appendArticle b f x) (.ok .done)) (ha' : Answered h2 p (.readArticle b f) r) :
    ∃ u v, r = .ok (.bytes (u ++ x ++ v)) := by
  obtain ⟨ms1, ms2, i, i', a, e1, a', e2⟩ := company_cut hC h
  subst e1 e2
  obtain ⟨j, kj, next, k, hj, _, ht, hres, hO, hg⟩ := advanced_answered (orderly_start hC.tidy hC.start hC.decent) hC.grows a ha
  obtain ⟨j', kj', next', _, _, hg', _, hres', _, _⟩ := advanced_answered hO hC.grows a' ha'
  have hk := hj.turns q
  rw [ht] at hk
  have hk : (kj q).known b f := hk.1.1
  cases hy : j.hold (.article b f) with
  | none => simp only [intended, hy] at hres; cases hres
  | some y =>
    have e : (intended R.c j.hold (.appendArticle b f x)).1 (.article b f) = some (y ++ x) := by
      simp only [intended, hy]
      exact put_self' _ _ _
    have hk' : (setKen kj q ((kj q).after R.c (.appendArticle b f x) (.ok .done)) q).known b f := by
      rw [setKen_self]; exact after_known _ _ _ _ _ _ hk
    obtain ⟨z, hz⟩ := hg.kept q b f _ hk' e
    obtain ⟨z', hz'⟩ := hg'.kept q b f _ (hg.known q b f hk') hz
    simp only [intended, Holding.need, hz', Res.ok_bind] at hres'
    exact ⟨y, z ++ z', by rw [hres']; simp⟩

/-- **C131, articles only get longer.** Whoever opens an article after another client has read it gets what that client got, and perhaps more. -/
theorem C131_texts (hC : Company db fs R draft script) {sched : List (Nat × Nat)} {h1 h2 : List Event}
    (h : ((opening fs script).run db R.c sched).2 = h1 ++ h2) {p q : Nat} {b f y : Bytes} {r : Res Answer}
    (ha : Answered h1 q (.readArticle b f) (.ok (.bytes y))) (ha' : Answered h2 p (.readArticle b f) r) :
    ∃ z, r = .ok (.bytes (y ++ z)) := by
  obtain ⟨ms1, ms2, i, i', a, e1, a', e2⟩ := company_cut hC h
  subst e1 e2
  obtain ⟨j, kj, next, k, hj, _, ht, hres, hO, hg⟩ := advanced_answered (orderly_start hC.tidy hC.start hC.decent) hC.grows a ha
  obtain ⟨j', kj', next', _, _, hg', _, hres', _, _⟩ := advanced_answered hO hC.grows a' ha'
  have hk := hj.turns q
  rw [ht] at hk
  have hk : (kj q).known b f := hk.1
  cases hy : j.hold (.article b f) with
  | none => simp only [intended, Holding.need, hy] at hres; cases hres
  | some y' =>
    simp only [intended, Holding.need, hy, Res.ok_bind] at hres
    cases hres
    have hk' : (setKen kj q ((kj q).after R.c (.readArticle b f) (.ok (.bytes y))) q).known b f := by
      rw [setKen_self]; exact after_known _ _ _ _ _ _ hk
    obtain ⟨z, hz⟩ := hg.kept q b f y hk' hy
    obtain ⟨z', hz'⟩ := hg'.kept q b f _ (hg.known q b f hk') hz
    simp only [intended, Holding.need, hz', Res.ok_bind] at hres'
    exact ⟨z ++ z', by rw [hres']; simp⟩

/-- **C131, drafts.** Who has written a draft and neither written nor deleted it since gets it back as it was written. -/
theorem C131_drafts (hC : Company db fs R draft script) {sched : List (Nat × Nat)} {before mid after : List Event} {p : Nat} {u d x : Bytes}
    {r : Res Answer} (h : ((opening fs script).run db R.c sched).2 = before ++ .call p (.writeDraft u d x) :: (mid ++ after))
    (hm : ∀ op, Event.call p op ∈ mid → ¬ changes op (.draft u d)) (hw : ∃ w z, after = .call p (.readDraft u d) :: (w ++ .ret p r :: z) ∧ Silent p w) :
    r = .ok (.bytes x) := by
  obtain ⟨w, z, rfl, hw⟩ := hw
  obtain ⟨ms1, ms2, i, i', a, e1, a', e2⟩ := company_cut hC h
  obtain ⟨k, hO⟩ := orderly_run hC.grows a _ (orderly_start hC.tidy hC.start hC.decent)
  -- the draft is written
  obtain ⟨ms3, ms4, i1, next, b1, _, hc1, b2, e3⟩ := run_call a' e2
  obtain ⟨k1, hO1⟩ := orderly_run hC.grows b1 _ hO
  have hd : draft p u d := by
    have := hO1.turns p
    rw [hc1] at this
    exact this.1.2
  obtain ⟨k2, hO2⟩ := orderly_move hO1 hC.grows (.call hc1)
  -- the draft is asked for
  obtain ⟨ms5, ms6, i2, b3, b4, e4, e5⟩ := run_cut b2 e3
  obtain ⟨ms7, ms8, i3, next', b5, e6, hc2, b6, e7⟩ := run_call b4 e5
  have s3 := draft_run (x := x) hC.grows hC.apart hd (b3.append b5) k2 hO2 (by
    intro op hop
    have : seenIn (ms5 ++ ms7) = mid := by unfold seenIn at *; rw [List.filterMap_append, e4, e6, List.append_nil]
    rw [this] at hop
    exact hm op hop) (Or.inl ⟨_, setTurn_self _ _ _ _⟩)
  obtain ⟨k3, hO3⟩ := orderly_run hC.grows (b3.append b5) _ hO2
  obtain ⟨k4, hO4⟩ := orderly_move hO3 hC.grows (.call hc2)
  -- it is read
  have hold3 : i3.hold (.draft u d) = some x := by
    rcases s3 with ⟨n, hn⟩ | ⟨h, _⟩
    · rw [hc2] at hn; cases hn
    · exact h
  obtain ⟨ms9, _, j, ⟨hsil, b7⟩, ht, hres, _⟩ := run_called b6 (setTurn_self _ _ _ _) e7 hw
  have s4 := draft_run (x := x) hC.grows hC.apart hd b7 k4 hO4 (fun op hop => absurd rfl (hsil _ hop)) (Or.inr ⟨hold3, by
    intro op n hn
    rw [setTurn_self] at hn
    cases hn
    exact id⟩)
  have hold4 : j.hold (.draft u d) = some x := by
    rcases s4 with ⟨n, hn⟩ | ⟨h, _⟩
    · rw [ht] at hn; cases hn
    · exact h
  rw [hres]
  simp only [intended, hold4, Option.getD_some]

/-- **C131, searches.** A client searches for the articles of a user. It does not fail, and it finds every article of this user that was in a list at
first, that anyone has been told was put there, or that anyone has seen there, before the search began, on every board for which the same is true (but
for the boards that are left out). -/
theorem C131_searches (hC : Company db fs R draft script) {sched : List (Nat × Nat)} {h1 h2 : List Event}
    (h : ((opening fs script).run db R.c sched).2 = h1 ++ h2) {user : Bytes} {p : Nat} (hs : script p = (Prog.userArticles user).script)
    (hq : ∀ op, Event.call p op ∉ h1) {r : Res (List UserArticle)} (hr : (Prog.userArticles user).after (told p h2) = some r) :
    ∃ l, r = .ok l ∧ ∀ b x, BoardIn db R.c fs h1 b → DB.shouldSkip b = false → ArticleIn db R.c fs h1 b x → x.owner = user →
      ⟨b, x.title, user, x.filename⟩ ∈ l := by
  obtain ⟨ms1, ms2, i, i', a, e1, a', e2⟩ := company_cut hC h
  subst e1 e2
  obtain ⟨k, hO⟩ := orderly_run hC.grows a _ (orderly_start hC.tidy hC.start hC.decent)
  have ht : i.turn p = .idle (Prog.userArticles user).script := by
    rw [← hs]
    exact run_still a rfl hq
  have hT : Track R.c (Grows R) p i.hold (Prog.userArticles user) (told p (seenIn ms2)) i' :=
    track_run hC.grows a' k [] hO (track_start (reader_userArticles user) ht)
  obtain ⟨m1, hy, hg⟩ := track_result hT hr
  have hi := orderly_tidy hO
  obtain ⟨lo, up⟩ := (steady_userArticles user hi).between i.hold m1 r (grows_refl _) hy
  obtain ⟨lm, hlm⟩ := on_userArticles_ok ((yields_le grows_refl grows_trans hy).tidy hi) user
  obtain ⟨l, hl, _⟩ := up lm hlm
  obtain ⟨l0, hl0, hsub⟩ := lo l hl
  refine ⟨l, hl, ?_⟩
  rintro b x hb hskip hx ho
  obtain ⟨d, hd, rb, hrb, rfl⟩ := board_there hC a hb
  obtain ⟨d', hd', _, hpl⟩ := hi.boards
  rw [hd] at hd'
  cases hd'
  exact hsub.subset (on_userArticles_mem hd hrb hskip (article_there hC a (hpl rb hrb) hx) ho hl0)

/-- **C131, searches for comments.** If articles never have an unfinished line at their end, a search for the comments of a user that succeeds finds
every comment of this user that anyone has read before it began, and every one in what anyone has been told was added before it began: `u` is what was
in the article then. -/
theorem C131_pushes (hC : Company db fs R draft script) (hend : ∀ b f y, R.fine b f y → Ended y) {sched : List (Nat × Nat)} {h1 h2 : List Event}
    (h : ((opening fs script).run db R.c sched).2 = h1 ++ h2) {user : Bytes} {p : Nat} (hs : script p = (Prog.userComments user).script)
    (hq : ∀ op, Event.call p op ∉ h1) {l : List UserComment} (hr : (Prog.userComments user).after (told p h2) = some (.ok l)) {b : Bytes} {x : FileHeader}
    (hb : BoardIn db R.c fs h1 b) (hskip : DB.shouldSkip b = false) (hx : ArticleIn db R.c fs h1 b x) :
    (∀ q y, Answered h1 q (.readArticle b x.filename) (.ok (.bytes y)) →
      ∃ cs, articleComments b x.filename y = .ok cs ∧ ∀ cr ∈ cs, cr.owner = user → cr ∈ l) ∧
    ∀ q z, Answered h1 q (.appendArticle b x.filename z) (.ok .done) →
      ∃ u cs, articleComments b x.filename (u ++ z) = .ok cs ∧ ∀ cr ∈ cs, cr.owner = user → cr ∈ l := by
  obtain ⟨ms1, ms2, i, i', a, e1, a', e2⟩ := company_cut hC h
  subst e1 e2
  have hstart := orderly_start hC.tidy hC.start hC.decent
  obtain ⟨k, hO⟩ := orderly_run hC.grows a _ hstart
  have ht : i.turn p = .idle (Prog.userComments user).script := by
    rw [← hs]
    exact run_still a rfl hq
  have hT : Track R.c (Grows R) p i.hold (Prog.userComments user) (told p (seenIn ms2)) i' :=
    track_run hC.grows a' k [] hO (track_start (reader_userComments user) ht)
  obtain ⟨m1, hy, hg⟩ := track_result hT hr
  have hi := orderly_tidy hO
  obtain ⟨lo, _⟩ := (steady_userComments hend user hi).between i.hold m1 _ (grows_refl _) hy
  obtain ⟨l0, hl0, hsub⟩ := lo l rfl
  obtain ⟨d, hd, rb, hrb, rfl⟩ := board_there hC a hb
  obtain ⟨d', hd', _, hpl⟩ := hi.boards
  rw [hd] at hd'
  cases hd'
  have hxi := article_there hC a (hpl rb hrb) hx
  -- what an article held when it had no unfinished line at its end is found
  have key : ∀ y w, Ended y → i.hold (.article rb.brdName x.filename) = some (y ++ w) →
      ∃ cs, articleComments rb.brdName x.filename y = .ok cs ∧ ∀ cr ∈ cs, cr.owner = user → cr ∈ l := by
    intro y w he hyw
    obtain ⟨cs, hcs, hall⟩ := on_userComments_mem hd hrb hskip hxi hyw hl0
    obtain ⟨cs0, hcs0, hs0⟩ := comments_grow rb.brdName x.filename y w (Or.inr he) cs hcs
    exact ⟨cs0, hcs0, fun cr h1 h2 => hsub.subset (hall cr (hs0.subset h1) h2)⟩
  constructor
  · intro q y hqy
    obtain ⟨j, kj, next, k', hj, _, htj, hres, _, hgj⟩ := advanced_answered hstart hC.grows a hqy
    have hk := hj.turns q
    rw [htj] at hk
    have hk : (kj q).known rb.brdName x.filename := hk.1
    cases hy : j.hold (.article rb.brdName x.filename) with
    | none => simp only [intended, Holding.need, hy] at hres; cases hres
    | some y' =>
      simp only [intended, Holding.need, hy, Res.ok_bind] at hres
      cases hres
      have hk' : (setKen kj q ((kj q).after R.c (.readArticle rb.brdName x.filename) (.ok (.bytes y))) q).known rb.brdName x.filename := by
        rw [setKen_self]; exact after_known _ _ _ _ _ _ hk
      obtain ⟨w, hw⟩ := hgj.kept q _ _ y hk' hy
      have ho := hj.known q _ _ hk
      exact key y w (hend _ _ _ (hj.fine _ _ y ho.1.1 hy ho.2)) hw
  · intro q z hqz
    obtain ⟨j, kj, next, k', hj, _, htj, hres, _, hgj⟩ := advanced_answered hstart hC.grows a hqz
    have hj1 := orderly_point hj hC.grows htj
    rw [← hres] at hj1
    have hk := hj.turns q
    rw [htj] at hk
    have hk : (kj q).known rb.brdName x.filename := hk.1.1
    cases hy : j.hold (.article rb.brdName x.filename) with
    | none => simp only [intended, hy] at hres; cases hres
    | some y =>
      have e : (intended R.c j.hold (.appendArticle rb.brdName x.filename z)).1 (.article rb.brdName x.filename) = some (y ++ z) := by
        simp only [intended, hy]
        exact put_self' _ _ _
      have hk' : (setKen kj q ((kj q).after R.c (.appendArticle rb.brdName x.filename z) (.ok .done)) q).known rb.brdName x.filename := by
        rw [setKen_self]; exact after_known _ _ _ _ _ _ hk
      obtain ⟨w, hw⟩ := hgj.kept q _ _ _ hk' e
      have ho := hj1.known q _ _ hk'
      exact ⟨y, key (y ++ z) w (hend _ _ _ (hj1.fine _ _ _ ho.1.1 e ho.2)) hw⟩

end

/-! ## Examples: the database with a board, an article and a comment -/

theorem answered_at {h : List Event} {n p : Nat} {op : Call} {r : Res Answer} (h1 : h[n]? = some (.call p op)) (h2 : h[n + 1]? = some (.ret p r)) :
    Answered h p op r := by
  refine ⟨h.take n, [], h.drop (n + 2), ?_, fun _ he => by cases he⟩
  obtain ⟨l1, e1⟩ := List.getElem?_eq_some_iff.mp h1
  obtain ⟨l2, e2⟩ := List.getElem?_eq_some_iff.mp h2
  rw [List.nil_append, ← e1, ← e2, List.getElem_cons_drop, List.getElem_cons_drop, List.take_append_drop]

/-- The record that is put into the list, and the success that is told. -/
def recordPut : Event → Option (Nat × Bytes × FileHeader)
  | .call p (.addRecord b r) => some (p, b, r)
  | _ => none

theorem recordPut_eq {e : Event} {p : Nat} {b : Bytes} {r : FileHeader} (h : recordPut e = some (p, b, r)) : e = .call p (.addRecord b r) := by
  unfold recordPut at h
  split at h
  · cases h; rfl
  · cases h

/-- One client posts, the other one searches. -/
def shelfHistory (n : Nat) : List Event :=
  ((opening (shelfFS firstPush) (shelfScript .stop (Prog.userArticles (ascii "Ab")).script)).run sampleDB asciiCodec
    (List.replicate 20 (0, 0) ++ List.replicate n (2, 0))).2

/-- The hypotheses of the theorem on searches, and of the one on lists: the new article has been put into the list before the search begins. -/
example : ∃ h1 h2, shelfHistory 40 = h1 ++ h2 ∧ (∀ op, Event.call 2 op ∉ h1) ∧
    BoardIn sampleDB asciiCodec (shelfFS firstPush) h1 (ascii "S") ∧
    ArticleIn sampleDB asciiCodec (shelfFS firstPush) h1 (ascii "S") (storedArticle asciiCodec (shelfPost.record newName)) ∧
    (Prog.userArticles (ascii "Ab")).after (told 2 h2) =
      some (.ok [⟨ascii "S", ascii "old", ascii "Ab", shelfName⟩, ⟨ascii "S", ascii "hi", ascii "Ab", newName⟩]) := by
  refine ⟨(shelfHistory 40).take 6, (shelfHistory 40).drop 6, (List.take_append_drop ..).symm, ?_, Or.inl ?_, Or.inr (Or.inl ⟨0, _, ?_, rfl⟩), ?_⟩
  · have : ∀ e ∈ (shelfHistory 40).take 6, clientOf e = 0 := by decide +kernel
    intro op hop
    cases this _ hop
  · have e : (boardsIn asciiCodec ((holdings sampleDB (shelfFS firstPush) .boardList).getD [])).map (·.brdName) = [ascii "S"] := by decide +kernel
    have : ascii "S" ∈ (boardsIn asciiCodec ((holdings sampleDB (shelfFS firstPush) .boardList).getD [])).map (·.brdName) := by
      rw [e]; exact List.mem_singleton.mpr rfl
    obtain ⟨x, hx, e⟩ := List.mem_map.mp this
    exact ⟨x, hx, e⟩
  · have e1 : ((shelfHistory 40).take 6)[4]?.bind recordPut = some (0, ascii "S", shelfPost.record newName) := by decide +kernel
    have e2 : ((shelfHistory 40).take 6)[5]?.bind wentWell = some 0 := by decide +kernel
    obtain ⟨x, hx, e1⟩ := Option.bind_eq_some_iff.mp e1
    obtain ⟨y, hy, e2⟩ := Option.bind_eq_some_iff.mp e2
    rw [recordPut_eq e1] at hx
    rw [wentWell_eq e2] at hy
    exact answered_at hx hy
  · decide +kernel

/-- One client comments on the article, the other one reads it. -/
def pushHistory : List Event :=
  ((opening (shelfFS firstPush) (shelfScript (comment (ascii "S") secondPush) (visit (ascii "S")))).run sampleDB asciiCodec
    (List.replicate 20 (1, 0) ++ List.replicate 60 (2, 0))).2

/-- The hypotheses of the theorem on comments. -/
example : ∃ h1 h2, pushHistory = h1 ++ h2 ∧ Answered h1 1 (.appendArticle (ascii "S") shelfName secondPush) (.ok .done) ∧
    Answered h2 2 (.readArticle (ascii "S") shelfName) (.ok (.bytes (firstPush ++ secondPush))) := by
  refine ⟨pushHistory.take 4, pushHistory.drop 4, (List.take_append_drop ..).symm, ?_, ?_⟩
  · have e1 : ((pushHistory.take 4)[2]?.bind fun e => match e with
        | .call p (.appendArticle b f x) => some (p, b, f, x)
        | _ => none) = some (1, ascii "S", shelfName, secondPush) := by decide +kernel
    have e2 : (pushHistory.take 4)[3]?.bind wentWell = some 1 := by decide +kernel
    obtain ⟨x, hx, e1⟩ := Option.bind_eq_some_iff.mp e1
    obtain ⟨y, hy, e2⟩ := Option.bind_eq_some_iff.mp e2
    split at e1
    · cases e1
      rw [wentWell_eq e2] at hy
      exact answered_at hx hy
    · cases e1
  · have e1 : ((pushHistory.drop 4)[2]?.bind fun e => match e with
        | .call p (.readArticle b f) => some (p, b, f)
        | _ => none) = some (2, ascii "S", shelfName) := by decide +kernel
    have e2 : (pushHistory.drop 4)[3]?.bind readBack = some (2, firstPush ++ secondPush) := by decide +kernel
    obtain ⟨x, hx, e1⟩ := Option.bind_eq_some_iff.mp e1
    obtain ⟨y, hy, e2⟩ := Option.bind_eq_some_iff.mp e2
    split at e1
    · cases e1
      rw [readBack_eq e2] at hy
      exact answered_at hx hy
    · cases e1

/-- A client writes a draft, looks at a board and reads its draft. -/
def draftScript : Nat → Script
  | 0 => .make (.writeDraft (ascii "Ab") (ascii "1") (ascii "x")) fun _ => .make (.listArticles (ascii "S")) fun _ =>
      .make (.readDraft (ascii "Ab") (ascii "1")) fun _ => .stop
  | _ => .stop

/-- The hypotheses of the theorem on drafts. -/
example : Company sampleDB sceneFS (sceneRules sampleDB asciiCodec sceneFS fun _ => none)
    (fun p u d => p = 0 ∧ u = ascii "Ab" ∧ d = ascii "1") draftScript where
  placed := fun _ h => h
  tidy := ⟨⟨[], by decide +kernel, ⟨0, rfl⟩, fun _ h => by cases h⟩, fun b d _ h => by rw [scene_empty] at h; (cases h),
    fun b d _ h => by rw [scene_empty] at h; cases h⟩
  grows := by
    rintro b f y x (⟨y0, h1, h2⟩ | ⟨_, _, h, _⟩) _
    · exact Or.inl ⟨y0, h1, h2.trans (List.prefix_append _ _)⟩
    · cases h
  start := fun b f y _ h => Or.inl ⟨y, h, List.prefix_refl _⟩
  decent := by
    intro p
    match p with
    | 0 =>
      have hd : Placed sampleDB sceneFS (.draft (ascii "Ab") (ascii "1")) := placed_set sample_placed.2.2.1 sample_placed.1 _
      exact ⟨⟨hd, rfl, rfl, rfl⟩, fun _ => ⟨Or.inl scene_placed.1, fun _ => ⟨⟨hd, rfl, rfl, rfl⟩, fun _ => trivial⟩⟩⟩
    | _ + 1 => trivial
  apart := fun p q u d h h1 h2 => h (h1.1.trans h2.1.symm)

/-- The client gets its draft back. -/
example : (((opening sceneFS draftScript).run sampleDB asciiCodec (List.replicate 30 (0, 0))).2[5]?).bind readBack = some (0, ascii "x") := by
  decide +kernel

/-- The hypotheses of the theorem on searches for comments: a comment has been added before the search begins, and is found. -/
example : ∃ h1 h2, ((opening (shelfFS (firstPush ++ [10])) (shelfScript (comment (ascii "S") secondPush) (Prog.userComments (ascii "BB")).script)).run
      sampleDB asciiCodec (List.replicate 20 (1, 0) ++ List.replicate 90 (2, 0))).2 = h1 ++ h2 ∧ (∀ e ∈ h1, clientOf e = 1) ∧
    (Prog.userComments (ascii "BB")).after (told 2 h2) =
      some (.ok [⟨2, ⟨0, 11, 16, 12, 35, 0⟩, ascii "BB", ascii "S", shelfName, ascii "ho"⟩]) :=
  ⟨_, _, (List.take_append_drop 4 _).symm, by decide +kernel, by decide +kernel⟩

end Verif
