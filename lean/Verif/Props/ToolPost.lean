import Verif.Proofs.ToolPost
import Verif.Props.Decent
/-!
# C133: articles posted the way the tool does it
-/

namespace Verif
open Spec

theorem alike_opening {fs : FS} {script : Nat → Script} {who : Nat → Bool} (h : ∀ p, who p = true → Looker (script p)) :
    Alike who (opening fs script) (opening fs (without who script)) := by
  refine ⟨rfl, ?_, ?_⟩
  · intro p hp
    show Session.idle (script p) = .idle (without who script p)
    unfold without
    rw [hp]
    rfl
  · intro p hp
    refine ⟨h p hp, ?_⟩
    show Session.idle (without who script p) = .idle .stop
    unfold without
    rw [if_pos hp]

/-- **C133, readers leave no trace.** Whatever clients that only read do: the disk, the other clients and what these are told are the same as without
them, at every moment of every interleaving. -/
theorem C133_readers_leave_no_trace (db : DB) (c : Codec) (fs : FS) (script : Nat → Script) (who : Nat → Bool)
    (h : ∀ p, who p = true → Looker (script p)) (sched : List (Nat × Nat)) :
    ((opening fs script).run db c sched).1.fs = ((opening fs (without who script)).run db c sched).1.fs ∧
    (∀ p, who p = false → ((opening fs script).run db c sched).1.sessions p = ((opening fs (without who script)).run db c sched).1.sessions p) ∧
    ((opening fs script).run db c sched).2.filter (fun e => !who (ofClient e)) = ((opening fs (without who script)).run db c sched).2 := by
  obtain ⟨h1, h2⟩ := alike_run db c sched (alike_opening h)
  exact ⟨h1.fs, h1.same, h2⟩

/-- Without the readers the clients do not race. -/
theorem tool_race_free {db : DB} {c : Codec} {fs : FS} {posts : Nat → Option Post} {script : Nat → Script} (hS : ToolScene db c fs posts script)
    (hq : ∀ p, posts p = none → Remarks (Placed db fs) (script p) fun _ _ => False) :
    RaceFree c (holdings db fs) script ∧ AllPlaced db c fs script := by
  have hb : ∀ p P, posts p = some P → _ := fun p P hP => (hS.posters p P hP).2
  obtain ⟨h1, h2⟩ := tool_start (m := holdings db fs) hS.lists (fun p P hP => (hS.posters p P hP).1) hq
  constructor
  · rintro s ⟨marks, hr⟩ p q op op' next next' hpq hp hq
    obtain ⟨k, name, order, fin, hL, _⟩ := tool_run hb hr [] _ _ _ _ h1 h2
    exact tool_calm hL (fun p P hP => (hb p P hP).1) hp hq
  · rintro s ⟨marks, hr⟩ p op next hp o ho
    obtain ⟨k, name, order, fin, hL, _⟩ := tool_run hb hr [] _ _ _ _ h1 h2
    exact tool_placed hL hb hp o ho

/-- The readers can be left out. -/
theorem tool_erased {db : DB} {c : Codec} {fs : FS} {posts : Nat → Option Post} {script : Nat → Script} (hS : ToolScene db c fs posts script) :
    ∃ who : Nat → Bool, (∀ p, who p = true ↔ posts p = none ∧ Looker (script p)) ∧ ToolScene db c fs posts (without who script) ∧
      ∀ p, posts p = none → Remarks (Placed db fs) (without who script p) fun _ _ => False := by
  classical
  have hex : ∃ who : Nat → Bool, ∀ p, who p = true ↔ posts p = none ∧ Looker (script p) :=
    ⟨fun p => decide (posts p = none ∧ Looker (script p)), fun p => by simp⟩
  obtain ⟨who, hwho⟩ := hex
  refine ⟨who, hwho, ⟨hS.lists, ?_, ?_⟩, ?_⟩
  · intro p P hP
    obtain ⟨h1, h2⟩ := hS.posters p P hP
    refine ⟨?_, h2⟩
    unfold without
    rw [if_neg]
    · exact h1
    · intro hp
      rw [((hwho p).mp hp).1] at hP
      cases hP
  · intro p hp
    unfold without
    split
    · exact Or.inl trivial
    · exact hS.guests p hp
  · intro p hp
    unfold without
    split
    · trivial
    · next h => exact (hS.guests p hp).resolve_left (fun hl => h ((hwho p).mpr ⟨hp, hl⟩))

/-- What is known of the disk when nothing that changes it is under way. -/
theorem tool_settled {db : DB} {c : Codec} {fs : FS} {posts : Nat → Option Post} {script : Nat → Script} (hS : ToolScene db c fs posts script)
    (sched : List (Nat × Nat)) (hidle : ∀ p, Looker (script p) ∨ ∃ s, ((opening fs script).run db c sched).1.sessions p = .idle s) :
    ∃ (who : Nat → Bool) (s : Atomic) (k : Nat → Bytes → Bytes → Prop) (name : Nat → Option Bytes) (order fin : List Nat),
      (∀ p, who p = true → posts p = none ∧ Looker (script p)) ∧
      ToolLedger c (Placed db fs) posts (holdings db fs)
        (((opening fs script).run db c sched).2.filter (fun e => !who (ofClient e))) s k name order fin ∧
      ToolDiary posts (holdings db fs) (((opening fs script).run db c sched).2.filter (fun e => !who (ofClient e))) s name fin ∧
      (∀ p x, who p = false → (((opening fs script).run db c sched).1.sessions p = .idle x ↔ s.turn p = .idle x)) ∧
      ∀ o, Placed db fs o → fileAt ((opening fs script).run db c sched).1.fs (at_ db o) = s.hold o := by
  obtain ⟨who, hwho, hS', hrem⟩ := tool_erased hS
  have hlook : ∀ p, who p = true → Looker (script p) := fun p hp => ((hwho p).mp hp).2
  obtain ⟨e1, e2, e3⟩ := C133_readers_leave_no_trace db c fs script who hlook sched
  obtain ⟨r1, r2⟩ := tool_race_free hS' hrem
  obtain ⟨marks, s, h1, h2, h3, h4⟩ := C117_race_free db c fs (without who script) sched r1 r2
  obtain ⟨l1, l2⟩ := tool_start (m := holdings db fs) hS'.lists (fun p P hP => (hS'.posters p P hP).1) hrem
  obtain ⟨k, name, order, fin, hL, hD⟩ := tool_run (fun p P hP => (hS.posters p P hP).2) h1 [] _ _ _ _ l1 l2
  rw [List.nil_append, h2, ← e3] at hL hD
  refine ⟨who, s, k, name, order, fin, fun p hp => (hwho p).mp hp, hL, hD, ?_, ?_⟩
  · intro p x hp
    rw [e2 p hp]
    exact h3 p x
  · intro o ho
    rw [e1]
    refine h4 ?_ o ho
    intro p
    cases hp : who p with
    | false =>
      rw [← e2 p hp]
      cases hidle p with
      | inr h => exact h
      | inl hl =>
        cases hP : posts p with
        | some P =>
          rw [(hS.posters p P hP).1] at hl
          exact hl.1.elim
        | none =>
          rw [(hwho p).mpr ⟨hP, hl⟩] at hp
          cases hp
    | true => exact ⟨_, ((alike_run db c sched (alike_opening hlook)).1.looks p hp).2⟩

/-- **C133, what the tool posts arrives.** Any number of clients post articles the way the tool does it, others comment, and others read, in any
interleaving of their system calls. -/
theorem C133_tool_posts_arrive {db : DB} {c : Codec} {fs : FS} {posts : Nat → Option Post} {script : Nat → Script} (hS : ToolScene db c fs posts script)
    (sched : List (Nat × Nat)) (hidle : ∀ p, Looker (script p) ∨ ∃ s, ((opening fs script).run db c sched).1.sessions p = .idle s) :
    ToolPostsArrive db c fs posts ((opening fs script).run db c sched).1 ((opening fs script).run db c sched).2 := by
  obtain ⟨who, s, k, name, order, fin, hwho, hL, _, hturn, content⟩ := tool_settled hS sched hidle
  generalize hev : ((opening fs script).run db c sched).2 = ev at hL ⊢
  generalize hst : ((opening fs script).run db c sched).1 = st at hturn content hidle ⊢
  have hposter : ∀ p P, posts p = some P → who p = false := by
    intro p P hP
    cases hp : who p with
    | false => rfl
    | true => rw [(hwho p hp).1] at hP; cases hP
  have seen : ∀ p r, who p = false → (.ret p r ∈ ev.filter (fun e => !who (ofClient e)) ↔ .ret p r ∈ ev) := by
    intro p r hp
    rw [List.mem_filter]
    simp [ofClient, hp]
  have idle : ∀ p P, posts p = some P → ∃ x, st.sessions p = .idle x := by
    intro p P hP
    refine (hidle p).resolve_left fun hl => ?_
    rw [(hS.posters p P hP).1] at hl
    exact hl.1
  have hd : ∀ p P, posts p = some P → ∀ j, -2 ^ 63 ≤ (P.draw j).1 ∧ (P.draw j).1 < 2 ^ 63 := fun p P hP j => ((hS.posters p P hP).2.2 j).2
  have named : ∀ p ∈ order, ∀ P, posts p = some P → name p = some ((name p).getD []) := by
    intro p hp P hP
    have hs := hL.stages p P hP
    cases hn : name p with
    | some n => rfl
    | none =>
      rw [hn] at hs
      generalize ht : s.turn p = t at hs
      cases hs with
      | idle0 hl => exact absurd hp hl
      | called0 hl => exact absurd hp hl
      | failed hl => exact absurd hp hl
      | gone hl _ => exact absurd hp hl
  refine ⟨order, fun p => (name p).getD [], hL.nodup, ?_, ?_, ?_, ?_, ?_⟩
  · intro p
    have hboth : ∀ P, posts p = some P → (p ∈ order ↔ .ret p (.ok .done) ∈ ev) := by
      intro P hP
      obtain ⟨x, hx⟩ := idle p P hP
      have hs := hL.stages p P hP
      rw [(hturn p x (hposter p P hP)).mp hx] at hs
      rw [seen p _ (hposter p P hP), seen p _ (hposter p P hP)] at hs
      generalize hn : name p = nm at hs
      generalize ht : Turn.idle x = t at hs
      cases hs with
      | idle0 hl hd => exact ⟨fun h => absurd h hl, fun h => absurd h hd⟩
      | gone hl hd => exact ⟨fun h => absurd h hl, fun h => absurd h hd⟩
      | idle1 hl hd => exact ⟨fun h => absurd h hl, fun h => absurd h hd⟩
      | idle2 hl _ hd => exact ⟨fun _ => hd, fun _ => hl⟩
      | idle3 hl _ hd => exact ⟨fun _ => hd, fun _ => hl⟩
      | _ => cases ht
    constructor
    · intro hp
      refine ⟨hL.only p hp, ?_⟩
      cases hP : posts p with
      | none => exact absurd hP (hL.only p hp)
      | some P => exact (hboth P hP).mp hp
    · rintro ⟨hne, hr⟩
      obtain ⟨P, hP⟩ := Option.ne_none_iff_exists'.mp hne
      exact (hboth P hP).mpr hr
  · intro p P hP hsess hret
    have hs := hL.stages p P hP
    rw [(hturn p _ (hposter p P hP)).mp hsess, seen p _ (hposter p P hP)] at hs
    generalize hn : name p = nm at hs
    generalize ht : Turn.idle Script.stop = t at hs
    cases hs with
    | gone hl _ hg => exact absurd hg hret
    | idle3 hl => exact hl
    | _ => cases ht
  · intro b hpl
    rw [content _ hpl]
    refine (hL.lists b hpl).trans ?_
    congr 1
    refine filterMap_same fun p hp => ?_
    cases hP : posts p with
    | none => exact absurd hP (hL.only p hp)
    | some P =>
      unfold entry
      rw [hP, named p hp P hP]
      rfl
  · intro p hp P hP
    have hn := named p hp P hP
    obtain ⟨j, hj⟩ := hL.drawn p P _ hP hn
    refine ⟨stored_name ⟨j, hj⟩ (hd p P hP), hL.fresh p P _ hP hn, ?_, ?_⟩
    · intro q hq Q hQ hpq hbd e
      have e : (name p).getD [] = (name q).getD [] := e
      refine hL.apart p q P Q _ hpq hP hQ hbd hn ?_
      rw [named q hq Q hQ, ← e]
    · rw [content (.article P.board ((name p).getD [])) (by rw [hj]; exact ((hS.posters p P hP).2.2 j).1)]
      obtain ⟨y, hy⟩ := Option.ne_none_iff_exists'.mp (hL.there p P _ hP hn)
      refine ⟨y, hy, ?_⟩
      intro hsess
      have hs := hL.stages p P hP
      rw [(hturn p _ (hposter p P hP)).mp hsess] at hs
      have hfin : p ∈ fin := by
        generalize name p = nm at hs
        generalize ht : Turn.idle Script.stop = t at hs
        cases hs with
        | gone hl => exact absurd hp hl
        | idle3 _ hw => exact hw
        | _ => cases ht
      obtain ⟨z, hz⟩ := hL.texts p hfin P _ hP hn
      rw [hz] at hy
      cases hy
      exact List.prefix_append _ _
  · intro b f y0 hpl hy0
    obtain ⟨z, hz⟩ := hL.old b f y0 hy0
    exact ⟨z, by rw [content _ hpl]; exact hz⟩

/-! ## Comments -/

theorem lastCall_filter {who : Nat → Bool} {p : Nat} (hp : who p = false) (h : List Event) :
    lastCall p (h.filter fun e => !who (ofClient e)) = lastCall p h := by
  have go : ∀ (l h h' : List Event), lastCall p h = lastCall p h' → lastCall p (h ++ l.filter fun e => !who (ofClient e)) = lastCall p (h' ++ l) := by
    intro l
    induction l with
    | nil => intro h h' e; rw [List.filter_nil, List.append_nil, List.append_nil]; exact e
    | cons e l ih =>
      intro h h' hh
      rw [show h' ++ e :: l = (h' ++ [e]) ++ l by simp, List.filter_cons]
      split
      · rw [show h ++ e :: l.filter (fun e => !who (ofClient e)) = (h ++ [e]) ++ l.filter (fun e => !who (ofClient e)) by simp]
        refine ih _ _ ?_
        rw [lastCall_append, lastCall_append, hh]
      · next hw =>
        refine ih _ _ ?_
        rw [lastCall_append]
        cases e with
        | ret q r => exact hh
        | call q op =>
          have : q ≠ p := by rintro rfl; exact hw (by simp [ofClient, hp])
          exact hh.trans (if_neg this).symm
  exact go h [] [] rfl

/-- Clients that only read make no other calls. -/
theorem looker_calls (db : DB) (c : Codec) {p : Nat} (sched : List (Nat × Nat)) : ∀ s : House, LookerSession (s.sessions p) →
    ∀ op, .call p op ∈ (s.run db c sched).2 → onlyReads op := by
  induction sched with
  | nil => intro s _ op h; cases h
  | cons x sched ih =>
    intro s hs op h
    have hstep : LookerSession ((s.step db c x.1 x.2).1.sessions p) ∧ (.call p op ∈ (s.step db c x.1 x.2).2 → onlyReads op) := by
      by_cases e : p = x.1
      · subst e
        cases hx : s.sessions x.1 with
        | idle t =>
          rw [hx] at hs
          cases t with
          | stop => simp only [House.step, hx]; exact ⟨trivial, fun h => by cases h⟩
          | make op' next =>
            simp only [House.step, hx]
            refine ⟨?_, ?_⟩
            · rw [setSession_at]; exact ⟨looks_start db c hs.1, hs.2⟩
            · intro h
              rw [List.mem_singleton] at h
              cases h
              exact hs.1
        | busy j next =>
          rw [hx] at hs
          have hj := looks_step (cwd := db.cwd) (fs := s.fs) hs.1 x.2
          cases j with
          | done r =>
            simp only [House.step, hx]
            exact ⟨by rw [setSession_at]; exact hs.2 r, fun h => by simp at h⟩
          | _ =>
            simp only [House.step, hx]
            exact ⟨by rw [setSession_at]; exact ⟨hj.2, hs.2⟩, fun h => by cases h⟩
      · cases hx : s.sessions x.1 with
        | idle t =>
          cases t with
          | stop => simp only [House.step, hx]; exact ⟨hs, fun h => by cases h⟩
          | make op' next =>
            simp only [House.step, hx]
            exact ⟨by rw [setSession_off _ _ _ e]; exact hs, fun h => by rw [List.mem_singleton] at h; cases h; exact absurd rfl e⟩
        | busy j next =>
          cases j with
          | done r =>
            simp only [House.step, hx]
            exact ⟨by rw [setSession_off _ _ _ e]; exact hs, fun h => by simp at h⟩
          | _ =>
            simp only [House.step, hx]
            exact ⟨by rw [setSession_off _ _ _ e]; exact hs, fun h => by cases h⟩
    rcases List.mem_append.mp h with h | h
    · exact hstep.2 h
    · exact ih _ hstep.1 op h

theorem lastCall_mem {p : Nat} {op : Call} {h : List Event} (hl : lastCall p h = some op) : .call p op ∈ h := by
  have go : ∀ (l h : List Event), lastCall p (h ++ l) = some op → lastCall p h = some op ∨ .call p op ∈ l := by
    intro l
    induction l with
    | nil => intro h e; rw [List.append_nil] at e; exact Or.inl e
    | cons e l ih =>
      intro h hh
      rw [show h ++ e :: l = (h ++ [e]) ++ l by simp] at hh
      rcases ih _ hh with h1 | h1
      · rw [lastCall_append] at h1
        cases e with
        | ret q r => exact Or.inl h1
        | call q op' =>
          by_cases e : q = p
          · subst e
            have h1 : (if q = q then some op' else lastCall q h) = some op := h1
            rw [if_pos rfl] at h1
            cases h1
            exact Or.inr List.mem_cons_self
          · exact Or.inl ((if_neg e).symm.trans h1)
      · exact Or.inr (List.mem_cons_of_mem _ h1)
  rcases go h [] hl with h1 | h1
  · cases h1
  · exact h1

/-- A comment on a finished article is kept by the ideal database. -/
theorem tool_kept {db : DB} {c : Codec} {fs : FS} {posts : Nat → Option Post} {script : Nat → Script} (sched : List (Nat × Nat)) {who : Nat → Bool} {s : Atomic} {name : Nat → Option Bytes} {fin : List Nat}
    (hwho : ∀ p, who p = true → posts p = none ∧ Looker (script p))
    (hD : ToolDiary posts (holdings db fs) (((opening fs script).run db c sched).2.filter (fun e => !who (ofClient e))) s name fin)
    {h0 h1 h2 : List Event} {p : Nat} {b f x : Bytes}
    (h : ((opening fs script).run db c sched).2 = h0 ++ .call p (.appendArticle b f x) :: h1 ++ .ret p (.ok .done) :: h2)
    (hno : ∀ op, .call p op ∉ h1) (hf : Finished (holdings db fs) h0 b f) :
    ∃ u v, s.hold (.article b f) = some (u ++ x ++ v) ∧ Safe posts (holdings db fs) name fin b f := by
  have look : ∀ q, who q = true → ∀ op, .call q op ∈ ((opening fs script).run db c sched).2 → onlyReads op :=
    fun q hq op hop => looker_calls db c sched (opening fs script) (show LookerSession (.idle (script q)) from (hwho q hq).2) op hop
  have hp : who p = false := by
    cases e : who p with
    | false => rfl
    | true => exact (look p e (.appendArticle b f x) (by rw [h]; simp)).elim
  have hfin : Finished (holdings db fs) (h0.filter fun e => !who (ofClient e)) b f := by
    rcases hf with hf | ⟨g1, g2, q, y, e, hl⟩
    · exact Or.inl hf
    · have hq : who q = false := by
        cases e' : who q with
        | false => rfl
        | true => exact (look q e' (.writeArticle b f y) (by rw [h, e]; have := lastCall_mem hl; simp [this])).elim
      refine Or.inr ⟨g1.filter fun e => !who (ofClient e), g2.filter fun e => !who (ofClient e), q, y, ?_, ?_⟩
      · rw [e, List.filter_append, List.filter_cons, if_pos (by simp [ofClient, hq])]
      · rw [lastCall_filter hq]; exact hl
  have hsafe : Safe posts (holdings db fs) name fin b f := by
    refine hD.wrote b f ?_
    rw [h, List.append_assoc, List.filter_append]
    exact finished_more hfin
  obtain ⟨u, v, huv⟩ := hD.adds ((h0 ++ .call p (.appendArticle b f x) :: h1).filter fun e => !who (ofClient e)) (h2.filter fun e => !who (ofClient e)) p b f x
    (by rw [h, List.filter_append, List.filter_cons, if_pos (by simp [ofClient, hp])])
    ⟨h0.filter fun e => !who (ofClient e), h1.filter fun e => !who (ofClient e),
      by rw [List.filter_append, List.filter_cons, if_pos (by simp [ofClient, hp])], fun op hop => hno op (List.mem_filter.mp hop).1, hfin⟩
  exact ⟨u, v, huv, hsafe⟩

/-- **C133, comments on finished articles stay.** A comment that was accepted is in the article once no call that changes anything is under way, if the
article was there at first, or its poster had been told that its text was written when the comment was made. -/
theorem C133_comments_stay {db : DB} {c : Codec} {fs : FS} {posts : Nat → Option Post} {script : Nat → Script} (hS : ToolScene db c fs posts script)
    (sched : List (Nat × Nat)) (hidle : ∀ p, Looker (script p) ∨ ∃ s, ((opening fs script).run db c sched).1.sessions p = .idle s)
    (h0 h1 h2 : List Event) (p : Nat) (b f x : Bytes) (hpl : Placed db fs (.article b f))
    (h : ((opening fs script).run db c sched).2 = h0 ++ .call p (.appendArticle b f x) :: h1 ++ .ret p (.ok .done) :: h2)
    (hno : ∀ op, .call p op ∉ h1) (hf : Finished (holdings db fs) h0 b f) :
    ∃ u v, fileAt ((opening fs script).run db c sched).1.fs (at_ db (.article b f)) = some (u ++ x ++ v) := by
  obtain ⟨who, s, k, name, order, fin, hwho, hL, hD, hturn, content⟩ := tool_settled hS sched hidle
  obtain ⟨u, v, huv, _⟩ := tool_kept sched hwho hD h hno hf
  exact ⟨u, v, by rw [content _ hpl]; exact huv⟩

/-! ## The scene of C118 -/

theorem looker_bind {α β : Type} {P : Prog α} {f : α → Prog β} (h : Looker P.script) (hf : ∀ a, Looker (f a).script) : Looker (P.bind f).script := by
  induction P with
  | ret a => exact hf a
  | ask op next ih => exact ⟨h.1, fun r => ih r (h.2 r)⟩

theorem looker_andThen {α β : Type} {P : Prog (Res α)} {f : α → Prog (Res β)} (h : Looker P.script) (hf : ∀ a, Looker (f a).script) :
    Looker (P.andThen f).script := looker_bind h fun a => by
  cases a with
  | ok a => exact hf a
  | err e => trivial
  | panic => trivial
  | diverge => trivial

theorem looker_boards : Looker Prog.boards.script := by
  refine ⟨trivial, fun r => ?_⟩
  dsimp only
  split <;> trivial

theorem looker_articles (b : Bytes) : Looker (Prog.articles b).script := by
  refine ⟨trivial, fun r => ?_⟩
  dsimp only
  split <;> trivial

theorem looker_article (b f : Bytes) : Looker (Prog.article b f).script := by
  refine ⟨trivial, fun r => ?_⟩
  dsimp only
  split <;> trivial

/-- Searching all boards for the articles of a user only reads. -/
theorem looker_userArticles (user : Bytes) : Looker (Prog.userArticles user).script := by
  refine looker_andThen looker_boards fun bs => ?_
  induction bs with
  | nil => trivial
  | cons b bs ih =>
    unfold Prog.userArticleLoop
    split
    · exact ih
    · exact looker_andThen (looker_articles _) fun _ => looker_andThen ih fun _ => trivial

theorem looker_boardUserComments (b user : Bytes) : Looker (Prog.boardUserComments b user).script := by
  refine looker_andThen (looker_articles b) fun l => ?_
  induction l with
  | nil => trivial
  | cons r l ih => exact looker_andThen (looker_andThen (looker_article _ _) fun _ => trivial) fun _ => looker_andThen ih fun _ => trivial

/-- Searching them for the comments of a user only reads. -/
theorem looker_userComments (user : Bytes) : Looker (Prog.userComments user).script := by
  refine looker_andThen looker_boards fun bs => ?_
  induction bs with
  | nil => trivial
  | cons b bs ih =>
    unfold Prog.userCommentLoop
    split
    · exact ih
    · exact looker_andThen (looker_boardUserComments _ _) fun _ => looker_andThen ih fun _ => trivial

theorem looker_readAll (b : Bytes) (l : List Bytes) : Looker (readAll b l) := by
  induction l with
  | nil => trivial
  | cons f l ih => exact ⟨trivial, fun _ => ih⟩

theorem looker_visit (b : Bytes) : Looker (visit b) := by
  refine ⟨trivial, fun r => ?_⟩
  dsimp only
  split
  · exact looker_readAll _ _
  · trivial

theorem comment_remarks {placed : Obj → Prop} {b x : Bytes} (hb : placed (.articleIndex b)) : Remarks placed (comment b x) fun _ _ => False := by
  refine ⟨hb, fun r => ?_⟩
  dsimp only
  split
  · next r l =>
    exact ⟨Or.inr ⟨rfl, r :: l, rfl, r, List.mem_cons_self, rfl⟩, fun _ => trivial⟩
  · trivial

/-- The scene of C118, with posts the way the tool makes them. -/
theorem scene_tool {db : DB} {c : Codec} {fs : FS} {posts : Nat → Option Post} {script : Nat → Script}
    (h : Scene Post.toolScript db c fs posts script) : ToolScene db c fs posts script where
  lists := fun b d hb hd => ⟨h.tidy.lists b d hb hd, fun r hr => (h.tidy.listed b d hb hd r hr).1⟩
  posters := h.posters
  guests := by
    intro p hp
    rcases h.guests p hp with e | ⟨b, hb, e⟩ | ⟨b, x, hb, e⟩ | ⟨user, hb, e | e⟩
    · rw [e]; exact Or.inl trivial
    · rw [e]; exact Or.inl (looker_visit b)
    · rw [e]; exact Or.inr (comment_remarks hb)
    · rw [e]; exact Or.inl (looker_userArticles user)
    · rw [e]; exact Or.inl (looker_userComments user)

/-- **C118 is false of the way the tool posts articles:** between two calls of the tool, the list has a record of an article that has no text. -/
theorem C118_tool_posts_arrive_refuted : ¬ PostsArrive Post.toolScript := by
  intro H
  have hS := scene_ok Post.toolScript .stop (Or.inl rfl)
  generalize hsched : List.replicate 7 ((0 : Nat), (0 : Nat)) = sched
  generalize hscript : sceneScript Post.toolScript .stop = script at hS
  have hidle : ∀ p, ∃ s, ((opening sceneFS script).run sampleDB asciiCodec sched).1.sessions p = .idle s := by
    have idle : (match ((opening sceneFS script).run sampleDB asciiCodec sched).1.sessions 0 with
        | .idle _ => true
        | .busy _ _ => false) = true := by
      subst hsched hscript
      decide +kernel
    intro p
    cases p with
    | zero =>
      split at idle
      · next s hs => exact ⟨s, hs⟩
      · cases idle
    | succ p =>
      have other : ∀ (sched : List (Nat × Nat)) (s : House), (∀ x ∈ sched, x.1 = 0) → (s.run sampleDB asciiCodec sched).1.sessions (p + 1) = s.sessions (p + 1) := by
        intro sched
        induction sched with
        | nil => intro s _; rfl
        | cons x sched ih =>
          intro s h
          have hx : p + 1 ≠ x.1 := by
            have := h x (by simp)
            omega
          have hstep : (s.step sampleDB asciiCodec x.1 x.2).1.sessions (p + 1) = s.sessions (p + 1) := by
            cases hs : s.sessions x.1 with
            | idle t => cases t <;> simp only [House.step, hs, setSession_off _ _ _ hx]
            | busy j next => cases j <;> simp only [House.step, hs, setSession_off _ _ _ hx]
          exact (ih _ (fun y hy => h y (by simp [hy]))).trans hstep
      exact ⟨script (p + 1), other sched _ (by
        subst hsched
        intro x hx
        simp only [List.mem_replicate] at hx
        rw [hx.2])⟩
  obtain ⟨order, name, _, honly, _, hlists, hfiles, _⟩ := H sampleDB asciiCodec sceneFS scenePosts script hS sched hidle
  have hlist : (articlesIn asciiCodec ((fileAt ((opening sceneFS script).run sampleDB asciiCodec sched).1.fs
      (at_ sampleDB (.articleIndex (ascii "S")))).getD [])).map (·.filename) = [newName] := by
    subst hsched hscript
    decide +kernel
  have hempty : fileAt ((opening sceneFS script).run sampleDB asciiCodec sched).1.fs (at_ sampleDB (.article (ascii "S") newName)) = some [] := by
    subst hsched hscript
    decide +kernel
  rw [hlists _ scene_placed.1, scene_empty, List.map_append] at hlist
  have h0 : ∀ p ∈ order, p = 0 := by
    intro p hp
    have := honly p hp
    cases p with
    | zero => rfl
    | succ p => exact absurd rfl this
  cases order with
  | nil => cases hlist
  | cons p order =>
    have hp : p = 0 := h0 p (by simp)
    subst hp
    obtain ⟨hname, _, _, z, hz⟩ := hfiles 0 (by simp) scenePost rfl
    have e : name 0 = newName := by
      rw [← hname]
      simp only [List.filterMap_cons, scenePosts, Option.bind_some] at hlist
      rw [if_pos (show scenePost.board = ascii "S" from rfl)] at hlist
      exact (List.cons.inj hlist).1
    have hz : fileAt ((opening sceneFS script).run sampleDB asciiCodec sched).1.fs (at_ sampleDB (.article (ascii "S") (name 0))) =
      some (ascii "new text" ++ z) := hz
    rw [e, hempty] at hz
    cases hz

/-- **C133, when all are through.** What C118 says of posts holds of the way the tool posts them as soon as every client that posts is through. -/
theorem C133_all_through {db : DB} {c : Codec} {fs : FS} {posts : Nat → Option Post} {script : Nat → Script}
    (hS : Scene Post.toolScript db c fs posts script) (sched : List (Nat × Nat))
    (hidle : ∀ p, ∃ s, ((opening fs script).run db c sched).1.sessions p = .idle s)
    (hdone : ∀ p P, posts p = some P → ((opening fs script).run db c sched).1.sessions p = .idle .stop) :
    ∃ (order : List Nat) (name : Nat → Bytes), order.Nodup ∧ (∀ p ∈ order, posts p ≠ none) ∧
      (∀ p P, posts p = some P → .ret p .diverge ∉ ((opening fs script).run db c sched).2 → p ∈ order) ∧
      (∀ b, Placed db fs (.articleIndex b) →
        articlesIn c ((fileAt ((opening fs script).run db c sched).1.fs (at_ db (.articleIndex b))).getD []) =
          articlesIn c ((holdings db fs (.articleIndex b)).getD []) ++
          order.filterMap (fun p => (posts p).bind fun P => if P.board = b then some (storedArticle c (P.record (name p))) else none)) ∧
      (∀ p ∈ order, ∀ P, posts p = some P → (storedArticle c (P.record (name p))).filename = name p ∧
        holdings db fs (.article P.board (name p)) = none ∧
        (∀ q ∈ order, ∀ Q, posts q = some Q → p ≠ q → P.board = Q.board → name p ≠ name q) ∧
        ∃ z, fileAt ((opening fs script).run db c sched).1.fs (at_ db (.article P.board (name p))) = some (P.text ++ z)) ∧
      ∀ b f y0, Placed db fs (.article b f) → holdings db fs (.article b f) = some y0 →
        ∃ z, fileAt ((opening fs script).run db c sched).1.fs (at_ db (.article b f)) = some (y0 ++ z) := by
  obtain ⟨order, name, h1, h2, h3, h4, h5, h6⟩ := C133_tool_posts_arrive (scene_tool hS) sched (fun p => Or.inr (hidle p))
  refine ⟨order, name, h1, fun p hp => ((h2 p).mp hp).1, fun p P hP => h3 p P hP (hdone p P hP), h4, ?_, h6⟩
  intro p hp P hP
  obtain ⟨a1, a2, a3, y, hy, ht⟩ := h5 p hp P hP
  obtain ⟨z, rfl⟩ := ht (hdone p P hP)
  exact ⟨a1, a2, a3, z, hy⟩

/-! ## Examples -/

/-- The hypotheses of C133: one client posts, one reads. -/
example : ToolScene sampleDB asciiCodec sceneFS scenePosts (sceneScript Post.toolScript (visit (ascii "S"))) :=
  scene_tool (scene_ok _ _ (Or.inr (Or.inl ⟨_, scene_placed.1, rfl⟩)))

/-- And one that comments; it may as well add to every article in the list. -/
example : ToolScene sampleDB asciiCodec sceneFS scenePosts (sceneScript Post.toolScript (comment (ascii "S") (ascii "push"))) :=
  scene_tool (scene_ok _ _ (Or.inr (Or.inr (Or.inl ⟨_, _, scene_placed.1, rfl⟩))))

/-- When both are through, the list names the article, and its file has the text and the comment that was made after it: client 0 moves until it is
through, then client 1. -/
example :
    let s := (opening sceneFS (sceneScript Post.toolScript (comment (ascii "S") (ascii "push")))).run sampleDB asciiCodec (List.replicate 12 (0, 0) ++ List.replicate 12 (1, 0));
    fileAt s.1.fs (at_ sampleDB (.article (ascii "S") newName)) = some (ascii "new textpush") ∧
    s.2.filterMap wentWell = [0, 0, 1] := by decide +kernel

end Verif
