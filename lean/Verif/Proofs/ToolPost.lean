import Verif.Spec.ToolPost
import Verif.Proofs.Diary
/-!
# Helper lemmas for articles posted the way the tool does it
-/

namespace Verif
open Spec

/-! ## Clients that only read -/

/-- The same of a client in the middle of something. -/
def LookerSession : Session → Prop
  | .idle s => Looker s
  | .busy j next => OnlyLooks j ∧ ∀ r, Looker (next r)

/-- Two houses that differ in clients that only read. -/
structure Alike (who : Nat → Bool) (s s' : House) : Prop where
  fs : s.fs = s'.fs
  same : ∀ p, who p = false → s.sessions p = s'.sessions p
  looks : ∀ p, who p = true → LookerSession (s.sessions p) ∧ s'.sessions p = .idle .stop

theorem setSession_at (s : House) (fs : FS) (p : Nat) (x : Session) : (s.setSession fs p x).sessions p = x := if_pos rfl
theorem setSession_off (s : House) (fs : FS) {p q : Nat} (x : Session) (h : q ≠ p) : (s.setSession fs p x).sessions q = s.sessions q := if_neg h

theorem alike_set {who : Nat → Bool} {s s' : House} (h : Alike who s s') {p : Nat} (hp : who p = false) (fs : FS) (x : Session) :
    Alike who (s.setSession fs p x) (s'.setSession fs p x) where
  fs := rfl
  same := fun q hq => by
    by_cases e : q = p
    · subst e; rw [setSession_at, setSession_at]
    · rw [setSession_off _ _ _ e, setSession_off _ _ _ e]; exact h.same q hq
  looks := fun q hq => by
    have e : q ≠ p := by intro e; rw [e, hp] at hq; cases hq
    rw [setSession_off _ _ _ e, setSession_off _ _ _ e]; exact h.looks q hq

theorem alike_look {who : Nat → Bool} {s s' : House} (h : Alike who s s') {p : Nat} (hp : who p = true) {x : Session} (hx : LookerSession x) :
    Alike who (s.setSession s.fs p x) s' where
  fs := h.fs
  same := fun q hq => by
    have e : q ≠ p := by intro e; rw [e, hp] at hq; cases hq
    rw [setSession_off _ _ _ e]; exact h.same q hq
  looks := fun q hq => by
    by_cases e : q = p
    · subst e; rw [setSession_at]; exact ⟨hx, (h.looks q hq).2⟩
    · rw [setSession_off _ _ _ e]; exact h.looks q hq

theorem alike_step {who : Nat → Bool} {s s' : House} (db : DB) (c : Codec) (h : Alike who s s') (p n : Nat) :
    Alike who (s.step db c p n).1 (s'.step db c p n).1 ∧
    (s.step db c p n).2.filter (fun e => !who (ofClient e)) = (s'.step db c p n).2 := by
  cases hp : who p with
  | true =>
    obtain ⟨h1, h2⟩ := h.looks p hp
    have e' : s'.step db c p n = (s', []) := by simp only [House.step, h2]
    rw [e']
    cases hs : s.sessions p with
    | idle t =>
      cases t with
      | stop => simp only [House.step, hs]; exact ⟨h, rfl⟩
      | make op next =>
        rw [hs] at h1
        simp only [House.step, hs]
        exact ⟨alike_look h hp ⟨looks_start db c h1.1, h1.2⟩, by simp [ofClient, hp]⟩
    | busy j next =>
      rw [hs] at h1
      have hj := looks_step (cwd := db.cwd) (fs := s.fs) h1.1 n
      cases j with
      | done r =>
        simp only [House.step, hs]
        exact ⟨alike_look h hp (h1.2 r), by simp [ofClient, hp]⟩
      | _ =>
        simp only [House.step, hs]
        rw [hj.1]
        exact ⟨alike_look h hp ⟨hj.2, h1.2⟩, rfl⟩
  | false =>
    have e := h.same p hp
    cases hs : s.sessions p with
    | idle t =>
      rw [hs] at e
      cases t with
      | stop => simp only [House.step, hs, ← e]; exact ⟨h, rfl⟩
      | make op next =>
        simp only [House.step, hs, ← e]
        rw [← h.fs]
        exact ⟨alike_set h hp _ _, by simp [ofClient, hp]⟩
    | busy j next =>
      rw [hs] at e
      cases j with
      | done r =>
        simp only [House.step, hs, ← e]
        rw [← h.fs]
        exact ⟨alike_set h hp _ _, by simp [ofClient, hp]⟩
      | _ =>
        simp only [House.step, hs, ← e]
        rw [← h.fs]
        exact ⟨alike_set h hp _ _, rfl⟩

theorem alike_run {who : Nat → Bool} (db : DB) (c : Codec) (sched : List (Nat × Nat)) : ∀ {s s' : House}, Alike who s s' →
    Alike who (s.run db c sched).1 (s'.run db c sched).1 ∧
    (s.run db c sched).2.filter (fun e => !who (ofClient e)) = (s'.run db c sched).2 := by
  induction sched with
  | nil => intro s s' h; exact ⟨h, rfl⟩
  | cons x sched ih =>
    intro s s' h
    obtain ⟨h1, h2⟩ := alike_step db c h x.1 x.2
    obtain ⟨h3, h4⟩ := ih h1
    refine ⟨h3, ?_⟩
    simp only [House.run, List.filter_append]
    rw [h2, h4]

/-! ## Posting the way the tool does it -/

/-- What follows the answer to the second call of a post. -/
def Spec.Post.toolNext2 (P : Post) (n : Bytes) : Res Answer → Script
  | .ok _ => .make (.writeArticle P.board n P.text) fun _ => .stop
  | _ => .stop

/-- What follows the answer to its first call. -/
def Spec.Post.toolNext1 (P : Post) : Res Answer → Script
  | .ok (.record r) => .make (.addRecord P.board r) (P.toolNext2 r.filename)
  | _ => .stop

theorem tool_script (P : Post) : P.toolScript = .make (.createArticle P.board P.owner P.date P.title P.draw P.fuel) P.toolNext1 := by
  unfold Post.toolScript Post.toolNext1 Post.toolNext2
  rfl

/-- How far client `p` has got with its post: the name of its file is `n`, the list has its record if `l`, its text is written if `w`, no name was found
only if `g`, and it has been told of the record if `d`. -/
inductive ToolStage (P : Post) (g d : Prop) : Option Bytes → Prop → Prop → Turn → Prop where
  | idle0 {l w : Prop} (hl : ¬ l) (hd : ¬ d) : ToolStage P g d none l w (.idle P.toolScript)
  | called0 {l w : Prop} (hl : ¬ l) (hd : ¬ d) :
    ToolStage P g d none l w (.called (.createArticle P.board P.owner P.date P.title P.draw P.fuel) P.toolNext1)
  | failed {l w : Prop} (hl : ¬ l) (hd : ¬ d) : ToolStage P g d none l w (.decided .diverge P.toolNext1)
  | gone {l w : Prop} (hl : ¬ l) (hd : ¬ d) (hg : g) : ToolStage P g d none l w (.idle .stop)
  | decided1 {n : Bytes} {l w : Prop} (hl : ¬ l) (hd : ¬ d) : ToolStage P g d (some n) l w (.decided (.ok (.record (P.record n))) P.toolNext1)
  | idle1 {n : Bytes} {l w : Prop} (hl : ¬ l) (hd : ¬ d) : ToolStage P g d (some n) l w (.idle (.make (.addRecord P.board (P.record n)) (P.toolNext2 n)))
  | called1 {n : Bytes} {l w : Prop} (hl : ¬ l) (hd : ¬ d) : ToolStage P g d (some n) l w (.called (.addRecord P.board (P.record n)) (P.toolNext2 n))
  | decided2 {n : Bytes} {l w : Prop} (hl : l) (hw : ¬ w) (hd : ¬ d) : ToolStage P g d (some n) l w (.decided (.ok .done) (P.toolNext2 n))
  | idle2 {n : Bytes} {l w : Prop} (hl : l) (hw : ¬ w) (hd : d) : ToolStage P g d (some n) l w (.idle (.make (.writeArticle P.board n P.text) fun _ => .stop))
  | called2 {n : Bytes} {l w : Prop} (hl : l) (hw : ¬ w) (hd : d) : ToolStage P g d (some n) l w (.called (.writeArticle P.board n P.text) fun _ => .stop)
  | decided3 {n : Bytes} {l w : Prop} (hl : l) (hw : w) (hd : d) : ToolStage P g d (some n) l w (.decided (.ok .done) fun _ => .stop)
  | idle3 {n : Bytes} {l w : Prop} (hl : l) (hw : w) (hd : d) : ToolStage P g d (some n) l w (.idle .stop)

/-- The client adds to articles only. -/
def RemarkTurn (placed : Obj → Prop) (k : Bytes → Bytes → Prop) : Turn → Prop
  | .idle s => Remarks placed s k
  | .called op next => Remarks placed (.make op next) k
  | .decided r next => Remarks placed (next r) k

/-- An article that will only be added to: it was there at first, or a post that is written. -/
def Safe (posts : Nat → Option Post) (m : Holding) (name : Nat → Option Bytes) (fin : List Nat) (b f : Bytes) : Prop :=
  m (.article b f) ≠ none ∨ ∃ p ∈ fin, ∃ P, posts p = some P ∧ P.board = b ∧ name p = some f

/-- What client `p` adds to a finished article. -/
def AddedWhen (m : Holding) (past : List Event) (p : Nat) (b f x : Bytes) : Prop :=
  ∃ h0 h1, past = h0 ++ .call p (.appendArticle b f x) :: h1 ∧ (∀ op, .call p op ∉ h1) ∧ Finished m h0 b f

/-- What has been posted and added. -/
structure ToolLedger (c : Codec) (placed : Obj → Prop) (posts : Nat → Option Post) (m : Holding) (past : List Event) (i : Atomic)
    (k : Nat → Bytes → Bytes → Prop) (name : Nat → Option Bytes) (order fin : List Nat) : Prop where
  stages : ∀ p P, posts p = some P → ToolStage P (.ret p .diverge ∈ past) (.ret p (.ok .done) ∈ past) (name p) (p ∈ order) (p ∈ fin) (i.turn p)
  guests : ∀ p, posts p = none → RemarkTurn placed (k p) (i.turn p)
  known : ∀ p b f, k p b f → placed (.article b f)
  listed : ∀ b d, placed (.articleIndex b) → i.hold (.articleIndex b) = some d →
    128 ∣ d.length ∧ ∀ r ∈ articlesIn c d, placed (.article b r.filename)
  only : ∀ p ∈ order, posts p ≠ none
  nodup : order.Nodup
  fins : ∀ p ∈ fin, p ∈ order
  drawn : ∀ p P n, posts p = some P → name p = some n → ∃ j, n = DB.articleName (P.draw j).1 (P.draw j).2
  there : ∀ p P n, posts p = some P → name p = some n → i.hold (.article P.board n) ≠ none
  fresh : ∀ p P n, posts p = some P → name p = some n → m (.article P.board n) = none
  apart : ∀ p q P Q n, p ≠ q → posts p = some P → posts q = some Q → P.board = Q.board → name p = some n → name q ≠ some n
  lists : ∀ b, placed (.articleIndex b) → articlesIn c ((i.hold (.articleIndex b)).getD []) =
    articlesIn c ((m (.articleIndex b)).getD []) ++ order.filterMap (entry c posts name b)
  texts : ∀ p ∈ fin, ∀ P n, posts p = some P → name p = some n → ∃ z, i.hold (.article P.board n) = some (P.text ++ z)
  old : ∀ b f y0, m (.article b f) = some y0 → ∃ z, i.hold (.article b f) = some (y0 ++ z)

/-- What client `p` has found is now `x`. -/
def setFound (k : Nat → Bytes → Bytes → Prop) (p : Nat) (x : Bytes → Bytes → Prop) : Nat → Bytes → Bytes → Prop := fun q => if q = p then x else k q

theorem setFound_self (k : Nat → Bytes → Bytes → Prop) (p : Nat) (x : Bytes → Bytes → Prop) : setFound k p x p = x := if_pos rfl
theorem setFound_other (k : Nat → Bytes → Bytes → Prop) {p q : Nat} (x : Bytes → Bytes → Prop) (h : q ≠ p) : setFound k p x q = k q := if_neg h
theorem setFound_same (k : Nat → Bytes → Bytes → Prop) (p : Nat) : setFound k p (k p) = k := by
  funext q
  by_cases e : q = p
  · rw [e, setFound_self]
  · rw [setFound_other _ _ e]

theorem ToolStage.iff {P : Post} {g g' d d' : Prop} {n : Option Bytes} {l l' w w' : Prop} {t : Turn} (h : ToolStage P g d n l w t) (hg : g → g')
    (hd : d ↔ d') (hl : l ↔ l') (hw : w ↔ w') : ToolStage P g' d' n l' w' t := by
  rw [← propext hd, ← propext hl, ← propext hw]
  cases h with
  | idle0 hl hd => exact .idle0 hl hd
  | called0 hl hd => exact .called0 hl hd
  | failed hl hd => exact .failed hl hd
  | gone hl hd h => exact .gone hl hd (hg h)
  | decided1 hl hd => exact .decided1 hl hd
  | idle1 hl hd => exact .idle1 hl hd
  | called1 hl hd => exact .called1 hl hd
  | decided2 hl hw hd => exact .decided2 hl hw hd
  | idle2 hl hw hd => exact .idle2 hl hw hd
  | called2 hl hw hd => exact .called2 hl hw hd
  | decided3 hl hw hd => exact .decided3 hl hw hd
  | idle3 hl hw hd => exact .idle3 hl hw hd

section
variable {c : Codec} {placed : Obj → Prop} {posts : Nat → Option Post} {m : Holding} {past : List Event} {i : Atomic}
  {k : Nat → Bytes → Bytes → Prop} {name : Nat → Option Bytes} {order fin : List Nat}

/-- Whoever writes to an article is the one that posts it, and has not written it yet. -/
theorem tool_writes (hL : ToolLedger c placed posts m past i k name order fin) {p : Nat} {b f x : Bytes} {next : Res Answer → Script}
    (hp : i.turn p = .called (.writeArticle b f x) next) :
    ∃ P, posts p = some P ∧ P.board = b ∧ P.text = x ∧ name p = some f ∧ p ∈ order ∧ p ∉ fin := by
  cases hP : posts p with
  | none =>
    have := hL.guests p hP
    rw [hp] at this
    exact this.elim
  | some P =>
    have hs := hL.stages p P hP
    rw [hp] at hs
    generalize hn : name p = nm at hs
    generalize ht' : Turn.called (Call.writeArticle b f x) next = t at hs
    cases hs with
    | @called2 n l w hl hw hd => cases ht'; exact ⟨P, rfl, rfl, rfl, rfl, hl, hw⟩
    | _ => cases ht'

/-- Finished articles are only added to. -/
theorem safe_grows (hL : ToolLedger c placed posts m past i k name order fin) {p : Nat} {op : Call} {next : Res Answer → Script}
    (hp : i.turn p = .called op next) {b f y : Bytes} (hs : Safe posts m name fin b f) (hy : i.hold (.article b f) = some y) :
    ∃ z, (intended c i.hold op).1 (.article b f) = some (y ++ z) := by
  rcases intended_article c i.hold op b f with e | ⟨e, _⟩ | ⟨x, rfl, _⟩ | ⟨x, y', rfl, h1, e⟩
  · exact ⟨[], by rw [e, hy, List.append_nil]⟩
  · rw [hy] at e; cases e
  · obtain ⟨P, hP, rfl, rfl, hn, _, hw⟩ := tool_writes hL hp
    rcases hs with hs | ⟨q, hq, Q, hQ, hb, hn'⟩
    · exact absurd (hL.fresh p P f hP hn) hs
    · have : p ≠ q := by rintro rfl; exact hw hq
      exact absurd hn' (hL.apart p q P Q f this hP hQ hb.symm hn)
  · rw [hy] at h1
    cases h1
    exact ⟨x, e⟩

/-- A step that puts nothing into a list. -/
theorem tool_step (hL : ToolLedger c placed posts m past i k name order fin) {p : Nat} {op : Call} {next : Res Answer → Script}
    (hp : i.turn p = .called op next) (hop : ∀ b r, op ≠ .addRecord b r) {k' : Bytes → Bytes → Prop} {t : Turn} {nm : Option Bytes} {fin' : List Nat}
    (hst : ∀ P, posts p = some P → ToolStage P (.ret p .diverge ∈ past) (.ret p (.ok .done) ∈ past) nm (p ∈ order) (p ∈ fin') t)
    (hq : posts p = none → RemarkTurn placed k' t) (hk : ∀ b f, k' b f → placed (.article b f))
    (hnm : nm = name p ∨ (p ∉ order ∧ ∀ P n, posts p = some P → nm = some n → (∃ j, n = DB.articleName (P.draw j).1 (P.draw j).2) ∧
      i.hold (.article P.board n) = none ∧ (intended c i.hold op).1 (.article P.board n) ≠ none))
    (hfin : fin' = fin ∨ (fin' = fin ++ [p] ∧ p ∈ order ∧ ∀ P n, posts p = some P → name p = some n → op = .writeArticle P.board n P.text)) :
    ToolLedger c placed posts m past (i.setTurn (intended c i.hold op).1 p t) (setFound k p k') (setName name p nm) order fin' where
  stages := by
    intro q Q hQ
    by_cases e : q = p
    · subst e; rw [setTurn_self, setName_self]; exact hst Q hQ
    · rw [setTurn_other _ _ _ e, setName_other _ _ e]
      refine (hL.stages q Q hQ).iff id Iff.rfl Iff.rfl ?_
      rcases hfin with rfl | ⟨rfl, _⟩
      · exact Iff.rfl
      · simp [e]
  guests := by
    intro q hQ
    by_cases e : q = p
    · subst e; rw [setTurn_self, setFound_self]; exact hq hQ
    · rw [setTurn_other _ _ _ e, setFound_other _ _ e]; exact hL.guests q hQ
  known := by
    intro q b f h
    by_cases e : q = p
    · subst e; rw [setFound_self] at h; exact hk b f h
    · rw [setFound_other _ _ e] at h; exact hL.known q b f h
  listed := by
    intro b d hb hd
    have hd : (intended c i.hold op).1 (.articleIndex b) = some d := hd
    rw [intended_index c i.hold op hop b] at hd
    exact hL.listed b d hb hd
  only := hL.only
  nodup := hL.nodup
  fins := by
    intro q hq
    rcases hfin with rfl | ⟨rfl, h, _⟩
    · exact hL.fins q hq
    · rcases List.mem_append.mp hq with hq | hq
      · exact hL.fins q hq
      · rw [List.mem_singleton.mp hq]; exact h
  drawn := by
    intro q Q n hQ hn
    by_cases e : q = p
    · subst e
      rw [setName_self] at hn
      rcases hnm with h | ⟨_, h⟩
      · rw [h] at hn; exact hL.drawn q Q n hQ hn
      · exact (h Q n hQ hn).1
    · rw [setName_other _ _ e] at hn; exact hL.drawn q Q n hQ hn
  there := by
    intro q Q n hQ hn
    by_cases e : q = p
    · subst e
      rw [setName_self] at hn
      rcases hnm with h | ⟨_, h⟩
      · rw [h] at hn; exact article_stays _ _ _ _ _ (hL.there q Q n hQ hn)
      · exact (h Q n hQ hn).2.2
    · rw [setName_other _ _ e] at hn; exact article_stays _ _ _ _ _ (hL.there q Q n hQ hn)
  fresh := by
    intro q Q n hQ hn
    by_cases e : q = p
    · subst e
      rw [setName_self] at hn
      rcases hnm with h | ⟨_, h⟩
      · rw [h] at hn; exact hL.fresh q Q n hQ hn
      · cases hm : m (.article Q.board n) with
        | none => rfl
        | some y =>
          obtain ⟨z, hz⟩ := hL.old _ _ _ hm
          rw [(h Q n hQ hn).2.1] at hz
          cases hz
    · rw [setName_other _ _ e] at hn; exact hL.fresh q Q n hQ hn
  apart := by
    intro q q' Q Q' n hne hQ hQ' hbd hn hn'
    by_cases e : q = p
    · subst e
      rw [setName_self] at hn
      rw [setName_other _ _ (fun h => hne h.symm)] at hn'
      rcases hnm with h | ⟨_, h⟩
      · rw [h] at hn; exact hL.apart q q' Q Q' n hne hQ hQ' hbd hn hn'
      · have := hL.there q' Q' n hQ' hn'
        rw [← hbd] at this
        exact this (h Q n hQ hn).2.1
    · rw [setName_other _ _ e] at hn
      by_cases e' : q' = p
      · subst e'
        rw [setName_self] at hn'
        rcases hnm with h | ⟨_, h⟩
        · rw [h] at hn'; exact hL.apart q q' Q Q' n hne hQ hQ' hbd hn hn'
        · have := hL.there q Q n hQ hn
          rw [hbd] at this
          exact this (h Q' n hQ' hn').2.1
      · rw [setName_other _ _ e'] at hn'
        exact hL.apart q q' Q Q' n hne hQ hQ' hbd hn hn'
  lists := by
    intro b hpl
    show articlesIn c (((intended c i.hold op).1 (.articleIndex b)).getD []) = _
    rw [intended_index c i.hold op hop b, hL.lists b hpl]
    congr 1
    refine filterMap_same fun q hqo => ?_
    unfold entry
    by_cases e : q = p
    · subst e
      rw [setName_self]
      rcases hnm with h | ⟨h, _⟩
      · rw [h]
      · exact absurd hqo h
    · rw [setName_other _ _ e]
  texts := by
    have before : ∀ q ∈ fin, ∀ Q n, posts q = some Q → name q = some n →
        ∃ z, (intended c i.hold op).1 (.article Q.board n) = some (Q.text ++ z) := by
      intro q hqo Q n hQ hn
      obtain ⟨z, hz⟩ := hL.texts q hqo Q n hQ hn
      obtain ⟨z', hz'⟩ := safe_grows hL hp (Or.inr ⟨q, hqo, Q, hQ, rfl, hn⟩) hz
      exact ⟨z ++ z', by rw [← List.append_assoc]; exact hz'⟩
    intro q hqo Q n hQ hn
    have horder : q ∈ order := by
      rcases hfin with rfl | ⟨rfl, h, _⟩
      · exact hL.fins q hqo
      · rcases List.mem_append.mp hqo with hq | hq
        · exact hL.fins q hq
        · rw [List.mem_singleton.mp hq]; exact h
    have hn0 : name q = some n := by
      by_cases e : q = p
      · subst e
        rw [setName_self] at hn
        rcases hnm with h | ⟨h, _⟩
        · rw [← h]; exact hn
        · exact absurd horder h
      · rw [setName_other _ _ e] at hn; exact hn
    rcases hfin with rfl | ⟨rfl, _, h⟩
    · exact before q hqo Q n hQ hn0
    · rcases List.mem_append.mp hqo with hq | hq
      · exact before q hq Q n hQ hn0
      · rw [List.mem_singleton.mp hq] at hQ hn0
        rw [h Q n hQ hn0]
        exact ⟨_, put_self' _ _ _⟩
  old := by
    intro b f y0 hy0
    obtain ⟨z, hz⟩ := hL.old b f y0 hy0
    obtain ⟨z', hz'⟩ := safe_grows hL hp (Or.inl (by rw [hy0]; simp)) hz
    exact ⟨z ++ z', by rw [← List.append_assoc]; exact hz'⟩

/-- A step that changes neither the contents nor what is known. -/
theorem tool_same (hL : ToolLedger c placed posts m past i k name order fin) {p : Nat} {t : Turn} {e : Event}
    (he : ∀ q, q ≠ p → e ≠ .ret q (.ok .done))
    (hst : ∀ P, posts p = some P →
      ToolStage P (.ret p .diverge ∈ past ++ [e]) (.ret p (.ok .done) ∈ past ++ [e]) (name p) (p ∈ order) (p ∈ fin) t)
    (hq : posts p = none → RemarkTurn placed (k p) t) :
    ToolLedger c placed posts m (past ++ [e]) (i.setTurn i.hold p t) k name order fin := by
  refine ⟨?_, ?_, hL.known, hL.listed, hL.only, hL.nodup, hL.fins, hL.drawn, hL.there, hL.fresh, hL.apart, hL.lists, hL.texts, hL.old⟩
  · intro q Q hQ
    by_cases e' : q = p
    · subst e'; rw [setTurn_self]; exact hst Q hQ
    · rw [setTurn_other _ _ _ e']
      refine (hL.stages q Q hQ).iff (fun h => List.mem_append_left _ h) ?_ Iff.rfl Iff.rfl
      rw [List.mem_append, List.mem_singleton]
      exact ⟨Or.inl, fun h => h.elim id (fun h => absurd h.symm (he q e'))⟩
  · intro q hQ
    by_cases e : q = p
    · subst e; rw [setTurn_self]; exact hq hQ
    · rw [setTurn_other _ _ _ e]; exact hL.guests q hQ

/-- A record is put into a list. -/
theorem tool_add (hL : ToolLedger c placed posts m past i k name order fin) {p : Nat} {P : Post} {n : Bytes} (hP : posts p = some P) (hn : name p = some n)
    (hb : placed (.articleIndex P.board)) (hd : ∀ j, placed (.article P.board (DB.articleName (P.draw j).1 (P.draw j).2)) ∧
      -2 ^ 63 ≤ (P.draw j).1 ∧ (P.draw j).1 < 2 ^ 63) (hl : p ∉ order) (hD : .ret p (.ok .done) ∉ past) :
    ToolLedger c placed posts m past (i.setTurn (intended c i.hold (.addRecord P.board (P.record n))).1 p (.decided (.ok .done) (P.toolNext2 n))) k name
      (order ++ [p]) fin := by
  have hw : p ∉ fin := fun h => hl (hL.fins p h)
  have al : 128 ∣ ((i.hold (.articleIndex P.board)).getD []).length := by
    cases e : i.hold (.articleIndex P.board) with
    | none => exact ⟨0, rfl⟩
    | some d => exact (hL.listed _ d hb e).1
  have hname := stored_name (c := c) (hL.drawn p P n hP hn) (fun j => (hd j).2)
  have hart : ∀ b f, (intended c i.hold (.addRecord P.board (P.record n))).1 (.article b f) = i.hold (.article b f) :=
    fun b f => by simp [intended, Holding.put]
  refine ⟨?_, ?_, hL.known, ?_, ?_, ?_, fun q hq => List.mem_append_left _ (hL.fins q hq), hL.drawn, ?_, hL.fresh, hL.apart, ?_, ?_, ?_⟩
  · intro q Q hQ
    by_cases e : q = p
    · subst e
      rw [hP] at hQ
      cases hQ
      rw [setTurn_self, hn]
      exact .decided2 (by simp) hw hD
    · rw [setTurn_other _ _ _ e]
      exact (hL.stages q Q hQ).iff id Iff.rfl (by simp [e]) Iff.rfl
  · intro q hQ
    by_cases e : q = p
    · subst e; rw [hP] at hQ; cases hQ
    · rw [setTurn_other _ _ _ e]; exact hL.guests q hQ
  · intro b d hpb hd'
    have hd' : i.hold.put (.articleIndex P.board) (some ((i.hold (.articleIndex P.board)).getD [] ++ (P.record n).marshal c)) (.articleIndex b) = some d := hd'
    by_cases e : b = P.board
    · subst e
      rw [put_self'] at hd'
      have hd' := Option.some.inj hd'
      subst hd'
      refine ⟨?_, ?_⟩
      · rw [List.length_append, FileHeader.marshal_length]
        exact (Nat.dvd_add_right al).mpr ⟨1, rfl⟩
      · intro r hr
        rw [articlesIn_append c al, List.mem_append, List.mem_singleton] at hr
        rcases hr with hr | rfl
        · cases e : i.hold (.articleIndex P.board) with
          | none => rw [e] at hr; cases hr
          | some d => rw [e] at hr; exact (hL.listed _ d hb e).2 r hr
        · rw [hname]
          obtain ⟨j, rfl⟩ := hL.drawn p P n hP hn
          exact (hd j).1
    · rw [put_other' _ _ (by intro e'; cases e'; exact e rfl)] at hd'
      exact hL.listed b d hpb hd'
  · intro q hq
    rcases List.mem_append.mp hq with hq | hq
    · exact hL.only q hq
    · rw [List.mem_singleton.mp hq, hP]; simp
  · exact List.nodup_append.mpr ⟨hL.nodup, by simp, fun a ha b hb e => hl (by rw [← List.mem_singleton.mp hb, ← e]; exact ha)⟩
  · intro q Q n' hQ hn'
    show (intended c i.hold (.addRecord P.board (P.record n))).1 (.article Q.board n') ≠ none
    rw [hart]
    exact hL.there q Q n' hQ hn'
  · intro b hpb
    show articlesIn c ((i.hold.put (.articleIndex P.board) (some ((i.hold (.articleIndex P.board)).getD [] ++ (P.record n).marshal c))
      (.articleIndex b)).getD []) = _
    by_cases e : b = P.board
    · subst e
      rw [put_self', Option.getD_some, articlesIn_append c al, hL.lists _ hpb, List.filterMap_append, List.append_assoc]
      congr 2
      simp only [List.filterMap_cons, List.filterMap_nil, entry, hP, hn, if_true]
    · rw [put_other' _ _ (by intro e'; cases e'; exact e rfl), hL.lists _ hpb, List.filterMap_append]
      congr 1
      simp only [List.filterMap_cons, List.filterMap_nil, entry, hP, hn, if_neg (fun h : P.board = b => e h.symm), List.append_nil]
  · intro q hq Q n' hQ hn'
    show ∃ z, (intended c i.hold (.addRecord P.board (P.record n))).1 (.article Q.board n') = some (Q.text ++ z)
    rw [hart]
    exact hL.texts q hq Q n' hQ hn'
  · intro b f y0 hy0
    show ∃ z, (intended c i.hold (.addRecord P.board (P.record n))).1 (.article b f) = some (y0 ++ z)
    rw [hart]
    exact hL.old b f y0 hy0

/-- One call is carried out. -/
theorem tool_point (hL : ToolLedger c placed posts m past i k name order fin)
    (hb : ∀ p P, posts p = some P → placed (.articleIndex P.board) ∧
      ∀ j, placed (.article P.board (DB.articleName (P.draw j).1 (P.draw j).2)) ∧ -2 ^ 63 ≤ (P.draw j).1 ∧ (P.draw j).1 < 2 ^ 63)
    {p : Nat} {op : Call} {next : Res Answer → Script} (hp : i.turn p = .called op next) :
    ∃ k' name' order' fin', ToolLedger c placed posts m past
      (i.setTurn (intended c i.hold op).1 p (.decided (intended c i.hold op).2 next)) k' name' order' fin' ∧
      (∀ q ∈ fin, q ∈ fin' ∧ name' q = name q) ∧ ∀ b f y, op = .writeArticle b f y → Safe posts m name' fin' b f := by
  have keep : ∀ nm, (nm = name p ∨ p ∉ order) → ∀ fin' : List Nat, (∀ q ∈ fin, q ∈ fin') → ∀ q ∈ fin, q ∈ fin' ∧ setName name p nm q = name q := by
    intro nm hnm fin' hf q hq
    refine ⟨hf q hq, ?_⟩
    by_cases e : q = p
    · subst e
      rw [setName_self]
      exact hnm.elim id (fun h => absurd (hL.fins q hq) h)
    · rw [setName_other _ _ e]
  cases hP : posts p with
  | none =>
    have hs := hL.guests p hP
    rw [hp] at hs
    have hs : Remarks placed (.make op next) (k p) := hs
    have step : ∀ k', (∀ b r, op ≠ .addRecord b r) → Remarks placed (next (intended c i.hold op).2) k' → (∀ b f, k' b f → placed (.article b f)) →
        (∀ b f y, op ≠ .writeArticle b f y) → ∃ k' name' order' fin', ToolLedger c placed posts m past
      (i.setTurn (intended c i.hold op).1 p (.decided (intended c i.hold op).2 next)) k' name' order' fin' ∧
      (∀ q ∈ fin, q ∈ fin' ∧ name' q = name q) ∧ ∀ b f y, op = .writeArticle b f y → Safe posts m name' fin' b f := by
      intro k' h1 h2 h3 h4
      exact ⟨_, _, _, _, tool_step hL hp h1 (k' := k') (nm := name p) (fin' := fin) (fun P hP' => by rw [hP] at hP'; cases hP') (fun _ => h2) h3
        (Or.inl rfl) (Or.inl rfl), keep _ (Or.inl rfl) _ (fun _ h => h), fun b f y e => absurd e (h4 b f y)⟩
    cases op with
    | listArticles b =>
      refine step _ (by intro b r e; cases e) (hs.2 _) ?_ (by intro b f y e; cases e)
      rintro b' f (h | ⟨rfl, l, e, r, hr, rfl⟩)
      · exact hL.known p b' f h
      · have e := Answer.articles.inj (Res.ok.inj e)
        rw [← e] at hr
        cases hd : i.hold (.articleIndex b') with
        | none => rw [hd] at hr; cases hr
        | some d => rw [hd] at hr; exact (hL.listed b' d hs.1 hd).2 r hr
    | appendArticle b f x => exact step _ (by intro b r e; cases e) (hs.2 _) (hL.known p) (by intro b f y e; cases e)
    | _ => exact hs.elim
  | some P =>
    have hs := hL.stages p P hP
    rw [hp] at hs
    have guest : ∀ {t}, posts p = none → RemarkTurn placed (k p) t := fun h => by rw [hP] at h; cases h
    generalize hn : name p = nm at hs
    generalize ht' : Turn.called op next = t at hs
    cases hs with
    | called0 hl hD =>
      cases ht'
      cases hfree : freeName i.hold P.board P.draw P.fuel 0 with
      | none =>
        have e : intended c i.hold (.createArticle P.board P.owner P.date P.title P.draw P.fuel) = (i.hold, .diverge) := by
          simp only [intended, hfree]
        refine ⟨_, _, _, _, tool_step hL hp (by intro b r e; cases e) (k' := k p) (nm := none) (fin' := fin) ?_ guest (hL.known p)
          (Or.inl hn.symm) (Or.inl rfl), keep _ (Or.inr hl) _ (fun _ h => h), by intro b f y e; cases e⟩
        intro P' hP'
        rw [hP] at hP'
        cases hP'
        rw [e]
        exact .failed hl hD
      | some n =>
        have e : intended c i.hold (.createArticle P.board P.owner P.date P.title P.draw P.fuel) =
            (i.hold.put (.article P.board n) (some []), .ok (.record (P.record n))) := by
          simp only [intended, hfree]; rfl
        obtain ⟨j, hj, hnone⟩ := free_drawn hfree
        refine ⟨_, _, _, _, tool_step hL hp (by intro b r e; cases e) (k' := k p) (nm := some n) (fin' := fin) ?_ guest (hL.known p)
          (Or.inr ⟨hl, ?_⟩) (Or.inl rfl), keep _ (Or.inr hl) _ (fun _ h => h), by intro b f y e; cases e⟩
        · intro P' hP'
          rw [hP] at hP'
          cases hP'
          rw [e]
          exact .decided1 hl hD
        · intro P' n' hP' hn'
          rw [hP] at hP'
          cases hP'
          cases hn'
          refine ⟨⟨j, hj⟩, hnone, ?_⟩
          rw [e]
          show i.hold.put (.article P.board n) (some []) (.article P.board n) ≠ none
          rw [put_self']
          simp
    | @called1 n l w hl hD =>
      cases ht'
      exact ⟨_, _, _, _, tool_add hL hP hn (hb p P hP).1 (hb p P hP).2 hl hD, fun q hq => ⟨hq, rfl⟩, by intro b f y e; cases e⟩
    | @called2 n l w hl hw hD =>
      cases ht'
      refine ⟨_, _, _, _, tool_step hL hp (by intro b r e; cases e) (k' := k p) (nm := some n) (fin' := fin ++ [p]) ?_ guest (hL.known p)
        (Or.inl hn.symm) (Or.inr ⟨rfl, hl, ?_⟩), keep _ (Or.inl hn.symm) _ (fun _ h => List.mem_append_left _ h), ?_⟩
      · intro P' hP'
        rw [hP] at hP'
        cases hP'
        exact .decided3 hl (by simp) hD
      · intro P' n' hP' hn'
        rw [hP] at hP'
        rw [hn] at hn'
        cases hP'
        cases hn'
        rfl
      · intro b f y e
        cases e
        exact Or.inr ⟨p, by simp, P, hP, rfl, setName_self _ _ _⟩
    | _ => cases ht'

/-! ## What is added to finished articles -/

/-- What the clients have been told so far, and will be told next. -/
structure ToolDiary (posts : Nat → Option Post) (m : Holding) (past : List Event) (i : Atomic) (name : Nat → Option Bytes) (fin : List Nat) : Prop where
  called : ∀ p op next, i.turn p = .called op next → lastCall p past = some op
  writing : ∀ p r next, i.turn p = .decided r next → ∀ b f y, lastCall p past = some (.writeArticle b f y) → Safe posts m name fin b f
  wrote : ∀ b f, Finished m past b f → Safe posts m name fin b f
  adding : ∀ p next, i.turn p = .decided (.ok .done) next → ∀ b f x, AddedWhen m past p b f x →
    ∃ u v, i.hold (.article b f) = some (u ++ x ++ v)
  adds : ∀ before after p b f x, past = before ++ .ret p (.ok .done) :: after → AddedWhen m before p b f x →
    ∃ u v, i.hold (.article b f) = some (u ++ x ++ v)

theorem safe_onward {name' : Nat → Option Bytes} {fin' : List Nat} (h : ∀ q ∈ fin, q ∈ fin' ∧ name' q = name q) {b f : Bytes}
    (hs : Safe posts m name fin b f) : Safe posts m name' fin' b f := by
  rcases hs with hs | ⟨q, hq, Q, hQ, hb, hn⟩
  · exact Or.inl hs
  · exact Or.inr ⟨q, (h q hq).1, Q, hQ, hb, (h q hq).2.trans hn⟩

theorem finished_more {h h' : List Event} {b f : Bytes} (hf : Finished m h b f) : Finished m (h ++ h') b f := by
  rcases hf with hf | ⟨h1, h2, q, y, rfl, hl⟩
  · exact Or.inl hf
  · exact Or.inr ⟨h1, h2 ++ h', q, y, by simp, hl⟩

/-- The last call of `p` is what it added, and the article was finished. -/
theorem added_last {p : Nat} {b f x : Bytes} (h : AddedWhen m past p b f x) : lastCall p past = some (.appendArticle b f x) ∧ Finished m past b f := by
  obtain ⟨h0, h1, rfl, hno, hf⟩ := h
  refine ⟨?_, finished_more hf⟩
  have tail : ∀ (l h : List Event), (∀ op, Event.call p op ∉ l) → lastCall p (h ++ l) = lastCall p h := by
    intro l
    induction l with
    | nil => intro h _; rw [List.append_nil]
    | cons e l ih =>
      intro h hl
      rw [show h ++ e :: l = (h ++ [e]) ++ l by simp, ih _ (fun op h => hl op (List.mem_cons_of_mem _ h)), lastCall_append]
      cases e with
      | ret q r => rfl
      | call q op =>
        have : q ≠ p := by rintro rfl; exact hl op List.mem_cons_self
        exact if_neg this
  rw [show h0 ++ Event.call p (.appendArticle b f x) :: h1 = (h0 ++ [.call p (.appendArticle b f x)]) ++ h1 by simp, tail h1 _ hno, lastCall_append]
  exact if_pos rfl

/-- A call of `p` is cut off by another event of somebody. -/
theorem added_before {p : Nat} {b f x : Bytes} {e : Event} (h : AddedWhen m (past ++ [e]) p b f x) (he : ∀ op, e ≠ .call p op) :
    AddedWhen m past p b f x := by
  obtain ⟨h0, h1, e1, hno, hf⟩ := h
  rcases cut_last e1 with ⟨e2, _⟩ | ⟨h1', e2⟩
  · exact absurd e2 (he _)
  · refine ⟨h0, h1', e2, ?_, hf⟩
    have : h1 = h1' ++ [e] := by
      rw [e2, List.append_assoc] at e1
      exact ((List.cons.inj (List.append_cancel_left e1)).2).symm
    rw [this] at hno
    exact fun op h => hno op (List.mem_append_left _ h)

theorem finished_before {e : Event} {b f : Bytes} (h : Finished m (past ++ [e]) b f) :
    Finished m past b f ∨ ∃ q y, e = .ret q (.ok .done) ∧ lastCall q past = some (.writeArticle b f y) := by
  rcases h with h | ⟨h1, h2, q, y, e1, hl⟩
  · exact Or.inl (Or.inl h)
  · rcases cut_last e1 with ⟨e2, e3, _⟩ | ⟨h2', e2⟩
    · exact Or.inr ⟨q, y, e2, by rw [e3]; exact hl⟩
    · exact Or.inl (Or.inr ⟨h1, h2', q, y, e2, hl⟩)

theorem tool_move (hL : ToolLedger c placed posts m past i k name order fin) (hD : ToolDiary posts m past i name fin)
    (hb : ∀ p P, posts p = some P → placed (.articleIndex P.board) ∧
      ∀ j, placed (.article P.board (DB.articleName (P.draw j).1 (P.draw j).2)) ∧ -2 ^ 63 ≤ (P.draw j).1 ∧ (P.draw j).1 < 2 ^ 63)
    {x : Mark} {i' : Atomic} (hm : Atomic.Move c i x i') :
    ∃ k' name' order' fin', ToolLedger c placed posts m (past ++ x.seen.toList) i' k' name' order' fin' ∧
      ToolDiary posts m (past ++ x.seen.toList) i' name' fin' := by
  cases hm with
  | @call p op next hp =>
    refine ⟨k, name, order, fin, tool_same hL (by intro q _ e; cases e) ?_ ?_, ?_⟩
    · intro P hP
      have hs := (hL.stages p P hP).iff (g' := .ret p .diverge ∈ past ++ [.call p op]) (d' := .ret p (.ok .done) ∈ past ++ [.call p op])
        (fun h => List.mem_append_left _ h) (by simp) Iff.rfl Iff.rfl
      rw [hp] at hs
      generalize hn : name p = nm at hs
      generalize ht' : Turn.idle (Script.make op next) = t at hs
      cases hs with
      | idle0 hl hd => rw [tool_script] at ht'; cases ht'; exact .called0 hl hd
      | idle1 hl hd => cases ht'; exact .called1 hl hd
      | idle2 hl hw hd => cases ht'; exact .called2 hl hw hd
      | _ => cases ht'
    · intro hP
      have hs := hL.guests p hP
      rw [hp] at hs
      exact hs
    · show ToolDiary posts m (past ++ [.call p op]) _ name fin
      refine ⟨?_, ?_, ?_, ?_, ?_⟩
      · intro q op' next' hq
        rw [lastCall_append]
        by_cases e : q = p
        · subst e
          rw [setTurn_self] at hq
          cases hq
          exact if_pos rfl
        · rw [setTurn_other _ _ _ e] at hq
          exact (if_neg (fun e' => e e'.symm)).trans (hD.called q op' next' hq)
      · intro q r next' hq b f y hc
        by_cases e : q = p
        · subst e; rw [setTurn_self] at hq; cases hq
        · rw [setTurn_other _ _ _ e] at hq
          rw [lastCall_append] at hc
          exact hD.writing q r next' hq b f y ((if_neg (fun e' => e e'.symm)).symm.trans hc)
      · intro b f h
        rcases finished_before h with h | ⟨q, y, e, _⟩
        · exact hD.wrote b f h
        · cases e
      · intro q next' hq b f y h
        by_cases e : q = p
        · subst e; rw [setTurn_self] at hq; cases hq
        · rw [setTurn_other _ _ _ e] at hq
          exact hD.adding q next' hq b f y (added_before h (by intro op' e'; cases e'; exact e rfl))
      · intro before after q b f y hpast h
        rcases cut_last hpast with ⟨e, _⟩ | ⟨after', e⟩
        · cases e
        · exact hD.adds before after' q b f y e h
  | @ret p r next hp =>
    refine ⟨k, name, order, fin, tool_same hL (by intro q hq e; cases e; exact hq rfl) ?_ ?_, ?_⟩
    · intro P hP
      have hs := hL.stages p P hP
      rw [hp] at hs
      generalize hn : name p = nm at hs
      generalize ht' : Turn.decided r next = t at hs
      cases hs with
      | failed hl hd => cases ht'; exact .gone hl (by simp [hd]) (by simp)
      | decided1 hl hd => cases ht'; exact .idle1 hl (by simp [hd])
      | decided2 hl hw hd => cases ht'; exact .idle2 hl hw (by simp)
      | decided3 hl hw hd => cases ht'; exact .idle3 hl hw (by simp)
      | _ => cases ht'
    · intro hP
      have hs := hL.guests p hP
      rw [hp] at hs
      exact hs
    · show ToolDiary posts m (past ++ [.ret p r]) _ name fin
      refine ⟨?_, ?_, ?_, ?_, ?_⟩
      · intro q op' next' hq
        rw [lastCall_append]
        by_cases e : q = p
        · subst e; rw [setTurn_self] at hq; cases hq
        · rw [setTurn_other _ _ _ e] at hq
          exact hD.called q op' next' hq
      · intro q r' next' hq b f y hc
        by_cases e : q = p
        · subst e; rw [setTurn_self] at hq; cases hq
        · rw [setTurn_other _ _ _ e] at hq
          rw [lastCall_append] at hc
          exact hD.writing q r' next' hq b f y hc
      · intro b f h
        rcases finished_before h with h | ⟨q, y, e, hl⟩
        · exact hD.wrote b f h
        · cases e
          exact hD.writing p _ next hp b f y hl
      · intro q next' hq b f y h
        by_cases e : q = p
        · subst e; rw [setTurn_self] at hq; cases hq
        · rw [setTurn_other _ _ _ e] at hq
          exact hD.adding q next' hq b f y (added_before h (by intro op' e'; cases e'))
      · intro before after q b f y hpast h
        rcases cut_last hpast with ⟨e, e', _⟩ | ⟨after', e⟩
        · cases e
          rw [← e'] at h
          exact hD.adding p next hp b f y h
        · exact hD.adds before after' q b f y e h
  | @point p op next hp =>
    rw [show past ++ (Mark.point p).seen.toList = past from List.append_nil _]
    obtain ⟨k', name', order', fin', h1, h2, h3⟩ := tool_point hL hb hp
    refine ⟨k', name', order', fin', h1, ?_⟩
    have hlast := hD.called p op next hp
    have grows : ∀ b f x, Safe posts m name fin b f → (∃ u v, i.hold (.article b f) = some (u ++ x ++ v)) →
        ∃ u v, (intended c i.hold op).1 (.article b f) = some (u ++ x ++ v) := by
      rintro b f x hs ⟨u, v, huv⟩
      obtain ⟨z, hz⟩ := safe_grows hL hp hs huv
      exact ⟨u, v ++ z, by rw [hz, List.append_assoc (u ++ x)]⟩
    refine ⟨?_, ?_, fun b f h => safe_onward h2 (hD.wrote b f h), ?_, ?_⟩
    · intro q op' next' hq
      by_cases e : q = p
      · subst e; rw [setTurn_self] at hq; cases hq
      · rw [setTurn_other _ _ _ e] at hq
        exact hD.called q op' next' hq
    · intro q r' next' hq b f y hc
      by_cases e : q = p
      · subst e
        rw [hlast] at hc
        cases hc
        exact h3 b f y rfl
      · rw [setTurn_other _ _ _ e] at hq
        exact safe_onward h2 (hD.writing q r' next' hq b f y hc)
    · intro q next' hq b f y h
      obtain ⟨hl, hf⟩ := added_last h
      by_cases e : q = p
      · subst e
        rw [setTurn_self] at hq
        rw [hlast] at hl
        cases hl
        cases hy : i.hold (.article b f) with
        | none => simp only [intended, hy] at hq; cases hq
        | some y' =>
          refine ⟨y', [], ?_⟩
          show (intended c i.hold (.appendArticle b f y)).1 (.article b f) = _
          simp only [intended, hy, put_self', List.append_nil]
      · rw [setTurn_other _ _ _ e] at hq
        exact grows b f y (hD.wrote b f hf) (hD.adding q next' hq b f y h)
    · intro before after q b f y hpast h
      refine grows b f y (hD.wrote b f ?_) (hD.adds before after q b f y hpast h)
      rw [hpast]
      exact finished_more (added_last h).2

theorem tool_run (hb : ∀ p P, posts p = some P → placed (.articleIndex P.board) ∧
      ∀ j, placed (.article P.board (DB.articleName (P.draw j).1 (P.draw j).2)) ∧ -2 ^ 63 ≤ (P.draw j).1 ∧ (P.draw j).1 < 2 ^ 63)
    {marks : List Mark} {i i' : Atomic} (hr : Atomic.Run c i marks i') : ∀ past k name order fin,
    ToolLedger c placed posts m past i k name order fin → ToolDiary posts m past i name fin →
    ∃ k' name' order' fin', ToolLedger c placed posts m (past ++ marks.filterMap Mark.seen) i' k' name' order' fin' ∧
      ToolDiary posts m (past ++ marks.filterMap Mark.seen) i' name' fin' := by
  induction hr with
  | nil =>
    intro past k name order fin h1 h2
    rw [List.filterMap_nil, List.append_nil]
    exact ⟨k, name, order, fin, h1, h2⟩
  | @cons _ _ _ x xs hm _ ih =>
    intro past k name order fin h1 h2
    obtain ⟨k', name', order', fin', h1', h2'⟩ := tool_move h1 h2 hb hm
    have e : (x :: xs).filterMap Mark.seen = x.seen.toList ++ xs.filterMap Mark.seen := by
      rw [List.filterMap_cons]
      cases x.seen <;> rfl
    rw [e, ← List.append_assoc]
    exact ih _ k' name' order' fin' h1' h2'

/-- The clients do not race. -/
theorem tool_calm (hL : ToolLedger c placed posts m past i k name order fin) (hb : ∀ p P, posts p = some P → placed (.articleIndex P.board))
    {p q : Nat} {op op' : Call} {next next' : Res Answer → Script}
    (hp : i.turn p = .called op next) (hq : i.turn q = .called op' next') : Undisturbed i.hold op op' := by
  have kinds : ∀ {p op next}, i.turn p = .called op next → (∃ b r, op = .addRecord b r ∧ placed (.articleIndex b)) ∨ (∃ b, op = .listArticles b) ∨ Blind op := by
    intro p op next hp
    cases hP : posts p with
    | none =>
      have hs := hL.guests p hP
      rw [hp] at hs
      have hs : Remarks placed (.make op next) (k p) := hs
      cases op with
      | listArticles b => exact Or.inr (Or.inl ⟨b, rfl⟩)
      | appendArticle b f x => exact Or.inr (Or.inr trivial)
      | _ => exact hs.elim
    | some P =>
      have hs := hL.stages p P hP
      rw [hp] at hs
      generalize hn : name p = nm at hs
      generalize ht' : Turn.called op next = t at hs
      cases hs with
      | called0 => cases ht'; exact Or.inr (Or.inr trivial)
      | called1 => cases ht'; exact Or.inl ⟨_, _, rfl, hb p P hP⟩
      | called2 => cases ht'; exact Or.inr (Or.inr trivial)
      | _ => cases ht'
  intro o ho ho'
  rcases kinds hp with ⟨b, r, rfl, hpl⟩ | ⟨b, rfl⟩ | hbl
  · rw [show o = _ from ho]
    refine Or.inl ⟨?_, id⟩
    cases hd : i.hold (.articleIndex b) with
    | none => trivial
    | some d => exact (hL.listed b d hpl hd).1
  · cases ho
  · cases op with
    | createArticle => obtain ⟨_, rfl⟩ := ho; exact Or.inl ⟨trivial, id⟩
    | appendArticle b f x => rw [show o = _ from ho]; exact Or.inl ⟨trivial, id⟩
    | writeArticle b f x =>
      have ho : o = .article b f := ho
      subst ho
      obtain ⟨P, hP, rfl, _, hn, _, _⟩ := tool_writes hL hp
      rcases kinds hq with ⟨b, r, rfl, _⟩ | ⟨b, rfl⟩ | hbl'
      · cases ho'
      · cases ho'
      · exact Or.inr ⟨hbl', hL.there p P f hP hn⟩
    | _ => exact hbl.elim

theorem tool_placed (hL : ToolLedger c placed posts m past i k name order fin) (hb : ∀ p P, posts p = some P → placed (.articleIndex P.board) ∧
      ∀ j, placed (.article P.board (DB.articleName (P.draw j).1 (P.draw j).2)) ∧ -2 ^ 63 ≤ (P.draw j).1 ∧ (P.draw j).1 < 2 ^ 63)
    {p : Nat} {op : Call} {next : Res Answer → Script} (hp : i.turn p = .called op next) : ∀ o, touches op o → placed o := by
  intro o ho
  cases hP : posts p with
  | none =>
    have hs := hL.guests p hP
    rw [hp] at hs
    have hs : Remarks placed (.make op next) (k p) := hs
    cases op with
    | listArticles b => rw [show o = _ from ho]; exact hs.1
    | appendArticle b f x => rw [show o = _ from ho]; exact hL.known p b f hs.1
    | _ => exact hs.elim
  | some P =>
    have hs := hL.stages p P hP
    rw [hp] at hs
    generalize hn : name p = nm at hs
    generalize ht' : Turn.called op next = t at hs
    cases hs with
    | called0 => cases ht'; obtain ⟨j, rfl⟩ := ho; exact ((hb p P hP).2 j).1
    | called1 => cases ht'; rw [show o = _ from ho]; exact (hb p P hP).1
    | @called2 n =>
      cases ht'
      rw [show o = _ from ho]
      obtain ⟨j, rfl⟩ := hL.drawn p P n hP hn
      exact ((hb p P hP).2 j).1
    | _ => cases ht'

end

theorem tool_start {c : Codec} {placed : Obj → Prop} {posts : Nat → Option Post} {m : Holding} {script : Nat → Script}
    (hl : ∀ b d, placed (.articleIndex b) → m (.articleIndex b) = some d → 128 ∣ d.length ∧ ∀ r ∈ articlesIn c d, placed (.article b r.filename))
    (hs : ∀ p P, posts p = some P → script p = P.toolScript) (hq : ∀ p, posts p = none → Remarks placed (script p) fun _ _ => False) :
    ToolLedger c placed posts m [] (Atomic.start m script) (fun _ _ _ => False) (fun _ => none) [] [] ∧
    ToolDiary posts m [] (Atomic.start m script) (fun _ => none) [] := by
  refine ⟨⟨?_, hq, fun _ _ _ h => h.elim, hl, fun p hp => (by cases hp), List.nodup_nil, fun _ h => h, fun _ _ _ _ h => (by cases h),
    fun _ _ _ _ h => (by cases h), fun _ _ _ _ h => (by cases h), fun _ _ _ _ _ _ _ _ _ h => (by cases h), fun b _ => (by simp [Atomic.start]),
    fun p hp => (by cases hp), fun b f y0 h => ⟨[], by rw [List.append_nil]; exact h⟩⟩,
    ⟨fun _ _ _ h => (by cases h), fun _ _ _ h => (by cases h), ?_, fun _ _ h => (by cases h), fun before after p b f y h => (by simp at h)⟩⟩
  · intro p P hP
    show ToolStage P (Event.ret p .diverge ∈ []) (Event.ret p (.ok .done) ∈ []) none (p ∈ []) (p ∈ []) (.idle (script p))
    rw [hs p P hP]; exact .idle0 (by simp) (by simp)
  · rintro b f (h | ⟨h1, h2, q, y, e, _⟩)
    · exact Or.inl h
    · simp at e

end Verif
