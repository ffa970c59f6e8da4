import Verif.Proofs.Script
import Verif.Props.Concurrent
/-!
# C117: clients without races cannot tell that their calls are carried out in pieces
-/

namespace Verif
open Spec

theorem pair_reached (db : DB) (c : Codec) (fs : FS) (script : Nat → Script) (sched : List (Nat × Nat))
    (hr : RaceFree c (holdings db fs) script) (hp : AllPlaced db c fs script) :
    ∃ marks D i, Atomic.Run c (Atomic.start (holdings db fs) script) marks i ∧
      marks.filterMap Mark.seen = ((opening fs script).run db c sched).2 ∧ Pair db fs c ((opening fs script).run db c sched).1 D i :=
  pair_run ⟨shows_start db fs, fun _ => Or.inl rfl, fun _ => .idle _⟩ sched (fun marks i h p q op op' next next' => hr i ⟨marks, h⟩ p q op op' next next')
    (fun marks i h => hp i ⟨marks, h⟩)

/-- When no call is under way, the disk holds what the ideal database holds. -/
theorem pair_idle {db : DB} {fs : FS} {c : Codec} {s : House} {D : Holding} {i : Atomic} (h : Pair db fs c s D i) :
    (∀ p x, s.sessions p = .idle x ↔ i.turn p = .idle x) ∧ ((∀ p, ∃ x, s.sessions p = .idle x) → Shows db fs s.fs i.hold) := by
  have same : ∀ p x, s.sessions p = .idle x ↔ i.turn p = .idle x := by
    intro p x
    have hc := h.clients p
    generalize s.sessions p = a at hc
    generalize i.turn p = b at hc
    cases hc with
    | idle y => exact ⟨fun e => by cases e; rfl, fun e => by cases e; rfl⟩
    | called j op next _ _ => exact ⟨fun e => (by cases e), fun e => by cases e⟩
    | decided r next => exact ⟨fun e => (by cases e), fun e => by cases e⟩
  refine ⟨same, ?_⟩
  intro hidle
  have e : D = i.hold := by
    funext o
    rcases h.gap o with e | ⟨p, op, next, hs, _⟩
    · exact e
    · obtain ⟨x, hx⟩ := hidle p
      rw [(same p x).mp hx] at hs
      cases hs
  exact e ▸ h.holds

theorem race_free_shows (db : DB) (c : Codec) (fs : FS) (script : Nat → Script) (sched : List (Nat × Nat))
    (hr : RaceFree c (holdings db fs) script) (hp : AllPlaced db c fs script) :
    ∃ marks s, Atomic.Run c (Atomic.start (holdings db fs) script) marks s ∧
      marks.filterMap Mark.seen = ((opening fs script).run db c sched).2 ∧
      (∀ p x, ((opening fs script).run db c sched).1.sessions p = .idle x ↔ s.turn p = .idle x) ∧
      ((∀ p, ∃ x, ((opening fs script).run db c sched).1.sessions p = .idle x) → Shows db fs ((opening fs script).run db c sched).1.fs s.hold) := by
  obtain ⟨marks, D, i, h1, h2, h3⟩ := pair_reached db c fs script sched hr hp
  exact ⟨marks, i, h1, h2, (pair_idle h3).1, (pair_idle h3).2⟩

/-- The same for two parts of a schedule. -/
theorem race_free_twice (db : DB) (c : Codec) (fs : FS) (script : Nat → Script) (s1 s2 : List (Nat × Nat))
    (hr : RaceFree c (holdings db fs) script) (hp : AllPlaced db c fs script) {s s' : House} {h h' : List Event}
    (e1 : (opening fs script).run db c s1 = (s, h)) (e2 : s.run db c s2 = (s', h')) :
    ∃ marks i marks' i', Atomic.Run c (Atomic.start (holdings db fs) script) marks i ∧ Atomic.Run c i marks' i' ∧
      marks.filterMap Mark.seen = h ∧ marks'.filterMap Mark.seen = h' ∧
      (∀ p x, s.sessions p = .idle x ↔ i.turn p = .idle x) ∧ (∀ p x, s'.sessions p = .idle x ↔ i'.turn p = .idle x) ∧
      ((∀ p, ∃ x, s.sessions p = .idle x) → Shows db fs s.fs i.hold) ∧ ((∀ p, ∃ x, s'.sessions p = .idle x) → Shows db fs s'.fs i'.hold) := by
  obtain ⟨marks, D, i, a1, a2, a3⟩ := pair_reached db c fs script s1 hr hp
  rw [e1] at a2 a3
  obtain ⟨marks', D', i', b1, b2, b3⟩ := pair_run a3 s2 (fun ms j hj p q op op' next next' => hr j ⟨_, a1.append hj⟩ p q op op' next next')
    (fun ms j hj => hp j ⟨_, a1.append hj⟩)
  rw [e2] at b2 b3
  exact ⟨marks, i, marks', i', a1, b1, a2, b2, (pair_idle a3).1, (pair_idle b3).1, (pair_idle a3).2, (pair_idle b3).2⟩

/-- **C117, as if one at a time.** Any number of clients run any scripts, each deciding what to call next from the answers it got, in any
interleaving of their system calls. If no execution that carries out one call at a time has a race, then what happens is one of these executions: the
same calls and answers in the same order, the clients have got equally far, and when no call is under way, every object holds the same. -/
theorem C117_race_free (db : DB) (c : Codec) (fs : FS) (script : Nat → Script) (sched : List (Nat × Nat))
    (hr : RaceFree c (holdings db fs) script) (hp : AllPlaced db c fs script) :
    ∃ marks s, Atomic.Run c (Atomic.start (holdings db fs) script) marks s ∧
      marks.filterMap Mark.seen = ((opening fs script).run db c sched).2 ∧
      (∀ p x, ((opening fs script).run db c sched).1.sessions p = .idle x ↔ s.turn p = .idle x) ∧
      ((∀ p, ∃ x, ((opening fs script).run db c sched).1.sessions p = .idle x) →
        ∀ o, Placed db fs o → fileAt ((opening fs script).run db c sched).1.fs (at_ db o) = s.hold o) := by
  obtain ⟨marks, s, h1, h2, h3, h4⟩ := race_free_shows db c fs script sched hr hp
  exact ⟨marks, s, h1, h2, h3, fun hidle o ho => shows_fileAt (h4 hidle) ho⟩

/-! ## What this gives -/

def Spec.Turn.status : Turn → Status
  | .idle _ => .idle
  | .called op _ => .called op
  | .decided r _ => .decided r

theorem atomic_ideal {c : Codec} {s t : Atomic} {marks : List Mark} (h : Atomic.Run c s marks t) :
    Ideal.Run c ⟨s.hold, fun p => (s.turn p).status⟩ marks ⟨t.hold, fun p => (t.turn p).status⟩ := by
  have set : ∀ (s : Atomic) (m : Holding) (p : Nat) (x : Turn),
      (⟨(s.setTurn m p x).hold, fun q => ((s.setTurn m p x).turn q).status⟩ : Ideal) =
        Ideal.setStatus ⟨s.hold, fun q => (s.turn q).status⟩ m p x.status := by
    intro s m p x
    unfold Atomic.setTurn Ideal.setStatus
    congr 1
    funext q
    dsimp only
    split <;> rfl
  induction h with
  | nil => exact .nil
  | @cons s t u x xs hm _ ih =>
    refine .cons ?_ ih
    cases hm with
    | @call p op next hst =>
      rw [set]
      exact .call (s := ⟨s.hold, fun q => (s.turn q).status⟩) (by simp only [hst]; rfl)
    | @point p op next hst =>
      rw [set]
      exact .point (s := ⟨s.hold, fun q => (s.turn q).status⟩) (by simp only [hst]; rfl)
    | @ret p r next hst =>
      rw [set]
      exact .ret (s := ⟨s.hold, fun q => (s.turn q).status⟩) (by simp only [hst]; rfl)

/-- **C117, one at a time.** Under the same conditions every call takes effect at one moment between its start and its answer. -/
theorem C117_linearizable (db : DB) (c : Codec) (fs : FS) (script : Nat → Script) (sched : List (Nat × Nat))
    (hr : RaceFree c (holdings db fs) script) (hp : AllPlaced db c fs script) :
    ∃ m, Linearizable c (holdings db fs) ((opening fs script).run db c sched).2 m := by
  obtain ⟨marks, D, i, h1, h2, h3⟩ := pair_reached db c fs script sched hr hp
  exact ⟨i.hold, marks, _, atomic_ideal h1, h2, rfl⟩

/-! ## Fixed lists of calls -/

def asSession : Client → Session
  | ⟨todo, none⟩ => .idle (always todo)
  | ⟨todo, some j⟩ => .busy j fun _ => always todo

theorem house_step (db : DB) (c : Codec) (s : Site) (h : House) (hfs : h.fs = s.fs) (hs : ∀ p, h.sessions p = asSession (s.clients p)) (p n : Nat) :
    (h.step db c p n).2 = (s.step db c p n).2 ∧ (h.step db c p n).1.fs = (s.step db c p n).1.fs ∧
      ∀ q, (h.step db c p n).1.sessions q = asSession ((s.step db c p n).1.clients q) := by
  have set : ∀ (fs : FS) (x : Client) (y : Session), y = asSession x → ∀ q, (h.setSession fs p y).sessions q = asSession ((s.setClient fs p x).clients q) := by
    intro fs x y e q
    by_cases eq : q = p
    · subst eq; rw [setSession_self, setClient_self, e]
    · rw [setSession_other _ _ _ eq, setClient_other _ _ _ eq, hs q]
  have hp := hs p
  cases hc : s.clients p with
  | mk todo now =>
  rw [hc] at hp
  cases now with
  | none =>
    cases todo with
    | nil =>
      have e1 : s.step db c p n = (s, []) := by simp only [Site.step, hc]
      have e2 : h.step db c p n = (h, []) := by simp only [House.step, hp, asSession, always]
      rw [e1, e2]
      exact ⟨rfl, hfs, hs⟩
    | cons op rest =>
      have e1 : s.step db c p n = (s.setClient s.fs p ⟨rest, some (Job.start db c op)⟩, [.call p op]) := by simp only [Site.step, hc]
      have e2 : h.step db c p n = (h.setSession h.fs p (.busy (Job.start db c op) fun _ => always rest), [.call p op]) := by
        simp only [House.step, hp, asSession, always]
      rw [e1, e2, hfs]
      exact ⟨rfl, rfl, set _ _ _ rfl⟩
  | some j =>
    by_cases hd : ∃ r, j = .done r
    · obtain ⟨r, rfl⟩ := hd
      have e1 : s.step db c p n = (s.setClient s.fs p ⟨todo, none⟩, [.ret p r]) := by simp only [Site.step, hc]
      have e2 : h.step db c p n = (h.setSession h.fs p (.idle (always todo)), [.ret p r]) := by simp only [House.step, hp, asSession]
      rw [e1, e2, hfs]
      exact ⟨rfl, rfl, set _ _ _ rfl⟩
    · have e1 : s.step db c p n = (s.setClient (j.step db.cwd s.fs n).1 p ⟨todo, some (j.step db.cwd s.fs n).2⟩, []) := by
        cases j with
        | done r => exact absurd ⟨r, rfl⟩ hd
        | _ => simp only [Site.step, hc]
      have e2 : h.step db c p n = (h.setSession (j.step db.cwd h.fs n).1 p (.busy (j.step db.cwd h.fs n).2 fun _ => always todo), []) := by
        cases j with
        | done r => exact absurd ⟨r, rfl⟩ hd
        | _ => simp only [House.step, hp, asSession]
      rw [e1, e2, hfs]
      exact ⟨rfl, rfl, set _ _ _ rfl⟩

/-- Clients with fixed lists of calls are clients with scripts. -/
theorem house_run (db : DB) (c : Codec) (sched : List (Nat × Nat)) : ∀ (s : Site) (h : House), h.fs = s.fs →
    (∀ p, h.sessions p = asSession (s.clients p)) → (h.run db c sched).2 = (s.run db c sched).2 := by
  induction sched with
  | nil => intro s h _ _; rfl
  | cons x sched ih =>
    obtain ⟨p, n⟩ := x
    intro s h hfs hs
    obtain ⟨h1, h2, h3⟩ := house_step db c s h hfs hs p n
    show (h.step db c p n).2 ++ ((h.step db c p n).1.run db c sched).2 = (s.step db c p n).2 ++ ((s.step db c p n).1.run db c sched).2
    rw [h1, ih _ _ h2 h3]

/-- Every history of clients with scripts is one of the ideal database. -/
def Spec.ScriptsLinearize : Prop :=
  ∀ (db : DB) (c : Codec) (fs : FS) (script : Nat → Script) (sched : List (Nat × Nat)), AllPlaced db c fs script →
    ∃ m, Linearizable c (holdings db fs) ((opening fs script).run db c sched).2 m

theorem always_called {c : Codec} {m : Holding} {todo : Nat → List Call} {s : Atomic} (h : Reached c m (fun p => always (todo p)) s) :
    ∀ p, (∃ l, s.turn p = .idle (always l) ∧ ∀ op ∈ l, op ∈ todo p) ∨
      (∃ op l, s.turn p = .called op (fun _ => always l) ∧ op ∈ todo p ∧ ∀ op ∈ l, op ∈ todo p) ∨
      ∃ r l, s.turn p = .decided r (fun _ => always l) ∧ ∀ op ∈ l, op ∈ todo p := by
  obtain ⟨marks, hrun⟩ := h
  suffices H : ∀ {s t : Atomic} {marks : List Mark}, Atomic.Run c s marks t → (∀ p, (∃ l, s.turn p = .idle (always l) ∧ ∀ op ∈ l, op ∈ todo p) ∨
      (∃ op l, s.turn p = .called op (fun _ => always l) ∧ op ∈ todo p ∧ ∀ op ∈ l, op ∈ todo p) ∨
      ∃ r l, s.turn p = .decided r (fun _ => always l) ∧ ∀ op ∈ l, op ∈ todo p) →
      ∀ p, (∃ l, t.turn p = .idle (always l) ∧ ∀ op ∈ l, op ∈ todo p) ∨
      (∃ op l, t.turn p = .called op (fun _ => always l) ∧ op ∈ todo p ∧ ∀ op ∈ l, op ∈ todo p) ∨
      ∃ r l, t.turn p = .decided r (fun _ => always l) ∧ ∀ op ∈ l, op ∈ todo p from
    H hrun (fun p => Or.inl ⟨todo p, rfl, fun _ h => h⟩)
  intro s t marks hrun
  induction hrun with
  | nil => exact id
  | @cons s t u x xs hm _ ih =>
    intro h0
    refine ih ?_
    intro q
    cases hm with
    | @call p op next hst =>
      by_cases e : q = p
      · subst e
        rw [setTurn_self]
        rcases h0 q with ⟨l, h1, h2⟩ | ⟨_, _, h1, _⟩ | ⟨_, _, h1, _⟩
        · rw [hst] at h1
          cases l with
          | nil => simp [always] at h1
          | cons op' l =>
            simp only [always, Turn.idle.injEq, Script.make.injEq] at h1
            obtain ⟨rfl, rfl⟩ := h1
            exact Or.inr (Or.inl ⟨op, l, rfl, h2 op (by simp), fun op' h' => h2 op' (by simp [h'])⟩)
        · rw [hst] at h1; cases h1
        · rw [hst] at h1; cases h1
      · rw [setTurn_other _ _ _ e]; exact h0 q
    | @point p op next hst =>
      by_cases e : q = p
      · subst e
        rw [setTurn_self]
        rcases h0 q with ⟨l, h1, h2⟩ | ⟨op', l, h1, _, h2⟩ | ⟨_, _, h1, _⟩
        · rw [hst] at h1; cases h1
        · rw [hst] at h1
          cases h1
          exact Or.inr (Or.inr ⟨_, l, rfl, h2⟩)
        · rw [hst] at h1; cases h1
      · rw [setTurn_other _ _ _ e]; exact h0 q
    | @ret p r next hst =>
      by_cases e : q = p
      · subst e
        rw [setTurn_self]
        rcases h0 q with ⟨l, h1, h2⟩ | ⟨op', l, h1, _, h2⟩ | ⟨r', l, h1, h2⟩
        · rw [hst] at h1; cases h1
        · rw [hst] at h1; cases h1
        · rw [hst] at h1
          cases h1
          exact Or.inl ⟨l, rfl, h2⟩
      · rw [setTurn_other _ _ _ e]; exact h0 q

/-- **C117 needs its condition:** with races there are histories that no execution one call at a time has. -/
theorem C117_races_refuted : ¬ Spec.ScriptsLinearize := by
  intro H
  apply C116_linearizable_refuted
  intro db c fs todo sched hk
  obtain ⟨m, hm⟩ := H db c fs (fun p => always (todo p)) sched (by
    intro s hs p op next hst
    rcases always_called hs p with ⟨l, h1, _⟩ | ⟨op', l, h1, h2, _⟩ | ⟨_, l, h1, _⟩
    · rw [hst] at h1; cases h1
    · rw [hst] at h1; cases h1; exact (hk p op h2).2
    · rw [hst] at h1; cases h1)
  refine ⟨m, ?_⟩
  rw [← house_run db c sched (fresh fs todo) (opening fs fun p => always (todo p)) rfl (fun _ => rfl)]
  exact hm

/-! ## Nobody waits for anybody -/

theorem sound_ends {db : DB} {fs0 : FS} {c : Codec} {op : Call} (hpl : ∀ o, touches op o → Placed db fs0 o) (m : Nat) (j : Job) :
    ∀ (D : Holding) (fs : FS), Shows db fs0 fs D → Sound db c op j D → ∃ n r, (Job.steps db.cwd m n fs j).2 = .done r := by
  have one : ∀ (j : Job) (D : Holding) (fs : FS), Shows db fs0 fs D → Sound db c op j D → (∀ r, j ≠ .done r) →
      (∀ D' , Shows db fs0 (j.step db.cwd fs m).1 D' → Sound db c op (j.step db.cwd fs m).2 D' →
        ∃ n r, (Job.steps db.cwd m n (j.step db.cwd fs m).1 (j.step db.cwd fs m).2).2 = .done r) →
      ∃ n r, (Job.steps db.cwd m n fs j).2 = .done r := by
    intro j D fs hS hR hj hk
    obtain ⟨D', h1, _, ⟨_, h3, _⟩ | ⟨r, h3, _⟩⟩ := sound_step hpl hS hR hj m
    · obtain ⟨n, r, h⟩ := hk D' h1 h3
      exact ⟨n + 1, r, h⟩
    · exact ⟨1, r, h3⟩
  induction j with
  | done r => intro D fs _ _; exact ⟨0, r, rfl⟩
  | stat q k ih => intro D fs hS hR; exact one _ D fs hS hR (fun r e => by cases e) (fun D' h h' => ih _ D' _ h h')
  | openRead q k ih => intro D fs hS hR; exact one _ D fs hS hR (fun r e => by cases e) (fun D' h h' => ih _ D' _ h h')
  | openWrite q k ih => intro D fs hS hR; exact one _ D fs hS hR (fun r e => by cases e) (fun D' h h' => ih _ D' _ h h')
  | openMake q k ih =>
    intro D fs hS hR
    refine one _ D fs hS hR (fun r e => by cases e) (fun D' h h' => ?_)
    simp only [Job.step] at h h' ⊢
    cases e : fs.openCreate db.cwd q with
    | ok x => rw [e] at h h'; exact ih _ D' _ h h'
    | err x => rw [e] at h h'; exact ih _ D' _ h h'
    | panic => rw [e] at h h'; exact ih _ D' _ h h'
    | diverge => rw [e] at h h'; exact ih _ D' _ h h'
  | openTrunc q k ih =>
    intro D fs hS hR
    refine one _ D fs hS hR (fun r e => by cases e) (fun D' h h' => ?_)
    simp only [Job.step] at h h' ⊢
    cases e : fs.openCreate db.cwd q with
    | ok x => rw [e] at h h'; exact ih _ D' _ h h'
    | err x => rw [e] at h h'; exact ih _ D' _ h h'
    | panic => rw [e] at h h'; exact ih _ D' _ h h'
    | diverge => rw [e] at h h'; exact ih _ D' _ h h'
  | openExcl q k ih =>
    intro D fs hS hR
    refine one _ D fs hS hR (fun r e => by cases e) (fun D' h h' => ?_)
    simp only [Job.step] at h h' ⊢
    cases e : fs.createExcl db.cwd q with
    | ok x => rw [e] at h h'; exact ih _ D' _ h h'
    | err x => rw [e] at h h'; exact ih _ D' _ h h'
    | panic => rw [e] at h h'; exact ih _ D' _ h h'
    | diverge => rw [e] at h h'; exact ih _ D' _ h h'
  | unlink q k ih =>
    intro D fs hS hR
    refine one _ D fs hS hR (fun r e => by cases e) (fun D' h h' => ?_)
    simp only [Job.step] at h h' ⊢
    cases e : fs.remove db.cwd q with
    | ok x => rw [e] at h h'; exact ih _ D' _ h h'
    | err x => rw [e] at h h'; exact ih _ D' _ h h'
    | panic => rw [e] at h h'; exact ih _ D' _ h h'
    | diverge => rw [e] at h h'; exact ih _ D' _ h h'
  | append l bs k ih =>
    intro D fs hS hR
    refine one _ D fs hS hR (fun r e => by cases e) (fun D' h h' => ?_)
    obtain ⟨o, r, _, _, hk, _, _⟩ := hR
    refine ⟨0, r, ?_⟩
    show (Job.step db.cwd fs m (.append l bs k)).2 = _
    simp only [Job.step]
    split <;> exact hk
  | put l bs k ih =>
    intro D fs hS hR
    refine one _ D fs hS hR (fun r e => by cases e) (fun D' h h' => ?_)
    obtain ⟨o, r, _, _, hk, _, _⟩ := hR
    refine ⟨0, r, ?_⟩
    show (Job.step db.cwd fs m (.put l bs k)).2 = _
    simp only [Job.step]
    split <;> exact hk
  | read l size got pos k ih =>
    intro D fs hS hR
    obtain ⟨o, hto, hl, h3, h4, ⟨d, hd, hr⟩, h5⟩ := hR
    have ho := hpl o hto
    subst hl
    have hc := hS.content o ho
    rw [hd] at hc
    have key : ∀ (left : Nat) (got : List Bytes) (pos : Nat), ReadOk size got pos d → d.length - pos ≤ left →
        ∃ n r, (Job.steps db.cwd m n fs (.read (at_ db o) size got pos k)).2 = .done r := by
      intro left
      induction left with
      | zero =>
        intro got pos hr hle
        have hp : ¬ pos < d.length := by omega
        obtain ⟨n, r, h⟩ := ih (.ok got) D fs hS (h5 D d got (Meanwhile.refl _ _) hd (hr.complete hp))
        refine ⟨n + 1, r, ?_⟩
        simpa only [Job.steps, Job.step, hc, Option.map_some, if_neg hp] using h
      | succ left ih' =>
        intro got pos hr hle
        by_cases hp : pos < d.length
        · have hlen : 0 < (slice d pos (pos + if size = 0 then m + 1 else size)).length := by
            simp only [slice, List.length_drop, List.length_take]
            by_cases hz : size = 0
            · rw [if_pos hz]; omega
            · rw [if_neg hz]; omega
          obtain ⟨n, r, h⟩ := ih' _ _ (hr.step hp m) (by omega)
          refine ⟨n + 1, r, ?_⟩
          simpa only [Job.steps, Job.step, hc, Option.map_some, if_pos hp] using h
        · obtain ⟨n, r, h⟩ := ih (.ok got) D fs hS (h5 D d got (Meanwhile.refl _ _) hd (hr.complete hp))
          refine ⟨n + 1, r, ?_⟩
          simpa only [Job.steps, Job.step, hc, Option.map_some, if_neg hp] using h
    exact key _ got pos hr (Nat.le_refl _)

theorem script_alone (db : DB) (c : Codec) (p m : Nat) (next : Res Answer → Script) (n : Nat) :
    ∀ (s : House) (j : Job) (r : Res Answer), s.sessions p = .busy j next → (Job.steps db.cwd m n s.fs j).2 = .done r →
    ∃ n' r, ((s.run db c (List.replicate n' (p, m))).1.sessions p) = .idle (next r) := by
  induction n with
  | zero =>
    intro s j r hs hj
    have hj : j = .done r := hj
    subst hj
    exact ⟨1, r, by simp only [List.replicate, House.run, House.step, hs, setSession_self]⟩
  | succ n ih =>
    intro s j r hs hj
    by_cases hd : ∃ r, j = .done r
    · obtain ⟨r', rfl⟩ := hd
      exact ⟨1, r', by simp only [List.replicate, House.run, House.step, hs, setSession_self]⟩
    · have e : s.step db c p m = (s.setSession (j.step db.cwd s.fs m).1 p (.busy (j.step db.cwd s.fs m).2 next), []) := by
        cases j with
        | done r => exact absurd ⟨r, rfl⟩ hd
        | _ => simp only [House.step, hs]
      obtain ⟨n', r', h⟩ := ih (s.step db c p m).1 (j.step db.cwd s.fs m).2 r (by rw [e, setSession_self]) (by rw [e]; exact hj)
      refine ⟨n' + 1, r', ?_⟩
      simpa only [List.replicate_succ, House.run] using h

/-- **C117, nobody waits for anybody.** Under the same conditions, whatever the clients have done so far: if one of them is left alone, the call it
is making returns. -/
theorem C117_obstruction_free (db : DB) (c : Codec) (fs : FS) (script : Nat → Script) (sched : List (Nat × Nat))
    (hr : RaceFree c (holdings db fs) script) (hp : AllPlaced db c fs script) (p m : Nat) :
    ∃ n x, (((opening fs script).run db c sched).1.run db c (List.replicate n (p, m))).1.sessions p = .idle x := by
  obtain ⟨marks, D, i, h1, h2, h3⟩ := pair_reached db c fs script sched hr hp
  generalize ((opening fs script).run db c sched).1 = s at h3
  have hm := h3.clients p
  generalize hs : s.sessions p = y at hm
  generalize ht : i.turn p = z at hm
  cases hm with
  | idle x => exact ⟨0, x, hs⟩
  | called j op next hj hso =>
    obtain ⟨n, r, h⟩ := sound_ends (hp i ⟨marks, h1⟩ p op next ht) m j D s.fs h3.holds hso
    obtain ⟨n', r', h'⟩ := script_alone db c p m next n s j r hs h
    exact ⟨n', _, h'⟩
  | decided r next =>
    obtain ⟨n', r', h'⟩ := script_alone db c p m next 0 s (.done r) r hs rfl
    exact ⟨n', _, h'⟩

/-! ## Example -/

/-- The hypotheses of the theorems: a client saves a draft and reads a list of articles, another one puts an article into that list, and then does
nothing if this went wrong. -/
def sampleScripts : Nat → Script
  | 0 => always [.writeDraft (ascii "Ab") (ascii "1") (ascii "x"), .listArticles (ascii "S")]
  | 1 => .make (.addRecord (ascii "S") (DB.newArticleRecord newName (ascii "Ab") (ascii "11/16") (ascii "hi"))) fun
    | .ok _ => always [.listArticles (ascii "S")]
    | _ => .stop
  | _ => .stop

/-- The calls of the example. -/
def Spec.SampleCall (p : Nat) (op : Call) : Prop :=
  (p = 0 ∧ op = .writeDraft (ascii "Ab") (ascii "1") (ascii "x")) ∨ op = .listArticles (ascii "S") ∨
  (p = 1 ∧ op = .addRecord (ascii "S") (DB.newArticleRecord newName (ascii "Ab") (ascii "11/16") (ascii "hi")))

/-- All calls of a script. -/
def Spec.Makes (K : Call → Prop) : Script → Prop
  | .stop => True
  | .make op next => K op ∧ ∀ r, Makes K (next r)

/-- What is left to do. -/
def Spec.Turn.Left (K : Call → Prop) : Turn → Prop
  | .idle s => Makes K s
  | .called op next => K op ∧ ∀ r, Makes K (next r)
  | .decided _ next => ∀ r, Makes K (next r)

theorem reached_makes {c : Codec} {m : Holding} {script : Nat → Script} {K : Nat → Call → Prop} (h : ∀ p, Makes (K p) (script p)) {s : Atomic}
    (hs : Reached c m script s) : ∀ p, (s.turn p).Left (K p) := by
  obtain ⟨marks, hr⟩ := hs
  suffices H : ∀ {s t : Atomic} {marks : List Mark}, Atomic.Run c s marks t → (∀ p, (s.turn p).Left (K p)) → ∀ p, (t.turn p).Left (K p) from
    H hr h
  intro s t marks hr
  induction hr with
  | nil => exact id
  | cons hm _ ih =>
    intro h0
    refine ih fun q => ?_
    cases hm with
    | @call p op next hp =>
      have := h0 p
      rw [hp] at this
      by_cases e : q = p
      · subst e; rw [setTurn_self]; exact this
      · rw [setTurn_other _ _ _ e]; exact h0 q
    | @point p op next hp =>
      have := h0 p
      rw [hp] at this
      by_cases e : q = p
      · subst e; rw [setTurn_self]; exact this.2
      · rw [setTurn_other _ _ _ e]; exact h0 q
    | @ret p r next hp =>
      have := h0 p
      rw [hp] at this
      by_cases e : q = p
      · subst e; rw [setTurn_self]; exact this r
      · rw [setTurn_other _ _ _ e]; exact h0 q

theorem sampleScripts_make : ∀ p, Makes (SampleCall p) (sampleScripts p) := by
  intro p
  match p with
  | 0 => exact ⟨Or.inl ⟨rfl, rfl⟩, fun _ => ⟨Or.inr (Or.inl rfl), fun _ => trivial⟩⟩
  | 1 =>
    refine ⟨Or.inr (Or.inr ⟨rfl, rfl⟩), fun r => ?_⟩
    cases r with
    | ok a => exact ⟨Or.inr (Or.inl rfl), fun _ => trivial⟩
    | _ => trivial
  | _ + 2 => trivial

/-- In the example the list is made of whole records at all times. -/
theorem sampleScripts_aligned {c : Codec} {s : Atomic} (hs : Reached c (holdings sampleDB sampleFS) sampleScripts s) :
    Shared (.articleIndex (ascii "S")) (s.hold (.articleIndex (ascii "S"))) := by
  obtain ⟨marks, hr⟩ := hs
  suffices H : ∀ {s t : Atomic} {marks : List Mark}, Atomic.Run c s marks t → (∀ p, (s.turn p).Left (SampleCall p)) →
      Shared (.articleIndex (ascii "S")) (s.hold (.articleIndex (ascii "S"))) → Shared (.articleIndex (ascii "S")) (t.hold (.articleIndex (ascii "S"))) by
    refine H hr sampleScripts_make ?_
    show Shared _ (holdings sampleDB sampleFS (.articleIndex (ascii "S")))
    rw [show holdings sampleDB sampleFS (.articleIndex (ascii "S")) = none from by decide +kernel]
    trivial
  intro s t marks hr
  induction hr with
  | nil => exact fun _ h => h
  | @cons s t u x xs hm hrest ih =>
    intro hl h0
    refine ih ?_ ?_
    · intro q
      cases hm with
      | @call p op next hp =>
        have := hl p
        rw [hp] at this
        by_cases e : q = p
        · subst e; rw [setTurn_self]; exact this
        · rw [setTurn_other _ _ _ e]; exact hl q
      | @point p op next hp =>
        have := hl p
        rw [hp] at this
        by_cases e : q = p
        · subst e; rw [setTurn_self]; exact this.2
        · rw [setTurn_other _ _ _ e]; exact hl q
      | @ret p r next hp =>
        have := hl p
        rw [hp] at this
        by_cases e : q = p
        · subst e; rw [setTurn_self]; exact this r
        · rw [setTurn_other _ _ _ e]; exact hl q
    · cases hm with
      | call hp => exact h0
      | ret hp => exact h0
      | @point p op next hp =>
        have := hl p
        rw [hp] at this
        rcases this.1 with ⟨_, rfl⟩ | rfl | ⟨_, rfl⟩
        · show Shared (.articleIndex (ascii "S")) (Holding.put s.hold (.draft (ascii "Ab") (ascii "1")) (some (ascii "x")) (.articleIndex (ascii "S")))
          rw [show Holding.put s.hold (.draft (ascii "Ab") (ascii "1")) (some (ascii "x")) (.articleIndex (ascii "S")) =
            s.hold (.articleIndex (ascii "S")) from if_neg (by intro e; cases e)]
          exact h0
        · exact h0
        · simp only [Atomic.setTurn, intended, Holding.put, if_true]
          show 128 ∣ _
          rw [List.length_append, FileHeader.marshal_length]
          refine Nat.dvd_add ?_ ⟨1, rfl⟩
          revert h0
          cases s.hold (.articleIndex (ascii "S")) with
          | none => intro _; exact ⟨0, rfl⟩
          | some d => exact id

theorem sampleScripts_fine :
    RaceFree asciiCodec (holdings sampleDB sampleFS) sampleScripts ∧ AllPlaced sampleDB asciiCodec sampleFS sampleScripts := by
  obtain ⟨h1, h2, _, _⟩ := sample_placed
  constructor
  · intro s hs p q op op' next next' hpq hp hq o ho ho'
    have hp' := reached_makes sampleScripts_make hs p
    have hq' := reached_makes sampleScripts_make hs q
    rw [hp] at hp'
    rw [hq] at hq'
    have hal := sampleScripts_aligned hs
    rcases hp'.1 with ⟨rfl, rfl⟩ | rfl | ⟨rfl, rfl⟩
    · rw [show o = _ from ho] at ho'
      rcases hq'.1 with ⟨rfl, rfl⟩ | rfl | ⟨rfl, rfl⟩
      · exact absurd rfl hpq
      · cases ho'
      · cases ho'
    · cases ho
    · rw [show o = _ from ho]
      exact Or.inl ⟨hal, id⟩
  · intro s hs p op next hp o ho
    have hp' := reached_makes sampleScripts_make hs p
    rw [hp] at hp'
    rcases hp'.1 with ⟨_, rfl⟩ | rfl | ⟨_, rfl⟩
    · rw [show o = _ from ho]; exact h1
    · rw [show o = _ from ho]; exact h2
    · rw [show o = _ from ho]; exact h2

example : RaceFree asciiCodec (holdings sampleDB sampleFS) sampleScripts ∧ AllPlaced sampleDB asciiCodec sampleFS sampleScripts :=
  sampleScripts_fine

end Verif
