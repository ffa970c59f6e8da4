import Verif.Proofs.Concurrent
/-!
# C116: calls made at the same time give the answers of some order, one at a time
-/

namespace Verif
open Spec

/-- Who uses an object alone. -/
theorem exists_own (todo : Nat → List Call) : ∃ own : Obj → Option Nat, ∀ o,
    (∀ q, own o = some q → ∀ p, p ≠ q → ∀ op ∈ todo p, ¬ touches op o) ∧
    (own o = none → ∀ p, ∀ op ∈ todo p, touches op o → ∃ q, p ≠ q ∧ ∃ op' ∈ todo q, touches op' o) := by
  refine Classical.axiomOfChoice (r := fun (o : Obj) (x : Option Nat) =>
    (∀ q, x = some q → ∀ p, p ≠ q → ∀ op ∈ todo p, ¬ touches op o) ∧
    (x = none → ∀ p, ∀ op ∈ todo p, touches op o → ∃ q, p ≠ q ∧ ∃ op' ∈ todo q, touches op' o)) ?_
  intro o
  by_cases h : ∃ q, ∀ p, p ≠ q → ∀ op ∈ todo p, ¬ touches op o
  · obtain ⟨q, hq⟩ := h
    refine ⟨some q, fun q' e => ?_, fun e => by cases e⟩
    cases e
    exact hq
  · refine ⟨none, fun q e => (by cases e), ?_⟩
    intro _ p op _ _
    apply Classical.byContradiction
    intro hn
    exact h ⟨p, fun q hq op' hop' ht => hn ⟨q, hq.symm, op', hop', ht⟩⟩

theorem inv_fresh (db : DB) (c : Codec) (fs : FS) (todo : Nat → List Call) (own : Obj → Option Nat) :
    Inv db fs c own todo (fresh fs todo) (holdings db fs) ⟨holdings db fs, fun _ => .idle⟩ :=
  ⟨shows_start db fs, fun _ _ => Grown.refl _ _, fun _ => Or.inl rfl, fun _ => Or.inl ⟨rfl, rfl⟩, fun _ _ h => h⟩

/-- The state after any schedule. -/
theorem inv_reached (db : DB) (c : Codec) (fs : FS) (todo : Nat → List Call) (sched : List (Nat × Nat))
    (hplace : ∀ p, ∀ op ∈ todo p, ∀ o, touches op o → Placed db fs o) (hadd : OnlyAdded db fs todo) :
    ∃ own marks D i, Ideal.Run c ⟨holdings db fs, fun _ => .idle⟩ marks i ∧
      marks.filterMap Mark.seen = ((fresh fs todo).run db c sched).2 ∧ Inv db fs c own todo ((fresh fs todo).run db c sched).1 D i := by
  obtain ⟨own, hown⟩ := exists_own todo
  have hsees : ∀ p, ∀ op ∈ todo p, ∀ o, touches op o → Sees own p o := by
    intro p op hop o ho q hq
    apply Classical.byContradiction
    intro hne
    exact (hown o).1 q hq p (fun e => hne e.symm) op hop ho
  obtain ⟨marks, D, i, h1, h2, h3⟩ := inv_run hplace hsees (by
    intro p op hop o ho
    cases e : own o with
    | some q => rw [hsees p op hop o (changes_touches ho) q e]; exact Or.inl rfl
    | none =>
      obtain ⟨q, hq, op', hop', ho'⟩ := (hown o).2 e p op hop (changes_touches ho)
      exact Or.inr ⟨rfl, hadd p q hq op hop op' hop' o ho ho'⟩) (inv_fresh db c fs todo own) sched
  exact ⟨own, marks, D, i, h1, h2, h3⟩

/-- **C116, one at a time.** Any number of clients make any calls on objects with well-formed names in places that exist, in any interleaving of
their system calls. If what one of them changes and another touches is only added to, then every call takes effect at one moment between its start
and its answer; and when no call is under way, every object holds what the ideal database holds. -/
theorem C116_linearizable_partial (db : DB) (c : Codec) (fs : FS) (todo : Nat → List Call) (sched : List (Nat × Nat))
    (hplace : ∀ p, ∀ op ∈ todo p, ∀ o, touches op o → Placed db fs o) (hadd : OnlyAdded db fs todo) :
    ∃ m, Linearizable c (holdings db fs) ((fresh fs todo).run db c sched).2 m ∧
      ((∀ p, (((fresh fs todo).run db c sched).1.clients p).now = none) →
        ∀ o, Placed db fs o → fileAt ((fresh fs todo).run db c sched).1.fs (at_ db o) = m o) := by
  obtain ⟨own, marks, D, i, h1, h2, h3⟩ := inv_reached db c fs todo sched hplace hadd
  refine ⟨i.hold, ⟨marks, i, h1, h2, rfl⟩, ?_⟩
  intro hidle o ho
  rw [shows_fileAt h3.holds ho]
  rcases h3.gap o with e | ⟨p, op, hs, _, _⟩
  · exact e
  · rcases h3.clients p with ⟨_, hq⟩ | ⟨_, _, hq, _⟩ | ⟨_, hq, _⟩
    · rw [hs] at hq; cases hq
    · rw [hidle p] at hq; cases hq
    · rw [hidle p] at hq; cases hq

/-! ## The order -/

/-- The calls that client `p` makes in a history. -/
def Spec.callsOf (p : Nat) (h : List Event) : List Call :=
  h.filterMap fun
    | .call q op => if q = p then some op else none
    | .ret _ _ => none

/-- The answers that client `p` gets in a history. -/
def Spec.answersOf (p : Nat) (h : List Event) : List (Res Answer) :=
  h.filterMap fun
    | .call _ _ => none
    | .ret q r => if q = p then some r else none

/-- The part of a list of pairs that belongs to `p`. -/
def Spec.partOf {α : Type} (p : Nat) (l : List (Nat × α)) : List α := l.filterMap fun x => if x.1 = p then some x.2 else none

/-- Calls by several clients, one after the other, and the answers with the client who gets them. -/
def Spec.oneByOne (db : DB) (c : Codec) (fs : FS) (order : List (Nat × Call)) : List (Nat × Res Answer) :=
  (order.map (·.1)).zip (Call.execAll db c fs (order.map (·.2))).2

def waiting : Status → List Call
  | .called op => [op]
  | _ => []

def untold : Status → List (Res Answer)
  | .decided r => [r]
  | _ => []

theorem partOf_cons {α : Type} (p q : Nat) (x : α) (l : List (Nat × α)) :
    partOf p ((q, x) :: l) = if q = p then x :: partOf p l else partOf p l := by
  unfold partOf
  simp only [List.filterMap_cons]
  split <;> simp_all

theorem callsOf_call (p q : Nat) (op : Call) (h : List Event) :
    callsOf p (.call q op :: h) = if q = p then op :: callsOf p h else callsOf p h := by
  unfold callsOf
  simp only [List.filterMap_cons]
  split <;> simp_all

theorem answersOf_ret (p q : Nat) (r : Res Answer) (h : List Event) :
    answersOf p (.ret q r :: h) = if q = p then r :: answersOf p h else answersOf p h := by
  unfold answersOf
  simp only [List.filterMap_cons]
  split <;> simp_all

theorem ideal_order {c : Codec} {s t : Ideal} {marks : List Mark} (h : Ideal.Run c s marks t) :
    ∃ order : List (Nat × Call), t.hold = (intendedAll c s.hold (order.map (·.2))).1 ∧
      (∀ p, waiting (s.status p) ++ callsOf p (marks.filterMap Mark.seen) = partOf p order ++ waiting (t.status p)) ∧
      ∀ p, untold (s.status p) ++ partOf p ((order.map (·.1)).zip (intendedAll c s.hold (order.map (·.2))).2) =
        answersOf p (marks.filterMap Mark.seen) ++ untold (t.status p) := by
  induction h with
  | nil => exact ⟨[], rfl, fun p => by simp [callsOf, partOf], fun p => by simp [answersOf, partOf]⟩
  | @cons s t u x xs hm _ ih =>
    obtain ⟨order, h1, h2, h3⟩ := ih
    cases hm with
    | @call q op hst =>
      refine ⟨order, h1, fun p => ?_, fun p => ?_⟩
      · have := h2 p
        show _ ++ callsOf p (.call q op :: xs.filterMap Mark.seen) = _
        rw [callsOf_call]
        by_cases e : p = q
        · subst e
          rw [setStatus_self] at this
          rw [hst, if_pos rfl, ← this]
          rfl
        · rw [setStatus_other _ _ _ e] at this
          rw [if_neg (Ne.symm e), ← this]
      · have := h3 p
        show _ = answersOf p (xs.filterMap Mark.seen) ++ _
        by_cases e : p = q
        · subst e
          rw [setStatus_self] at this
          rw [hst, ← this]
          rfl
        · rw [setStatus_other _ _ _ e] at this
          exact this
    | @point q op hst =>
      refine ⟨(q, op) :: order, h1, fun p => ?_, fun p => ?_⟩
      · have := h2 p
        show _ ++ callsOf p (xs.filterMap Mark.seen) = _
        rw [partOf_cons]
        by_cases e : p = q
        · subst e
          rw [setStatus_self] at this
          rw [hst, if_pos rfl, List.cons_append, ← this]
          rfl
        · rw [setStatus_other _ _ _ e] at this
          rw [if_neg (Ne.symm e), ← this]
      · have := h3 p
        show _ = answersOf p (xs.filterMap Mark.seen) ++ _
        simp only [List.map_cons, intendedAll, List.zip_cons_cons]
        rw [partOf_cons]
        by_cases e : p = q
        · subst e
          rw [setStatus_self] at this
          rw [hst, if_pos rfl]
          exact this
        · rw [setStatus_other _ _ _ e] at this
          rw [if_neg (Ne.symm e)]
          exact this
    | @ret q r hst =>
      refine ⟨order, h1, fun p => ?_, fun p => ?_⟩
      · have := h2 p
        show _ ++ callsOf p (xs.filterMap Mark.seen) = _
        by_cases e : p = q
        · subst e
          rw [setStatus_self] at this
          rw [hst, ← this]
          rfl
        · rw [setStatus_other _ _ _ e] at this
          exact this
      · have := h3 p
        show _ = answersOf p (.ret q r :: xs.filterMap Mark.seen) ++ _
        rw [answersOf_ret]
        by_cases e : p = q
        · subst e
          rw [setStatus_self] at this
          rw [hst, if_pos rfl, List.cons_append, ← this]
          rfl
        · rw [setStatus_other _ _ _ e] at this
          rw [if_neg (Ne.symm e)]
          exact this

theorem run_made {db : DB} {c : Codec} (p : Nat) (sched : List (Nat × Nat)) :
    ∀ s : Site, callsOf p (s.run db c sched).2 ++ ((s.run db c sched).1.clients p).todo = (s.clients p).todo := by
  induction sched with
  | nil => intro s; rfl
  | cons x sched ih =>
    obtain ⟨q, n⟩ := x
    intro s
    have h := ih (s.step db c q n).1
    have one : callsOf p (s.step db c q n).2 ++ ((s.step db c q n).1.clients p).todo = (s.clients p).todo := by
      cases hc : s.clients q with
      | mk todo now =>
      cases now with
      | none =>
        cases todo with
        | nil => simp [Site.step, hc, callsOf]
        | cons op rest =>
          by_cases e : p = q
          · subst e
            simp [Site.step, hc, callsOf, setClient_self]
          · simp [Site.step, hc, callsOf, setClient_other _ _ _ e, Ne.symm e]
      | some j =>
        by_cases e : p = q
        · subst e
          cases j <;> simp [Site.step, hc, callsOf, setClient_self]
        · cases j <;> simp [Site.step, hc, callsOf, setClient_other _ _ _ e]
    show callsOf p ((s.step db c q n).2 ++ ((s.step db c q n).1.run db c sched).2) ++ _ = _
    unfold callsOf at h one ⊢
    rw [List.filterMap_append, List.append_assoc]
    exact (congrArg _ h).trans one

/-- **C116, some order.** Under the same conditions, when all calls have been made and have returned, there is an order of all the calls, in which
the calls of each client are in its own order, such that making them one after the other gives every client the answers it got, and leaves every
object with the contents it has. -/
theorem C116_some_order_partial (db : DB) (c : Codec) (fs : FS) (todo : Nat → List Call) (sched : List (Nat × Nat))
    (hplace : ∀ p, ∀ op ∈ todo p, ∀ o, touches op o → Placed db fs o) (hadd : OnlyAdded db fs todo)
    (hdone : ∀ p, ((fresh fs todo).run db c sched).1.clients p = ⟨[], none⟩) :
    ∃ order : List (Nat × Call), (∀ p, partOf p order = todo p) ∧
      (∀ p, partOf p (oneByOne db c fs order) = answersOf p ((fresh fs todo).run db c sched).2) ∧
      ∀ o, Placed db fs o → fileAt ((fresh fs todo).run db c sched).1.fs (at_ db o) =
        fileAt (Call.execAll db c fs (order.map (·.2))).1 (at_ db o) := by
  obtain ⟨own, marks, D, i, h1, h2, h3⟩ := inv_reached db c fs todo sched hplace hadd
  have hidle : ∀ p, i.status p = .idle := by
    intro p
    have hn : ((((fresh fs todo).run db c sched).1).clients p).now = none := by rw [hdone p]
    rcases h3.clients p with ⟨_, hq⟩ | ⟨_, _, hq, _⟩ | ⟨_, hq, _⟩
    · exact hq
    · rw [hn] at hq; cases hq
    · rw [hn] at hq; cases hq
  obtain ⟨order, k1, k2, k3⟩ := ideal_order h1
  rw [h2] at k2 k3
  have part : ∀ p, partOf p order = todo p := by
    intro p
    have a := k2 p
    rw [hidle p] at a
    have b := run_made (db := db) (c := c) p sched (fresh fs todo)
    rw [hdone p, List.append_nil] at b
    simp only [waiting, List.nil_append, List.append_nil] at a
    rw [← a, b]
    rfl
  have hops : ∀ op ∈ order.map (·.2), ∀ o, touches op o → Placed db fs o := by
    intro op hop
    obtain ⟨⟨p, op'⟩, hmem, rfl⟩ := List.mem_map.mp hop
    refine hplace p op' ?_
    rw [← part p]
    exact List.mem_filterMap.mpr ⟨_, hmem, by simp⟩
  obtain ⟨a, b, _⟩ := C103_database_is_a_map db c fs (order.map (·.2)) hops
  refine ⟨order, part, ?_, ?_⟩
  · intro p
    have e := k3 p
    rw [hidle p] at e
    simp only [untold, List.nil_append, List.append_nil] at e
    unfold oneByOne
    rw [a]
    exact e
  · intro o ho
    rw [b o ho, shows_fileAt h3.holds ho]
    rcases h3.gap o with e | ⟨p, op, hs, _, _⟩
    · rw [e, k1]; rfl
    · rw [hidle p] at hs; cases hs

/-! ## Nobody waits for anybody -/

/-- `n` system calls in a row. -/
def Job.steps (cwd : Path) (m : Nat) : Nat → FS → Job → FS × Job
  | 0, fs, j => (fs, j)
  | n + 1, fs, j => Job.steps cwd m n (j.step cwd fs m).1 (j.step cwd fs m).2

theorem right_ends {db : DB} {fs0 : FS} {c : Codec} {own : Obj → Option Nat} {p : Nat} {op : Call} (m : Nat) (j : Job) :
    ∀ (D : Holding) (fs : FS), Shows db fs0 fs D → Right db fs0 c own p op j D → ∃ n r, (Job.steps db.cwd m n fs j).2 = .done r := by
  have one : ∀ (j : Job) (D : Holding) (fs : FS), Shows db fs0 fs D → Right db fs0 c own p op j D → (∀ r, j ≠ .done r) →
      (∀ D' , Shows db fs0 (j.step db.cwd fs m).1 D' → Right db fs0 c own p op (j.step db.cwd fs m).2 D' →
        ∃ n r, (Job.steps db.cwd m n (j.step db.cwd fs m).1 (j.step db.cwd fs m).2).2 = .done r) →
      ∃ n r, (Job.steps db.cwd m n fs j).2 = .done r := by
    intro j D fs hS hR hj hk
    obtain ⟨D', h1, _, ⟨_, h3, _⟩ | ⟨r, h3, _⟩⟩ := job_step hS hR hj m
    · obtain ⟨n, r, h⟩ := hk D' h1 h3
      exact ⟨n + 1, r, h⟩
    · exact ⟨1, r, h3⟩
  induction j with
  | done r => intro D fs _ _; exact ⟨0, r, rfl⟩
  | stat q k ih => intro D fs hS hR; exact one _ D fs hS hR (fun r e => by cases e) (fun D' h h' => ih _ D' _ h h')
  | openRead q k ih => intro D fs hS hR; exact one _ D fs hS hR (fun r e => by cases e) (fun D' h h' => ih _ D' _ h h')
  | openWrite q k ih => intro D fs hS hR; exact one _ D fs hS hR (fun r e => by cases e) (fun D' h h' => ih _ D' _ h h')
  | openMake q k ih =>
    intro D fs hS hR
    refine one _ D fs hS hR (fun r e => by cases e) (fun D' h h' => ?_)
    simp only [Job.step] at h h' ⊢
    cases e : fs.openCreate db.cwd q with
    | ok x => rw [e] at h h'; exact ih _ D' _ h h'
    | err x => rw [e] at h h'; exact ih _ D' _ h h'
    | panic => rw [e] at h h'; exact ih _ D' _ h h'
    | diverge => rw [e] at h h'; exact ih _ D' _ h h'
  | openTrunc q k ih =>
    intro D fs hS hR
    refine one _ D fs hS hR (fun r e => by cases e) (fun D' h h' => ?_)
    simp only [Job.step] at h h' ⊢
    cases e : fs.openCreate db.cwd q with
    | ok x => rw [e] at h h'; exact ih _ D' _ h h'
    | err x => rw [e] at h h'; exact ih _ D' _ h h'
    | panic => rw [e] at h h'; exact ih _ D' _ h h'
    | diverge => rw [e] at h h'; exact ih _ D' _ h h'
  | openExcl q k ih =>
    intro D fs hS hR
    refine one _ D fs hS hR (fun r e => by cases e) (fun D' h h' => ?_)
    simp only [Job.step] at h h' ⊢
    cases e : fs.createExcl db.cwd q with
    | ok x => rw [e] at h h'; exact ih _ D' _ h h'
    | err x => rw [e] at h h'; exact ih _ D' _ h h'
    | panic => rw [e] at h h'; exact ih _ D' _ h h'
    | diverge => rw [e] at h h'; exact ih _ D' _ h h'
  | unlink q k ih =>
    intro D fs hS hR
    refine one _ D fs hS hR (fun r e => by cases e) (fun D' h h' => ?_)
    simp only [Job.step] at h h' ⊢
    cases e : fs.remove db.cwd q with
    | ok x => rw [e] at h h'; exact ih _ D' _ h h'
    | err x => rw [e] at h h'; exact ih _ D' _ h h'
    | panic => rw [e] at h h'; exact ih _ D' _ h h'
    | diverge => rw [e] at h h'; exact ih _ D' _ h h'
  | append l bs k ih =>
    intro D fs hS hR
    refine one _ D fs hS hR (fun r e => by cases e) (fun D' h h' => ?_)
    obtain ⟨o, r, _, _, hk, _⟩ := hR
    refine ⟨0, r, ?_⟩
    show (Job.step db.cwd fs m (.append l bs k)).2 = _
    simp only [Job.step]
    split <;> exact hk
  | put l bs k ih =>
    intro D fs hS hR
    refine one _ D fs hS hR (fun r e => by cases e) (fun D' h h' => ?_)
    obtain ⟨o, r, _, _, hk, _⟩ := hR
    refine ⟨0, r, ?_⟩
    show (Job.step db.cwd fs m (.put l bs k)).2 = _
    simp only [Job.step]
    split <;> exact hk
  | read l size got pos k ih =>
    intro D fs hS hR
    obtain ⟨o, ho, hl, h3, h4, ⟨d, hd, hr⟩, h5⟩ := hR
    subst hl
    have hc := hS.content o ho
    rw [hd] at hc
    have key : ∀ (left : Nat) (got : List Bytes) (pos : Nat), ReadOk size got pos d → d.length - pos ≤ left →
        ∃ n r, (Job.steps db.cwd m n fs (.read (at_ db o) size got pos k)).2 = .done r := by
      intro left
      induction left with
      | zero =>
        intro got pos hr hle
        have hp : ¬ pos < d.length := by omega
        obtain ⟨n, r, h⟩ := ih (.ok got) D fs hS (h5 D d got (Later.refl _ _ _) hd (hr.complete hp))
        refine ⟨n + 1, r, ?_⟩
        simpa only [Job.steps, Job.step, hc, Option.map_some, if_neg hp] using h
      | succ left ih' =>
        intro got pos hr hle
        by_cases hp : pos < d.length
        · have hlen : 0 < (slice d pos (pos + if size = 0 then m + 1 else size)).length := by
            simp only [slice, List.length_drop, List.length_take]
            by_cases hz : size = 0
            · rw [if_pos hz]; omega
            · rw [if_neg hz]; omega
          obtain ⟨n, r, h⟩ := ih' _ _ (hr.step hp m) (by omega)
          refine ⟨n + 1, r, ?_⟩
          simpa only [Job.steps, Job.step, hc, Option.map_some, if_pos hp] using h
        · obtain ⟨n, r, h⟩ := ih (.ok got) D fs hS (h5 D d got (Later.refl _ _ _) hd (hr.complete hp))
          refine ⟨n + 1, r, ?_⟩
          simpa only [Job.steps, Job.step, hc, Option.map_some, if_neg hp] using h
    exact key _ got pos hr (Nat.le_refl _)

theorem run_alone (db : DB) (c : Codec) (p m : Nat) (todo : List Call) (n : Nat) :
    ∀ (s : Site) (j : Job) (r : Res Answer), s.clients p = ⟨todo, some j⟩ → (Job.steps db.cwd m n s.fs j).2 = .done r →
    ∃ n', ((s.run db c (List.replicate n' (p, m))).1.clients p) = ⟨todo, none⟩ := by
  induction n with
  | zero =>
    intro s j r hs hj
    have hj : j = .done r := hj
    subst hj
    refine ⟨1, ?_⟩
    simp only [List.replicate, Site.run, Site.step, hs, setClient_self]
  | succ n ih =>
    intro s j r hs hj
    by_cases hd : ∃ r, j = .done r
    · obtain ⟨r', rfl⟩ := hd
      refine ⟨1, ?_⟩
      simp only [List.replicate, Site.run, Site.step, hs, setClient_self]
    · have e : s.step db c p m = (s.setClient (j.step db.cwd s.fs m).1 p ⟨todo, some (j.step db.cwd s.fs m).2⟩, []) := by
        cases j with
        | done r => exact absurd ⟨r, rfl⟩ hd
        | _ => simp only [Site.step, hs]
      obtain ⟨n', h⟩ := ih (s.step db c p m).1 (j.step db.cwd s.fs m).2 r (by rw [e, setClient_self]) (by rw [e]; exact hj)
      refine ⟨n' + 1, ?_⟩
      simpa only [List.replicate_succ, Site.run] using h

/-- **C116, nobody waits for anybody.** Under the same conditions, whatever the clients have done so far: if one of them is left alone, the call it
is making returns. -/
theorem C116_obstruction_free (db : DB) (c : Codec) (fs : FS) (todo : Nat → List Call) (sched : List (Nat × Nat))
    (hplace : ∀ p, ∀ op ∈ todo p, ∀ o, touches op o → Placed db fs o) (hadd : OnlyAdded db fs todo) (p m : Nat) :
    ∃ n, ((((fresh fs todo).run db c sched).1.run db c (List.replicate n (p, m))).1.clients p).now = none := by
  obtain ⟨own, marks, D, i, h1, h2, h3⟩ := inv_reached db c fs todo sched hplace hadd
  generalize hs : ((fresh fs todo).run db c sched).1 = s at h3
  cases hc : s.clients p with
  | mk rest now =>
  have alone : ∀ j, now = some j → (∃ n r, (Job.steps db.cwd m n s.fs j).2 = .done r) →
      ∃ n, ((s.run db c (List.replicate n (p, m))).1.clients p).now = none := by
    rintro j rfl ⟨n, r, h⟩
    obtain ⟨n', h'⟩ := run_alone db c p m rest n s j r hc h
    exact ⟨n', by rw [h']⟩
  rcases h3.clients p with ⟨h, _⟩ | ⟨j, op, h, _, _, _, hr⟩ | ⟨r, h, _⟩
  · exact ⟨0, h⟩
  · rw [hc] at h
    exact alone j h (right_ends m j D s.fs h3.holds hr)
  · rw [hc] at h
    exact alone _ h ⟨0, r, rfl⟩

/-! ## What the conditions are for -/

theorem linear_answers {c : Codec} {m m' : Holding} {h : List Event} (hl : Linearizable c m h m') (P : Holding → Prop) (h0 : P m)
    (hP : ∀ p op, Event.call p op ∈ h → ∀ m, P m → P (intended c m op).1) {p : Nat} {r : Res Answer} (hr : Event.ret p r ∈ h) :
    ∃ op m1, Event.call p op ∈ h ∧ P m1 ∧ r = (intended c m1 op).2 := by
  obtain ⟨marks, t, hrun, hseen, _⟩ := hl
  have key : ∀ (s t : Ideal) (marks : List Mark), Ideal.Run c s marks t → (∀ e ∈ marks.filterMap Mark.seen, e ∈ h) → P s.hold →
      (∀ q op, s.status q = .called op → Event.call q op ∈ h) →
      (∀ q r, s.status q = .decided r → ∃ op m1, Event.call q op ∈ h ∧ P m1 ∧ r = (intended c m1 op).2) →
      ∀ q r, Event.ret q r ∈ marks.filterMap Mark.seen → ∃ op m1, Event.call q op ∈ h ∧ P m1 ∧ r = (intended c m1 op).2 := by
    intro s t marks hrun
    induction hrun with
    | nil => intro _ _ _ _ q r hq; cases hq
    | @cons s t u x xs hm hs ih =>
      intro hin hp hcall hdec
      cases hm with
      | @call p op hst =>
        have hin' : ∀ e ∈ xs.filterMap Mark.seen, e ∈ h := fun e he => hin e (by simp [Mark.seen, he])
        intro q r hq
        refine ih hin' hp ?_ ?_ q r (by simpa [Mark.seen] using hq)
        · intro q' op' hq'
          by_cases e : q' = p
          · subst e
            rw [setStatus_self] at hq'
            cases hq'
            exact hin _ (by simp [Mark.seen])
          · rw [setStatus_other _ _ _ e] at hq'
            exact hcall q' op' hq'
        · intro q' r' hq'
          by_cases e : q' = p
          · subst e
            rw [setStatus_self] at hq'
            cases hq'
          · rw [setStatus_other _ _ _ e] at hq'
            exact hdec q' r' hq'
      | @point p op hst =>
        have hin' : ∀ e ∈ xs.filterMap Mark.seen, e ∈ h := fun e he => hin e (by simpa [Mark.seen] using he)
        intro q r hq
        have hc := hcall p op hst
        refine ih hin' (hP p op hc _ hp) ?_ ?_ q r (by simpa [Mark.seen] using hq)
        · intro q' op' hq'
          by_cases e : q' = p
          · subst e
            rw [setStatus_self] at hq'
            cases hq'
          · rw [setStatus_other _ _ _ e] at hq'
            exact hcall q' op' hq'
        · intro q' r' hq'
          by_cases e : q' = p
          · subst e
            rw [setStatus_self] at hq'
            cases hq'
            exact ⟨op, _, hc, hp, rfl⟩
          · rw [setStatus_other _ _ _ e] at hq'
            exact hdec q' r' hq'
      | @ret p r0 hst =>
        have hin' : ∀ e ∈ xs.filterMap Mark.seen, e ∈ h := fun e he => hin e (by simp [Mark.seen, he])
        have key := ih hin' hp (by
          intro q' op' hq'
          by_cases e : q' = p
          · subst e
            rw [setStatus_self] at hq'
            cases hq'
          · rw [setStatus_other _ _ _ e] at hq'
            exact hcall q' op' hq') (by
          intro q' r' hq'
          by_cases e : q' = p
          · subst e
            rw [setStatus_self] at hq'
            cases hq'
          · rw [setStatus_other _ _ _ e] at hq'
            exact hdec q' r' hq')
        intro q r hq
        simp only [List.filterMap_cons, Mark.seen, List.mem_cons, Event.ret.injEq] at hq
        rcases hq with ⟨rfl, rfl⟩ | hq
        · exact hdec q r hst
        · exact key q r hq
  exact key _ t marks hrun (fun e he => hseen ▸ he) h0 (fun q op e => by cases e) (fun q r e => by cases e) p r (hseen ▸ hr)

theorem placed_set {db : DB} {fs : FS} {o o' : Obj} (h : Placed db fs o) (h' : Placed db fs o') (x : Bytes) :
    Placed db (fs.set (at_ db o) (.file x)) o' := by
  obtain ⟨p, l, hp, hl⟩ := h'.place
  refine ⟨h'.names, h'.free, ⟨p, l, hp, FS.lookup_mono (FS.set_file_dirs h.notDir) hl⟩, ?_⟩
  rw [FS.get_set (FS.ne_root h.notDir)]
  split
  · simp
  · exact h'.notDir

/-- Two clients with one call each. -/
def twoClients (a b : Call) : Nat → List Call
  | 0 => [a]
  | 1 => [b]
  | _ => []

theorem twoClients_all {P : Nat → Call → Prop} {a b : Call} (ha : P 0 a) (hb : P 1 b) : ∀ p, ∀ op ∈ twoClients a b p, P p op := by
  intro p op h
  match p with
  | 0 => rw [List.mem_singleton.mp h]; exact ha
  | 1 => rw [List.mem_singleton.mp h]; exact hb
  | _ + 2 => cases h

/-- The draft of the examples, and a disk that has it. -/
def oldDraft : Obj := .draft (ascii "Ab") (ascii "1")
def draftFS : FS := sampleFS.set (at_ sampleDB oldDraft) (.file (ascii "old"))

/-- **C116 is false of the code for drafts that are written:** a reader can get an empty draft, though the draft had a text before and has another
one afterwards. -/
theorem C116_write_draft_refuted :
    ¬ Linearizes (fun op => (∃ u d, op = .readDraft u d) ∨ ∃ u d x, op = .writeDraft u d x) := by
  intro H
  have hpl : Placed sampleDB draftFS oldDraft := placed_set sample_placed.1 sample_placed.1 _
  obtain ⟨m, hl⟩ := H sampleDB asciiCodec draftFS (twoClients (.writeDraft (ascii "Ab") (ascii "1") (ascii "new")) (.readDraft (ascii "Ab") (ascii "1")))
    [(0, 0), (0, 0), (1, 0), (1, 0), (1, 0), (1, 0), (1, 0)]
    (twoClients_all ⟨Or.inr ⟨_, _, _, rfl⟩, fun o ho => by rw [show o = _ from ho]; exact hpl⟩
      ⟨Or.inl ⟨_, _, rfl⟩, fun o ho => by rw [show o = _ from ho]; exact hpl⟩)
  have hev : ((fresh draftFS (twoClients (.writeDraft (ascii "Ab") (ascii "1") (ascii "new")) (.readDraft (ascii "Ab") (ascii "1")))).run
      sampleDB asciiCodec [(0, 0), (0, 0), (1, 0), (1, 0), (1, 0), (1, 0), (1, 0)]).2 =
      [.call 0 (.writeDraft (ascii "Ab") (ascii "1") (ascii "new")), .call 1 (.readDraft (ascii "Ab") (ascii "1")),
        .ret 1 (.ok (.bytes []))] := rfl
  rw [hev] at hl
  obtain ⟨op, m1, h1, h2, h3⟩ := linear_answers hl (fun m => m oldDraft = some (ascii "old") ∨ m oldDraft = some (ascii "new"))
    (Or.inl (by decide +kernel)) (by
      intro p op hop m hm
      simp only [List.mem_cons, Event.call.injEq, reduceCtorEq, List.not_mem_nil, or_false] at hop
      rcases hop with ⟨_, rfl⟩ | ⟨_, rfl⟩
      · exact Or.inr (put_self m oldDraft _)
      · exact hm) (p := 1) (r := .ok (.bytes [])) (by simp)
  simp only [List.mem_cons, Event.call.injEq, reduceCtorEq, List.not_mem_nil, or_false] at h1
  rcases h1 with ⟨h, _⟩ | ⟨_, rfl⟩
  · cases h
  · have h2 : m1 (.draft (ascii "Ab") (ascii "1")) = some (ascii "old") ∨ m1 (.draft (ascii "Ab") (ascii "1")) = some (ascii "new") := h2
    simp only [intended] at h3
    rcases h2 with e | e <;> rw [e] at h3 <;> cases h3

/-- **C116 is false of the code for drafts that are deleted:** a reader can get an error, though a missing draft is no error. -/
theorem C116_delete_draft_refuted :
    ¬ Linearizes (fun op => (∃ u d, op = .readDraft u d) ∨ ∃ u d, op = .deleteDraft u d) := by
  intro H
  have hpl : Placed sampleDB draftFS oldDraft := placed_set sample_placed.1 sample_placed.1 _
  obtain ⟨m, hl⟩ := H sampleDB asciiCodec draftFS (twoClients (.deleteDraft (ascii "Ab") (ascii "1")) (.readDraft (ascii "Ab") (ascii "1")))
    [(1, 0), (1, 0), (0, 0), (0, 0), (1, 0), (1, 0)]
    (twoClients_all ⟨Or.inr ⟨_, _, rfl⟩, fun o ho => by rw [show o = _ from ho]; exact hpl⟩
      ⟨Or.inl ⟨_, _, rfl⟩, fun o ho => by rw [show o = _ from ho]; exact hpl⟩)
  have hev : ((fresh draftFS (twoClients (.deleteDraft (ascii "Ab") (ascii "1")) (.readDraft (ascii "Ab") (ascii "1")))).run
      sampleDB asciiCodec [(1, 0), (1, 0), (0, 0), (0, 0), (1, 0), (1, 0)]).2 =
      [.call 1 (.readDraft (ascii "Ab") (ascii "1")), .call 0 (.deleteDraft (ascii "Ab") (ascii "1")),
        .ret 1 (.err "no such file or directory")] := rfl
  rw [hev] at hl
  obtain ⟨op, m1, h1, _, h3⟩ := linear_answers hl (fun _ => True) trivial (fun _ _ _ _ _ => trivial)
    (p := 1) (r := .err "no such file or directory") (by simp)
  simp only [List.mem_cons, Event.call.injEq, reduceCtorEq, List.not_mem_nil, or_false] at h1
  rcases h1 with ⟨_, rfl⟩ | ⟨h, _⟩
  · simp only [intended] at h3
    cases h3
  · cases h

/-- The name of the article of the examples. -/
def newName : Bytes := DB.articleName 1600000000 0xABC

/-- **C116 is false of the code for articles that are written:** a reader can get an empty article, though there was none before and there is a text
afterwards. -/
theorem C116_write_article_refuted :
    ¬ Linearizes (fun op => (∃ b f, op = .readArticle b f) ∨ ∃ b f x, op = .writeArticle b f x) := by
  intro H
  have hpl : Placed sampleDB sampleFS (.article (ascii "S") newName) := sample_placed.2.2.2
  obtain ⟨m, hl⟩ := H sampleDB asciiCodec sampleFS (twoClients (.writeArticle (ascii "S") newName (ascii "new")) (.readArticle (ascii "S") newName))
    [(0, 0), (0, 0), (1, 0), (1, 0), (1, 0), (1, 0)]
    (twoClients_all ⟨Or.inr ⟨_, _, _, rfl⟩, fun o ho => by rw [show o = _ from ho]; exact hpl⟩
      ⟨Or.inl ⟨_, _, rfl⟩, fun o ho => by rw [show o = _ from ho]; exact hpl⟩)
  have hev : ((fresh sampleFS (twoClients (.writeArticle (ascii "S") newName (ascii "new")) (.readArticle (ascii "S") newName))).run
      sampleDB asciiCodec [(0, 0), (0, 0), (1, 0), (1, 0), (1, 0), (1, 0)]).2 =
      [.call 0 (.writeArticle (ascii "S") newName (ascii "new")), .call 1 (.readArticle (ascii "S") newName), .ret 1 (.ok (.bytes []))] := rfl
  rw [hev] at hl
  obtain ⟨op, m1, h1, h2, h3⟩ := linear_answers hl
    (fun m => m (.article (ascii "S") newName) = none ∨ m (.article (ascii "S") newName) = some (ascii "new"))
    (Or.inl (by decide +kernel)) (by
      intro p op hop m hm
      simp only [List.mem_cons, Event.call.injEq, reduceCtorEq, List.not_mem_nil, or_false] at hop
      rcases hop with ⟨_, rfl⟩ | ⟨_, rfl⟩
      · refine Or.inr ?_
        simp only [intended, put_self]
        rcases hm with e | e <;> rw [e] <;> rfl
      · exact hm) (p := 1) (r := .ok (.bytes [])) (by simp)
  simp only [List.mem_cons, Event.call.injEq, reduceCtorEq, List.not_mem_nil, or_false] at h1
  rcases h1 with ⟨h, _⟩ | ⟨_, rfl⟩
  · cases h
  · simp only [intended, Holding.need] at h3
    rcases h2 with e | e <;> rw [e] at h3 <;> cases h3

/-- **C116 is false of the code for the first board:** a reader can get an empty list of boards, though there was none before (an error) and there is
one with a board afterwards. -/
theorem C116_first_board_refuted : ¬ Linearizes (fun op => op = .readBoards ∨ ∃ r, op = .addBoard r) := by
  intro H
  have hpl := sample_placed.2.2.1
  obtain ⟨r0⟩ : Nonempty BoardHeader := ⟨BoardHeader.parse asciiCodec []⟩
  obtain ⟨m, hl⟩ := H sampleDB asciiCodec sampleFS (twoClients (.addBoard r0) .readBoards) [(0, 0), (0, 0), (1, 0), (1, 0), (1, 0), (1, 0)]
    (twoClients_all ⟨Or.inr ⟨_, rfl⟩, fun o ho => by rw [show o = _ from ho]; exact hpl⟩
      ⟨Or.inl rfl, fun o ho => by rw [show o = _ from ho]; exact hpl⟩)
  have hev : ((fresh sampleFS (twoClients (.addBoard r0) .readBoards)).run sampleDB asciiCodec [(0, 0), (0, 0), (1, 0), (1, 0), (1, 0), (1, 0)]).2 =
      [.call 0 (.addBoard r0), .call 1 .readBoards, .ret 1 (.ok (.boards []))] := rfl
  rw [hev] at hl
  obtain ⟨op, m1, h1, h2, h3⟩ := linear_answers hl (fun m => ∀ d, m .boardList = some d → 256 ≤ d.length)
    (by
      intro d hd
      have : holdings sampleDB sampleFS .boardList = none := by decide +kernel
      rw [this] at hd
      cases hd) (by
      intro p op hop m hm
      simp only [List.mem_cons, Event.call.injEq, reduceCtorEq, List.not_mem_nil, or_false] at hop
      rcases hop with ⟨_, rfl⟩ | ⟨_, rfl⟩
      · intro d hd
        simp only [intended, put_self, Option.some.injEq] at hd
        rw [← hd, List.length_append, BoardHeader.marshal_length]
        omega
      · exact hm) (p := 1) (r := .ok (.boards [])) (by simp)
  simp only [List.mem_cons, Event.call.injEq, reduceCtorEq, List.not_mem_nil, or_false] at h1
  rcases h1 with ⟨h, _⟩ | ⟨_, rfl⟩
  · cases h
  · simp only [intended, Holding.need] at h3
    cases e : m1 .boardList with
    | none => rw [e] at h3; cases h3
    | some d =>
      have hd := h2 d e
      rw [e, Res.ok_bind] at h3
      have h4 := Answer.boards.inj (Res.ok.inj h3)
      have h5 := congrArg List.length h4
      simp only [List.length_nil, List.length_map, slots, List.length_range] at h5
      have : 1 ≤ (d.length + 256 - 1) / 256 := by rw [Nat.le_div_iff_mul_le (by omega)]; omega
      omega

/-- A list of articles that does not consist of whole records, and the record that is added to it. -/
def brokenFS : FS := sampleFS.set (at_ sampleDB (.articleIndex (ascii "S"))) (.file (ascii "Z"))
def newRecord : FileHeader := DB.newArticleRecord newName (ascii "Ab") (ascii "11/16") (ascii "hi")

theorem run_calls {db : DB} {c : Codec} {p : Nat} {op : Call} (sched : List (Nat × Nat)) :
    ∀ s : Site, Event.call p op ∈ (s.run db c sched).2 → op ∈ (s.clients p).todo := by
  induction sched with
  | nil => intro s h; cases h
  | cons x sched ih =>
    obtain ⟨q, n⟩ := x
    intro s h
    rcases List.mem_append.mp (show Event.call p op ∈ (s.step db c q n).2 ++ ((s.step db c q n).1.run db c sched).2 from h) with h | h
    · cases hc : s.clients q with
      | mk todo now =>
      cases now with
      | none =>
        cases todo with
        | nil => simp [Site.step, hc] at h
        | cons op' rest =>
          simp only [Site.step, hc, List.mem_singleton, Event.call.injEq] at h
          obtain ⟨rfl, rfl⟩ := h
          rw [hc]
          simp
      | some j => cases j <;> simp [Site.step, hc] at h
    · have h := ih _ h
      by_cases e : p = q
      · subst e
        cases hc : s.clients p with
        | mk todo now =>
        cases now with
        | none =>
          cases todo with
          | nil => simpa [Site.step, hc] using h
          | cons op' rest =>
            simp only [Site.step, hc, setClient_self] at h
            simp [h]
        | some j => cases j <;> simpa only [Site.step, hc, setClient_self] using h
      · cases hc : s.clients q with
        | mk todo now =>
        cases now with
        | none =>
          cases todo with
          | nil => simpa [Site.step, hc] using h
          | cons op' rest => simpa only [Site.step, hc, setClient_other _ _ _ e] using h
        | some j => cases j <;> simpa only [Site.step, hc, setClient_other _ _ _ e] using h

/-- The names in the answers that client 1 gets. -/
def namesSeen : Event → Option (List Bytes)
  | .ret 1 (.ok (.articles l)) => some (l.map (·.filename))
  | _ => none

theorem trimNul_two {a b : UInt8} (ha : a ≠ 0) (hb : b ≠ 0) (y : Bytes) : ∃ z, trimNul (a :: b :: y) = a :: b :: z := by
  have e : (a :: b :: y).dropWhile (· == 0) = a :: b :: y := by simp [List.dropWhile_cons, ha]
  unfold trimNul
  rw [e]
  have r : (a :: b :: y).reverse = y.reverse ++ [b, a] := by simp
  rw [r, List.dropWhile_append]
  split
  · exact ⟨[], by simp [List.dropWhile_cons, hb]⟩
  · exact ⟨(y.reverse.dropWhile (· == 0)).reverse, by simp⟩

/-- **C116 is false of the code for lists that do not consist of whole records:** a reader that has read the incomplete record goes on at the new
one. -/
theorem C116_broken_list_refuted : ¬ Linearizes (fun op => (∃ b, op = .listArticles b) ∨ ∃ b r, op = .addRecord b r) := by
  intro H
  have hpl : Placed sampleDB brokenFS (.articleIndex (ascii "S")) := placed_set sample_placed.2.1 sample_placed.2.1 _
  obtain ⟨m, hl⟩ := H sampleDB asciiCodec brokenFS (twoClients (.addRecord (ascii "S") newRecord) (.listArticles (ascii "S")))
    [(1, 0), (1, 0), (1, 0), (0, 0), (0, 0), (0, 0), (1, 0), (1, 0), (1, 0)]
    (twoClients_all ⟨Or.inr ⟨_, _, rfl⟩, fun o ho => by rw [show o = _ from ho]; exact hpl⟩
      ⟨Or.inl ⟨_, rfl⟩, fun o ho => by rw [show o = _ from ho]; exact hpl⟩)
  have hseen : [ascii "Z", newName] ∈ (((fresh brokenFS (twoClients (.addRecord (ascii "S") newRecord) (.listArticles (ascii "S")))).run
      sampleDB asciiCodec [(1, 0), (1, 0), (1, 0), (0, 0), (0, 0), (0, 0), (1, 0), (1, 0), (1, 0)]).2).filterMap namesSeen := by
    decide +kernel
  have hcalls := fun p op => run_calls (db := sampleDB) (c := asciiCodec) (p := p) (op := op)
    [(1, 0), (1, 0), (1, 0), (0, 0), (0, 0), (0, 0), (1, 0), (1, 0), (1, 0)]
    (fresh brokenFS (twoClients (.addRecord (ascii "S") newRecord) (.listArticles (ascii "S"))))
  generalize ((fresh brokenFS (twoClients (.addRecord (ascii "S") newRecord) (.listArticles (ascii "S")))).run
      sampleDB asciiCodec [(1, 0), (1, 0), (1, 0), (0, 0), (0, 0), (0, 0), (1, 0), (1, 0), (1, 0)]).2 = evs at hl hseen hcalls
  obtain ⟨e, he, hn⟩ := List.mem_filterMap.mp hseen
  obtain ⟨l, rfl, hnames⟩ : ∃ l, e = .ret 1 (.ok (.articles l)) ∧ l.map (·.filename) = [ascii "Z", newName] := by
    unfold namesSeen at hn
    split at hn
    · exact ⟨_, rfl, Option.some.inj hn⟩
    · cases hn
  have hcall : ∀ p op, Event.call p op ∈ evs → (p = 1 ∧ op = .listArticles (ascii "S")) ∨ op = .addRecord (ascii "S") newRecord ∧ p ≠ 1 := by
    intro p op h
    refine twoClients_all (P := fun p op => (p = 1 ∧ op = .listArticles (ascii "S")) ∨ op = .addRecord (ascii "S") newRecord ∧ p ≠ 1)
      (Or.inr ⟨rfl, by omega⟩) (Or.inl ⟨rfl, rfl⟩) p op (hcalls p op h)
  obtain ⟨op, m1, h1, h2, h3⟩ := linear_answers hl
    (fun m => m (.articleIndex (ascii "S")) = some (ascii "Z") ∨ ∃ x, m (.articleIndex (ascii "S")) = some (ascii "ZM" ++ x))
    (Or.inl (by decide +kernel)) (by
      intro p op hop m hm
      rcases hcall p op hop with ⟨_, rfl⟩ | ⟨rfl, _⟩
      · exact hm
      · refine Or.inr ?_
        simp only [intended, put_self]
        rcases hm with e | ⟨x, e⟩ <;> rw [e]
        · exact ⟨(newRecord.marshal asciiCodec).drop 1, by decide +kernel⟩
        · exact ⟨x ++ newRecord.marshal asciiCodec, by simp⟩) he
  rcases hcall 1 op h1 with ⟨_, rfl⟩ | ⟨_, h⟩
  · simp only [intended, Res.ok.injEq, Answer.articles.injEq] at h3
    subst h3
    rcases h2 with e | ⟨x, e⟩
    · rw [e] at hnames
      revert hnames
      decide +kernel
    · rw [e] at hnames
      have hlen : (ascii "ZM").length = 2 := by decide
      obtain ⟨n, hn⟩ : ∃ n, ((ascii "ZM" ++ x).length + 128 - 1) / 128 = n + 1 := by
        have : 1 ≤ ((ascii "ZM" ++ x).length + 128 - 1) / 128 := by
          rw [Nat.le_div_iff_mul_le (by omega), List.length_append, hlen]
          omega
        exact ⟨_, (Nat.sub_add_cancel this).symm⟩
      simp only [Option.getD_some, articlesIn, slots, hn, List.range_succ_eq_map, List.map_cons, List.cons.injEq] at hnames
      have h0 := hnames.1
      obtain ⟨y, hy⟩ : ∃ y, slice (slot 128 (ascii "ZM" ++ x) 0) 0 28 = 90 :: 77 :: y := by
        rw [show ascii "ZM" = [90, 77] from by decide]
        exact ⟨_, rfl⟩
      simp only [FileHeader.parse, hy] at h0
      obtain ⟨z, hz⟩ := trimNul_two (a := 90) (b := 77) (by decide) (by decide) y
      rw [hz] at h0
      have := congrArg List.length h0
      rw [show (ascii "Z").length = 1 from by decide] at this
      simp at this
  · exact absurd rfl h

/-- The full claim: every history of any calls is one of the ideal database. -/
theorem C116_linearizable_refuted : ¬ Linearizes (fun _ => True) :=
  fun H => C116_write_draft_refuted (fun db c fs todo sched h => H db c fs todo sched (fun p op hop => ⟨trivial, (h p op hop).2⟩))

/-! ## Examples -/

/-- Three clients: one makes an article, writes it and adds it to the list of the board; one adds a record to the same list and reads it; one writes
a draft and reads it. -/
def threeClients : Nat → List Call
  | 0 => [.createArticle (ascii "S") (ascii "Ab") (ascii "11/16") (ascii "hi") (fun _ => (1600000000, 0xABC)) 3,
      .writeArticle (ascii "S") newName (ascii "hello"), .addRecord (ascii "S") newRecord]
  | 1 => [.addRecord (ascii "S") newRecord, .listArticles (ascii "S")]
  | 2 => [.writeDraft (ascii "Ab") (ascii "1") (ascii "x"), .readDraft (ascii "Ab") (ascii "1")]
  | _ => []

/-- What the clients of the example use: only the list is used by two of them. -/
theorem threeClients_use : ∀ p, ∀ op ∈ threeClients p, ∀ o, touches op o →
    (p = 0 ∧ o = .article (ascii "S") newName) ∨ (p ≤ 1 ∧ o = .articleIndex (ascii "S") ∧ ∀ b f x, op ≠ .writeArticle b f x) ∨
    (p = 2 ∧ o = .draft (ascii "Ab") (ascii "1")) := by
  intro p op hop o ho
  match p with
  | 0 =>
    simp only [threeClients, List.mem_cons, List.not_mem_nil, or_false] at hop
    rcases hop with rfl | rfl | rfl
    · obtain ⟨k, rfl⟩ := ho; exact Or.inl ⟨rfl, rfl⟩
    · exact Or.inl ⟨rfl, ho⟩
    · exact Or.inr (Or.inl ⟨by omega, ho, fun _ _ _ e => by cases e⟩)
  | 1 =>
    simp only [threeClients, List.mem_cons, List.not_mem_nil, or_false] at hop
    rcases hop with rfl | rfl
    · exact Or.inr (Or.inl ⟨by omega, ho, fun _ _ _ e => by cases e⟩)
    · exact Or.inr (Or.inl ⟨by omega, ho, fun _ _ _ e => by cases e⟩)
  | 2 =>
    simp only [threeClients, List.mem_cons, List.not_mem_nil, or_false] at hop
    rcases hop with rfl | rfl
    · exact Or.inr (Or.inr ⟨rfl, ho⟩)
    · exact Or.inr (Or.inr ⟨rfl, ho⟩)
  | _ + 3 => cases hop

/-- The hypotheses of `C116_linearizable_partial` and `C116_obstruction_free`. -/
example : (∀ p, ∀ op ∈ threeClients p, ∀ o, touches op o → Placed sampleDB sampleFS o) ∧ OnlyAdded sampleDB sampleFS threeClients := by
  obtain ⟨h1, h2, h3, h4⟩ := sample_placed
  constructor
  · intro p op hop o ho
    rcases threeClients_use p op hop o ho with ⟨_, rfl⟩ | ⟨_, rfl, _⟩ | ⟨_, rfl⟩
    · exact h4
    · exact h2
    · exact h1
  · intro p q hpq op hop op' hop' o ho ho'
    rcases threeClients_use p op hop o (changes_touches ho) with ⟨e1, rfl⟩ | ⟨e1, rfl, hw⟩ | ⟨e1, rfl⟩
    · rcases threeClients_use q op' hop' _ ho' with ⟨e2, _⟩ | ⟨_, e2, _⟩ | ⟨_, e2⟩
      · omega
      · cases e2
      · cases e2
    · refine ⟨?_, hw⟩
      rw [show holdings sampleDB sampleFS (.articleIndex (ascii "S")) = none from by decide +kernel]
      trivial
    · rcases threeClients_use q op' hop' _ ho' with ⟨_, e2⟩ | ⟨_, e2, _⟩ | ⟨e2, _⟩
      · cases e2
      · cases e2
      · omega

/-- A schedule of the example in which the steps of the clients alternate and every call returns. -/
def turns : List (Nat × Nat) := (List.range 13).flatMap fun _ => [(0, 0), (1, 0), (2, 0)]

/-- It ends with every client done, as `C116_some_order_partial` supposes. -/
example : ∀ p, ((fresh sampleFS threeClients).run sampleDB asciiCodec turns).1.clients p = ⟨[], none⟩ := by
  have done : ∀ p, p < 3 → (((fresh sampleFS threeClients).run sampleDB asciiCodec turns).1.clients p).todo.length = 0 ∧
      (((fresh sampleFS threeClients).run sampleDB asciiCodec turns).1.clients p).now.isNone = true := by
    decide +kernel
  have other : ∀ (s : Site) (p q n : Nat), p ≠ q → (s.step sampleDB asciiCodec q n).1.clients p = s.clients p := by
    intro s p q n e
    cases hc : s.clients q with
    | mk todo now =>
    cases now with
    | none => cases todo <;> simp [Site.step, hc, setClient_other _ _ _ e]
    | some j => cases j <;> simp only [Site.step, hc, setClient_other _ _ _ e]
  have idle : ∀ (sched : List (Nat × Nat)) (s : Site) (p : Nat), (∀ x ∈ sched, p ≠ x.1) →
      (s.run sampleDB asciiCodec sched).1.clients p = s.clients p := by
    intro sched
    induction sched with
    | nil => intro s p _; rfl
    | cons x sched ih =>
      intro s p h
      exact (ih _ p (fun y hy => h y (by simp [hy]))).trans (other s p x.1 x.2 (h x (by simp)))
  intro p
  by_cases hp : p < 3
  · obtain ⟨h1, h2⟩ := done p hp
    generalize ((fresh sampleFS threeClients).run sampleDB asciiCodec turns).1.clients p = x at h1 h2
    obtain ⟨todo, now⟩ := x
    cases todo with
    | cons _ _ => cases h1
    | nil =>
      cases now with
      | none => rfl
      | some j => cases h2
  · rw [idle turns _ p (by
      intro x hx
      simp only [turns, List.mem_flatMap, List.mem_cons, List.not_mem_nil, or_false] at hx
      obtain ⟨_, _, rfl | rfl | rfl⟩ := hx <;> simp <;> omega)]
    match p, hp with
    | _ + 3, _ => rfl
    | 0, h => omega
    | 1, h => omega
    | 2, h => omega

end Verif
