import Verif.Model.WeakRacing
import Verif.Props.Racing
/-!
# C149 on a machine whose goroutines see one another's stores late
-/

namespace Verif
open Spec

/-- What every connector had is made of words of the strings of `S`, too. -/
def WeakInv (S : Nat → List GoString) (s : WeakState) : Prop :=
  RaceInv S s.now ∧ ∀ k, ∀ h ∈ s.past k, ∃ a ∈ S k, ∃ b ∈ S k, h = ⟨a.addr, b.len⟩

theorem WeakInv.mono {S T : Nat → List GoString} {s : WeakState} (hs : ∀ k, ∀ x ∈ S k, x ∈ T k) (h : WeakInv S s) : WeakInv T s := by
  refine ⟨h.1.mono hs, fun k x hx => ?_⟩
  obtain ⟨a, ha, b, hb, e⟩ := h.2 k x hx
  exact ⟨a, hs k a ha, b, hs k b hb, e⟩

theorem WeakInv.word {S : Nat → List GoString} {s : WeakState} (h : WeakInv S s) (k age : Nat) :
    (∃ a ∈ S k, a.addr = s.word k true age) ∧ ∃ a ∈ S k, a.len = s.word k false age := by
  have key : ∃ a ∈ S k, ∃ b ∈ S k, (s.now.homes k :: s.past k).getD age (s.now.homes k) = ⟨a.addr, b.len⟩ := by
    rw [List.getD_eq_getElem?_getD]
    cases e : (s.now.homes k :: s.past k)[age]? with
    | none => exact h.1.1 k
    | some x =>
      rcases List.mem_cons.mp (List.mem_of_getElem? e) with rfl | hx
      · exact h.1.1 k
      · exact h.2 k x hx
  obtain ⟨a, ha, b, hb, e⟩ := key
  exact ⟨⟨a, ha, by simp only [WeakState.word, e, if_true]⟩, b, hb, by simp only [WeakState.word, e]; rfl⟩

theorem weakInv_step (mem : Nat → UInt8) (S : Nat → List GoString) (s : WeakState) (g : Nat) (b : Bool) (age : Nat) (h : WeakInv S s) :
    WeakInv (fun k => S k ++ begunIn k (s.step mem g b age).2) (s.step mem g b age).1 ∧
    ∀ g' k x, .got g' k x ∈ (s.step mem g b age).2 → ∃ a ∈ S k, ∃ c ∈ S k, x = ⟨a.addr, c.len⟩ := by
  have keep : ∀ {s' : WeakState} {es : List RaceEvent}, WeakInv S s' → WeakInv (fun k => S k ++ begunIn k es) s' :=
    fun h => h.mono fun k x hx => List.mem_append_left _ hx
  have hg := h.1.2 g
  unfold WeakState.step
  split
  · exact ⟨keep h, by simp⟩
  split
  · next k e =>
    refine ⟨keep ⟨h.1.goto g _ ?_, h.2⟩, by simp⟩
    cases b
    · exact (h.word k age).2
    · exact (h.word k age).1
  · next k addr w e =>
    rw [e] at hg
    refine ⟨keep ⟨h.1.goto g _ trivial, h.2⟩, ?_⟩
    intro g' k' x hx
    simp only [List.mem_singleton, RaceEvent.got.injEq] at hx
    obtain ⟨_, rfl, rfl⟩ := hx
    obtain ⟨⟨a, ha, ea⟩, c, hc, ec⟩ := h.word k' age
    cases addr
    · obtain ⟨d, hd, rfl⟩ := hg
      exact ⟨a, ha, d, hd, by simp [ea]⟩
    · obtain ⟨d, hd, rfl⟩ := hg
      exact ⟨d, hd, c, hc, by simp [ec]⟩
  · obtain ⟨h1, h2⟩ := raceInv_step mem S s.now g b h.1
    refine ⟨⟨h1, fun k x hx => ?_⟩, h2⟩
    simp only at hx
    have key : ∃ a ∈ S k, ∃ b ∈ S k, x = ⟨a.addr, b.len⟩ := by
      split at hx
      · exact h.2 k x hx
      · rcases List.mem_cons.mp hx with rfl | hx
        · exact h.1.1 k
        · exact h.2 k x hx
    obtain ⟨a, ha, c, hc, e⟩ := key
    exact ⟨a, List.mem_append_left _ ha, c, List.mem_append_left _ hc, e⟩

theorem weakInv_run (mem : Nat → UInt8) (S : Nat → List GoString) (s : WeakState) (sched : List (Nat × Bool × Nat)) (h : WeakInv S s) :
    WeakInv (fun k => S k ++ begunIn k (s.run mem sched).2) (s.run mem sched).1 ∧
    ∀ pre g' k x post, (s.run mem sched).2 = pre ++ .got g' k x :: post →
      ∃ a ∈ S k ++ begunIn k pre, ∃ c ∈ S k ++ begunIn k pre, x = ⟨a.addr, c.len⟩ := by
  induction sched generalizing S s with
  | nil => exact ⟨h.mono (fun k x hx => List.mem_append_left _ hx), by simp [WeakState.run]⟩
  | cons gb sched ih =>
    obtain ⟨g, b, age⟩ := gb
    obtain ⟨h1, hgot⟩ := weakInv_step mem S s g b age h
    obtain ⟨i1, i2⟩ := ih _ _ h1
    refine ⟨i1.mono ?_, ?_⟩
    · intro k x hx
      simpa [WeakState.run, begunIn_append, or_assoc] using hx
    · intro pre g' k x post e
      simp only [WeakState.run] at e
      rcases List.append_eq_append_iff.1 e with ⟨t, e1, e2⟩ | ⟨t, e1, e2⟩
      · obtain ⟨a, ha, c, hc, ex⟩ := i2 t g' k x post e2
        subst e1
        refine ⟨a, ?_, c, ?_, ex⟩
        · simpa [begunIn_append, or_assoc] using ha
        · simpa [begunIn_append, or_assoc] using hc
      · cases t with
        | nil =>
          simp only [List.append_nil, List.nil_append] at e1 e2
          obtain ⟨a, ha, c, hc, ex⟩ := i2 [] g' k x post e2.symm
          subst e1
          refine ⟨a, ?_, c, ?_, ex⟩
          · simpa [begunIn] using ha
          · simpa [begunIn] using hc
        | cons y t =>
          simp only [List.cons_append, List.cons.injEq] at e2
          obtain ⟨rfl, e2⟩ := e2
          obtain ⟨a, ha, c, hc, ex⟩ := hgot g' k x (by rw [e1]; simp)
          exact ⟨a, List.mem_append_left _ ha, c, List.mem_append_left _ hc, ex⟩

/-- **C149, however late stores are seen.** What is loaded has the address of one and the length of one of these: the home that the connector had, and the
homes of the `Open`s that began before. -/
theorem C149_weak (mem : Nat → UInt8) (s : RaceState) (sched : List (Nat × Bool × Nat)) (hr : AtRest s) (pre post : List RaceEvent) (g k : Nat)
    (h : GoString) (e : (WeakState.run mem ⟨s, fun _ => []⟩ sched).2 = pre ++ .got g k h :: post) :
    ∃ a ∈ s.homes k :: begunIn k pre, ∃ b ∈ s.homes k :: begunIn k pre, h = ⟨a.addr, b.len⟩ :=
  (weakInv_run mem _ _ sched ⟨raceInv_rest hr, fun _ _ h => (List.not_mem_nil h).elim⟩).2 pre g k h post e

/-- **C149, however late stores are seen.** When all those homes have the same length, what is loaded is one of them. -/
theorem C149_weak_partial (mem : Nat → UInt8) (s : RaceState) (sched : List (Nat × Bool × Nat)) (hr : AtRest s) (pre post : List RaceEvent) (g k : Nat)
    (h : GoString) (e : (WeakState.run mem ⟨s, fun _ => []⟩ sched).2 = pre ++ .got g k h :: post)
    (hl : ∀ z ∈ begunIn k pre, z.len = (s.homes k).len) : h ∈ s.homes k :: begunIn k pre := by
  obtain ⟨a, ha, b, hb, rfl⟩ := C149_weak mem s sched hr pre post g k h e
  have : ∀ z ∈ s.homes k :: begunIn k pre, z.len = (s.homes k).len := by
    intro z hz
    rcases List.mem_cons.mp hz with rfl | hz
    · rfl
    · exact hl z hz
  rw [this b hb, ← this a ha]
  exact ha

/-- **C149.** A machine whose goroutines see every store at once is one of these. -/
theorem C149_weak_fresh (mem : Nat → UInt8) (s : WeakState) (sched : List (Nat × Bool)) :
    ((s.run mem (sched.map fun x => (x.1, x.2, 0))).1.now, (s.run mem (sched.map fun x => (x.1, x.2, 0))).2) = s.now.run mem sched := by
  induction sched generalizing s with
  | nil => rfl
  | cons x sched ih =>
    obtain ⟨g, b⟩ := x
    have hs : ((s.step mem g b 0).1.now, (s.step mem g b 0).2) = s.now.step mem g b := by
      unfold WeakState.step RaceState.step
      split
      · rfl
      · split <;> rename_i e <;> simp only [e] <;> rfl
    have h1 := ih (s.step mem g b 0).1
    simp only [List.map_cons, WeakState.run, RaceState.run]
    rw [← hs, ← h1]

/-- What holds if stores are seen at once (`C149_settled`): while nobody opens on a connector, every path is that of the home that it has. -/
def Spec.SettledWeakly : Prop :=
  ∀ (mem : Nat → UInt8) (s : WeakState) (sched : List (Nat × Bool × Nat)) (k : Nat), AtRest s.now →
    (∀ g, ∀ op ∈ s.now.todo g, ∃ k', op = .use k') → ∀ g h, .got g k h ∈ (s.run mem sched).2 → h = s.now.homes k

/-- Goroutine 0 has opened a database; goroutine 1 has not heard of it. -/
def weakAfter : WeakState := (WeakState.run raceMem ⟨raceBeside, fun _ => []⟩ [(0, true, 0), (0, true, 0), (0, true, 0)]).1

/-- **C149 on such a machine**: long after an `Open` has returned, a goroutine that does not synchronise with it may get the paths of the home from before,
or a mixture. -/
theorem C149_stale : (weakAfter.run raceMem [(1, true, 0), (1, true, 2), (1, true, 2)]).2 = [.got 1 0 ⟨0, 9⟩] ∧
    (weakAfter.run raceMem [(1, true, 0), (1, true, 0), (1, true, 2)]).2 = [.got 1 0 ⟨9, 9⟩] ∧ weakAfter.now.homes 0 = ⟨9, 6⟩ := by decide

theorem C149_stale_refuted : ¬ SettledWeakly := by
  intro h
  have := h raceMem weakAfter [(1, true, 0), (1, true, 2), (1, true, 2)] 0 (by
    refine ⟨fun g => ?_, by decide, by decide⟩
    match g with
    | 0 => decide
    | 1 => decide
    | n + 2 => rfl) (by
    intro g op hop
    match g with
    | 0 => exact absurd (show op ∈ ([] : List RaceOp) from hop) (by simp)
    | 1 => exact ⟨0, List.mem_singleton.mp (show op ∈ [RaceOp.use 0] from hop)⟩
    | n + 2 => exact absurd (show op ∈ ([] : List RaceOp) from hop) (by simp)) 1 ⟨0, 9⟩ (by rw [C149_stale.1]; simp)
  rw [C149_stale.2.2] at this
  exact absurd this (by decide)

/-- The hypotheses of `C149_weak` hold. -/
example : AtRest raceBeside ∧ (WeakState.run raceMem ⟨raceBeside, fun _ => []⟩
    [(0, true, 0), (0, true, 0), (0, true, 0), (1, true, 0), (1, true, 2), (1, true, 2)]).2 = [.began 0 0 ⟨9, 6⟩, .opened 0 0] ++ .got 1 0 ⟨0, 9⟩ :: [] :=
  ⟨⟨fun _ => rfl, rfl, rfl⟩, by decide⟩

end Verif
