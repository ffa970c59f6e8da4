import Verif.Model.Racing
import Verif.Props.Connector
/-!
# C149: opening, registering and using databases in several goroutines
-/

namespace Verif
open Spec

/-! ## The vocabulary -/

/-- The strings that goroutines have begun to store in connector `k`. -/
def Spec.begunIn (k : Nat) (es : List RaceEvent) : List GoString :=
  es.filterMap fun | .began _ c h => if c = k then some h else none | _ => none

/-- Everybody is between two calls, and the program lives. -/
def Spec.AtRest (s : RaceState) : Prop := (∀ g, s.pc g = .idle) ∧ s.writing = false ∧ s.dead = false

/-- Goroutine `g` is storing in connector `k`. -/
def Spec.Storing (s : RaceState) (k g : Nat) : Prop := (∃ h, s.pc g = .store k h) ∨ ∃ h b, s.pc g = .storeLast k h b

/-- Goroutine `g` has loaded one word of connector `k`. -/
def Spec.MidLoad (s : RaceState) (k g : Nat) : Prop := ∃ b w, s.pc g = .loadLast k b w

/-- The full claim: what is loaded is the home that the connector had, or the home of an `Open` that has begun. -/
def Spec.HomesWhole : Prop :=
  ∀ (mem : Nat → UInt8) (s : RaceState) (sched : List (Nat × Bool)) (g k : Nat) (h : GoString), AtRest s →
    .got g k h ∈ (s.run mem sched).2 →
    h.text mem ∈ (s.homes k :: begunIn k (s.run mem sched).2).map (·.text mem)

/-- The full claim about the map: the runtime finds nobody in it beside a writer. -/
def Spec.NeverFatal : Prop :=
  ∀ (mem : Nat → UInt8) (s : RaceState) (sched : List (Nat × Bool)), AtRest s → RaceEvent.fatal ∉ (s.run mem sched).2

/-! ## One goroutine alone does what `Registry` says -/

/-- What the map and the connectors hold, as a registry. -/
def Spec.registryOf (mem : Nat → UInt8) (s : RaceState) : Registry := ⟨s.drivers, fun k => (s.homes k).text mem⟩

theorem text_length (mem : Nat → UInt8) (s : GoString) : (s.text mem).length = s.len := by simp [GoString.text]

theorem text_part (mem : Nat → UInt8) (s : GoString) (a n : Nat) (h : a + n ≤ s.len) :
    (GoString.mk (s.addr + a) n).text mem = ((s.text mem).drop a).take n := by
  apply List.ext_getElem
  · simp [GoString.text]; omega
  · intro i h1 h2
    simp [GoString.text, Nat.add_assoc]

theorem splitByte_headD (l : Bytes) : (splitByte 63 l).headD [] = l.takeWhile (· != 63) := by
  by_cases h : (63 : UInt8) ∈ l
  · obtain ⟨a, b, rfl, ha⟩ := List.eq_append_cons_of_mem h
    rw [splitByte_sep, splitByte_of_not_mem ha, List.takeWhile_append_of_pos]
    · simp
    · intro x hx; simp; rintro rfl; exact ha hx
  · rw [splitByte_of_not_mem h]
    have : l.takeWhile (· != 63) = l := by
      have := List.takeWhile_append_of_pos (p := (· != (63 : UInt8))) (l₁ := l) (l₂ := [])
        (by intro x hx; simp; rintro rfl; exact h hx)
      simpa using this
    rw [this]; rfl

/-- C149: the words that `Open` stores are those of the home that its data source name selects. -/
theorem C149_home (mem : Nat → UInt8) (d : GoString) : (d.home mem).text mem = dsnHome (d.text mem) := by
  unfold GoString.home dsnHome
  split
  · rename_i hp
    rw [List.isPrefixOf_iff_prefix] at hp
    have h7 : 7 ≤ d.len := by
      have := hp.length_le
      rw [text_length] at this
      exact Nat.le_trans (by decide) this
    have hl : (((d.text mem).drop 7).takeWhile (· != 63)).length ≤ d.len - 7 := by
      have := (List.takeWhile_sublist (fun x : UInt8 => x != 63) (l := (d.text mem).drop 7)).length_le
      rwa [List.length_drop, text_length] at this
    rw [text_part mem d 7 _ (by omega), splitByte_headD]
    exact (List.prefix_iff_eq_take.1 (List.takeWhile_prefix _)).symm
  · rfl

/-- C149: a goroutine that nobody disturbs opens as the registry of C30 says, whichever word is stored first. -/
theorem C149_undisturbed (mem : Nat → UInt8) (s : RaceState) (g k : Nat) (n : Bytes) (d : GoString) (rest : List RaceOp) (b1 b2 b3 : Bool)
    (hr : AtRest s) (ht : s.todo g = .open_ n d :: rest) (hk : s.drivers n = some k) :
    let out := s.run mem [(g, b1), (g, b2), (g, b3)]
    (registryOf mem s).openDB n (d.text mem) = .ok (k, registryOf mem out.1) ∧ AtRest out.1 ∧ out.1.todo g = rest ∧
      out.2 = [.began g k (d.home mem), .opened g k] := by
  obtain ⟨hp, hw, hd⟩ := hr
  have hpg := hp g
  cases b2 <;>
    simp [RaceState.run, RaceState.step, hd, hpg, ht, hw, hk, RaceState.next, RaceState.goto, RaceState.putWord, AtRest, registryOf,
      Registry.openDB] <;>
    (refine ⟨?_, fun i => ?_⟩
     · funext i
       by_cases h : i = k <;> simp [h, ← C149_home]
     · by_cases h : i = g <;> simp [h, hp])

/-- C149: and registers as the registry says. -/
theorem C149_register (mem : Nat → UInt8) (s : RaceState) (g k : Nat) (n : Bytes) (rest : List RaceOp) (b1 b2 b3 : Bool)
    (hr : AtRest s) (ht : s.todo g = .register n k :: rest) :
    let out := s.run mem [(g, b1), (g, b2), (g, b3)]
    registryOf mem out.1 = (registryOf mem s).register n k ∧ AtRest out.1 ∧ out.1.todo g = rest ∧ out.2 = [] := by
  obtain ⟨hp, hw, hd⟩ := hr
  have hpg := hp g
  simp [RaceState.run, RaceState.step, hd, hpg, ht, hw, RaceState.next, RaceState.goto, AtRest, registryOf, Registry.register]
  intro i
  by_cases h : i = g <;> simp [h, hp]

/-! ## What is loaded -/

/-- The words in a connector, and those that goroutines hold, are words of the strings of `S`. -/
def RaceInv (S : Nat → List GoString) (s : RaceState) : Prop :=
  (∀ k, ∃ a ∈ S k, ∃ b ∈ S k, s.homes k = ⟨a.addr, b.len⟩) ∧
  ∀ g, match s.pc g with
    | .store k h => h ∈ S k
    | .storeLast k h _ => h ∈ S k
    | .loadLast k true w => ∃ a ∈ S k, a.addr = w
    | .loadLast k false w => ∃ a ∈ S k, a.len = w
    | _ => True

theorem RaceInv.mono {S T : Nat → List GoString} {s : RaceState} (hs : ∀ k, ∀ x ∈ S k, x ∈ T k) (h : RaceInv S s) : RaceInv T s := by
  refine ⟨fun k => ?_, fun g => ?_⟩
  · obtain ⟨a, ha, b, hb, e⟩ := h.1 k
    exact ⟨a, hs k a ha, b, hs k b hb, e⟩
  · have := h.2 g
    split
    · rename_i e; rw [e] at this; exact hs _ _ this
    · rename_i e; rw [e] at this; exact hs _ _ this
    · rename_i e; rw [e] at this; obtain ⟨a, ha, e⟩ := this; exact ⟨a, hs _ _ ha, e⟩
    · rename_i e; rw [e] at this; obtain ⟨a, ha, e⟩ := this; exact ⟨a, hs _ _ ha, e⟩
    · trivial

theorem RaceInv.goto {S : Nat → List GoString} {s : RaceState} (h : RaceInv S s) (g : Nat) (pc : RacePc)
    (hp : match pc with
      | .store k h => h ∈ S k
      | .storeLast k h _ => h ∈ S k
      | .loadLast k true w => ∃ a ∈ S k, a.addr = w
      | .loadLast k false w => ∃ a ∈ S k, a.len = w
      | _ => True) : RaceInv S (s.goto g pc) := by
  refine ⟨h.1, fun i => ?_⟩
  by_cases hi : i = g
  · simp only [RaceState.goto, hi, if_true]; exact hp
  · simp only [RaceState.goto, hi, if_false]; exact h.2 i

theorem RaceInv.putWord {S : Nat → List GoString} {s : RaceState} (h : RaceInv S s) {k : Nat} {x : GoString} (hx : x ∈ S k) (b : Bool) :
    RaceInv S (s.putWord k x b) := by
  refine ⟨fun i => ?_, h.2⟩
  obtain ⟨a, ha, c, hc, e⟩ := h.1 i
  by_cases hi : i = k
  · subst hi
    cases b
    · exact ⟨a, ha, x, hx, by simp [RaceState.putWord, e]⟩
    · exact ⟨x, hx, c, hc, by simp [RaceState.putWord, e]⟩
  · exact ⟨a, ha, c, hc, by simp [RaceState.putWord, hi, e]⟩

theorem raceInv_step (mem : Nat → UInt8) (S : Nat → List GoString) (s : RaceState) (g : Nat) (b : Bool) (h : RaceInv S s) :
    RaceInv (fun k => S k ++ begunIn k (s.step mem g b).2) (s.step mem g b).1 ∧
    ∀ g' k x, .got g' k x ∈ (s.step mem g b).2 → ∃ a ∈ S k, ∃ c ∈ S k, x = ⟨a.addr, c.len⟩ := by
  have keep : ∀ {s' : RaceState} {es : List RaceEvent}, RaceInv S s' → RaceInv (fun k => S k ++ begunIn k es) s' :=
    fun h => h.mono fun k x hx => List.mem_append_left _ hx
  have hg := h.2 g
  unfold RaceState.step
  split
  · exact ⟨keep h, by simp⟩
  split
  · split
    · exact ⟨keep h, by simp⟩
    · split
      · exact ⟨keep ⟨h.1, h.2⟩, by simp [RaceState.crash]⟩
      · refine ⟨keep ?_, by simp⟩
        exact RaceInv.goto (s := _) ⟨h.1, h.2⟩ g _ trivial
    · split
      · exact ⟨keep ⟨h.1, h.2⟩, by simp [RaceState.crash]⟩
      · split
        · exact ⟨keep ⟨h.1, h.2⟩, by simp⟩
        · refine ⟨?_, by simp⟩
          refine RaceInv.goto (s := _) (keep ⟨h.1, h.2⟩) g _ ?_
          simp [begunIn]
    · exact ⟨keep (RaceInv.goto (s := _) ⟨h.1, h.2⟩ g _ trivial), by simp⟩
  · exact ⟨keep (RaceInv.goto (s := _) ⟨h.1, h.2⟩ g _ trivial), by simp⟩
  · split
    · exact ⟨keep (RaceInv.goto (s := _) ⟨h.1, h.2⟩ g _ trivial), by simp⟩
    · exact ⟨keep ⟨h.1, h.2⟩, by simp [RaceState.crash]⟩
  · rename_i e
    rw [e] at hg
    exact ⟨keep ((h.putWord hg b).goto g _ hg), by simp⟩
  · rename_i e
    rw [e] at hg
    exact ⟨keep ((h.putWord hg _).goto g _ trivial), by simp⟩
  · rename_i k e
    refine ⟨keep (h.goto g _ ?_), by simp⟩
    obtain ⟨a, ha, c, hc, e⟩ := h.1 k
    cases b
    · exact ⟨c, hc, by simp [RaceState.word, e]⟩
    · exact ⟨a, ha, by simp [RaceState.word, e]⟩
  · rename_i k addr w e
    rw [e] at hg
    refine ⟨keep (h.goto g _ trivial), ?_⟩
    intro g' k' x hx
    simp only [List.mem_singleton, RaceEvent.got.injEq] at hx
    obtain ⟨_, rfl, rfl⟩ := hx
    obtain ⟨a, ha, c, hc, eh⟩ := h.1 k'
    cases addr
    · obtain ⟨d, hd, rfl⟩ := hg
      exact ⟨a, ha, d, hd, by simp [RaceState.word, eh]⟩
    · obtain ⟨d, hd, rfl⟩ := hg
      exact ⟨d, hd, c, hc, by simp [RaceState.word, eh]⟩

theorem begunIn_append (k : Nat) (a b : List RaceEvent) : begunIn k (a ++ b) = begunIn k a ++ begunIn k b := by
  simp [begunIn]

theorem raceInv_run (mem : Nat → UInt8) (S : Nat → List GoString) (s : RaceState) (sched : List (Nat × Bool)) (h : RaceInv S s) :
    RaceInv (fun k => S k ++ begunIn k (s.run mem sched).2) (s.run mem sched).1 ∧
    ∀ pre g' k x post, (s.run mem sched).2 = pre ++ .got g' k x :: post →
      ∃ a ∈ S k ++ begunIn k pre, ∃ c ∈ S k ++ begunIn k pre, x = ⟨a.addr, c.len⟩ := by
  induction sched generalizing S s with
  | nil => exact ⟨h.mono (fun k x hx => List.mem_append_left _ hx), by simp [RaceState.run]⟩
  | cons gb sched ih =>
    obtain ⟨g, b⟩ := gb
    obtain ⟨h1, hgot⟩ := raceInv_step mem S s g b h
    obtain ⟨i1, i2⟩ := ih _ _ h1
    refine ⟨i1.mono ?_, ?_⟩
    · intro k x hx
      simpa [RaceState.run, begunIn_append, or_assoc] using hx
    · intro pre g' k x post e
      simp only [RaceState.run] at e
      rcases List.append_eq_append_iff.1 e with ⟨t, e1, e2⟩ | ⟨t, e1, e2⟩
      · obtain ⟨a, ha, c, hc, ex⟩ := i2 t g' k x post e2
        subst e1
        refine ⟨a, ?_, c, ?_, ex⟩
        · simpa [begunIn_append, or_assoc] using ha
        · simpa [begunIn_append, or_assoc] using hc
      · cases t with
        | nil =>
          simp only [List.append_nil, List.nil_append] at e1 e2
          obtain ⟨a, ha, c, hc, ex⟩ := i2 [] g' k x post e2.symm
          subst e1
          refine ⟨a, ?_, c, ?_, ex⟩
          · simpa [begunIn] using ha
          · simpa [begunIn] using hc
        | cons y t =>
          simp only [List.cons_append, List.cons.injEq] at e2
          obtain ⟨rfl, e2⟩ := e2
          obtain ⟨a, ha, c, hc, ex⟩ := hgot g' k x (by rw [e1]; simp)
          exact ⟨a, List.mem_append_left _ ha, c, List.mem_append_left _ hc, ex⟩

theorem raceInv_rest {s : RaceState} (hr : AtRest s) : RaceInv (fun k => [s.homes k]) s :=
  ⟨fun k => ⟨_, List.mem_singleton_self _, _, List.mem_singleton_self _, rfl⟩, fun g => by rw [hr.1 g]; trivial⟩

/-- C149: what is loaded has the address of one and the length of one of these: the home that the connector had, and the homes of the `Open`s
that began before. -/
theorem C149_words (mem : Nat → UInt8) (s : RaceState) (sched : List (Nat × Bool)) (hr : AtRest s) (pre post : List RaceEvent) (g k : Nat)
    (h : GoString) (e : (s.run mem sched).2 = pre ++ .got g k h :: post) :
    ∃ a ∈ s.homes k :: begunIn k pre, ∃ b ∈ s.homes k :: begunIn k pre, h = ⟨a.addr, b.len⟩ :=
  (raceInv_run mem _ s sched (raceInv_rest hr)).2 pre g k h post e

/-- C149: so when all those homes have the same length, what is loaded is one of them. -/
theorem C149_partial (mem : Nat → UInt8) (s : RaceState) (sched : List (Nat × Bool)) (hr : AtRest s) (pre post : List RaceEvent) (g k : Nat)
    (h : GoString) (e : (s.run mem sched).2 = pre ++ .got g k h :: post) (hl : ∀ x ∈ begunIn k pre, x.len = (s.homes k).len) :
    h ∈ s.homes k :: begunIn k pre := by
  obtain ⟨a, ha, b, hb, rfl⟩ := C149_words mem s sched hr pre post g k h e
  have len : ∀ x ∈ s.homes k :: begunIn k pre, x.len = (s.homes k).len := by
    intro x hx
    rcases List.mem_cons.1 hx with rfl | hx
    · rfl
    · exact hl x hx
  rw [len b hb, ← len a ha]
  exact ha

/-! ## Quiet moments -/

/-- What a step leaves alone when no `Open` of `k` begins in it. -/
theorem quietHome_step (mem : Nat → UInt8) (s : RaceState) (g k : Nat) (b : Bool) (hq : ∀ g', ¬ Storing s k g')
    (hn : begunIn k (s.step mem g b).2 = []) :
    (∀ g', ¬ Storing (s.step mem g b).1 k g') ∧ (s.step mem g b).1.homes k = s.homes k := by
  have go : ∀ (s' : RaceState) (pc : RacePc), s'.pc = s.pc → s'.homes k = s.homes k →
      (∀ h, pc ≠ .store k h) → (∀ h c, pc ≠ .storeLast k h c) →
      (∀ g', ¬ Storing (s'.goto g pc) k g') ∧ (s'.goto g pc).homes k = s.homes k := by
    intro s' pc e1 e2 h1 h2
    refine ⟨fun g' => ?_, e2⟩
    unfold Storing
    by_cases hg : g' = g
    · simp only [RaceState.goto, hg, if_true]
      rintro (⟨h, e⟩ | ⟨h, c, e⟩)
      · exact h1 h e
      · exact h2 h c e
    · simp only [RaceState.goto, hg, if_false, e1]
      exact hq g'
  revert hn
  unfold RaceState.step
  split
  · exact fun _ => ⟨hq, rfl⟩
  split
  · split
    · exact fun _ => ⟨hq, rfl⟩
    · split
      · exact fun _ => ⟨hq, rfl⟩
      · exact fun _ => go _ _ rfl rfl (by simp) (by simp)
    · split
      · exact fun _ => ⟨hq, rfl⟩
      · split
        · exact fun _ => ⟨hq, rfl⟩
        · rename_i c e
          intro hn
          have hc : c ≠ k := by
            rintro rfl
            simp [begunIn] at hn
          exact go _ _ rfl rfl (by simp [hc]) (by simp)
    · exact fun _ => go _ _ rfl rfl (by simp) (by simp)
  · exact fun _ => go _ _ rfl rfl (by simp) (by simp)
  · split
    · exact fun _ => go _ _ rfl rfl (by simp) (by simp)
    · exact fun _ => ⟨hq, rfl⟩
  · rename_i c h e
    have hc : c ≠ k := by
      rintro rfl
      exact hq g (.inl ⟨h, e⟩)
    exact fun _ => go _ _ rfl (by simp [RaceState.putWord, Ne.symm hc]) (by simp) (by simp [hc])
  · rename_i c h a e
    have hc : c ≠ k := by
      rintro rfl
      exact hq g (.inr ⟨h, a, e⟩)
    exact fun _ => go _ _ rfl (by simp [RaceState.putWord, Ne.symm hc]) (by simp) (by simp)
  · exact fun _ => go _ _ rfl rfl (by simp) (by simp)
  · exact fun _ => go _ _ rfl rfl (by simp) (by simp)

/-- A word of connector `k` that a goroutine holds is still in it. -/
def FreshLoads (s : RaceState) (k : Nat) : Prop := ∀ g b w, s.pc g = .loadLast k b w → w = s.word k b

theorem fresh_step (mem : Nat → UInt8) (s : RaceState) (g k : Nat) (b : Bool) (hq : ∀ g', ¬ Storing s k g') (hf : FreshLoads s k)
    (hn : begunIn k (s.step mem g b).2 = []) :
    FreshLoads (s.step mem g b).1 k ∧ ∀ g' h, .got g' k h ∈ (s.step mem g b).2 → h = s.homes k := by
  have hh := (quietHome_step mem s g k b hq hn).2
  have hw : ∀ a, (s.step mem g b).1.word k a = s.word k a := by intro a; simp [RaceState.word, hh]
  have go : ∀ (s' : RaceState) (pc : RacePc), s'.pc = s.pc → (∀ c w, pc = .loadLast k c w → w = s.word k c) →
      ∀ i c w, (s'.goto g pc).pc i = .loadLast k c w → w = s.word k c := by
    intro s' pc e1 h1 i c w
    by_cases hg : i = g
    · simp only [RaceState.goto, hg, if_true]; exact h1 c w
    · simp only [RaceState.goto, hg, if_false, e1]; exact hf i c w
  suffices (∀ i c w, (s.step mem g b).1.pc i = .loadLast k c w → w = s.word k c) ∧
      ∀ g' h, .got g' k h ∈ (s.step mem g b).2 → h = s.homes k from
    ⟨fun i c w e => by rw [hw]; exact this.1 i c w e, this.2⟩
  clear hh hw hn
  unfold RaceState.step
  split
  · exact ⟨hf, by simp⟩
  split
  · split
    · exact ⟨hf, by simp⟩
    · split
      · exact ⟨hf, by simp [RaceState.crash]⟩
      · exact ⟨go _ _ rfl (by simp), by simp⟩
    · split
      · exact ⟨hf, by simp [RaceState.crash]⟩
      · split
        · exact ⟨hf, by simp⟩
        · exact ⟨go _ _ rfl (by simp), by simp⟩
    · exact ⟨go _ _ rfl (by simp), by simp⟩
  · exact ⟨go _ _ rfl (by simp), by simp⟩
  · split
    · exact ⟨go _ _ rfl (by simp), by simp⟩
    · exact ⟨hf, by simp [RaceState.crash]⟩
  · exact ⟨go _ _ rfl (by simp), by simp⟩
  · exact ⟨go _ _ rfl (by simp), by simp⟩
  · rename_i c e
    refine ⟨go _ _ rfl ?_, by simp⟩
    intro a w e
    simp only [RacePc.loadLast.injEq] at e
    obtain ⟨rfl, rfl, rfl⟩ := e
    rfl
  · rename_i c a w e
    refine ⟨go _ _ rfl (by simp), ?_⟩
    intro g' h hx
    simp only [List.mem_singleton, RaceEvent.got.injEq] at hx
    obtain ⟨_, rfl, rfl⟩ := hx
    have := hf g a w e
    subst this
    cases a <;> simp [RaceState.word]

/-- C149: while nobody opens on a connector, every load of it that begins gives the home that it has. -/
theorem C149_settled (mem : Nat → UInt8) (s : RaceState) (sched : List (Nat × Bool)) (k : Nat)
    (hq : ∀ g, ¬ Storing s k g) (hl : ∀ g, ¬ MidLoad s k g) (hn : begunIn k (s.run mem sched).2 = []) :
    (s.run mem sched).1.homes k = s.homes k ∧ ∀ g h, .got g k h ∈ (s.run mem sched).2 → h = s.homes k := by
  have hf : FreshLoads s k := fun g b w e => absurd ⟨b, w, e⟩ (hl g)
  clear hl
  induction sched generalizing s with
  | nil => exact ⟨rfl, by simp [RaceState.run]⟩
  | cons gb sched ih =>
    obtain ⟨g, b⟩ := gb
    simp only [RaceState.run, begunIn_append, List.append_eq_nil_iff] at hn
    obtain ⟨q1, q2⟩ := quietHome_step mem s g k b hq hn.1
    obtain ⟨f1, f2⟩ := fresh_step mem s g k b hq hf hn.1
    obtain ⟨i1, i2⟩ := ih _ q1 hn.2 f1
    refine ⟨?_, ?_⟩
    · simp only [RaceState.run]; rw [i1, q2]
    · intro g' h hx
      simp only [RaceState.run, List.mem_append] at hx
      rcases hx with hx | hx
      · exact f2 g' h hx
      · rw [i2 g' h hx, q2]

theorem quiet_run (mem : Nat → UInt8) (s : RaceState) (sched : List (Nat × Bool)) (k : Nat)
    (hq : ∀ g, ¬ Storing s k g) (hn : begunIn k (s.run mem sched).2 = []) :
    (∀ g, ¬ Storing (s.run mem sched).1 k g) ∧ (s.run mem sched).1.homes k = s.homes k := by
  induction sched generalizing s with
  | nil => exact ⟨hq, rfl⟩
  | cons gb sched ih =>
    obtain ⟨g, b⟩ := gb
    simp only [RaceState.run, begunIn_append, List.append_eq_nil_iff] at hn
    obtain ⟨q1, q2⟩ := quietHome_step mem s g k b hq hn.1
    obtain ⟨i1, i2⟩ := ih _ q1 hn.2
    exact ⟨i1, by simp only [RaceState.run]; rw [i2, q2]⟩

/-- Goroutine `g` is in an `Open` of `k` that stores `h`. -/
def SoleOpen (s : RaceState) (k g : Nat) (h : GoString) : Prop :=
  (∀ g', g' ≠ g → ¬ Storing s k g') ∧
  (s.pc g = .store k h ∨ ∃ b, s.pc g = .storeLast k h b ∧ s.word k b = if b then h.addr else h.len)

theorem sole_step (mem : Nat → UInt8) (s : RaceState) (g k i : Nat) (h : GoString) (b : Bool) (hs : SoleOpen s k g h)
    (hn : begunIn k (s.step mem i b).2 = []) :
    (SoleOpen (s.step mem i b).1 k g h ∧ RaceEvent.opened g k ∉ (s.step mem i b).2) ∨
    ((∀ g', ¬ Storing (s.step mem i b).1 k g') ∧ (s.step mem i b).1.homes k = h) := by
  obtain ⟨ho, hg⟩ := hs
  by_cases hi : i = g
  · subst hi
    by_cases hd : s.dead = true
    · left
      simp only [RaceState.step, hd, if_true]
      exact ⟨⟨ho, hg⟩, by simp⟩
    rcases hg with hg | ⟨a, hg, hw⟩
    · left
      have e : s.step mem i b = ((s.putWord k h b).goto i (.storeLast k h b), []) := by simp [RaceState.step, hd, hg]
      rw [e]
      refine ⟨⟨fun g' hne => ?_, .inr ⟨b, by simp [RaceState.goto], ?_⟩⟩, by simp⟩
      · simpa [Storing, RaceState.goto, RaceState.putWord, hne] using ho g' hne
      · cases b <;> simp [RaceState.word, RaceState.goto, RaceState.putWord]
    · right
      have e : s.step mem i b = ((s.putWord k h (!a)).goto i .idle, [.opened i k]) := by simp [RaceState.step, hd, hg]
      rw [e]
      refine ⟨fun g' => ?_, ?_⟩
      · by_cases hne : g' = i
        · simp [Storing, RaceState.goto, hne]
        · simpa [Storing, RaceState.goto, RaceState.putWord, hne] using ho g' hne
      · cases a <;> simp only [RaceState.word, Bool.false_eq_true, if_false, if_true] at hw <;>
          simp [RaceState.goto, RaceState.putWord, hw]
  · left
    have go : ∀ (s' : RaceState) (pc : RacePc), s'.pc = s.pc → s'.homes k = s.homes k →
        (∀ h, pc ≠ .store k h) → (∀ h c, pc ≠ .storeLast k h c) → SoleOpen (s'.goto i pc) k g h := by
      intro s' pc e1 e2 h1 h2
      refine ⟨fun g' hne => ?_, ?_⟩
      · unfold Storing
        by_cases hgi : g' = i
        · simp only [RaceState.goto, hgi, if_true]
          rintro (⟨h, e⟩ | ⟨h, c, e⟩)
          · exact h1 h e
          · exact h2 h c e
        · simp only [RaceState.goto, hgi, if_false, e1]
          exact ho g' hne
      · have : (s'.goto i pc).pc g = s.pc g := by simp [RaceState.goto, Ne.symm hi, e1]
        rw [this]
        simpa [RaceState.word, RaceState.goto, e2] using hg
    have same : ∀ s' : RaceState, s'.pc = s.pc → s'.homes k = s.homes k → SoleOpen s' k g h := by
      intro s' e1 e2
      refine ⟨fun g' hne => ?_, ?_⟩
      · unfold Storing; rw [e1]; exact ho g' hne
      · rw [e1]; simpa [RaceState.word, e2] using hg
    have hoi := ho i hi
    revert hn
    unfold RaceState.step
    split
    · exact fun _ => ⟨⟨ho, hg⟩, by simp⟩
    split
    · split
      · exact fun _ => ⟨⟨ho, hg⟩, by simp⟩
      · split
        · exact fun _ => ⟨same _ rfl rfl, by simp [RaceState.crash]⟩
        · exact fun _ => ⟨go _ _ rfl rfl (by simp) (by simp), by simp⟩
      · split
        · exact fun _ => ⟨same _ rfl rfl, by simp [RaceState.crash]⟩
        · split
          · exact fun _ => ⟨same _ rfl rfl, by simp⟩
          · rename_i c e
            intro hn
            have hc : c ≠ k := by
              rintro rfl
              simp [begunIn] at hn
            exact ⟨go _ _ rfl rfl (by simp [hc]) (by simp), by simp⟩
      · exact fun _ => ⟨go _ _ rfl rfl (by simp) (by simp), by simp⟩
    · exact fun _ => ⟨go _ _ rfl rfl (by simp) (by simp), by simp⟩
    · split
      · exact fun _ => ⟨go _ _ rfl rfl (by simp) (by simp), by simp⟩
      · exact fun _ => ⟨same _ rfl rfl, by simp [RaceState.crash]⟩
    · rename_i c x e
      have hc : c ≠ k := by
        rintro rfl
        exact hoi (.inl ⟨x, e⟩)
      exact fun _ => ⟨go _ _ rfl (by simp [RaceState.putWord, Ne.symm hc]) (by simp) (by simp [hc]), by simp⟩
    · rename_i c x a e
      have hc : c ≠ k := by
        rintro rfl
        exact hoi (.inr ⟨x, a, e⟩)
      exact fun _ => ⟨go _ _ rfl (by simp [RaceState.putWord, Ne.symm hc]) (by simp) (by simp), by simp [Ne.symm hi]⟩
    · exact fun _ => ⟨go _ _ rfl rfl (by simp) (by simp), by simp⟩
    · exact fun _ => ⟨go _ _ rfl rfl (by simp) (by simp), by simp⟩

/-- C149: an `Open` that overlaps no other one of its connector leaves the home it was given there, whatever else goes on. -/
theorem C149_sole (mem : Nat → UInt8) (s : RaceState) (sched : List (Nat × Bool)) (k g : Nat) (h : GoString)
    (hg : s.pc g = .store k h) (ho : ∀ g', g' ≠ g → ¬ Storing s k g') (hn : begunIn k (s.run mem sched).2 = [])
    (hd : .opened g k ∈ (s.run mem sched).2) :
    (s.run mem sched).1.homes k = h ∧ ∀ g', ¬ Storing (s.run mem sched).1 k g' := by
  have hs : SoleOpen s k g h := ⟨ho, .inl hg⟩
  clear ho hg
  induction sched generalizing s with
  | nil => simp [RaceState.run] at hd
  | cons ib sched ih =>
    obtain ⟨i, b⟩ := ib
    simp only [RaceState.run, begunIn_append, List.append_eq_nil_iff] at hn
    simp only [RaceState.run, List.mem_append] at hd
    rcases sole_step mem s g k i h b hs hn.1 with ⟨h1, h2⟩ | ⟨h1, h2⟩
    · exact ih _ hn.2 (hd.resolve_left h2) h1
    · obtain ⟨q1, q2⟩ := quiet_run mem _ sched k h1 hn.2
      exact ⟨by simp only [RaceState.run]; rw [q2, h2], q1⟩

/-! ## The map -/

/-- Nobody registers, now or later. -/
def Spec.NoRegister (s : RaceState) : Prop :=
  s.writing = false ∧ ∀ g, (∀ n k, s.pc g ≠ .mapStore n k) ∧ s.pc g ≠ .mapEnd ∧ ∀ n k, .register n k ∉ s.todo g

theorem noRegister_step (mem : Nat → UInt8) (s : RaceState) (g : Nat) (b : Bool) (hs : NoRegister s) :
    NoRegister (s.step mem g b).1 ∧ RaceEvent.fatal ∉ (s.step mem g b).2 := by
  obtain ⟨hw, hs⟩ := hs
  have go : ∀ (s' : RaceState) (pc : RacePc), s'.writing = false → s'.pc = s.pc → (∀ i, ∀ x ∈ s'.todo i, x ∈ s.todo i) →
      (∀ n k, pc ≠ .mapStore n k) → pc ≠ .mapEnd → NoRegister (s'.goto g pc) := by
    intro s' pc e0 e1 e2 h1 h2
    refine ⟨e0, fun i => ⟨?_, ?_, fun n k hx => (hs i).2.2 n k (e2 i _ hx)⟩⟩
    · by_cases hi : i = g
      · simpa [RaceState.goto, hi] using h1
      · simpa [RaceState.goto, hi, e1] using (hs i).1
    · by_cases hi : i = g
      · simpa [RaceState.goto, hi] using h2
      · simpa [RaceState.goto, hi, e1] using (hs i).2.1
  have nx : ∀ {x : RaceOp} {rest : List RaceOp}, s.todo g = x :: rest → ∀ i, ∀ y ∈ (s.next g rest).todo i, y ∈ s.todo i := by
    intro x rest e i y hy
    by_cases hi : i = g
    · subst hi
      simp only [RaceState.next, if_true] at hy
      rw [e]; exact List.mem_cons_of_mem _ hy
    · simpa [RaceState.next, hi] using hy
  unfold RaceState.step
  split
  · exact ⟨⟨hw, hs⟩, by simp⟩
  split
  · split
    · exact ⟨⟨hw, hs⟩, by simp⟩
    · rename_i n k rest e
      exact absurd (by rw [e]; exact List.mem_cons_self) ((hs g).2.2 n k)
    · rename_i n d rest e
      rw [hw]
      simp only [Bool.false_eq_true, if_false]
      split
      · exact ⟨⟨hw, fun i => ⟨(hs i).1, (hs i).2.1, fun n k hx => (hs i).2.2 n k (nx e i _ hx)⟩⟩, by simp⟩
      · exact ⟨go _ _ hw rfl (nx e) (by simp) (by simp), by simp⟩
    · rename_i k rest e
      exact ⟨go _ _ hw rfl (nx e) (by simp) (by simp), by simp⟩
  · rename_i n k e
    exact absurd e ((hs g).1 n k)
  · rename_i e
    exact absurd e (hs g).2.1
  · exact ⟨go _ _ hw rfl (fun _ _ h => h) (by simp) (by simp), by simp⟩
  · exact ⟨go _ _ hw rfl (fun _ _ h => h) (by simp) (by simp), by simp⟩
  · exact ⟨go _ _ hw rfl (fun _ _ h => h) (by simp) (by simp), by simp⟩
  · exact ⟨go _ _ hw rfl (fun _ _ h => h) (by simp) (by simp), by simp⟩

/-- C149: once the drivers are registered — the package does it in `init` (/repo/pttbbs/pttbbs.go:16-18) — databases may be opened and used by
any number of goroutines without the runtime ending the program. -/
theorem C149_registered (mem : Nat → UInt8) (s : RaceState) (sched : List (Nat × Bool)) (hs : NoRegister s) :
    RaceEvent.fatal ∉ (s.run mem sched).2 := by
  induction sched generalizing s with
  | nil => simp [RaceState.run]
  | cons gb sched ih =>
    obtain ⟨g, b⟩ := gb
    obtain ⟨h1, h2⟩ := noRegister_step mem s g b hs
    simp only [RaceState.run, List.mem_append, not_or]
    exact ⟨h2, ih _ h1⟩

theorem fatal_step (mem : Nat → UInt8) (s : RaceState) (g : Nat) (b : Bool) (h : RaceEvent.fatal ∈ (s.step mem g b).2) :
    (s.step mem g b).1.dead = true := by
  revert h
  unfold RaceState.step
  split
  · intro h; cases h
  · split
    · split
      · intro h; cases h
      · split
        · intro _; rfl
        · intro h; cases h
      · split
        · intro _; rfl
        · split <;> simp
      · intro h; cases h
    · intro h; cases h
    · split
      · intro h; cases h
      · intro _; rfl
    all_goals intro h; simp at h

theorem dead_run (mem : Nat → UInt8) (s : RaceState) (hd : s.dead = true) (sched : List (Nat × Bool)) : s.run mem sched = (s, []) := by
  induction sched with
  | nil => rfl
  | cons gb sched ih =>
    obtain ⟨g, b⟩ := gb
    simp only [RaceState.run, RaceState.step, hd, if_true, ih, List.append_nil]

/-- C149: it is the end of the program: after a fatal error no goroutine does anything. -/
theorem C149_fatal (mem : Nat → UInt8) (s : RaceState) (sched more : List (Nat × Bool)) (h : RaceEvent.fatal ∈ (s.run mem sched).2) :
    s.run mem (sched ++ more) = s.run mem sched := by
  induction sched generalizing s with
  | nil => cases h
  | cons gb sched ih =>
    obtain ⟨g, b⟩ := gb
    simp only [RaceState.run, List.cons_append] at h ⊢
    rcases List.mem_append.mp h with h | h
    · have hd := fatal_step mem s g b h
      rw [dead_run mem _ hd, dead_run mem _ hd]
    · rw [ih _ h]

/-! ## The full claims are false -/

/-- Memory with three strings in a row: `/home/bbs`, `/srv/b` and a word that is nobody's home. -/
def raceMem : Nat → UInt8 := fun a => (ascii "/home/bbs/srv/bkey").getD a 0

/-- `/home/bbs` is open; goroutine 0 opens `/srv/b`, goroutine 1 asks for a path. -/
def raceBeside : RaceState :=
  { drivers := fun _ => some 0, writing := false, homes := fun _ => ⟨0, 9⟩, pc := fun _ => .idle,
    todo := fun | 0 => [.open_ (ascii "pttbbs") ⟨9, 6⟩] | 1 => [.use 0] | _ => [], dead := false }

/-- Goroutine 1 loads both words between the two stores of goroutine 0. -/
theorem C149_torn : (raceBeside.run raceMem [(0, true), (0, true), (1, true), (1, true), (1, true), (0, true)]).2 =
      [.began 0 0 ⟨9, 6⟩, .got 1 0 ⟨9, 9⟩, .opened 0 0] ∧ (GoString.mk 9 9).text raceMem = ascii "/srv/bkey" ∧
    (raceBeside.run raceMem [(0, true), (0, false), (1, true), (1, true), (1, true), (0, true)]).2 =
      [.began 0 0 ⟨9, 6⟩, .got 1 0 ⟨0, 6⟩, .opened 0 0] ∧ (GoString.mk 0 6).text raceMem = ascii "/home/" := by decide

/-- C149 is false: a path asked for beside an `Open` may be that of a home that nobody named. -/
theorem C149_refuted : ¬ HomesWhole := by
  intro h
  have := h raceMem raceBeside [(0, true), (0, false), (1, true), (1, true), (1, true), (0, true)] 1 0 ⟨0, 6⟩
    ⟨fun _ => rfl, rfl, rfl⟩ (by decide)
  revert this
  decide

/-- C149: it may hold bytes that belong to none of the strings: two memories that agree on them give different paths. -/
theorem C149_beyond : ∃ (m m' : Nat → UInt8) (s : RaceState) (sched : List (Nat × Bool)) (h : GoString), AtRest s ∧
    (∀ x ∈ s.homes 0 :: begunIn 0 (s.run m sched).2, x.text m = x.text m') ∧ (s.run m sched).2 = (s.run m' sched).2 ∧
    .got 1 0 h ∈ (s.run m sched).2 ∧ h.text m ≠ h.text m' :=
  ⟨raceMem, fun a => if a < 15 then raceMem a else 0, raceBeside, [(0, true), (0, true), (1, true), (1, true), (1, true)], ⟨9, 9⟩,
    ⟨fun _ => rfl, rfl, rfl⟩, by decide, by decide, by decide, by decide⟩

/-- Two goroutines open `/home/bbs` and `/srv/b`. -/
def raceOpens : RaceState :=
  { drivers := fun _ => some 0, writing := false, homes := fun _ => ⟨0, 0⟩, pc := fun _ => .idle,
    todo := fun | 0 => [.open_ (ascii "pttbbs") ⟨0, 9⟩] | 1 => [.open_ (ascii "pttbbs") ⟨9, 6⟩] | 2 => [.use 0] | _ => [], dead := false }

/-- The full claim about what remains: when all calls have returned the connector holds a home that somebody named. -/
def Spec.LeftWhole : Prop :=
  ∀ (mem : Nat → UInt8) (s : RaceState) (sched : List (Nat × Bool)) (k : Nat), AtRest s → AtRest (s.run mem sched).1 →
    ((s.run mem sched).1.homes k).text mem ∈ (s.homes k :: begunIn k (s.run mem sched).2).map (·.text mem)

/-- C149: two `Open`s that overlap may leave a home that is neither's, for good. -/
theorem C149_left_refuted : ¬ LeftWhole := by
  intro h
  have := h raceMem raceOpens [(0, true), (1, true), (0, true), (1, false), (0, true), (1, true), (0, false), (1, true)] 0
    ⟨fun _ => rfl, rfl, rfl⟩ ?_
  · revert this
    decide
  · refine ⟨fun g => ?_, rfl, rfl⟩
    match g with
    | 0 => rfl
    | 1 => rfl
    | n + 2 => rfl

/-- The full claim about one call: two loads that a goroutine makes with no `Open` of its own between give one home. `ReadUserFavoriteRecords`
makes two (/repo/pttbbs/pttbbs.go:52-54 and 67), `CreateBoardArticleFilename` one in each round. -/
def Spec.OneHome : Prop :=
  ∀ (mem : Nat → UInt8) (s : RaceState) (sched : List (Nat × Bool)) (g k : Nat) (x y : GoString) (pre mid post : List RaceEvent), AtRest s →
    (∀ z ∈ begunIn k (s.run mem sched).2, z.len = (s.homes k).len) →
    (s.run mem sched).2 = pre ++ .got g k x :: mid ++ .got g k y :: post → (∀ h, .began g k h ∉ mid) → x = y

/-- C149: even where no home is torn, the two may be of different databases. -/
theorem C149_one_home_refuted : ¬ OneHome := by
  intro h
  have := h raceMem { raceBeside with todo := fun | 0 => [.open_ (ascii "pttbbs") ⟨5, 9⟩] | 1 => [.use 0, .use 0] | _ => [] }
    [(1, true), (1, true), (1, true), (0, true), (0, true), (0, true), (1, true), (1, true), (1, true)] 1 0 ⟨0, 9⟩ ⟨5, 9⟩
    [] [.began 0 0 ⟨5, 9⟩, .opened 0 0] [] ⟨fun _ => rfl, rfl, rfl⟩ (by decide) (by decide) (by simp)
  revert this
  decide

/-- C149: a driver registered beside an `Open` may end the program. -/
theorem C149_map_refuted : ¬ NeverFatal := by
  intro h
  exact h raceMem { raceBeside with todo := fun | 0 => [.register (ascii "a") 1] | 1 => [.open_ (ascii "pttbbs") ⟨9, 6⟩] | _ => [] }
    [(0, true), (1, true)] ⟨fun _ => rfl, rfl, rfl⟩ (by decide)

/-! ## Non-vacuity -/

/-- Non-vacuity of `C149_fatal`. -/
example : RaceEvent.fatal ∈ (RaceState.run raceMem { raceBeside with
    todo := fun | 0 => [.register (ascii "a") 1] | 1 => [.open_ (ascii "pttbbs") ⟨9, 6⟩] | _ => [] } [(0, true), (1, true)]).2 := by decide

/-- Non-vacuity of `C149_home`: the name in memory is `file:///h?x`. -/
example : ((GoString.mk 0 11).home (fun a => (ascii "file:///h?x").getD a 0)) = ⟨7, 2⟩ ∧
    dsnHome (ascii "file:///h?x") = ascii "/h" := by decide

/-- Non-vacuity of `C149_undisturbed`, `C149_settled`, `C149_sole` and `C149_registered`. -/
example : AtRest raceBeside ∧ raceBeside.todo 0 = [.open_ (ascii "pttbbs") ⟨9, 6⟩] ∧ raceBeside.drivers (ascii "pttbbs") = some 0 ∧
    NoRegister raceBeside ∧ (raceBeside.run raceMem [(1, true), (1, false), (1, true)]).2 = [.got 1 0 ⟨0, 9⟩] := by
  refine ⟨⟨fun _ => rfl, rfl, rfl⟩, rfl, rfl, ⟨rfl, fun g => ⟨by intro n k; simp [raceBeside], by simp [raceBeside], ?_⟩⟩, by decide⟩
  intro n k
  match g with
  | 0 => simp [raceBeside]
  | 1 => simp [raceBeside]
  | g + 2 => simp [raceBeside]

/-- Non-vacuity of `C149_sole`: goroutine 1 loads meanwhile. -/
example : (raceBeside.step raceMem 0 true).1.pc 0 = .store 0 ⟨9, 6⟩ ∧
    ((raceBeside.step raceMem 0 true).1.run raceMem [(0, true), (1, true), (1, true), (0, true)]).2 = [.opened 0 0] := by decide

/-- Non-vacuity of `C149_register`. -/
example : let s := { raceBeside with todo := fun | 0 => [.register (ascii "a") 1] | _ => [] }
    AtRest s ∧ s.todo 0 = [.register (ascii "a") 1] := ⟨⟨fun _ => rfl, rfl, rfl⟩, rfl⟩

/-- Non-vacuity of `C149_words` and `C149_partial`. -/
example : (raceBeside.run raceMem [(0, true), (0, true), (1, true), (1, true), (1, true)]).2 = [.began 0 0 ⟨9, 6⟩] ++ .got 1 0 ⟨9, 9⟩ :: [] ∧
    (∀ x ∈ begunIn 0 [.began 0 0 ⟨5, 9⟩], x.len = (raceBeside.homes 0).len) := by decide

end Verif
