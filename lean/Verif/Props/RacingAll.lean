import Verif.Props.Racing
/-!
# C149, the exact law: every mixture that `C149_words` allows is read, and left, by some schedule
-/

set_option linter.unusedSimpArgs false

namespace Verif
open Spec

/-- **C149, exactly, for a path asked for beside an `Open`.** Whatever the homes: the address of the old or the new one with the length of the old or
the new one, all four are loaded under some schedule (and nothing else is, `C149_words`). -/
theorem C149_exact (mem : Nat → UInt8) (s : RaceState) (g g' k : Nat) (n : Bytes) (d : GoString) (rest rest' : List RaceOp)
    (hr : AtRest s) (hg : g ≠ g') (ht : s.todo g = .open_ n d :: rest) (hk : s.drivers n = some k) (ht' : s.todo g' = .use k :: rest')
    (x y : GoString) (hx : x = s.homes k ∨ x = d.home mem) (hy : y = s.homes k ∨ y = d.home mem) :
    ∃ sched, .got g' k ⟨x.addr, y.len⟩ ∈ (s.run mem sched).2 := by
  obtain ⟨hp, hw, hd⟩ := hr
  have hpg := hp g
  have hpg' := hp g'
  rcases hx with rfl | rfl <;> rcases hy with rfl | rfl
  · refine ⟨[(g, true), (g', true), (g', true), (g', true), (g, true), (g, true)], ?_⟩
    simp [RaceState.run, RaceState.step, hd, hpg, hpg', ht, ht', hk, hw, RaceState.next, RaceState.goto, RaceState.putWord, RaceState.word, hg, hg.symm]
  · refine ⟨[(g, true), (g, false), (g', true), (g', true), (g', true), (g, true)], ?_⟩
    simp [RaceState.run, RaceState.step, hd, hpg, hpg', ht, ht', hk, hw, RaceState.next, RaceState.goto, RaceState.putWord, RaceState.word, hg, hg.symm]
  · refine ⟨[(g, true), (g, true), (g', true), (g', true), (g', true), (g, true)], ?_⟩
    simp [RaceState.run, RaceState.step, hd, hpg, hpg', ht, ht', hk, hw, RaceState.next, RaceState.goto, RaceState.putWord, RaceState.word, hg, hg.symm]
  · refine ⟨[(g, true), (g, true), (g, true), (g', true), (g', true), (g', true)], ?_⟩
    simp [RaceState.run, RaceState.step, hd, hpg, hpg', ht, ht', hk, hw, RaceState.next, RaceState.goto, RaceState.putWord, RaceState.word, hg, hg.symm]

/-- **C149, exactly, for what two `Open`s leave.** All four mixtures of the two homes are left under some schedule. -/
theorem C149_left_exact (mem : Nat → UInt8) (s : RaceState) (g g' k : Nat) (n n' : Bytes) (d d' : GoString) (rest rest' : List RaceOp)
    (hr : AtRest s) (hg : g ≠ g') (ht : s.todo g = .open_ n d :: rest) (hk : s.drivers n = some k)
    (ht' : s.todo g' = .open_ n' d' :: rest') (hk' : s.drivers n' = some k)
    (x y : GoString) (hx : x = d.home mem ∨ x = d'.home mem) (hy : y = d.home mem ∨ y = d'.home mem) :
    ∃ sched, (s.run mem sched).1.homes k = ⟨x.addr, y.len⟩ ∧ AtRest (s.run mem sched).1 := by
  obtain ⟨hp, hw, hd⟩ := hr
  have hpg := hp g
  have hpg' := hp g'
  rcases hx with rfl | rfl <;> rcases hy with rfl | rfl
  · refine ⟨[(g', true), (g', true), (g', true), (g, true), (g, true), (g, true)], ?_⟩
    simp [RaceState.run, RaceState.step, hd, hpg, hpg', ht, ht', hk, hk', hw, RaceState.next, RaceState.goto, RaceState.putWord, hg, hg.symm,
      AtRest, hp]
    intros; repeat' split
    all_goals first | rfl | contradiction
  · refine ⟨[(g, true), (g', true), (g, false), (g', false), (g', true), (g, true)], ?_⟩
    simp [RaceState.run, RaceState.step, hd, hpg, hpg', ht, ht', hk, hk', hw, RaceState.next, RaceState.goto, RaceState.putWord, hg, hg.symm,
      AtRest, hp]
    intros; repeat' split
    all_goals first | rfl | contradiction
  · refine ⟨[(g, true), (g', true), (g, true), (g', true), (g', true), (g, true)], ?_⟩
    simp [RaceState.run, RaceState.step, hd, hpg, hpg', ht, ht', hk, hk', hw, RaceState.next, RaceState.goto, RaceState.putWord, hg, hg.symm,
      AtRest, hp]
    intros; repeat' split
    all_goals first | rfl | contradiction
  · refine ⟨[(g, true), (g, true), (g, true), (g', true), (g', true), (g', true)], ?_⟩
    simp [RaceState.run, RaceState.step, hd, hpg, hpg', ht, ht', hk, hk', hw, RaceState.next, RaceState.goto, RaceState.putWord, hg, hg.symm,
      AtRest, hp]
    intros; repeat' split
    all_goals first | rfl | contradiction

/-- The hypotheses are met: `/home/bbs` is open, goroutine 0 opens `/srv/b`, goroutine 1 asks for a path; and two goroutines open two homes. -/
example : AtRest raceBeside ∧ raceBeside.todo 0 = [.open_ (ascii "pttbbs") ⟨9, 6⟩] ∧ raceBeside.drivers (ascii "pttbbs") = some 0 ∧
    raceBeside.todo 1 = [.use 0] ∧ (raceBeside.homes 0).text raceMem = ascii "/home/bbs" ∧
    ((GoString.mk 9 6).home raceMem).text raceMem = ascii "/srv/b" :=
  ⟨⟨fun _ => rfl, rfl, rfl⟩, rfl, rfl, rfl, by decide, by decide⟩

example : AtRest raceOpens ∧ raceOpens.todo 0 = [.open_ (ascii "pttbbs") ⟨0, 9⟩] ∧ raceOpens.todo 1 = [.open_ (ascii "pttbbs") ⟨9, 6⟩] ∧
    raceOpens.drivers (ascii "pttbbs") = some 0 := ⟨⟨fun _ => rfl, rfl, rfl⟩, rfl, rfl, rfl⟩

end Verif
