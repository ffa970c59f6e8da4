import Verif.Props.Removers
import Verif.Props.ReadBeside
/-!
# C132: reading the board list while boards are removed
-/

namespace Verif
open Spec

/-- The board list after the first `m` system calls. -/
def Spec.listAfter (d : Bytes) (acts : List RvAct) (m : Nat) : Bytes := ((Removers.init d).run (acts.take m)).file

theorem first_end (len : Nat → Nat) : ∀ B, len B ≤ B → ∃ N, N ≤ B ∧ len N ≤ N ∧ ∀ i, i < N → i < len i := by
  intro B
  induction B using Nat.strongRecOn with
  | _ B ih =>
    intro h
    by_cases hk : ∃ k, k < B ∧ len k ≤ k
    · obtain ⟨k, h1, h2⟩ := hk
      obtain ⟨N, h3, h4, h5⟩ := ih k h1 h2
      exact ⟨N, by omega, h4, h5⟩
    · exact ⟨B, Nat.le_refl _, h, fun i hi => Nat.lt_of_not_le fun hle => hk ⟨i, hi, hle⟩⟩

theorem bounded_upto (f : Nat → Nat) : ∀ n, ∃ B, ∀ m, m ≤ n → f m ≤ B
  | 0 => ⟨f 0, fun m hm => by rw [Nat.le_zero.1 hm]; exact Nat.le_refl _⟩
  | n + 1 => by
    obtain ⟨B, hB⟩ := bounded_upto f n
    refine ⟨max B (f (n + 1)), fun m hm => ?_⟩
    rcases Nat.lt_or_ge n m with h | h
    · have : m = n + 1 := by omega
      subst this; omega
    · have := hB m h; omega

/-- C132 (partial), readers. Whoever reads the list meanwhile, whenever its single reads happen (read number `k` after the
first `tm k` system calls of the others), returns a list; each entry is blank, or was added, or is one of the list's, at
most as many places below its first as removals have begun; and at most one entry is missing for each of these. -/
theorem C132_readers_partial (c : Codec) (rs : List Bytes) (h : Sized 256 rs) (acts : List RvAct) (hw : WholeSteps acts) :
    ∃ B, ∀ (tm : Nat → Nat) (fuel : Nat), B < fuel →
      ∃ bs : List Bytes, openBoardHeaderWhile c (fun k => listAfter rs.flatten acts (tm k)) fuel =
          .ok (bs.map (BoardHeader.parse c)) ∧
        rs.length ≤ bs.length + (startsOf acts).length ∧
        ∀ (j : Nat) x, bs[j]? = some x →
          x = zeros 256 ∨ x ∈ addedBy acts ∨ ∃ m, j ≤ m ∧ m ≤ j + (startsOf acts).length ∧ rs[m]? = some x := by
  have hwt : ∀ m, WholeSteps (acts.take m) := fun m a ha => hw a (List.mem_of_mem_take ha)
  have hst : ∀ m, (startsOf (acts.take m)).length ≤ (startsOf acts).length := fun m =>
    (List.IsPrefix.filterMap _ (List.take_prefix m acts)).length_le
  have hadd : ∀ m x, x ∈ addedBy (acts.take m) → x ∈ addedBy acts := fun m x hx =>
    (List.IsPrefix.filterMap _ (List.take_prefix m acts)).subset hx
  have hal : ∀ m, (listAfter rs.flatten acts m).length = 256 * ((listAfter rs.flatten acts m).length / 256) := fun m => by
    obtain ⟨k, hk⟩ := (C132_near_partial rs h (acts.take m) (hwt m)).1
    have : (listAfter rs.flatten acts m).length = 256 * k := hk
    omega
  obtain ⟨B, hB⟩ := bounded_upto (fun m => (listAfter rs.flatten acts m).length / 256) acts.length
  have hB' : ∀ m, (listAfter rs.flatten acts m).length / 256 ≤ B := fun m => by
    rcases Nat.le_total m acts.length with hm | hm
    · exact hB m hm
    · have e : listAfter rs.flatten acts m = listAfter rs.flatten acts acts.length := by
        simp only [listAfter, List.take_of_length_le hm, List.take_length]
      rw [e]; exact hB _ (Nat.le_refl _)
  refine ⟨B, fun tm fuel hf => ?_⟩
  obtain ⟨N, h1, h2, h3⟩ := first_end (fun k => (listAfter rs.flatten acts (tm k)).length / 256) B (hB' _)
  refine ⟨(List.range N).map fun i => slot 256 (listAfter rs.flatten acts (tm i)) i, ?_, ?_, ?_⟩
  · rw [C100_boards_exact c _ _ (fun i => hal (tm i)) N h3 h2 fuel (by omega), List.map_map]
    rfl
  · have hc := C132_count_partial rs h (acts.take (tm N))
    have hl := hal (tm N)
    have hs := hst (tm N)
    have e : ((Removers.init rs.flatten).run (acts.take (tm N))).file = listAfter rs.flatten acts (tm N) := rfl
    rw [e] at hc
    simp only [List.length_map, List.length_range]
    omega
  · intro j x hx
    rw [List.getElem?_map, Option.map_eq_some_iff] at hx
    obtain ⟨i, hi, rfl⟩ := hx
    obtain ⟨hlt, e⟩ := List.getElem?_eq_some_iff.1 hi
    rw [List.getElem_range] at e
    subst e
    rw [List.length_range] at hlt
    have hj := h3 j hlt
    have hl := hal (tm j)
    have hslot : (slots 256 (listAfter rs.flatten acts (tm j)))[j]? = some (slot 256 (listAfter rs.flatten acts (tm j)) j) := by
      simp only [slots, List.getElem?_map]
      rw [List.getElem?_range (by omega)]
      rfl
    rcases (C132_near_partial rs h (acts.take (tm j)) (hwt _)).2 j _ hslot with hx | hx | ⟨m, g1, g2, g3⟩
    · exact .inl hx
    · exact .inr (.inl (hadd _ _ hx))
    · exact .inr (.inr ⟨m, g1, by have := hst (tm j); omega, g3⟩)

/-- The crossed removals, and a reader whose reads fall between their steps: the hypotheses are met, the list it gets has the
first, the second and the fourth board. -/
example : WholeSteps ([.start 0 0, .start 1 1] ++ crossed) ∧
    ((List.range 3).map fun i => slot 256 (listAfter fourBoards.flatten ([.start 0 0, .start 1 1] ++ crossed) (4 * i)) i) =
      [boardOf 1, boardOf 2, boardOf 4] := by
  refine ⟨?_, by decide +kernel⟩
  intro a ha
  rcases List.mem_append.1 ha with ha | ha
  · simp only [List.mem_cons, List.not_mem_nil, or_false] at ha
    rcases ha with h | h <;> subst h <;> exact ⟨(by rintro p n ⟨⟩), (by rintro bs ⟨⟩)⟩
  · exact crossed_whole a ha

end Verif
