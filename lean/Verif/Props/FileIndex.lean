import Verif.Props.RecordFiles
import Verif.Props.BoardRemoval
import Verif.Props.Paths
/-!
# C11, C12, C15, C22 in full: every index, every file, every schedule
-/

namespace Verif
open Spec

/-! ## C11 -/

/-- Byte `j` of a file after a write at `off`: the written bytes, else the old ones, else zeros in the gap. -/
theorem writeAt_getElem? (d : Bytes) (off : Nat) (bs : Bytes) (j : Nat) :
    (writeAt d off bs)[j]? =
      if off ≤ j ∧ j < off + bs.length then bs[j - off]?
      else if j < d.length then d[j]?
      else if j < off then some 0 else none := by
  have hlen : ((d ++ zeros (off - d.length)).take off).length = off := by
    simp only [List.length_take, List.length_append, zeros, List.length_replicate]; omega
  unfold writeAt
  rw [List.append_assoc]
  by_cases h1 : j < off
  · rw [List.getElem?_append_left (by omega), List.getElem?_take_of_lt h1, if_neg (by omega)]
    by_cases h2 : j < d.length
    · rw [if_pos h2, List.getElem?_append_left h2]
    · rw [if_neg h2, if_pos h1, List.getElem?_append_right (by omega)]
      unfold zeros
      rw [List.getElem?_replicate, if_pos (by omega)]
  · rw [List.getElem?_append_right (by omega), hlen]
    by_cases h2 : j < off + bs.length
    · rw [if_pos ⟨by omega, h2⟩, List.getElem?_append_left (by omega)]
    · rw [if_neg (by omega), List.getElem?_append_right (by omega), List.getElem?_drop]
      have e : off + bs.length + (j - off - bs.length) = j := by omega
      rw [e]
      by_cases h3 : j < d.length
      · rw [if_pos h3]
      · rw [if_neg h3, if_neg h1, List.getElem?_eq_none (by omega)]

/-- What an update of record `k` leaves in a file that held `d`. -/
def Spec.Updated (d : Bytes) (k : Nat) (rec d' : Bytes) : Prop :=
  ∀ j, d'[j]? = if 128 * k ≤ j ∧ j < 128 * k + rec.length then rec[j - 128 * k]?
    else if j < d.length then d[j]? else if j < 128 * k then some 0 else none

/-- **C11** for every file, index and record: only the index modulo 2^57 counts; its upper half and a missing file are
errors; otherwise exactly the bytes of that slot are replaced (the file grows with zeros if it is shorter). -/
theorem C11_exact (f : Option Bytes) (index : UInt64) (rec : Bytes) :
    match f with
    | none => ∃ e, updateRecord none index rec = .err e
    | some d =>
      if index.toNat % 2 ^ 57 < 2 ^ 56 then
        ∃ d', updateRecord (some d) index rec = .ok d' ∧ Updated d (index.toNat % 2 ^ 57) rec d'
      else ∃ e, updateRecord (some d) index rec = .err e := by
  cases f with
  | none => exact ⟨_, rfl⟩
  | some d =>
    simp only
    have hlt := index.toNat_lt
    split
    · rename_i h
      refine ⟨writeAt d (128 * (index.toNat % 2 ^ 57)) rec, ?_, fun j => writeAt_getElem? d _ rec j⟩
      rw [(C11_update_index_wraps (some d) index rec).1]
      have e : (UInt64.ofNat (index.toNat % 2 ^ 57)).toNat = index.toNat % 2 ^ 57 := by
        rw [UInt64.toNat_ofNat', Nat.mod_eq_of_lt (by omega)]
      have := updateRecord_small d (UInt64.ofNat (index.toNat % 2 ^ 57)) (by omega) rec
      rw [e] at this
      exact this
    · have hneg : updateOffset index < 0 := by
        rw [Int64.lt_iff_toInt_lt, updateOffset_toInt]
        simp only [Int.bmod_def, Int64.toInt_zero]
        split <;> omega
      exact ⟨"invalid argument", by simp only [updateRecord, if_pos hneg]⟩

/-- `Updated` determines the file. -/
theorem Spec.Updated.unique {d rec d1 d2 : Bytes} {k : Nat} (h1 : Updated d k rec d1) (h2 : Updated d k rec d2) : d1 = d2 :=
  List.ext_getElem? (fun j => by rw [h1 j, h2 j])

example : Updated [1, 2, 3] 1 [9] ([1, 2, 3] ++ zeros 125 ++ [9]) := by
  have := (C11_exact (some [1, 2, 3]) 1 [9])
  simp only at this
  rw [if_pos (by decide)] at this
  obtain ⟨d', h1, h2⟩ := this
  have e : updateRecord (some [1, 2, 3]) 1 [9] = .ok ([1, 2, 3] ++ zeros 125 ++ [9]) := by decide +kernel
  rw [e] at h1
  rw [Res.ok.inj h1]
  exact h2

/-! ## C12 -/

/-- What a removal of record `k` leaves: the bytes before the slot (zeros if the file is shorter), then those behind it. -/
def Spec.Removed (d : Bytes) (k : Nat) (d' : Bytes) : Prop :=
  ∀ j, d'[j]? = if j < 256 * k then (if j < d.length then d[j]? else some 0) else d[j + 256]?

theorem removedAt_getElem? (d : Bytes) (k : Nat) : Removed d k (removedAt d (256 * k)) := by
  intro j
  have hlen : (truncateTo d (256 * k)).length = 256 * k := by
    simp only [truncateTo, List.length_take, List.length_append, zeros, List.length_replicate]; omega
  unfold removedAt
  by_cases h1 : j < 256 * k
  · rw [List.getElem?_append_left (by omega), if_pos h1]
    unfold truncateTo
    by_cases h2 : j < d.length
    · rw [if_pos h2, List.getElem?_append_left (by simp only [List.length_take]; omega), List.getElem?_take_of_lt h1]
    · rw [if_neg h2, List.getElem?_append_right (by simp only [List.length_take]; omega)]
      unfold zeros
      rw [List.getElem?_replicate, if_pos (by simp only [List.length_take]; omega)]
  · rw [List.getElem?_append_right (by omega), hlen, if_neg h1, List.getElem?_drop]
    congr 1
    omega

theorem removeStart_every (d : Bytes) (index : Int64) :
    if index.toInt % 2 ^ 56 + 1 < 2 ^ 55 then
      removeStart (some d) index =
        .ok ⟨d, 256 * (index.toInt % 2 ^ 56).toNat + 256, 256 * (index.toInt % 2 ^ 56).toNat, [], .copying⟩
    else ∃ e, removeStart (some d) index = .err e := by
  have e1 : (1 : Int64).toInt = 1 := by decide
  have e2 : (256 : Int64).toInt = 256 := by decide
  have er : ((index + 1) * 256).toInt = ((index.toInt + 1) * 256).bmod (2 ^ 64) := by
    rw [Int64.toInt_mul, Int64.toInt_add, e1, e2, Int.bmod_mul_bmod]
  have ew : (index * 256).toInt = (index.toInt * 256).bmod (2 ^ 64) := by rw [Int64.toInt_mul, e2]
  have z : (0 : Int64).toInt = 0 := by decide
  have hk0 : 0 ≤ index.toInt % 2 ^ 56 := Int.emod_nonneg _ (by decide)
  have hr : ((index + 1) * 256 < 0) ↔ ((index.toInt + 1) * 256).bmod (2 ^ 64) < 0 := by
    rw [Int64.lt_iff_toInt_lt, er, z]
  have hw : (index * 256 < 0) ↔ (index.toInt * 256).bmod (2 ^ 64) < 0 := by
    rw [Int64.lt_iff_toInt_lt, ew, z]
  simp only [Int.bmod_def] at er ew hr hw
  split
  · rename_i h
    have n1 : ¬ (index + 1) * 256 < 0 := by
      rw [hr]; split <;> omega
    have n2 : ¬ index * 256 < 0 := by
      rw [hw]; split <;> omega
    simp only [removeStart, if_neg n1, if_neg n2, er, ew]
    have x1 : (if (index.toInt + 1) * 256 % ((2 ^ 64 : Nat) : Int) < (((2 ^ 64 : Nat) : Int) + 1) / 2 then (index.toInt + 1) * 256 % ((2 ^ 64 : Nat) : Int)
        else (index.toInt + 1) * 256 % ((2 ^ 64 : Nat) : Int) - ((2 ^ 64 : Nat) : Int)) = 256 * (index.toInt % 2 ^ 56) + 256 := by
      split <;> omega
    have x2 : (if index.toInt * 256 % ((2 ^ 64 : Nat) : Int) < (((2 ^ 64 : Nat) : Int) + 1) / 2 then index.toInt * 256 % ((2 ^ 64 : Nat) : Int)
        else index.toInt * 256 % ((2 ^ 64 : Nat) : Int) - ((2 ^ 64 : Nat) : Int)) = 256 * (index.toInt % 2 ^ 56) := by
      split <;> omega
    rw [x1, x2]
    have y1 : (256 * (index.toInt % 2 ^ 56) + 256).toNat = 256 * (index.toInt % 2 ^ 56).toNat + 256 := by omega
    have y2 : (256 * (index.toInt % 2 ^ 56)).toNat = 256 * (index.toInt % 2 ^ 56).toNat := by omega
    rw [y1, y2]
  · rename_i h
    by_cases n1 : (index + 1) * 256 < 0
    · exact ⟨"fi.Seek error: invalid argument", by simp only [removeStart, if_pos n1]⟩
    · have n2 : index * 256 < 0 := by
        rw [hw]
        rw [hr] at n1
        revert n1
        split <;> split <;> omega
      exact ⟨"fo.Seek error: invalid argument", by simp only [removeStart, if_neg n1, if_pos n2]⟩

/-- **C12** for every file and every index, valid or not: only the index modulo 2^56 counts; the upper half of that range
and a missing file are errors that leave the file alone; otherwise an undisturbed removal, whatever the sizes of its reads,
can be completed, and once complete has taken exactly that slot out. -/
theorem C12_every_index (f : Option Bytes) (index : Int64) :
    match f with
    | none => ∃ e, removeStart none index = .err e
    | some d =>
      if index.toInt % 2 ^ 56 + 1 < 2 ^ 55 then
        ∃ s0, removeStart (some d) index = .ok s0 ∧ s0.file = d ∧
          (∃ acts s, Alone acts ∧ s0.run acts = some s ∧ s.phase = .done) ∧
          ∀ acts s, Alone acts → s0.run acts = some s → s.phase = .done → Removed d (index.toInt % 2 ^ 56).toNat s.file
      else ∃ e, removeStart (some d) index = .err e := by
  cases f with
  | none => exact ⟨_, rfl⟩
  | some d =>
    have key := removeStart_every d index
    simp only
    split
    · rename_i h
      rw [if_pos h] at key
      refine ⟨_, key, rfl, ?_, ?_⟩
      · have inv := RmInv.start d (256 * (index.toInt % 2 ^ 56).toNat)
        exact finish _ inv rfl
      · intro acts s ha hr hd
        rw [removal_alone acts ha s hr hd]
        exact removedAt_getElem? d _
    · rename_i h
      rw [if_neg h] at key
      exact key

/-- The claim that a removal with an index outside the list changes no existing record, for every index. -/
def Spec.RemoveOutsideKeepsRecords : Prop :=
  ∀ (d : Bytes) (n : Nat), d.length = 256 * n → ∀ index : Int64, ¬ (0 ≤ index.toInt ∧ index.toInt < n) →
    ∀ s0, removeStart (some d) index = .ok s0 → ∀ acts s, Alone acts → s0.run acts = some s → s.phase = .done →
      ∀ k, k < n → slot 256 s.file k = slot 256 d k

/-- **C12** fails for huge negative indices too: index -2^56 removes the first board. -/
theorem C12_wraps_refuted : ¬ Spec.RemoveOutsideKeepsRecords := by
  intro h
  have all := C12_every_index (some (List.replicate 256 1)) (-72057594037927936)
  simp only at all
  rw [if_pos (by decide)] at all
  obtain ⟨s0, h0, _, ⟨acts, s, ha, hr, hd⟩, hall⟩ := all
  have hrem := hall acts s ha hr hd
  have hk := h _ 1 List.length_replicate _ (by decide) s0 h0 acts s ha hr hd 0 (by omega)
  have hnil : s.file = [] := by
    refine List.ext_getElem? (fun j => ?_)
    rw [hrem j]
    have hz : (Int64.toInt (-72057594037927936) % 2 ^ 56).toNat = 0 := by decide
    rw [hz, if_neg (by omega), List.getElem?_eq_none (by rw [List.length_replicate]; omega), List.getElem?_nil]
  rw [hnil] at hk
  exact absurd hk (by decide +kernel)

/-! ## C15 -/

theorem ApState.run_append (data : Nat → Bytes) (s : ApState) (a b : List Nat) :
    s.run data (a ++ b) = (s.run data a).run data b := List.foldl_append ..

theorem ApState.step_pc (data : Nat → Bytes) (s : ApState) (i j : Nat) :
    (s.step data i).pc j = if j = i ∧ s.pc i < 3 then s.pc j + 1 else s.pc j := by
  unfold ApState.step
  by_cases hj : j = i
  · subst hj
    split
    · rename_i h; simp [h]
    · split
      · rename_i h; simp [h]
      · split
        · rename_i h; simp [h]
        · rename_i h0 h1 h2
          rw [if_neg (by omega)]
  · split
    · simp [hj]
    · split
      · simp [hj]
      · split <;> simp [hj]

/-- **C15**: after any schedule each process has made as many of its three system calls (open, write, close) as it had
turns; with three turns it is done and further turns change nothing. -/
theorem C15_finishes (data : Nat → Bytes) (f0 : Option Bytes) (sched : List Nat) (i : Nat) :
    ((ApState.start f0).run data sched).pc i = min 3 (sched.count i) := by
  have key : ∀ (sched : List Nat) (s : ApState), s.pc i ≤ 3 → (s.run data sched).pc i = min 3 (s.pc i + sched.count i) := by
    intro sched
    induction sched with
    | nil => intro s h; simp [ApState.run]; omega
    | cons j js ih =>
      intro s h
      have e : s.run data (j :: js) = (s.step data j).run data js := rfl
      have hp := s.step_pc data j i
      have hle : (s.step data j).pc i ≤ 3 := by
        rw [hp]
        split
        · rename_i hc; rw [hc.1]; omega
        · exact h
      rw [e, ih _ hle, hp]
      by_cases hij : i = j
      · subst hij
        rw [List.count_cons_self]
        split <;> omega
      · rw [if_neg (fun h => hij h.1), List.count_cons_of_ne (fun h => hij h.symm)]
  have := key sched (ApState.start f0) (Nat.zero_le _)
  simpa [ApState.start] using this

/-- **C15**: with three turns for each of `n` processes and none for others, all `n` records are in the file, each once. -/
theorem C15_all_written (data : Nat → Bytes) (f0 : Option Bytes) (sched : List Nat) (n : Nat)
    (hturns : ∀ i, (i < n → 3 ≤ sched.count i) ∧ (n ≤ i → i ∉ sched)) :
    ∃ order : List Nat, order.Perm (List.range n) ∧
      ((ApState.start f0).run data sched).file.getD [] = f0.getD [] ++ (order.map data).flatten := by
  refine C15_concurrent_appends_bytes data f0 sched n (fun i => ?_)
  rw [C15_finishes]
  have := hturns i
  constructor
  · intro h
    refine Decidable.byContradiction (fun hn => ?_)
    have : sched.count i = 0 := List.count_eq_zero.2 (this.2 (by omega))
    omega
  · intro h
    have := this.1 h
    omega

example : ∀ i, (i < 2 → 3 ≤ [0, 1, 1, 0, 0, 1].count i) ∧ (2 ≤ i → i ∉ [0, 1, 1, 0, 0, 1]) := by
  intro i
  match i with
  | 0 => decide
  | 1 => decide
  | i + 2 => exact ⟨fun h => by omega, fun _ h => by simp at h⟩

/-! ## C22 -/

/-- **C22**: after either function every slice the caller had is still a valid slice of an array that exists, and so is
the slice the function works with. -/
theorem C22_stays_valid (h : Heap) (x : Bytes) (s t : SliceHdr) (hs : s.Valid h) (ht : t.Valid h) :
    t.Valid (h.append s x).1 ∧ (h.append s x).2.Valid (h.append s x).1 ∧ h.next ≤ (h.append s x).1.next := by
  obtain ⟨s1, s2, s3⟩ := hs
  obtain ⟨t1, t2, t3⟩ := ht
  unfold Heap.append
  by_cases hc : s.len < s.cap
  · simp only [if_pos hc, SliceHdr.Valid]
    refine ⟨⟨t1, t2, ?_⟩, ⟨s1, by omega, ?_⟩, Nat.le_refl _⟩
    · split
      · rw [List.length_set]; exact t3
      · exact t3
    · simp only [if_true, List.length_set]; exact s3
  · simp only [if_neg hc, SliceHdr.Valid]
    refine ⟨⟨by omega, t2, ?_⟩, ⟨by omega, Nat.le_refl _, ?_⟩, by omega⟩
    · rw [if_neg (by omega)]; exact t3
    · simp only [if_true, List.length_append, List.length_singleton, Heap.view, List.length_take, List.length_drop]
      omega

example : (⟨0, 0, 1, 2⟩ : SliceHdr).Valid ⟨fun _ => [ascii "D1", ascii "D2"], 1⟩ := by decide

end Verif
