import Verif.Proofs.RemovalRun
/-!
# C12, C13, C14: in-place removal of a board record
-/

namespace Verif
open Spec

/-- Start state of a removal at a valid index. -/
theorem start_in_range (d : Bytes) (n : Nat) (hn : n ≤ 2 ^ 54) (index : Int64)
    (h0 : 0 ≤ index.toInt) (h1 : index.toInt < n) :
    removeStart (some d) index =
      .ok ⟨d, 256 * index.toInt.toNat + 256, 256 * index.toInt.toNat, [], .copying⟩ :=
  removeStart_small d index h0 (by omega)

/-! ## C12 -/

/-- C12, valid index. `d` is a board list of `n` records. However the copy is cut into chunks, an undisturbed
removal leaves exactly the other records, in order; it makes at most `2 * d.length + 2` system calls, and from
every state it reaches it can be completed. -/
theorem C12_remove_exact (d : Bytes) (n : Nat) (hd : d.length = 256 * n) (hn : n ≤ 2 ^ 54) (index : Int64)
    (h0 : 0 ≤ index.toInt) (h1 : index.toInt < n) :
    ∃ s0, removeStart (some d) index = .ok s0 ∧ s0.file = d ∧
      ∀ acts s, Alone acts → s0.run acts = some s →
        (s.phase = .done → slots 256 s.file = (slots 256 d).eraseIdx index.toInt.toNat ∧
          s.file.length = 256 * (n - 1)) ∧
        (∃ acts' s', Alone acts' ∧ s.run acts' = some s' ∧ s'.phase = .done) ∧
        acts.length ≤ 2 * d.length + 2 := by
  refine ⟨_, start_in_range d n hn index h0 h1, rfl, ?_⟩
  intro acts s ha hr
  obtain ⟨i, hi⟩ : ∃ i, i = index.toInt.toNat := ⟨_, rfl⟩
  rw [← hi] at hr ⊢
  have hin : i < n := by omega
  obtain ⟨rs, hsz, rfl, hl⟩ := aligned_flatten (size := 256) n _ hd
  refine ⟨?_, ?_, ?_⟩
  · intro hdone
    have := removal_alone acts ha s hr hdone
    have e := removedAt_records hsz (i := i) (by omega) []
    simp only [List.append_nil] at e
    rw [this, e]
    have hz : Sized 256 (rs.eraseIdx i) := fun x hx => hsz x (List.mem_of_mem_eraseIdx hx)
    refine ⟨by rw [slots_flatten (by omega) hz, slots_flatten (by omega) hsz], ?_⟩
    rw [hz.flatten_length, List.length_eraseIdx_of_lt (by omega), hl]
  · rcases copy_split (by rfl) hr with hc | ⟨acts1, rest, s1, e1, e2, e3, e4⟩
    · have inv := (RmInv.start rs.flatten (256 * i)).run rfl hr hc
      exact finish s inv hc
    · simp only [RmState.run] at e4
      cases hs : s1.step .eof with
      | none => rw [hs] at e4; cases e4
      | some s2 =>
        rw [hs] at e4
        have hp : s2.phase = .sawEOF := by
          simp only [RmState.step] at hs
          split at hs
          · injection hs with hs; subst hs; rfl
          · cases hs
        rcases eof_split hp e4 with ⟨e5, _⟩ | ⟨mid, acts2, e5, hm, ha2⟩
        · exact finish_eof s e5
        · refine ⟨[], s, fun a ha => by simp at ha, rfl, ?_⟩
          simp only [] at e4
          rw [e5, run_append, hm.run] at e4
          simp only [Option.bind_some, RmState.run, RmState.step, if_pos hp] at e4
          rw [ha2.run] at e4
          injection e4 with e4
          subst e4
          rfl
  · obtain ⟨b1, b2, _, b4⟩ := alone_bound (len := rs.flatten.length) ha _ s (by simp)
      (by simp only []; omega) (fun _ => rfl) hr
    have : s.phase.rank ≤ 2 := by cases s.phase <;> simp [RmPhase.rank]
    have b5 : acts.length + (256 * i + 256) + 256 * i + 0 ≤ s.r + s.w + s.phase.rank := b4
    omega

/-- The claim of C12 about wrong indices. -/
def Spec.RemoveWrongIndexHarmless : Prop :=
  ∀ (d : Bytes) (n : Nat), d.length = 256 * n → ∀ index : Int64, ¬ (0 ≤ index.toInt ∧ index.toInt < n) →
    ∀ s0, removeStart (some d) index = .ok s0 → ∀ acts s, Alone acts → s0.run acts = some s → s.phase = .done →
      s.file = d

/-- C12 is false of the code for wrong indices: removing board 1 of an empty list creates a blank board. -/
theorem C12_remove_wrong_index_refuted : ¬ Spec.RemoveWrongIndexHarmless := by
  intro h
  have := h [] 0 rfl 1 (by decide) _ (removeStart_small [] 1 (by decide) (by decide)) [.eof, .trunc]
    ⟨zeros 256, 512, 256, [], .done⟩ (by simp [Alone]) (by decide +kernel) rfl
  simp [zeros] at this

/-- C12, wrong indices (partial: the full claim wants the file unchanged in every case): an index equal to the
record count, or negative (above -2^54), leaves the file unchanged; a larger index (below 2^54) keeps every record but adds blank
ones up to that index. -/
theorem C12_remove_wrong_index_partial (d : Bytes) (n : Nat) (hd : d.length = 256 * n) (index : Int64) :
    (-(2 ^ 54) ≤ index.toInt → index.toInt < 0 → ∃ e, removeStart (some d) index = .err e) ∧
    (n ≤ index.toInt → index.toInt < 2 ^ 54 →
      ∃ s0, removeStart (some d) index = .ok s0 ∧ ∀ acts s, Alone acts → s0.run acts = some s → s.phase = .done →
        slots 256 s.file = slots 256 d ++ List.replicate (index.toInt.toNat - n) (zeros 256) ∧
        (index.toInt = n → s.file = d)) := by
  refine ⟨removeStart_negative d index, ?_⟩
  intro h0 h1
  refine ⟨_, removeStart_small d index (by omega) h1, ?_⟩
  intro acts s ha hr hdone
  obtain ⟨i, hi⟩ : ∃ i, i = index.toInt.toNat := ⟨_, rfl⟩
  rw [← hi] at hr ⊢
  have hf := removal_alone acts ha s hr hdone
  have e : removedAt d (256 * i) = d ++ zeros (256 * (i - n)) := by
    unfold removedAt truncateTo
    rw [List.take_of_length_le (by omega), List.drop_eq_nil_of_le (by omega), List.append_nil, hd]
    congr 2
    omega
  rw [hf, e]
  constructor
  · obtain ⟨rs, hsz, rfl, hl⟩ := aligned_flatten (size := 256) n _ hd
    have hz : Sized 256 (List.replicate (i - n) (zeros 256)) := by
      intro x hx; rw [List.eq_of_mem_replicate hx]; simp
    have ez : zeros (256 * (i - n)) = (List.replicate (i - n) (zeros 256)).flatten := by
      unfold zeros
      rw [List.flatten_replicate_replicate, Nat.mul_comm]
    rw [ez, ← List.flatten_append, slots_flatten (by omega) (hsz.append hz), slots_flatten (by omega) hsz]
  · intro hin
    have : i - n = 0 := by omega
    simp [this, zeros]

/-- Non-vacuity of C12: two records, the first removed; the removal runs to completion. -/
example : (List.replicate 256 1 ++ List.replicate 256 2 : Bytes).length = 256 * 2 ∧ 0 ≤ (0 : Int64).toInt ∧
    (0 : Int64).toInt < (2 : Nat) :=
  ⟨by rw [List.length_append, List.length_replicate, List.length_replicate], by decide, by decide⟩
example : ∃ s0 acts s, removeStart (some (List.replicate 256 1 ++ List.replicate 256 2)) 0 = .ok s0 ∧ Alone acts ∧
    s0.run acts = some s ∧ s.phase = .done := by
  obtain ⟨s0, h, _, hall⟩ := C12_remove_exact (List.replicate 256 1 ++ List.replicate 256 2) 2
    (by rw [List.length_append, List.length_replicate, List.length_replicate]) (by decide) 0
    (by decide) (by decide)
  obtain ⟨_, ⟨acts, s, h1, h2, h3⟩, _⟩ := hall [] s0 (by simp [Alone]) rfl
  exact ⟨s0, acts, s, h, h1, h2, h3⟩

/-! ## C13 -/

/-- The file during an undisturbed removal, as list surgery. -/
theorem crash_content {d : Bytes} {w0 : Nat} {s : RmState} (h : RmInv d w0 s) (hin : w0 + 256 ≤ d.length) :
    s.w + 256 ≤ d.length ∧ s.file = (d.take w0 ++ d.drop (w0 + 256)).take s.w ++ d.drop s.w := by
  have hw : s.w + 256 ≤ d.length := by
    have := h.hr
    rcases h.hend with ⟨e, _⟩ | e <;> omega
  refine ⟨hw, ?_⟩
  have h2 := h.hw
  apply List.ext_getElem?
  intro j
  rw [h.hfile j]
  by_cases hj : j < s.w
  · rw [List.getElem?_append_left (by simp; omega), List.getElem?_take_of_lt hj]
    by_cases hc : w0 ≤ j
    · rw [if_pos ⟨hc, hj⟩, List.getElem?_append_right (by simp; omega)]
      simp only [List.length_take, List.getElem?_drop]
      congr 1
      omega
    · rw [if_neg (by omega), List.getElem?_append_left (by simp; omega), List.getElem?_take_of_lt (by omega)]
  · rw [if_neg (by omega), List.getElem?_append_right (by simp; omega)]
    simp only [List.length_take, List.length_append, List.length_drop, List.getElem?_drop]
    congr 1
    omega

/-- The state after any prefix of an undisturbed removal that has not truncated yet satisfies the invariant. -/
theorem not_done_inv {d : Bytes} {w0 : Nat} {acts : List RmAct} (ha : Alone acts) {s : RmState}
    (hr : (⟨d, w0 + 256, w0, [], .copying⟩ : RmState).run acts = some s) (hd : s.phase ≠ .done) :
    RmInv d w0 s := by
  rcases copy_split (by rfl) hr with hc | ⟨acts1, rest, s1, e1, e2, e3, e4⟩
  · have := (RmInv.start d w0).run rfl hr hc
    rwa [ha.appendedBy, List.append_nil] at this
  · have ha1 : Alone acts1 := by rw [e1] at ha; exact (Alone.of_append ha).1
    have har : Alone rest := by
      rw [e1] at ha
      exact fun x hx => (Alone.of_append ha).2 x (List.mem_cons_of_mem _ hx)
    have inv := (RmInv.start d w0).run rfl e2 e3
    rw [ha1.appendedBy, List.append_nil] at inv
    simp only [RmState.run] at e4
    cases hs : s1.step .eof with
    | none => rw [hs] at e4; cases e4
    | some s2 =>
      rw [hs] at e4
      simp only [] at e4
      rcases inv.step e3 hs with ⟨hp, _⟩ | ⟨_, hp, inv2, _, _⟩
      · simp only [RmState.step] at hs
        split at hs
        · injection hs with hs; subst hs; cases hp
        · cases hs
      · rcases eof_split hp e4 with ⟨e5, oa⟩ | ⟨mid, acts2, e5, hm, ha2⟩
        · have := oa.nil_of_alone har
          subst this
          injection e4 with e4
          subst e4
          exact inv2
        · exfalso
          rw [e5, run_append, hm.run] at e4
          simp only [Option.bind_some, RmState.run, RmState.step, if_pos hp] at e4
          rw [ha2.run] at e4
          injection e4 with e4
          subst e4
          exact hd rfl

theorem take_split (d : Bytes) {a b : Nat} (h : a ≤ b) : d.take b = d.take a ++ slice d a b := by
  have := slice_append_slice (d := d) (a := 0) (b := a) (c := b) (by omega) h
  simpa [slice] using this

theorem getD_lt {α : Type} (l : List α) (d : α) {k : Nat} (h : k < l.length) : l.getD k d = l[k] := by
  simp [List.getD_eq_getElem?_getD, h]

/-- C13. `rs` are the records of the board list, `i` the one being removed. Whenever the process dies (after any
sequence of its system calls, cut at any byte), either the removal is complete, or the file is: the first `q`
surviving records, one slot being written, and the old records from `q + 1` on. The slot being written holds the first `m` bytes of
old record `q + 1` and the rest of old record `q`. -/
theorem C13_crash_exact (rs : List Bytes) (hsz : Sized 256 rs) (hn : rs.length ≤ 2 ^ 54) (index : Int64)
    (h0 : 0 ≤ index.toInt) (h1 : index.toInt < rs.length) :
    ∃ s0, removeStart (some rs.flatten) index = .ok s0 ∧ ∀ acts s, Alone acts → s0.run acts = some s →
      s.file = (rs.eraseIdx index.toInt.toNat).flatten ∨
      ∃ q m, index.toInt.toNat ≤ q ∧ q < rs.length ∧ m < 256 ∧ (m = 0 ∨ q + 1 < rs.length) ∧
        s.file = ((rs.eraseIdx index.toInt.toNat).take q ++ [(rs.getD (q + 1) []).take m ++ (rs.getD q []).drop m] ++
          rs.drop (q + 1)).flatten := by
  refine ⟨_, start_in_range rs.flatten rs.length hn index h0 h1, ?_⟩
  intro acts s ha hr
  obtain ⟨i, hi⟩ : ∃ i, i = index.toInt.toNat := ⟨_, rfl⟩
  rw [← hi] at hr ⊢
  have hin : i < rs.length := by omega
  have hl := hsz.flatten_length
  by_cases hd : s.phase = .done
  · left
    have e := removedAt_records hsz hin []
    simp only [List.append_nil] at e
    rw [removal_alone acts ha s hr hd, e]
  · right
    have inv := not_done_inv ha hr hd
    obtain ⟨hw, hf⟩ := crash_content inv (by omega)
    have h2 := inv.hw
    obtain ⟨q, hq⟩ : ∃ q, q = s.w / 256 := ⟨_, rfl⟩
    have hz : Sized 256 (rs.eraseIdx i) := fun x hx => hsz x (List.mem_of_mem_eraseIdx hx)
    have e : rs.flatten.take (256 * i) ++ rs.flatten.drop (256 * i + 256) = (rs.eraseIdx i).flatten := by
      have e1 := removedAt_records hsz hin []
      simp only [List.append_nil] at e1
      rw [← e1]
      unfold removedAt truncateTo
      rw [show 256 * i - rs.flatten.length = 0 by omega]
      simp [zeros]
    rw [e] at hf
    have hel : (rs.eraseIdx i).flatten.length = 256 * (rs.length - 1) := by
      rw [hz.flatten_length, List.length_eraseIdx_of_lt hin]
    have hm : s.w = 256 * q + s.w % 256 := by omega
    refine ⟨q, s.w % 256, by omega, by omega, by omega, by omega, ?_⟩
    have hqr : q < rs.length := by omega
    have t2 : (rs.getD q []).drop (s.w % 256) = slice rs.flatten s.w (256 * (q + 1)) := by
      have e1 := slice_flatten hsz [] q hqr
      rw [List.append_nil] at e1
      rw [getD_lt _ _ hqr, ← e1]
      unfold slice
      rw [List.drop_drop, ← hm, Nat.mul_succ]
    have t1 : (rs.getD (q + 1) []).take (s.w % 256) = slice (rs.eraseIdx i).flatten (256 * q) s.w := by
      by_cases hz0 : s.w % 256 = 0
      · have : s.w = 256 * q := by omega
        rw [hz0, this]
        simp [slice]
      · have hq1 : q < (rs.eraseIdx i).length := by rw [List.length_eraseIdx_of_lt hin]; omega
        have e1 := slice_flatten hz [] q hq1
        rw [List.append_nil, List.getElem_eraseIdx, dif_neg (by omega)] at e1
        rw [getD_lt _ _ (by omega : q + 1 < rs.length), ← e1]
        unfold slice
        rw [List.take_drop, List.take_take, Nat.min_eq_left (by omega), ← hm]
    rw [t1, t2]
    rw [hf]
    simp only [List.flatten_append, List.flatten_cons, List.flatten_nil, List.append_nil]
    rw [flatten_take hz, flatten_drop hsz, take_split (rs.eraseIdx i).flatten (a := 256 * q) (b := s.w) (by omega)]
    have e3 : rs.flatten.drop s.w = slice rs.flatten s.w (256 * (q + 1)) ++ rs.flatten.drop (256 * (q + 1)) := by
      conv => lhs; rw [← List.take_append_drop (256 * (q + 1)) rs.flatten]
      rw [List.drop_append_of_le_length (by rw [List.length_take]; omega)]
      rfl
    rw [e3]
    simp only [List.append_assoc]

/-- C13. `rs` are the records of the board list, `i` the one being removed. Whenever the process dies (after any
sequence of its system calls, cut at any byte), either the removal is complete, or the file is: the first `q`
surviving records, one slot of 256 bytes (the one being written), and the old records from `q + 1` on. -/
theorem C13_crash_content (rs : List Bytes) (hsz : Sized 256 rs) (hn : rs.length ≤ 2 ^ 54) (index : Int64)
    (h0 : 0 ≤ index.toInt) (h1 : index.toInt < rs.length) :
    ∃ s0, removeStart (some rs.flatten) index = .ok s0 ∧ ∀ acts s, Alone acts → s0.run acts = some s →
      s.file = (rs.eraseIdx index.toInt.toNat).flatten ∨
      ∃ q torn, index.toInt.toNat ≤ q ∧ q < rs.length ∧ torn.length = 256 ∧
        s.file = ((rs.eraseIdx index.toInt.toNat).take q ++ [torn] ++ rs.drop (q + 1)).flatten := by
  obtain ⟨s0, hs0, hall⟩ := C13_crash_exact rs hsz hn index h0 h1
  refine ⟨s0, hs0, ?_⟩
  intro acts s ha hr
  rcases hall acts s ha hr with h | ⟨q, m, h2, h3, h4, h5, h6⟩
  · exact Or.inl h
  · refine Or.inr ⟨q, _, h2, h3, ?_, h6⟩
    have l1 : (rs.getD q []).length = 256 := by
      rw [getD_lt _ _ h3]
      exact hsz _ (List.getElem_mem _)
    have l2 : ((rs.getD (q + 1) []).take m).length = m := by
      rcases h5 with h5 | h5
      · simp [h5]
      · rw [getD_lt _ _ h5, List.length_take, hsz _ (List.getElem_mem _)]
        omega
    rw [List.length_append, l2, List.length_drop, l1]
    omega

/-- C13: at every crash point every other record is still in the file, whole, in some slot; and all slots but at
most one hold whole records of the original file. -/
theorem C13_crash_loses_nothing (rs : List Bytes) (hsz : Sized 256 rs) (hn : rs.length ≤ 2 ^ 54) (index : Int64)
    (h0 : 0 ≤ index.toInt) (h1 : index.toInt < rs.length) :
    ∃ s0, removeStart (some rs.flatten) index = .ok s0 ∧ ∀ acts s, Alone acts → s0.run acts = some s →
      (∀ m (hm : m < rs.length), m ≠ index.toInt.toNat → rs[m] ∈ slots 256 s.file) ∧
      ∃ q : Nat, ∀ (k : Nat) (x : Bytes), k ≠ q → (slots 256 s.file)[k]? = some x → x ∈ rs := by
  obtain ⟨s0, hs0, hall⟩ := C13_crash_content rs hsz hn index h0 h1
  refine ⟨s0, hs0, ?_⟩
  intro acts s ha hr
  obtain ⟨i, hi⟩ : ∃ i, i = index.toInt.toNat := ⟨_, rfl⟩
  have hin : i < rs.length := by omega
  have hz : Sized 256 (rs.eraseIdx i) := fun x hx => hsz x (List.mem_of_mem_eraseIdx hx)
  rcases hall acts s ha hr with hf | ⟨q, torn, hq1, hq2, ht, hf⟩
  · rw [← hi] at hf ⊢
    have hslots : slots 256 s.file = rs.eraseIdx i := by rw [hf, slots_flatten (by omega) hz]
    simp only [hslots]
    refine ⟨?_, 0, ?_⟩
    · intro m hm hne
      rw [List.mem_eraseIdx_iff_getElem]
      exact ⟨m, hm, hne, rfl⟩
    · intro k x _ hx
      exact List.mem_of_mem_eraseIdx (List.mem_of_getElem? hx)
  · rw [← hi] at hf hq1 ⊢
    have hz2 : Sized 256 ((rs.eraseIdx i).take q ++ [torn] ++ rs.drop (q + 1)) :=
      (Sized.append (fun x hx => hz x (List.mem_of_mem_take hx)) (fun x hx => by simp at hx; rw [hx, ht])).append
        (fun x hx => hsz x (List.mem_of_mem_drop hx))
    have hslots : slots 256 s.file = (rs.eraseIdx i).take q ++ [torn] ++ rs.drop (q + 1) := by
      rw [hf, slots_flatten (by omega) hz2]
    have hel : (rs.eraseIdx i).length = rs.length - 1 := List.length_eraseIdx_of_lt hin
    simp only [hslots]
    refine ⟨?_, q, ?_⟩
    · intro m hm hne
      rw [List.mem_append, List.mem_append]
      by_cases hmq : m ≤ q
      · left; left
        rw [List.mem_take_iff_getElem]
        by_cases hmi : m < i
        · refine ⟨m, by omega, ?_⟩
          rw [List.getElem_eraseIdx, dif_pos hmi]
        · refine ⟨m - 1, by omega, ?_⟩
          rw [List.getElem_eraseIdx, dif_neg (by omega)]
          congr 1
          omega
      · right
        rw [List.mem_drop_iff_getElem]
        exact ⟨m - (q + 1), by omega, by congr 1; omega⟩
    · intro k x hkq hx
      have hlt : ((rs.eraseIdx i).take q).length = q := by rw [List.length_take]; omega
      rcases Nat.lt_or_gt_of_ne hkq with h | h
      · rw [List.append_assoc, List.getElem?_append_left (by omega)] at hx
        exact List.mem_of_mem_eraseIdx (List.mem_of_mem_take (List.mem_of_getElem? hx))
      · have hl2 : ((rs.eraseIdx i).take q ++ [torn]).length = q + 1 := by rw [List.length_append, hlt]; rfl
        rw [List.getElem?_append_right (by omega)] at hx
        exact List.mem_of_mem_drop (List.mem_of_getElem? hx)

/-- Non-vacuity of C13: a crash in the middle of the first chunk, one record torn. -/
example : Sized 256 [List.replicate 256 1, List.replicate 256 2] ∧
    ∃ s, (⟨List.replicate 256 1 ++ List.replicate 256 2, 256, 0, [], .copying⟩ : RmState).run
      (.read 20 :: List.replicate 10 .put) = some s ∧
      s.file = List.replicate 10 2 ++ List.replicate 246 1 ++ List.replicate 256 2 :=
  ⟨by
    intro x hx
    rcases List.mem_cons.mp hx with h | h
    · rw [h, List.length_replicate]
    · rw [List.mem_singleton.mp h, List.length_replicate],
   ⟨List.replicate 10 2 ++ List.replicate 246 1 ++ List.replicate 256 2, 276, 10,
    List.replicate 10 2, .copying⟩, by decide +kernel, rfl⟩

/-! ## C14 -/

/-- The full claim of C14: a removal and one concurrent append end as if run one after the other, in one of the two
orders. -/
def Spec.RemoveAppendSerialised : Prop :=
  ∀ (rs : List Bytes), Sized 256 rs → ∀ (index : Int64), 0 ≤ index.toInt → index.toInt < rs.length →
    rs.length < 2 ^ 54 → ∀ x : Bytes, x.length = 256 → ∀ s0, removeStart (some rs.flatten) index = .ok s0 →
    ∀ acts1 acts2, Alone acts1 → Alone acts2 → ∀ s, s0.run (acts1 ++ [.append x] ++ acts2) = some s →
    s.phase = .done →
      s.file = (rs.eraseIdx index.toInt.toNat ++ [x]).flatten ∨
      s.file = ((rs ++ [x]).eraseIdx index.toInt.toNat).flatten

/-- C14 is false of the code: the lock does nothing (/repo/filelock/filelock.go), and a record appended between the
last read and the truncation is lost. -/
theorem C14_serialised_refuted : ¬ Spec.RemoveAppendSerialised := by
  intro h
  have := h [zeros 256] (by simp [Sized]) 0 (by decide) (by decide) (by decide) (zeros 256) (by simp) _
    (removeStart_small _ 0 (by decide) (by decide)) [.eof] [.trunc] (by simp [Alone]) (by simp [Alone])
    ⟨[], 256, 0, [], .done⟩ (by decide +kernel) rfl
  revert this
  decide +kernel

/-- C14, what happens in every interleaving: records appended before the remover sees the end of the file, or
after it truncates, are kept; exactly those appended in between are lost; all other records are as in a serial
execution. -/
theorem C14_lost_window (rs : List Bytes) (hsz : Sized 256 rs) (index : Int64) (h0 : 0 ≤ index.toInt)
    (h1 : index.toInt < rs.length) (hn : rs.length ≤ 2 ^ 54) :
    ∃ s0, removeStart (some rs.flatten) index = .ok s0 ∧ ∀ acts s, s0.run acts = some s → s.phase = .done →
      ∃ acts1 mid acts2, acts = acts1 ++ .eof :: (mid ++ .trunc :: acts2) ∧ OnlyAppends mid ∧ OnlyAppends acts2 ∧
        s.file = (rs.eraseIdx index.toInt.toNat).flatten ++ appendedBy acts1 ++ appendedBy acts2 := by
  refine ⟨_, start_in_range rs.flatten rs.length hn index h0 h1, ?_⟩
  intro acts s hr hd
  obtain ⟨acts1, mid, acts2, e1, e2, e3, e4⟩ := removal_result acts s hr hd
  refine ⟨acts1, mid, acts2, e1, e2, e3, ?_⟩
  have hl := hsz.flatten_length
  rw [e4 (Or.inl (by omega)), removedAt_records hsz (by omega)]

/-- C14 (partial: for schedules in which the truncation directly follows the end-of-file read, as a working lock
would ensure for appends). Whatever the interleaving of the copy with any number of appends, the result is the
serial one: the remaining records followed by all the appended ones in their order; no append is lost. -/
theorem C14_serialised_partial (rs : List Bytes) (hsz : Sized 256 rs) (index : Int64) (h0 : 0 ≤ index.toInt)
    (h1 : index.toInt < rs.length) (hn : rs.length ≤ 2 ^ 54) :
    ∃ s0, removeStart (some rs.flatten) index = .ok s0 ∧ ∀ acts1 acts2 s,
      s0.run (acts1 ++ .eof :: .trunc :: acts2) = some s →
      s.phase = .done ∧
      s.file = (rs.eraseIdx index.toInt.toNat).flatten ++ appendedBy (acts1 ++ .eof :: .trunc :: acts2) := by
  refine ⟨_, start_in_range rs.flatten rs.length hn index h0 h1, ?_⟩
  intro acts1 acts2 s hr
  have hl := hsz.flatten_length
  obtain ⟨hd, e4⟩ := removal_result_of acts1 [] acts2 s (fun a ha => by simp at ha) hr
  refine ⟨hd, ?_⟩
  rw [e4 (Or.inl (by omega)), removedAt_records hsz (by omega)]
  simp [appendedBy_append, appendedBy]

/-- Non-vacuity of C14: an append in the middle of the removal is kept (append sizes are arbitrary in the theorem;
a short one keeps the computation small). -/
example : ∃ s, (⟨List.replicate 256 1, 256, 0, [], .copying⟩ : RmState).run
    [.append [3, 4], .read 1, .append [5], .put, .read 2, .put, .put, .eof, .trunc, .append [6]] = some s ∧
    s.file = [3, 4, 5, 6] :=
  ⟨⟨[3, 4, 5, 6], 259, 3, [], .done⟩, by decide +kernel, rfl⟩

end Verif
