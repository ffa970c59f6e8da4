import Verif.Proofs.Removers
import Verif.Props.BoardRemoval
/-!
# C132: several removals of boards at the same time
-/

namespace Verif
open Spec

/-! ## The claims fail -/

def boardOf (n : UInt8) : Bytes := List.replicate 256 n

def fourBoards : List Bytes := [boardOf 1, boardOf 2, boardOf 3, boardOf 4]

theorem fourBoards_sized : Sized 256 fourBoards := by
  intro x hx
  simp only [fourBoards, List.mem_cons, List.not_mem_nil, or_false] at hx
  rcases hx with h | h | h | h <;> subst h <;> exact List.length_replicate

/-- Call 0 has read the second board when call 1 removes it and returns; then call 0 goes on. -/
def crossed : List RvAct := [.read 0 256, .read 1 256, .write 1, .read 1 256, .write 1, .read 1 256, .trunc 1,
  .write 0, .read 0 256, .write 0, .read 0 256, .trunc 0]

theorem crossed_whole : WholeSteps crossed := by
  intro a ha
  simp only [crossed, List.mem_cons, List.not_mem_nil, or_false] at ha
  rcases ha with h | h | h | h | h | h | h | h | h | h | h | h <;> subst h <;>
    exact ⟨(by rintro p n ⟨⟩ <;> exact ⟨1, rfl⟩), (by rintro bs ⟨⟩)⟩

theorem crossed_file : slots 256 (((Removers.init fourBoards.flatten).run [.start 0 0, .start 1 1]).run crossed).file =
    [boardOf 2, boardOf 4] := by decide +kernel

theorem returned_of {s : Removers} {p : Nat} (h : (s.calls p).map (·.phase) = some .done) : Returned s p := by
  rwa [Option.map_eq_some_iff] at h

theorem crossed_returned (p : Nat) (h : p = 0 ∨ p = 1) :
    Returned (((Removers.init fourBoards.flatten).run [.start 0 0, .start 1 1]).run crossed) p := by
  refine returned_of ?_
  rcases h with rfl | rfl
  · decide +kernel
  · decide +kernel

/-- C132 is false of the code: the first and the second of four boards are removed, and the second and the fourth are
left. -/
theorem C132_exact_refuted : ¬ RemovalsExact := by
  intro h
  have := h fourBoards fourBoards_sized (by decide) 0 1 (by decide) (by decide) (by decide) crossed crossed_whole
    (by decide +kernel) (crossed_returned 0 (.inl rfl)) (crossed_returned 1 (.inr rfl))
  rw [crossed_file] at this
  revert this
  decide +kernel

/-- A board that nobody asked to remove is lost. -/
theorem C132_others_refuted : ¬ OthersStay := by
  intro h
  have := h fourBoards fourBoards_sized (by decide) 0 1 (by decide) (by decide) (by decide) crossed crossed_whole
    (by decide +kernel) 2 (boardOf 3) (by decide +kernel) (by decide) (by decide)
  rw [crossed_file] at this
  revert this
  decide +kernel

/-- A board is there again after its removal has returned. -/
theorem C132_named_refuted : ¬ NamedGo := by
  intro h
  have := h fourBoards fourBoards_sized (by decide +kernel) (by decide) 0 1 (by decide) (by decide) (by decide) crossed
    crossed_whole (by decide +kernel) (crossed_returned 1 (.inr rfl)) (boardOf 2) (by decide +kernel)
  rw [crossed_file] at this
  exact this (List.mem_cons_self ..)

/-- Calls 0 and 1 have seen the end of the list of four; call 0 cuts it to three, call 2 removes one more, and call 1
makes it three again. -/
def thrice : List RvAct := [.start 0 0, .start 1 0, .read 0 2048, .write 0, .read 0 256, .read 1 2048, .write 1,
  .read 1 256, .trunc 0, .start 2 1, .read 2 2048, .write 2, .read 2 256, .trunc 2, .trunc 1]

/-- A blank board appears. -/
theorem C132_blank_refuted : ¬ NoneBlank := by
  intro h
  refine h fourBoards fourBoards_sized (by decide +kernel) (by decide) thrice ?_ (by decide +kernel) ?_ ?_
  · intro a ha
    simp only [thrice, List.mem_cons, List.not_mem_nil, or_false] at ha
    rcases ha with h | h | h | h | h | h | h | h | h | h | h | h | h | h | h <;> subst h <;>
      exact ⟨(by rintro p n ⟨⟩ <;> decide), (by rintro bs ⟨⟩)⟩
  · intro a ha p i e
    have hl : (startsOf thrice).length = 3 := by decide +kernel
    rw [hl]
    subst e
    simp only [thrice, List.mem_cons, List.not_mem_nil, or_false, RvAct.start.injEq, reduceCtorEq, false_or] at ha
    rcases ha with ⟨_, rfl⟩ | ⟨_, rfl⟩ | ⟨_, rfl⟩ <;> decide
  · decide +kernel

/-! ## What holds in every interleaving -/

/-- C132 (partial). Any number of removals, wherever they start, and any number of appends, in any interleaving, at any
moment: the list consists of whole records; each is blank, or one that was appended, or one of the list's, and that at
most as many places below its first as removals have begun, and never above. -/
theorem C132_near_partial (rs : List Bytes) (h : Sized 256 rs) (acts : List RvAct) (hw : WholeSteps acts) :
    256 ∣ ((Removers.init rs.flatten).run acts).file.length ∧
    ∀ (j : Nat) x, (slots 256 ((Removers.init rs.flatten).run acts).file)[j]? = some x →
      x = zeros 256 ∨ x ∈ addedBy acts ∨ ∃ m, j ≤ m ∧ m ≤ j + (startsOf acts).length ∧ rs[m]? = some x := by
  have hn := near_run acts _ (near_init (addedBy acts) h) hw (fun _ h => h)
  obtain ⟨⟨L, e, hs, hc⟩, _⟩ := hn
  rw [e]
  refine ⟨⟨L.length, hs.flatten_length⟩, fun j x hx => ?_⟩
  rw [slots_flatten (by omega) hs] at hx
  rcases hc j x hx with hx | hx | ⟨S, h1, h2, h3⟩
  · exact .inl hx
  · exact .inr (.inl hx)
  · refine .inr (.inr ⟨j + S.length, Nat.le_add_right .., ?_, h3⟩)
    have := nodup_le (l := startsOf acts) h1 fun p hp => by
      obtain ⟨q, hq, _⟩ := h2 p hp
      have := begun_run acts (Removers.init rs.flatten) [] (fun p q h => by cases h) p q hq
      simpa using this
    omega

/-- The list is never shorter than by one record for each removal begun (whatever the sizes of the reads). -/
theorem C132_count_partial (rs : List Bytes) (h : Sized 256 rs) (acts : List RvAct) :
    256 * rs.length ≤ ((Removers.init rs.flatten).run acts).file.length + 256 * (startsOf acts).length := by
  have hb : Balanced (Removers.init rs.flatten) := fun p q hq => by cases hq
  obtain ⟨D, h1, h2, h3, _⟩ := tally_run (n := 256 * rs.length) acts (Removers.init rs.flatten) hb
    ⟨[], List.nodup_nil, fun p hp => absurd hp List.not_mem_nil, by simp [Removers.init, h.flatten_length],
      fun p q hq => by cases hq⟩
  have := nodup_le (l := startsOf acts) h1 fun p hp => by
    obtain ⟨q, hq, _⟩ := h2 p hp
    have := begun_run acts (Removers.init rs.flatten) [] (fun p q h => by cases h) p q hq
    simpa using this
  have := Nat.mul_le_mul_left 256 this
  omega

/-- With indices in range, and without appends, once one removal has returned the list is at least one record shorter, and
stays so. -/
theorem C132_shorter_partial (rs : List Bytes) (h : Sized 256 rs) (hn : rs.length ≤ 2 ^ 54) (acts : List RvAct)
    (hi : ∀ a ∈ acts, ∀ p i, a = .start p i → 0 ≤ i.toInt ∧ i.toInt < rs.length) (ha : addedBy acts = [])
    (hd : ∃ p, Returned ((Removers.init rs.flatten).run acts) p) :
    ((Removers.init rs.flatten).run acts).file.length + 256 ≤ 256 * rs.length := by
  have hb : Balanced (Removers.init rs.flatten) := fun p q hq => by cases hq
  have hc : Capped rs.length (Removers.init rs.flatten) :=
    ⟨(fun p q hq => by cases hq), (by simp [Removers.init, h.flatten_length]), (fun ⟨p, q, hq, _⟩ => by cases hq)⟩
  obtain ⟨p, q, hq, hp⟩ := hd
  exact (capped_run hn acts _ hb hc hi ha).less ⟨p, q, hq, hp⟩

/-- The boards before all those that are removed stay where they are, at every moment (whatever the sizes of the
reads). -/
theorem C132_below_partial (rs : List Bytes) (h : Sized 256 rs) (b : Nat) (acts : List RvAct)
    (hi : ∀ a ∈ acts, ∀ p i, a = .start p i → (b : Int) ≤ i.toInt ∧ i.toInt < 2 ^ 54) (k : Nat) (hk : k < b) (x : Bytes)
    (hx : rs[k]? = some x) : (slots 256 ((Removers.init rs.flatten).run acts).file)[k]? = some x := by
  obtain ⟨hlt, e⟩ := List.getElem?_eq_some_iff.1 hx
  have hl := h.flatten_length
  have hinit : FrontKept (256 * (k + 1)) rs.flatten (Removers.init rs.flatten) :=
    ⟨(fun p q hq => by cases hq), (by show _ ≤ rs.flatten.length; omega), rfl⟩
  obtain ⟨_, hs, ht⟩ := below_run acts _ hinit fun a ha p i e => by
    obtain ⟨h1, h2⟩ := hi a ha p i e
    omega
  generalize ((Removers.init rs.flatten).run acts).file = d at hs ht
  have hlen : (slots 256 d).length = (d.length + 256 - 1) / 256 := by simp [slots]
  rw [List.getElem?_eq_some_iff]
  have hkl : k < (slots 256 d).length := by rw [hlen]; omega
  refine ⟨hkl, ?_⟩
  simp only [slots, List.getElem_map, List.getElem_range]
  have es : slice d (256 * k) (256 * k + 256) = slice rs.flatten (256 * k) (256 * k + 256) := by
    unfold slice
    rw [show 256 * k + 256 = 256 * (k + 1) by omega, ht]
  rw [← e, ← slot_flatten h [] k hlt, List.append_nil]
  unfold slot
  rw [es]

/-- One after another, each removal takes exactly the board it names, and nothing else changes. -/
theorem C132_in_turn_partial : ∀ (ts : List Turned) (rs : List Bytes) (s : Removers), Sized 256 rs → s.file = rs.flatten →
    InTurn rs s ts → (s.run (ts.flatMap Turned.acts)).file = (ts.foldl Turned.leave rs).flatten
  | [], _, _, _, e, _ => e
  | .remove p i acts :: ts, rs, s, hs, e, ⟨hn, h0, h1, hlen, ho, hret, hrest⟩ => by
    have hst : s.step (.start p i) = s.put p ⟨256 * i.toInt.toNat + 256, 256 * i.toInt.toNat, [], .copying⟩ := by
      simp only [Removers.step, hn, removeStart_small s.file i h0 (by omega)]
    have hz : Sized 256 (rs.eraseIdx i.toInt.toNat) := fun x hx => hs x (List.mem_of_mem_eraseIdx hx)
    have hf : (s.run (.start p i :: acts)).file = (rs.eraseIdx i.toInt.toNat).flatten := by
      obtain ⟨racts, q', g1, g2, g3, _⟩ := alone_run acts (s.step (.start p i)) _ (by rw [hst]; exact if_pos rfl) ho
      obtain ⟨q, hq, hd⟩ := hret
      have : q' = q := by
        have : (s.run (.start p i :: acts)).calls p = some q' := g3
        rw [hq] at this; injection this with this; exact this.symm
      subst this
      have ev : viewOf (s.step (.start p i)) ⟨256 * i.toInt.toNat + 256, 256 * i.toInt.toNat, [], .copying⟩ =
          ⟨rs.flatten, 256 * i.toInt.toNat + 256, 256 * i.toInt.toNat, [], .copying⟩ := by
        rw [hst]; simp [viewOf, Removers.put, e]
      rw [ev] at g2
      have := removal_alone racts g1 _ g2 hd
      have er := removedAt_records hs (i := i.toInt.toNat) (by omega) []
      simp only [List.append_nil] at er
      rw [er] at this
      exact this
    have := C132_in_turn_partial ts _ _ hz hf hrest
    simp only [List.flatMap_cons, Turned.acts, Removers.run, List.foldl_append, List.foldl_cons, Turned.leave] at this ⊢
    exact this
  | .add bs :: ts, rs, s, hs, e, ⟨hb, hrest⟩ => by
    have hz : Sized 256 (rs ++ [bs]) := hs.append (by simpa [Sized] using hb)
    have := C132_in_turn_partial ts _ (s.run [.append bs]) hz (by simp [Removers.run, Removers.step, e]) hrest
    simp only [List.flatMap_cons, Turned.acts, Removers.run, List.foldl_append, List.foldl_cons, Turned.leave] at this ⊢
    exact this

/-! ## Examples -/

/-- The crossed removals meet the hypotheses of the partial theorems, and what they leave is as these say. -/
example : Sized 256 fourBoards ∧ WholeSteps ([.start 0 0, .start 1 1] ++ crossed) ∧
    (startsOf ([.start 0 0, .start 1 1] ++ crossed)).length = 2 ∧
    slots 256 ((Removers.init fourBoards.flatten).run ([.start 0 0, .start 1 1] ++ crossed)).file = [boardOf 2, boardOf 4] := by
  refine ⟨fourBoards_sized, ?_, by decide +kernel, ?_⟩
  · intro a ha
    rcases List.mem_append.1 ha with ha | ha
    · simp only [List.mem_cons, List.not_mem_nil, or_false] at ha
      rcases ha with h | h <;> subst h <;> exact ⟨(by rintro p n ⟨⟩), (by rintro bs ⟨⟩)⟩
    · exact crossed_whole a ha
  · have := crossed_file
    rw [Removers.run, Removers.run, ← List.foldl_append] at this
    exact this

/-- Indices in range; a removal has returned. -/
example : (∀ a ∈ [.start 0 0, .start 1 1] ++ crossed, ∀ p i, a = .start p i → 0 ≤ i.toInt ∧ i.toInt < (fourBoards.length : Int)) ∧
    addedBy ([.start 0 0, .start 1 1] ++ crossed) = [] ∧
    ∃ p, Returned ((Removers.init fourBoards.flatten).run ([.start 0 0, .start 1 1] ++ crossed)) p := by
  refine ⟨?_, by decide +kernel, 0, ?_⟩
  · intro a ha p i e
    subst e
    simp only [crossed, List.cons_append, List.nil_append, List.mem_cons, List.not_mem_nil, or_false, RvAct.start.injEq,
      reduceCtorEq] at ha
    rcases ha with ⟨_, rfl⟩ | ⟨_, rfl⟩ <;> decide
  · have := crossed_returned 0 (.inl rfl)
    rw [Removers.run, Removers.run, ← List.foldl_append] at this
    exact this

/-- Two removals beyond the first board: it stays. -/
example : (∀ a ∈ [RvAct.start 0 1, .start 1 2, .read 0 100, .read 1 256, .write 1, .write 0], ∀ p i, a = .start p i →
      ((1 : Nat) : Int) ≤ i.toInt ∧ i.toInt < 2 ^ 54) ∧ fourBoards[0]? = some (boardOf 1) := by
  refine ⟨?_, rfl⟩
  intro a ha p i e
  subst e
  simp only [List.mem_cons, List.not_mem_nil, or_false, RvAct.start.injEq, reduceCtorEq] at ha
  rcases ha with ⟨_, rfl⟩ | ⟨_, rfl⟩ <;> decide

/-- Two removals in turn with an append between them. -/
def oneByOne : List Turned :=
  [.remove 0 0 [.read 0 2048, .write 0, .read 0 256, .trunc 0], .add (boardOf 5),
   .remove 1 1 [.read 1 256, .write 1, .read 1 256, .write 1, .read 1 256, .trunc 1]]

example : InTurn fourBoards (Removers.init fourBoards.flatten) oneByOne ∧
    oneByOne.foldl Turned.leave fourBoards = [boardOf 2, boardOf 4, boardOf 5] := by
  refine ⟨⟨rfl, by decide, by decide, by decide, ?_, returned_of (by decide +kernel), List.length_replicate, ?_, by decide,
    by decide, by decide, ?_, returned_of (by decide +kernel), trivial⟩, by decide +kernel⟩
  · simp
  · have : ((((Removers.init fourBoards.flatten).run (.start 0 0 :: [.read 0 2048, .write 0, .read 0 256, .trunc 0])).run
        [.append (boardOf 5)]).calls 1).isNone := by decide +kernel
    exact Option.isNone_iff_eq_none.1 this
  · simp

end Verif
