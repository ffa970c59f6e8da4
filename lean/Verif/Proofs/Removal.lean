import Verif.Spec.Removal
import Verif.Proofs.RecordFile
/-!
# Invariant of the in-place removal
-/

namespace Verif
open Spec

/-- During the copy: `orig` is the content that would be there without the removal, `w0` the place of the removed
record. The bytes already copied are shifted by 256; everything else is in place. -/
structure RmInv (orig : Bytes) (w0 : Nat) (s : RmState) : Prop where
  hw : w0 ≤ s.w
  hr : s.r = s.w + 256 + s.buf.length
  hlen : s.file.length = orig.length
  hend : (s.w = w0 ∧ s.buf = []) ∨ s.r ≤ orig.length
  hbuf : ∀ j, j < s.buf.length → s.buf[j]? = orig[s.w + 256 + j]?
  hfile : ∀ j, s.file[j]? = if w0 ≤ j ∧ j < s.w then orig[j + 256]? else orig[j]?

theorem writeAt_byte_getElem? {d : Bytes} {w : Nat} (h : w < d.length) (b : UInt8) (j : Nat) :
    (writeAt d w [b])[j]? = if j = w then some b else d[j]? := by
  have z : w - d.length = 0 := by omega
  unfold writeAt
  rw [z]
  simp only [zeros, List.replicate_zero, List.append_nil, List.length_singleton, List.append_assoc]
  rcases Nat.lt_trichotomy j w with hj | hj | hj
  · rw [List.getElem?_append_left (by simp; omega), List.getElem?_take_of_lt hj, if_neg (by omega)]
  · subst hj
    rw [List.getElem?_append_right (by simp; omega)]
    simp [Nat.min_eq_left (Nat.le_of_lt h)]
  · rw [List.getElem?_append_right (by simp; omega), if_neg (by omega)]
    have e : j - (List.take w d).length = (j - w - 1) + 1 := by simp; omega
    rw [e]
    simp only [List.cons_append, List.nil_append, List.getElem?_cons_succ, List.getElem?_drop]
    congr 1
    omega

theorem writeAt_byte_length {d : Bytes} {w : Nat} (h : w < d.length) (b : UInt8) :
    (writeAt d w [b]).length = d.length := by
  unfold writeAt
  simp
  omega

/-- One step keeps the invariant; an append extends the reference content. -/
theorem RmInv.step {orig : Bytes} {w0 : Nat} {s s' : RmState} (h : RmInv orig w0 s) (hp : s.phase = .copying)
    {a : RmAct} (hs : s.step a = some s') :
    (s'.phase = .copying ∧ RmInv (orig ++ appendedBy [a]) w0 s') ∨
    (a = .eof ∧ s'.phase = .sawEOF ∧ RmInv orig w0 s' ∧ s'.buf = [] ∧ orig.length ≤ s'.r) := by
  cases a with
  | read k =>
    simp only [RmState.step] at hs
    split at hs
    · rename_i hc
      obtain ⟨_, hb, hk, hle⟩ := hc
      injection hs with hs
      subst hs
      left
      refine ⟨hp, ?_⟩
      simp only [appendedBy, List.append_nil]
      have hr := h.hr
      rw [hb] at hr
      simp only [List.length_nil, Nat.add_zero] at hr
      have hl := h.hlen
      refine ⟨h.hw, ?_, h.hlen, ?_, ?_, h.hfile⟩
      · simp only [slice_length, Nat.min_eq_left hle]; omega
      · right; simp only []; omega
      · intro j hj
        simp only [slice_length, Nat.min_eq_left hle] at hj
        simp only [slice_getElem?]
        rw [if_pos (by omega), h.hfile, if_neg (by omega), hr]
    · cases hs
  | put =>
    simp only [RmState.step] at hs
    rw [hp] at hs
    cases hb : s.buf with
    | nil => rw [hb] at hs; cases hs
    | cons b bs =>
      rw [hb] at hs
      injection hs with hs
      subst hs
      left
      refine ⟨rfl, ?_⟩
      simp only [appendedBy, List.append_nil]
      have hr := h.hr
      have hl := h.hlen
      have hend : s.r ≤ orig.length := by
        rcases h.hend with ⟨_, e⟩ | e
        · rw [hb] at e; cases e
        · exact e
      rw [hb] at hr
      simp only [List.length_cons] at hr
      have hw := h.hw
      refine ⟨by simp only []; omega, by simp only []; omega, ?_, Or.inr hend, ?_, ?_⟩
      · simp only []
        rw [writeAt_byte_length (by omega), hl]
      · intro j hj
        have := h.hbuf (j + 1) (by rw [hb]; simpa using hj)
        rw [hb] at this
        simp only [List.getElem?_cons_succ] at this
        simp only [this]
        congr 1
        omega
      · intro j
        simp only []
        rw [writeAt_byte_getElem? (by omega), h.hfile]
        by_cases hj : j = s.w
        · have := h.hbuf 0 (by rw [hb]; simp)
          rw [hb] at this
          simp only [List.getElem?_cons_zero, Nat.add_zero] at this
          rw [if_pos hj, if_pos ⟨by omega, by omega⟩, this, hj]
        · rw [if_neg hj]
          by_cases hc : w0 ≤ j ∧ j < s.w
          · rw [if_pos hc, if_pos ⟨hc.1, by omega⟩]
          · rw [if_neg hc, if_neg (by omega)]
  | eof =>
    simp only [RmState.step] at hs
    split at hs
    · rename_i hc
      obtain ⟨_, hb, hle⟩ := hc
      injection hs with hs
      subst hs
      right
      have hl := h.hlen
      exact ⟨rfl, rfl, ⟨h.hw, h.hr, h.hlen, h.hend, h.hbuf, h.hfile⟩, hb, by simp only []; omega⟩
    · cases hs
  | trunc =>
    simp only [RmState.step] at hs
    rw [if_neg (by rw [hp]; decide)] at hs
    cases hs
  | append bs =>
    simp only [RmState.step] at hs
    injection hs with hs
    subst hs
    left
    refine ⟨hp, ?_⟩
    simp only [appendedBy, List.append_nil]
    have hl := h.hlen
    have hr := h.hr
    refine ⟨h.hw, h.hr, by simp [hl], ?_, ?_, ?_⟩
    · rcases h.hend with e | e
      · exact Or.inl e
      · right; simp only [List.length_append]; omega
    · intro j hj
      simp only [] at hj ⊢
      have hend : s.r ≤ orig.length := by
        rcases h.hend with ⟨_, e⟩ | e
        · rw [e] at hj; simp at hj
        · exact e
      rw [h.hbuf j hj, List.getElem?_append_left (by omega)]
    · intro j
      simp only []
      by_cases hj : j < s.file.length
      · rw [List.getElem?_append_left hj, h.hfile]
        by_cases hc : w0 ≤ j ∧ j < s.w
        · have hend : s.r ≤ orig.length := by
            rcases h.hend with ⟨e, _⟩ | e
            · omega
            · exact e
          rw [if_pos hc, if_pos hc, List.getElem?_append_left (by omega)]
        · rw [if_neg hc, if_neg hc, List.getElem?_append_left (by omega)]
      · have hc : ¬ (w0 ≤ j ∧ j < s.w) := by
          rintro ⟨h1, h2⟩
          rcases h.hend with ⟨e, _⟩ | e <;> omega
        rw [List.getElem?_append_right (by omega), if_neg hc, List.getElem?_append_right (by omega), hl]

theorem RmInv.start (d : Bytes) (w : Nat) :
    RmInv d w { file := d, r := w + 256, w := w, buf := [], phase := .copying } :=
  ⟨by simp, by simp, rfl, Or.inl ⟨rfl, rfl⟩, by simp, by
    intro j
    rw [if_neg (by simp only []; omega)]⟩

theorem appendedBy_append (as bs : List RmAct) : appendedBy (as ++ bs) = appendedBy as ++ appendedBy bs := by
  induction as with
  | nil => rfl
  | cons a as ih => cases a <;> simp [appendedBy, ih]

theorem appendedBy_cons (a : RmAct) (as : List RmAct) : appendedBy (a :: as) = appendedBy [a] ++ appendedBy as :=
  appendedBy_append [a] as

theorem run_append (s : RmState) (as bs : List RmAct) :
    s.run (as ++ bs) = (s.run as).bind (fun s' => s'.run bs) := by
  induction as generalizing s with
  | nil => rfl
  | cons a as ih =>
    simp only [List.cons_append, RmState.run]
    cases s.step a with
    | none => rfl
    | some s' => exact ih s'

/-- The content after truncation: the record at `w0` is gone (a hole before `w0` is zero-filled). -/
def removedAt (orig : Bytes) (w0 : Nat) : Bytes := truncateTo orig w0 ++ orig.drop (w0 + 256)

theorem RmInv.removed {orig : Bytes} {w0 : Nat} {s : RmState} (h : RmInv orig w0 s) (hb : s.buf = [])
    (hr : orig.length ≤ s.r) : truncateTo s.file s.w = removedAt orig w0 := by
  have h1 := h.hr
  have h2 := h.hw
  have h3 := h.hlen
  rw [hb] at h1
  simp only [List.length_nil, Nat.add_zero] at h1
  have h4 : s.w = w0 ∨ s.r = orig.length := by
    rcases h.hend with ⟨e, _⟩ | e
    · exact Or.inl e
    · right; omega
  apply List.ext_getElem?
  intro j
  have hf := h.hfile j
  unfold removedAt truncateTo
  by_cases hj : j < s.w
  · by_cases hjl : j < s.file.length
    · rw [List.getElem?_append_left (by simp; omega), List.getElem?_take_of_lt hj, hf]
      by_cases hc : w0 ≤ j
      · rw [if_pos ⟨hc, hj⟩, List.getElem?_append_right (by simp [zeros]; omega)]
        simp only [List.length_append, List.length_take, zeros, List.length_replicate, List.getElem?_drop]
        congr 1
        omega
      · rw [if_neg (by omega), List.append_assoc, List.getElem?_append_left (by simp; omega),
          List.getElem?_take_of_lt (by omega)]
    · -- a hole: nothing was copied
      have hw : s.w = w0 := by
        rcases h4 with e | e
        · exact e
        · omega
      have ef : s.file = orig := by
        apply List.ext_getElem?
        intro i
        rw [h.hfile i, if_neg (by omega)]
      rw [ef, hw, List.drop_eq_nil_of_le (by omega), List.append_nil]
  · rw [List.getElem?_eq_none (by simp [zeros]; omega), List.getElem?_eq_none]
    simp only [List.length_append, List.length_take, zeros, List.length_replicate, List.length_drop]
    omega

/-- All states of a run. -/
theorem RmInv.run {d : Bytes} {w0 : Nat} {s : RmState} (h : RmInv d w0 s) (hp : s.phase = .copying) :
    ∀ {acts : List RmAct} {s' : RmState}, s.run acts = some s' → s'.phase = .copying →
      RmInv (d ++ appendedBy acts) w0 s' := by
  intro acts
  induction acts generalizing d s with
  | nil =>
    intro s' hs _
    injection hs with hs
    subst hs
    simpa [appendedBy] using h
  | cons a as ih =>
    intro s' hs hp'
    simp only [RmState.run] at hs
    cases hst : s.step a with
    | none => rw [hst] at hs; cases hs
    | some s1 =>
      rw [hst] at hs
      rcases h.step hp hst with ⟨hp1, h1⟩ | ⟨_, hp1, _⟩
      · rw [appendedBy_cons, ← List.append_assoc]
        exact ih h1 hp1 hs hp'
      · -- after EOF the phase never becomes copying again
        exfalso
        have key : ∀ (as : List RmAct) (t t' : RmState), t.phase ≠ .copying → t.run as = some t' →
            t'.phase ≠ .copying := by
          intro as
          induction as with
          | nil => intro t t' ht e; injection e with e; subst e; exact ht
          | cons b bs ih2 =>
            intro t t' ht e
            simp only [RmState.run] at e
            cases hb : t.step b with
            | none => rw [hb] at e; cases e
            | some t1 =>
              rw [hb] at e
              refine ih2 t1 t' ?_ e
              cases b with
              | read k => simp [RmState.step, ht] at hb
              | put => simp only [RmState.step] at hb; split at hb <;> simp_all
              | eof => simp [RmState.step, ht] at hb
              | trunc =>
                simp only [RmState.step] at hb
                split at hb
                · injection hb with hb; subst hb; simp
                · cases hb
              | append x => injection hb with hb; subst hb; exact ht
        exact key as s1 s' (by rw [hp1]; decide) hs hp'

end Verif
