import Verif.Model.Interleave
import Verif.Proofs.RecordFile
/-!
# C101: a draft is saved while the process dies or another one saves it too
-/

namespace Verif
open Spec

/-- Nobody has the draft open. -/
def PutState.init (f : Option Bytes) : PutState := ⟨f, fun _ => none⟩

/-- The call is one of process `p`. -/
def PutAct.by (p : Nat) : PutAct → Prop
  | .trunc q => q = p
  | .put q _ => q = p

/-- Process `p` has written its whole text. -/
def PutState.finished (data : Nat → Bytes) (s : PutState) (p : Nat) : Prop := s.pos p = some (data p).length

theorem put_run_append (data : Nat → Bytes) (s : PutState) (as bs : List PutAct) :
    s.run data (as ++ bs) = (s.run data as).bind (fun s' => s'.run data bs) := by
  induction as generalizing s with
  | nil => rfl
  | cons a as ih =>
    simp only [List.cons_append, PutState.run]
    cases s.step data a with
    | none => rfl
    | some s' => exact ih s'

theorem writeAt_end (d : Bytes) (bs : Bytes) : writeAt d d.length bs = d ++ bs := by
  unfold writeAt
  simp [zeros]

theorem slice_grow (d : Bytes) {a k : Nat} : d.take a ++ slice d a (a + k) = d.take (a + k) := by
  unfold slice
  have e : (d.take (a + k)).take a = d.take a := by rw [List.take_take, Nat.min_eq_left (by omega)]
  rw [← e, List.take_append_drop]

/-- Once `p` has opened the file and nobody else touches it, the file is what `p` has written so far. -/
theorem put_alone (data : Nat → Bytes) (p : Nat) (acts : List PutAct) : ∀ (s : PutState) (a : Nat), s.pos p = some a →
    a ≤ (data p).length → s.file = some ((data p).take a) → (∀ x ∈ acts, x.by p) → ∀ s', s.run data acts = some s' →
    ∃ b, s'.pos p = some b ∧ b ≤ (data p).length ∧ s'.file = some ((data p).take b) := by
  induction acts with
  | nil => intro s a h1 h2 h3 _ s' hr; injection hr with hr; subst hr; exact ⟨a, h1, h2, h3⟩
  | cons x acts ih =>
    intro s a h1 h2 h3 hx s' hr
    simp only [PutState.run] at hr
    have hx1 := hx x (by simp)
    have hx2 : ∀ y ∈ acts, y.by p := fun y hy => hx y (by simp [hy])
    cases x with
    | trunc q =>
      obtain rfl : q = p := hx1
      simp only [PutState.step] at hr
      exact ih _ 0 (by simp) (by omega) (by simp) hx2 s' hr
    | put q k =>
      obtain rfl : q = p := hx1
      simp only [PutState.step, h1] at hr
      split at hr
      · cases hr
      · rename_i t ht
        split at ht
        · rename_i hk
          injection ht with ht
          subst ht
          refine ih _ (a + k) (by simp) hk.2 ?_ hx2 s' hr
          have hl : ((data q).take a).length = a := by simp; omega
          have := writeAt_end ((data q).take a) (slice (data q) a (a + k))
          rw [hl, slice_grow] at this
          simp [h3, this]
        · cases ht

/-! ## One writer, cut at any moment -/

/-- The claim: a draft being saved holds the old text or the new one, whenever the process dies. -/
def Spec.DraftOldOrNew : Prop :=
  ∀ (old : Option Bytes) (data : Nat → Bytes) (acts : List PutAct) (s : PutState), (∀ x ∈ acts, x.by 0) →
    (PutState.init old).run data acts = some s → s.file = old ∨ s.file = some (data 0)

/-- **C101, refuted**: saving begins by emptying the file. -/
theorem C101_draft_refuted : ¬ Spec.DraftOldOrNew := by
  intro h
  have := h (some [1]) (fun _ => [2]) [.trunc 0] ⟨some [], fun q => if q = 0 then some 0 else none⟩ (by simp [PutAct.by]) rfl
  simp at this

/-- **C101, exact** for one writer: before the first call the draft is the old one; afterwards it is the first bytes of the new text. When
the process has written all, it is the new text. -/
theorem C101_draft_partial (old : Option Bytes) (data : Nat → Bytes) (p : Nat) (acts : List PutAct) (s : PutState)
    (ha : ∀ x ∈ acts, x.by p) (hr : (PutState.init old).run data acts = some s) :
    (acts = [] ∧ s.file = old) ∨ (∃ b, s.pos p = some b ∧ s.file = some ((data p).take b)) ∧
      (s.finished data p → s.file = some (data p)) := by
  cases acts with
  | nil => injection hr with hr; subst hr; exact Or.inl ⟨rfl, rfl⟩
  | cons x acts =>
    right
    have hx := ha x (by simp)
    cases x with
    | trunc q =>
      obtain rfl : q = p := hx
      simp only [PutState.run, PutState.step] at hr
      obtain ⟨b, h1, h2, h3⟩ := put_alone data q acts _ 0 (by simp) (by omega) (by simp) (fun y hy => ha y (by simp [hy])) s hr
      refine ⟨⟨b, h1, h3⟩, fun hf => ?_⟩
      unfold PutState.finished at hf
      rw [hf] at h1
      rw [h3, ← Option.some.inj h1, List.take_length]
    | put q k =>
      simp [PutState.run, PutState.step, PutState.init] at hr

/-- Every beginning of the new text is the content at some crash point. -/
theorem C101_every_prefix (old : Option Bytes) (data : Nat → Bytes) (p n : Nat) (hn : n ≤ (data p).length) :
    ∃ acts s, (∀ x ∈ acts, x.by p) ∧ (PutState.init old).run data acts = some s ∧ s.file = some ((data p).take n) := by
  rcases Nat.eq_zero_or_pos n with h | h
  · subst h
    exact ⟨[.trunc p], _, by simp [PutAct.by], rfl, by simp⟩
  · refine ⟨[.trunc p, .put p n], ⟨some ((data p).take n), fun q => if q = p then some n else none⟩, by simp [PutAct.by], ?_, rfl⟩
    simp only [PutState.run, PutState.step, if_pos rfl, Nat.zero_add, h, hn, and_self, if_true, Option.getD_some]
    congr 2
    · have := writeAt_end [] (slice (data p) 0 n)
      simpa [slice] using this
    · funext q
      simp only [PutState.init]
      split <;> simp_all

/-! ## Several writers -/

/-- The claim: when all who opened the draft have finished, it holds the text of one of them. -/
def Spec.DraftOfOne : Prop :=
  ∀ (old : Option Bytes) (data : Nat → Bytes) (acts : List PutAct) (s : PutState), acts ≠ [] →
    (PutState.init old).run data acts = some s → (∀ p, s.pos p ≠ none → s.finished data p) →
    ∃ p, s.pos p ≠ none ∧ s.file = some (data p)

/-- **C101, refuted** for two writers: both open the draft, then both write; the shorter text ends up followed by the rest of the longer. -/
theorem C101_mix_refuted : ¬ Spec.DraftOfOne := by
  intro h
  let data : Nat → Bytes := fun p => if p = 0 then [1, 1, 1] else [2]
  obtain ⟨p, _, hp⟩ := h none data [.trunc 0, .trunc 1, .put 0 3, .put 1 1] _ (by simp) rfl (by
      intro p hp
      simp only [PutState.finished, data]
      by_cases h1 : p = 1
      · subst h1; decide
      · by_cases h0 : p = 0
        · subst h0; decide
        · simp [PutState.init, h0, h1] at hp)
  have hp : some [2, 1, 1] = some (data p) := hp
  have hp := Option.some.inj hp
  simp only [data] at hp
  split at hp <;> simp at hp

/-- The content of the file comes from the texts: every byte is the one that some process has written at that place, or NUL. -/
def Spec.FromTexts (data : Nat → Bytes) (s : PutState) : Prop :=
  ∀ d : Bytes, s.file = some d → ∀ (i : Nat) (b : UInt8), d[i]? = some b → b = 0 ∨ ∃ p a, s.pos p = some a ∧ (data p)[i]? = some b

theorem writeAt_from (d : Bytes) (off : Nat) (bs : Bytes) (i : Nat) (b : UInt8) (h : (writeAt d off bs)[i]? = some b) :
    (i < off ∧ (d[i]? = some b ∨ b = 0)) ∨ (off ≤ i ∧ i < off + bs.length ∧ bs[i - off]? = some b) ∨
      (off + bs.length ≤ i ∧ d[i]? = some b) := by
  unfold writeAt at h
  have hl : ((d ++ zeros (off - d.length)).take off).length = off := by simp; omega
  rcases Nat.lt_or_ge i off with h1 | h1
  · left
    rw [List.append_assoc, List.getElem?_append_left (by omega), List.getElem?_take_of_lt h1] at h
    refine ⟨h1, ?_⟩
    rcases Nat.lt_or_ge i d.length with h2 | h2
    · rw [List.getElem?_append_left h2] at h
      exact Or.inl h
    · rw [List.getElem?_append_right h2] at h
      have := List.mem_of_getElem? h
      exact Or.inr (by simpa [zeros] using (List.mem_replicate.mp this).2)
  · rw [List.append_assoc, List.getElem?_append_right (by omega), hl] at h
    rcases Nat.lt_or_ge (i - off) bs.length with h2 | h2
    · rw [List.getElem?_append_left h2] at h
      exact Or.inr (Or.inl ⟨h1, by omega, h⟩)
    · rw [List.getElem?_append_right h2, List.getElem?_drop, show off + bs.length + (i - off - bs.length) = i by omega] at h
      exact Or.inr (Or.inr ⟨by omega, h⟩)

theorem fromTexts_step {data : Nat → Bytes} {s s' : PutState} (h : FromTexts data s) {a : PutAct} (hs : s.step data a = some s') :
    FromTexts data s' := by
  have keep : ∀ q : Nat, s.pos q ≠ none → s'.pos q ≠ none := by
    intro q hq
    cases a with
    | trunc p => injection hs with hs; subst hs; simp only []; split <;> simp_all
    | put p k =>
      simp only [PutState.step] at hs
      split at hs
      · cases hs
      · split at hs
        · injection hs with hs; subst hs; simp only []; split <;> simp_all
        · cases hs
  have keep' : ∀ (i : Nat) (b : UInt8), (∃ p a, s.pos p = some a ∧ (data p)[i]? = some b) → ∃ p a, s'.pos p = some a ∧ (data p)[i]? = some b := by
    rintro i b ⟨p, a, h1, h2⟩
    obtain ⟨a', ha'⟩ := Option.ne_none_iff_exists'.mp (keep p (by simp [h1]))
    exact ⟨p, a', ha', h2⟩
  cases a with
  | trunc p =>
    injection hs with hs
    subst hs
    intro d hd i b hb
    obtain rfl := Option.some.inj hd
    simp at hb
  | put p k =>
    have hs0 := hs
    simp only [PutState.step] at hs
    split at hs
    · cases hs
    · rename_i a hpa
      split at hs
      · rename_i hk
        injection hs with hs
        have hfile : s'.file = some (writeAt (s.file.getD []) a (slice (data p) a (a + k))) := by rw [← hs]
        have hpos : s'.pos p = some (a + k) := by rw [← hs]; simp
        intro d hd i b hb
        rw [hfile] at hd
        obtain rfl := Option.some.inj hd
        have old : (s.file.getD [])[i]? = some b → b = 0 ∨ ∃ p a, s'.pos p = some a ∧ (data p)[i]? = some b := by
          intro ho
          cases hf : s.file with
          | none => rw [hf] at ho; simp at ho
          | some d0 =>
            rw [hf] at ho
            rcases h d0 hf i b ho with e | e
            · exact Or.inl e
            · exact Or.inr (keep' i b e)
        rcases writeAt_from _ _ _ _ _ hb with ⟨_, e | e⟩ | ⟨e1, _, e3⟩ | ⟨_, e⟩
        · exact old e
        · exact Or.inl e
        · refine Or.inr ⟨p, _, hpos, ?_⟩
          unfold slice at e3
          rw [List.getElem?_drop, show a + (i - a) = i by omega] at e3
          by_cases hi : i < a + k
          · rwa [List.getElem?_take_of_lt hi] at e3
          · rw [List.getElem?_eq_none (by simp; omega)] at e3; cases e3
        · exact old e
      · cases hs

/-- **C101, any writers**: whatever the order of the calls, every byte of the draft is the one that some process writes at that place, or
NUL. -/
theorem C101_mix_bytes (old : Option Bytes) (data : Nat → Bytes) (p : Nat) (acts : List PutAct) (s : PutState)
    (hr : (PutState.init old).run data (.trunc p :: acts) = some s) : FromTexts data s := by
  have key : ∀ (acts : List PutAct) (t : PutState), FromTexts data t → t.run data acts = some s → FromTexts data s := by
    intro acts
    induction acts with
    | nil => intro t ht hr; injection hr with hr; subst hr; exact ht
    | cons a acts ih =>
      intro t ht hr
      simp only [PutState.run] at hr
      cases hs : t.step data a with
      | none => rw [hs] at hr; cases hr
      | some t' => rw [hs] at hr; exact ih t' (fromTexts_step ht hs) hr
  simp only [PutState.run, PutState.step] at hr
  refine key acts _ ?_ hr
  intro d hd i b hb
  obtain rfl := Option.some.inj hd
  simp at hb

/-- NUL bytes do occur: a writer that is overtaken by another one's opening goes on at its old place. -/
theorem C101_hole : ∃ (data : Nat → Bytes) (acts : List PutAct) (s : PutState), (∀ p, 0 ∉ data p) ∧
    (PutState.init none).run data acts = some s ∧ s.finished data 0 ∧ s.file = some [0, 7] := by
  refine ⟨fun p => if p = 0 then [7, 7] else [], [.trunc 0, .put 0 1, .trunc 1, .put 0 1], _, ?_, rfl, by unfold PutState.finished; decide,
    by decide⟩
  intro p
  simp only []
  split <;> decide

/-- **C101, partial** for several writers: if, after process `p` opens the draft, only `p` acts until it has written all, the draft is the
text of `p`, whatever happened before. What is missing: writers that overlap, see `C101_mix_refuted`. -/
theorem C101_mix_partial (old : Option Bytes) (data : Nat → Bytes) (p : Nat) (before acts : List PutAct) (s : PutState)
    (ha : ∀ x ∈ acts, x.by p) (hr : (PutState.init old).run data (before ++ .trunc p :: acts) = some s) (hf : s.finished data p) :
    s.file = some (data p) := by
  rw [put_run_append] at hr
  cases hb : (PutState.init old).run data before with
  | none => rw [hb] at hr; cases hr
  | some t =>
    rw [hb] at hr
    simp only [Option.bind_some, PutState.run, PutState.step] at hr
    obtain ⟨b, h1, h2, h3⟩ := put_alone data p acts _ 0 (by simp) (by omega) (by simp) ha s hr
    unfold PutState.finished at hf
    rw [hf] at h1
    rw [h3, ← Option.some.inj h1, List.take_length]

/-- Two processes save a draft one after the other, the second in two pieces. -/
example : let data : Nat → Bytes := fun p => if p = 0 then ascii "long text" else ascii "short"
    ∃ s, (PutState.init (some (ascii "old"))).run data ([.trunc 0, .put 0 9] ++ .trunc 1 :: [.put 1 2, .put 1 3]) = some s ∧
      s.finished data 1 ∧ s.file = some (ascii "short") := by
  refine ⟨_, rfl, by unfold PutState.finished; decide, by decide⟩

end Verif
