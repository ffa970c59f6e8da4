import Verif.Props.DraftRace
/-!
# C101, the exact law for several writers: which texts can be left when all have finished
-/

namespace Verif
open Spec

namespace Spec

/-- What can be left of the texts of the processes `W`: one of them, `q`, was the last to open the draft, and each `p` had written `a p` bytes by then.
The draft is as long as the longest text of which something was left to write; at every place stands what one of the processes wrote there
afterwards, whichever of them, and NUL where none did. -/
def Mixed (data : Nat → Bytes) (W : List Nat) (d : Bytes) : Prop :=
  ∃ q ∈ W, ∃ a : Nat → Nat, a q = 0 ∧ (∀ p ∈ W, a p ≤ (data p).length) ∧ (∀ p ∈ W, a p < (data p).length → (data p).length ≤ d.length) ∧
    (d = [] ∨ ∃ p ∈ W, a p < (data p).length ∧ (data p).length = d.length) ∧
    ∀ i b, d[i]? = some b → (∃ p ∈ W, a p ≤ i ∧ (data p)[i]? = some b) ∨ (b = 0 ∧ ∀ p ∈ W, i < a p ∨ (data p).length ≤ i)

end Spec

/-- What is known during a run, after somebody has opened the draft: `n p` bytes are written by `p`. -/
structure MixInv (data : Nat → Bytes) (s : PutState) (d : Bytes) (q : Nat) (a : Nat → Nat) : Prop where
  file : s.file = some d
  opener : s.pos q ≠ none
  first : a q = 0
  start : ∀ p n, s.pos p = some n → a p ≤ n ∧ n ≤ (data p).length
  long : ∀ p n, s.pos p = some n → a p < n → n ≤ d.length
  last : d = [] ∨ ∃ p, s.pos p = some d.length ∧ a p < d.length
  byte : ∀ i b, d[i]? = some b → (∃ p n, s.pos p = some n ∧ a p ≤ i ∧ i < n ∧ (data p)[i]? = some b) ∨
    (b = 0 ∧ ∀ p n, s.pos p = some n → i < a p ∨ n ≤ i)

theorem writeAt_length_max (d : Bytes) (off : Nat) (bs : Bytes) (h : 0 < bs.length) : (writeAt d off bs).length = max d.length (off + bs.length) := by
  unfold writeAt
  simp
  omega

theorem writeAt_get (d : Bytes) (off : Nat) (bs : Bytes) (i : Nat) : (writeAt d off bs)[i]? =
    if i < off then (if i < d.length then d[i]? else some 0) else if i < off + bs.length then bs[i - off]? else d[i]? := by
  unfold writeAt
  have hl : ((d ++ zeros (off - d.length)).take off).length = off := by simp; omega
  split
  · next h1 =>
    rw [List.append_assoc, List.getElem?_append_left (by omega), List.getElem?_take_of_lt h1]
    split
    · next h2 => rw [List.getElem?_append_left h2]
    · next h2 =>
      rw [List.getElem?_append_right (by omega)]
      unfold zeros
      rw [List.getElem?_replicate, if_pos (by omega)]
  · next h1 =>
    rw [List.append_assoc, List.getElem?_append_right (by omega), hl]
    split
    · rw [List.getElem?_append_left (by omega)]
    · rw [List.getElem?_append_right (by omega), List.getElem?_drop, show off + bs.length + (i - off - bs.length) = i by omega]

theorem mix_trunc {data : Nat → Bytes} {s : PutState} {r : Nat} (h : ∀ p n, s.pos p = some n → n ≤ (data p).length) :
    MixInv data ⟨some [], fun q => if q = r then some 0 else s.pos q⟩ [] r (fun p => if p = r then 0 else (s.pos p).getD 0) where
  file := rfl
  opener := by simp
  first := by simp
  start := by
    intro p n hp
    simp only [] at hp ⊢
    split at hp
    · injection hp with hp; subst hp; simp [*]
    · rw [hp]; simp [*]
  long := by
    intro p n hp hlt
    simp only [] at hp hlt
    split at hp
    · injection hp with hp; subst hp; simp
    · rw [hp] at hlt; simp [*] at hlt
  last := .inl rfl
  byte := by simp

theorem mix_put {data : Nat → Bytes} {s : PutState} {d : Bytes} {q : Nat} {a : Nat → Nat} (h : MixInv data s d q a) {p k n : Nat}
    (hp : s.pos p = some n) (hk : 0 < k) (hn : n + k ≤ (data p).length) :
    MixInv data ⟨some (writeAt d n (slice (data p) n (n + k))), fun q => if q = p then some (n + k) else s.pos q⟩
      (writeAt d n (slice (data p) n (n + k))) q a := by
  have hsl : (slice (data p) n (n + k)).length = k := by simp [slice]; omega
  have hlen : (writeAt d n (slice (data p) n (n + k))).length = max d.length (n + k) := by
    rw [writeAt_length_max _ _ _ (by omega), hsl]
  have hst := h.start p n hp
  refine ⟨rfl, ?_, h.first, ?_, ?_, ?_, ?_⟩
  · simp only []; split
    · simp
    · exact h.opener
  · intro r m hr
    simp only [] at hr
    split at hr
    · next e => subst e; injection hr with hr; omega
    · exact h.start r m hr
  · intro r m hr hlt
    simp only [] at hr
    rw [hlen]
    split at hr
    · injection hr with hr; omega
    · have := h.long r m hr hlt; omega
  · right
    rw [hlen]
    rcases Nat.lt_or_ge (n + k) d.length with e | e
    · rcases h.last with e0 | ⟨r, h1, h2⟩
      · subst e0; simp at e
      · refine ⟨r, ?_, by omega⟩
        have : r ≠ p := by
          intro e'; subst e'
          rw [hp] at h1
          injection h1 with h1
          omega
        simp only [if_neg this]
        rw [h1, Nat.max_eq_left (by omega)]
    · exact ⟨p, by simp; omega, by omega⟩
  · intro i b hb
    have keep : (∃ r m, s.pos r = some m ∧ a r ≤ i ∧ i < m ∧ (data r)[i]? = some b) →
        ∃ r m, (if r = p then some (n + k) else s.pos r) = some m ∧ a r ≤ i ∧ i < m ∧ (data r)[i]? = some b := by
      rintro ⟨r, m, h1, h2, h3, h4⟩
      by_cases e : r = p
      · subst e
        rw [hp] at h1
        injection h1 with h1
        exact ⟨r, n + k, by simp, h2, by omega, h4⟩
      · exact ⟨r, m, by simp [e, h1], h2, h3, h4⟩
    have zero : b = 0 → (∀ r m, s.pos r = some m → i < a r ∨ m ≤ i) → (i < n ∨ n + k ≤ i) →
        b = 0 ∧ ∀ r m, (if r = p then some (n + k) else s.pos r) = some m → i < a r ∨ m ≤ i := by
      intro e1 e2 e3
      refine ⟨e1, fun r m hr => ?_⟩
      split at hr
      · next e =>
        subst e
        injection hr with hr
        rcases e3 with e3 | e3
        · rcases e2 r n hp with e4 | e4
          · exact .inl e4
          · omega
        · exact .inr (by omega)
      · exact e2 r m hr
    have old : d[i]? = some b → (i < n ∨ n + k ≤ i) → _ := fun ho hi => (h.byte i b ho).imp keep fun e => zero e.1 e.2 hi
    rw [writeAt_get, hsl] at hb
    split at hb
    · next h1 =>
      split at hb
      · exact old hb (.inl h1)
      · next h2 =>
        injection hb with hb
        refine .inr (zero hb.symm (fun r m hr => ?_) (.inl h1))
        have h3 := h.long r m hr
        have h4 := h.start r m hr
        omega
    · next h1 =>
      split at hb
      · next h2 =>
        refine .inl ⟨p, n + k, by simp, by omega, h2, ?_⟩
        unfold slice at hb
        rwa [List.getElem?_drop, show n + (i - n) = i by omega, List.getElem?_take_of_lt h2] at hb
      · next h2 => exact old hb (.inr (by omega))

theorem mix_run {data : Nat → Bytes} : ∀ (acts : List PutAct) {s s' : PutState} {d : Bytes} {q : Nat} {a : Nat → Nat}, MixInv data s d q a →
    s.run data acts = some s' → ∃ d' q' a', MixInv data s' d' q' a'
  | [], _, _, d, q, a, h, hr => by cases hr; exact ⟨d, q, a, h⟩
  | x :: acts, s, s', d, q, a, h, hr => by
    simp only [PutState.run] at hr
    cases x with
    | trunc r => exact mix_run acts (mix_trunc fun p n hp => (h.start p n hp).2) hr
    | put p k =>
      simp only [PutState.step] at hr
      cases hp : s.pos p with
      | none => rw [hp] at hr; cases hr
      | some n =>
        rw [hp] at hr
        simp only [] at hr
        split at hr
        · cases hr
        · next t ht =>
          split at ht
          · next hk =>
            injection ht with ht
            subst ht
            rw [h.file] at hr
            exact mix_run acts (mix_put h hp hk.1 hk.2) hr
          · cases ht

/-! ## Every such text is left by some run -/

/-- Every process of `W` has written its bytes before byte `i`. -/
def upTo (data : Nat → Bytes) (a : Nat → Nat) (W : List Nat) (i : Nat) (p : Nat) : Option Nat :=
  if p ∈ W then some (max (a p) (min i (data p).length)) else none

/-- Nobody writes byte `j` after the draft was last opened. -/
def Unwritten (data : Nat → Bytes) (a : Nat → Nat) (W : List Nat) (j : Nat) : Prop := ∀ p ∈ W, j < a p ∨ (data p).length ≤ j

theorem put_run_trans {data : Nat → Bytes} {s t u : PutState} {as bs : List PutAct} (h1 : s.run data as = some t) (h2 : t.run data bs = some u) :
    s.run data (as ++ bs) = some u := by
  rw [put_run_append, h1]; exact h2

/-- Some processes open the draft and write their first bytes. -/
theorem opened {data : Nat → Bytes} {a : Nat → Nat} : ∀ (L : List Nat) (_ : ∀ p ∈ L, a p ≤ (data p).length) (s : PutState),
    ∃ acts s', s.run data acts = some s' ∧ (∀ p ∈ L, s'.pos p = some (a p)) ∧ ∀ p, p ∉ L → s'.pos p = s.pos p
  | [], _, s => ⟨[], s, rfl, by simp, fun _ _ => rfl⟩
  | p :: L, h, s => by
    have hp := h p (List.mem_cons_self ..)
    have hone : ∃ acts s', s.run data acts = some s' ∧ s'.pos p = some (a p) ∧ ∀ r, r ≠ p → s'.pos r = s.pos r := by
      rcases Nat.eq_zero_or_pos (a p) with e | e
      · exact ⟨[.trunc p], _, rfl, by simp [e], fun r hr => by simp [hr]⟩
      · refine ⟨[.trunc p, .put p (a p)], ⟨some (writeAt [] 0 (slice (data p) 0 (0 + a p))),
          fun r => if r = p then some (0 + a p) else (if r = p then some 0 else s.pos r)⟩, ?_, by simp,
          fun r hr => by simp [hr]⟩
        have hc : 0 < a p ∧ 0 + a p ≤ (data p).length := by omega
        simp [PutState.run, PutState.step, hc, hp]
    obtain ⟨as, t, h1, h2, h3⟩ := hone
    obtain ⟨bs, u, k1, k2, k3⟩ := opened L (fun r hr => h r (List.mem_cons_of_mem _ hr)) t
    refine ⟨as ++ bs, u, put_run_trans h1 k1, fun r hr => ?_, fun r hr => ?_⟩
    · by_cases e : r ∈ L
      · exact k2 r e
      · rw [k3 r e]
        rcases List.mem_cons.mp hr with rfl | hr
        · exact h2
        · exact absurd hr e
    · rw [List.mem_cons, not_or] at hr
      rw [k3 r hr.2, h3 r hr.1]

theorem writeAt_hole {d : Bytes} {m i : Nat} (hi : i ≤ d.length) (hm : m ≤ i) (h : ∀ j, m ≤ j → j < i → d[j]? = some 0) (b : UInt8) :
    writeAt (d.take m) i [b] = d.take i ++ [b] := by
  apply List.ext_getElem?
  intro j
  rw [writeAt_get]
  have hl : (d.take i).length = i := by simp; omega
  have hl' : (d.take m).length = m := by simp; omega
  rw [hl']
  split
  · next h1 =>
    rw [List.getElem?_append_left (by omega), List.getElem?_take_of_lt h1]
    split
    · next h2 => rw [List.getElem?_take_of_lt h2]
    · next h2 => rw [h j (by omega) h1]
  · next h1 =>
    rw [List.getElem?_append_right (by omega), hl]
    split
    · rfl
    · next h2 =>
      simp only [List.length_singleton] at h2
      rw [List.getElem?_eq_none (by omega), List.getElem?_eq_none (by simp; omega)]

theorem writeAt_again {d : Bytes} {i : Nat} (hi : i ≤ d.length) (b b' : UInt8) : writeAt (d.take i ++ [b']) i [b] = d.take i ++ [b] := by
  apply List.ext_getElem?
  intro j
  have hl : (d.take i).length = i := by simp; omega
  rw [writeAt_get, List.length_append, hl]
  simp only [List.length_singleton]
  split
  · next h1 => rw [if_pos (by omega), List.getElem?_append_left (by omega), List.getElem?_append_left (by omega)]
  · next h1 =>
    rw [List.getElem?_append_right (by omega), List.getElem?_append_right (by omega), hl]
    split
    · rfl
    · next h2 => rw [List.getElem?_eq_none (by simp; omega), List.getElem?_eq_none (by simp; omega)]

/-- The draft while byte `i` is being written. -/
def Partly (d : Bytes) (m i : Nat) (f : Option Bytes) : Prop := f = some (d.take m) ∨ ∃ b, f = some (d.take i ++ [b])

/-- Process `p` writes byte `i`. -/
theorem write_byte {data : Nat → Bytes} {d : Bytes} {m i p : Nat} {b : UInt8} {s : PutState} (hi : i ≤ d.length) (hm : m ≤ i)
    (h : ∀ j, m ≤ j → j < i → d[j]? = some 0) (hf : Partly d m i s.file) (hp : s.pos p = some i) (hb : (data p)[i]? = some b) :
    s.run data [.put p 1] = some ⟨some (d.take i ++ [b]), fun q => if q = p then some (i + 1) else s.pos q⟩ := by
  have hlt : i < (data p).length := by
    rcases Nat.lt_or_ge i (data p).length with h | h
    · exact h
    · rw [List.getElem?_eq_none h] at hb; cases hb
  have hsl : slice (data p) i (i + 1) = [b] := by
    unfold slice
    rw [List.take_add_one, hb, List.drop_append_of_le_length (by simp; omega), List.drop_eq_nil_of_le (by simp; omega)]
    rfl
  simp only [PutState.run, PutState.step, hp]
  rw [if_pos (by omega), hsl]
  rcases hf with hf | ⟨b', hf⟩
  · rw [hf, Option.getD_some, writeAt_hole hi hm h]
  · rw [hf, Option.getD_some, writeAt_again hi]

theorem upTo_step {data : Nat → Bytes} {a : Nat → Nat} {W : List Nat} (i p : Nat) :
    upTo data a W i p = upTo data a W (i + 1) p ∨
      (p ∈ W ∧ a p ≤ i ∧ i < (data p).length ∧ upTo data a W i p = some i ∧ upTo data a W (i + 1) p = some (i + 1)) := by
  unfold upTo
  by_cases hw : p ∈ W
  · rw [if_pos hw, if_pos hw]
    simp only [Option.some.injEq, hw, true_and]
    omega
  · simp [hw]

/-- Several processes write byte `i`, if they have it to write. -/
theorem write_others {data : Nat → Bytes} {a : Nat → Nat} {W : List Nat} {d : Bytes} {m i : Nat} (hi : i ≤ d.length) (hm : m ≤ i)
    (h : ∀ j, m ≤ j → j < i → d[j]? = some 0) : ∀ (L : List Nat) (s : PutState), Partly d m i s.file →
    (∀ p, s.pos p = upTo data a W i p ∨ s.pos p = upTo data a W (i + 1) p) →
    ∃ acts s', s.run data acts = some s' ∧ Partly d m i s'.file ∧ (∀ p ∈ L, s'.pos p = upTo data a W (i + 1) p) ∧
      ∀ p, p ∉ L → s'.pos p = s.pos p
  | [], s, hf, _ => ⟨[], s, rfl, hf, by simp, fun _ _ => rfl⟩
  | p :: L, s, hf, hs => by
    have hone : ∃ acts s', s.run data acts = some s' ∧ Partly d m i s'.file ∧ s'.pos p = upTo data a W (i + 1) p ∧
        ∀ r, r ≠ p → s'.pos r = s.pos r := by
      by_cases e : s.pos p = upTo data a W (i + 1) p
      · exact ⟨[], s, rfl, hf, e, fun _ _ => rfl⟩
      · rcases upTo_step (data := data) (a := a) (W := W) i p with e' | ⟨_, _, hlt, e1, e2⟩
        · rcases hs p with e3 | e3
          · exact absurd (e3.trans e') e
          · exact absurd e3 e
        · have hp : s.pos p = some i := by
            rcases hs p with e3 | e3
            · rw [e3, e1]
            · exact absurd e3 e
          exact ⟨_, _, write_byte hi hm h hf hp (List.getElem?_eq_getElem hlt), .inr ⟨_, rfl⟩, by simp [e2], fun r hr => by simp [hr]⟩
    obtain ⟨as, t, h1, h2, h3, h4⟩ := hone
    obtain ⟨bs, u, k1, k2, k3, k4⟩ := write_others hi hm h L t h2 (fun r => by
      by_cases e : r = p
      · subst e; exact .inr h3
      · rw [h4 r e]; exact hs r)
    refine ⟨as ++ bs, u, put_run_trans h1 k1, k2, fun r hr => ?_, fun r hr => ?_⟩
    · by_cases e : r ∈ L
      · exact k3 r e
      · rw [k4 r e]
        rcases List.mem_cons.mp hr with rfl | hr
        · exact h3
        · exact absurd hr e
    · rw [List.mem_cons, not_or] at hr
      rw [k4 r hr.2, h4 r hr.1]

/-- All bytes before byte `i` are written, and in each place the last to write was the one chosen. -/
theorem written {data : Nat → Bytes} {a : Nat → Nat} {W : List Nat} {d : Bytes} (hd : ∀ i b, d[i]? = some b →
      (∃ p ∈ W, a p ≤ i ∧ (data p)[i]? = some b) ∨ (b = 0 ∧ Unwritten data a W i))
    (s : PutState) (hf : s.file = some []) (hs : ∀ p, s.pos p = upTo data a W 0 p) : ∀ i, i ≤ d.length →
    ∃ acts s' m, s.run data acts = some s' ∧ s'.file = some (d.take m) ∧ m ≤ i ∧ (∀ j, m ≤ j → j < i → Unwritten data a W j) ∧
      ∀ p, s'.pos p = upTo data a W i p
  | 0, _ => ⟨[], s, 0, rfl, by simpa using hf, by omega, by omega, hs⟩
  | i + 1, hi => by
    obtain ⟨as, t, m, h1, h2, h3, h4, h5⟩ := written hd s hf hs i (by omega)
    have hole : ∀ j, m ≤ j → j < i → d[j]? = some 0 := by
      intro j hj hji
      have hj' : d[j]? = some d[j] := List.getElem?_eq_getElem (by omega)
      rcases hd j _ hj' with ⟨p, hp, h6, h7⟩ | ⟨h6, _⟩
      · rcases h4 j hj hji p hp with h8 | h8
        · omega
        · rw [List.getElem?_eq_none h8] at h7; cases h7
      · rw [hj', h6]
    have hi' : d[i]? = some d[i] := List.getElem?_eq_getElem (by omega)
    rcases hd i _ hi' with ⟨w, hw, h6, h7⟩ | ⟨_, h6⟩
    · obtain ⟨bs, u, k1, k2, k3, k4⟩ := write_others (a := a) (W := W) (by omega) h3 hole (W.filter (· ≠ w)) t (.inl h2) (fun p => .inl (h5 p))
      have hlt : i < (data w).length := by
        rcases Nat.lt_or_ge i (data w).length with h | h
        · exact h
        · rw [List.getElem?_eq_none h] at h7; cases h7
      have hpos : u.pos w = some i := by
        rw [k4 w (by simp), h5 w]
        unfold upTo
        rw [if_pos hw]
        congr 1
        omega
      refine ⟨as ++ (bs ++ _), _, i + 1, put_run_trans h1 (put_run_trans k1 (write_byte (by omega) h3 hole k2 hpos h7)), ?_, by omega, by omega,
        fun p => ?_⟩
      · show some (d.take i ++ [d[i]]) = _
        rw [List.take_add_one, hi']
        rfl
      · show (if p = w then some (i + 1) else u.pos p) = _
        split
        · next e =>
          subst e
          unfold upTo
          rw [if_pos hw]
          congr 1
          omega
        · next e =>
          by_cases hp : p ∈ W
          · exact k3 p (by simp [hp, e])
          · rw [k4 p (by simp [hp]), h5 p]
            simp [upTo, hp]
    · refine ⟨as, t, m, h1, h2, by omega, fun j hj hji => ?_, fun p => ?_⟩
      · by_cases e : j = i
        · subst e; exact h6
        · exact h4 j hj (by omega)
      · rw [h5 p]
        rcases upTo_step (data := data) (a := a) (W := W) i p with e | ⟨hp, e1, e2, _⟩
        · exact e
        · rcases h6 p hp with e | e <;> omega

/-- **C101, exactly, for several writers.** The processes `W` save the same draft, with any interleaving of their system calls, and have all finished.
Then the draft is a mixture as described, and every such mixture is left by some interleaving. -/
theorem C101_mix_exact (old : Option Bytes) (data : Nat → Bytes) (W : List Nat) (d : Bytes) (hW : W ≠ []) :
    (∃ acts s, (PutState.init old).run data acts = some s ∧ s.file = some d ∧ ∀ p, s.pos p = if p ∈ W then some (data p).length else none) ↔
      Mixed data W d := by
  constructor
  · rintro ⟨acts, s, hr, hf, hp⟩
    obtain ⟨d', q, a, h⟩ : ∃ d' q a, MixInv data s d' q a := by
      cases acts with
      | nil =>
        obtain ⟨p, hpw⟩ := List.exists_mem_of_ne_nil W hW
        cases hr
        have := hp p
        rw [if_pos hpw] at this
        cases this
      | cons x acts =>
        cases x with
        | trunc r => exact mix_run acts (mix_trunc (s := PutState.init old) (r := r) (by simp [PutState.init])) hr
        | put r k => simp [PutState.run, PutState.step, PutState.init] at hr
    obtain rfl : d' = d := by
      have := h.file
      rw [hf] at this
      exact (Option.some.inj this).symm
    have hin : ∀ {p}, p ∈ W → s.pos p = some (data p).length := fun hpw => by rw [hp, if_pos hpw]
    have hof : ∀ {p n}, s.pos p = some n → p ∈ W ∧ n = (data p).length := by
      intro p n e
      rw [hp] at e
      split at e
      · next hw => exact ⟨hw, (Option.some.inj e).symm⟩
      · cases e
    refine ⟨q, ?_, a, h.first, fun p hpw => (h.start p _ (hin hpw)).1, fun p hpw => h.long p _ (hin hpw), ?_, fun i b hb => ?_⟩
    · obtain ⟨n, hn⟩ := Option.ne_none_iff_exists'.mp h.opener
      exact (hof hn).1
    · refine h.last.imp id fun ⟨p, h1, h2⟩ => ?_
      obtain ⟨hw, e⟩ := hof h1
      exact ⟨p, hw, by omega, e.symm⟩
    · rcases h.byte i b hb with ⟨p, n, h1, h2, _, h4⟩ | ⟨h1, h2⟩
      · exact .inl ⟨p, (hof h1).1, h2, h4⟩
      · exact .inr ⟨h1, fun p hpw => h2 p _ (hin hpw)⟩
  · rintro ⟨q, hq, a, h1, h2, h3, h4, h5⟩
    obtain ⟨as, t, k1, k2, k3⟩ := opened (data := data) (a := a) (W.filter (· ≠ q)) (fun p hp => h2 p (List.mem_filter.mp hp).1) (PutState.init old)
    obtain ⟨bs, u, m, l1, l2, l3, l4, l5⟩ := written (a := a) (W := W) h5 ⟨some [], fun p => if p = q then some 0 else t.pos p⟩ rfl (fun p => by
      show (if p = q then some 0 else t.pos p) = _
      unfold upTo
      split
      · next e => subst e; rw [if_pos hq, h1]; simp
      · next e =>
        by_cases hp : p ∈ W
        · rw [k2 p (by simp [hp, e]), if_pos hp]; simp
        · rw [k3 p (by simp [hp]), if_neg hp]; rfl) d.length (Nat.le_refl _)
    refine ⟨as ++ .trunc q :: bs, u, put_run_trans k1 l1, ?_, fun p => ?_⟩
    · have : m = d.length := by
        rcases h4 with e | ⟨p, hp, e1, e2⟩
        · subst e; simp at l3; exact l3
        · rcases Nat.lt_or_ge m d.length with hlt | hge
          · rcases l4 (d.length - 1) (by omega) (by omega) p hp with e | e <;> omega
          · omega
      rw [l2, this, List.take_length]
    · rw [l5 p]
      unfold upTo
      split
      · next hp =>
        have := h2 p hp
        have := h3 p hp
        congr 1
        omega
      · rfl

/-- Where the last to open the draft has something to write there are no holes, and the draft is at least as long as its text. -/
theorem C101_last_opener {data : Nat → Bytes} {W : List Nat} {d : Bytes} (h : Mixed data W d) :
    ∃ q ∈ W, (data q).length ≤ d.length ∧ ∀ i, i < (data q).length → ∃ p ∈ W, ∃ b, d[i]? = some b ∧ (data p)[i]? = some b := by
  obtain ⟨q, hq, a, h1, h2, h3, h4, h5⟩ := h
  have hlen : (data q).length ≤ d.length := by
    rcases Nat.eq_zero_or_pos (data q).length with e | e
    · omega
    · exact h3 q hq (by omega)
  refine ⟨q, hq, hlen, fun i hi => ?_⟩
  have hb : d[i]? = some d[i] := List.getElem?_eq_getElem (by omega)
  rcases h5 i _ hb with ⟨p, hp, _, e⟩ | ⟨_, e⟩
  · exact ⟨p, hp, _, hb, e⟩
  · rcases e q hq with e | e <;> omega

/-- Two processes save `aaaa` and `bb`: `abaa` can be left, and `bb`, a NUL byte and `a`, if process 0 had written three bytes when 1 opened the draft. -/
example : Mixed (fun p => if p = 0 then ascii "aaaa" else ascii "bb") [0, 1] (ascii "abaa") := by
  refine ⟨0, by simp, fun _ => 0, rfl, by simp, by decide, .inr ⟨0, by simp, by decide, by decide⟩, fun i b hb => .inl ?_⟩
  match i, hb with
  | 0, hb => exact ⟨0, by simp, Nat.zero_le _, hb⟩
  | 1, hb => exact ⟨1, by simp, Nat.zero_le _, hb⟩
  | 2, hb => exact ⟨0, by simp, Nat.zero_le _, hb⟩
  | 3, hb => exact ⟨0, by simp, Nat.zero_le _, hb⟩
  | i + 4, hb => simp [ascii] at hb

example : Mixed (fun p => if p = 0 then ascii "aaaa" else ascii "bb") [0, 1] (ascii "bb" ++ [0] ++ ascii "a") := by
  refine ⟨1, by simp, fun p => if p = 0 then 3 else 0, rfl, by decide, by decide, .inr ⟨0, by simp, by decide, by decide⟩, fun i b hb => ?_⟩
  match i, hb with
  | 0, hb => exact .inl ⟨1, by simp, by decide, hb⟩
  | 1, hb => exact .inl ⟨1, by simp, by decide, hb⟩
  | 2, hb => exact .inr ⟨(Option.some.inj hb).symm, by decide⟩
  | 3, hb => exact .inl ⟨0, by simp, by decide, hb⟩
  | i + 4, hb => simp [ascii] at hb

/-- `ab` is not: if process 0 wrote its `a` after the draft was last opened it wrote the rest of its text, too. -/
example : ¬ Mixed (fun p => if p = 0 then ascii "aaaa" else ascii "bb") [0, 1] (ascii "ab") := by
  rintro ⟨q, hq, a, h1, h2, h3, h4, h5⟩
  have e0 := h3 0 (by simp)
  have e2 := h5 0 97 rfl
  have hl : (ascii "aaaa").length = 4 := by decide
  have hl' : (ascii "ab").length = 2 := by decide
  simp only [if_true, hl, hl'] at e0
  have e1 : ¬ a 0 < 4 := fun h => by have := e0 h; omega
  rcases e2 with ⟨p, hp, e3, e4⟩ | ⟨e3, _⟩
  · simp only [List.mem_cons, List.not_mem_nil, or_false] at hp
    rcases hp with rfl | rfl
    · omega
    · exact absurd e4 (by decide)
  · exact absurd e3 (by decide)

end Verif
