import Verif.Spec.Removers
import Verif.Proofs.RemovalRun
/-!
# Several removals: what every interleaving keeps
-/

namespace Verif
open Spec

/-! ## Whole records -/

theorem slice_records {L : List Bytes} (h : Sized 256 L) (a n : Nat) :
    slice L.flatten (256 * a) (256 * a + 256 * n) = ((L.drop a).take n).flatten := by
  unfold slice
  have ht : Sized 256 (L.take (a + n)) := fun x hx => h x (List.mem_of_mem_take hx)
  rw [← Nat.mul_add, ← flatten_take h, ← flatten_drop ht, List.drop_take]
  congr 2
  omega

theorem zeros_records (n : Nat) : zeros (256 * n) = (List.replicate n (zeros 256)).flatten := by
  unfold zeros
  rw [List.flatten_replicate_replicate, Nat.mul_comm]

theorem zeros_sized (n : Nat) : Sized 256 (List.replicate n (zeros 256)) := by
  intro x hx; rw [List.eq_of_mem_replicate hx]; simp

/-- A write of whole records at a record boundary. -/
def putRecords (L : List Bytes) (b : Nat) (bs : List Bytes) : List Bytes :=
  (L ++ List.replicate (b - L.length) (zeros 256)).take b ++ bs ++ L.drop (b + bs.length)

theorem writeAt_records {L bs : List Bytes} (h : Sized 256 L) (hb : Sized 256 bs) (b : Nat) :
    writeAt L.flatten (256 * b) bs.flatten = (putRecords L b bs).flatten := by
  unfold writeAt putRecords
  rw [hb.flatten_length, h.flatten_length, ← Nat.mul_sub, zeros_records, ← List.flatten_append, ← Nat.mul_add,
    ← flatten_take (h.append (zeros_sized _)), ← flatten_drop h, List.flatten_append, List.flatten_append]

theorem putRecords_sized {L bs : List Bytes} (h : Sized 256 L) (hb : Sized 256 bs) (b : Nat) :
    Sized 256 (putRecords L b bs) := by
  intro x hx
  simp only [putRecords, List.mem_append] at hx
  rcases hx with (hx | hx) | hx
  · exact (h.append (zeros_sized _)) x (List.mem_of_mem_take hx)
  · exact hb x hx
  · exact h x (List.mem_of_mem_drop hx)

theorem putRecords_at {L bs : List Bytes} {b j : Nat} {x : Bytes} (h : (putRecords L b bs)[j]? = some x) :
    x = zeros 256 ∨ (L[j]? = some x ∧ (j < b ∨ b + bs.length ≤ j)) ∨ (b ≤ j ∧ bs[j - b]? = some x) := by
  unfold putRecords at h
  have hl : ((L ++ List.replicate (b - L.length) (zeros 256)).take b).length = b := by
    rw [List.length_take, List.length_append, List.length_replicate]; omega
  rw [List.append_assoc, List.getElem?_append] at h
  rw [hl] at h
  split at h
  · rename_i hj
    rw [List.getElem?_take, if_pos hj, List.getElem?_append] at h
    split at h
    · exact .inr (.inl ⟨h, .inl hj⟩)
    · left
      exact List.eq_of_mem_replicate (List.mem_of_getElem? h)
  · rename_i hj
    rw [List.getElem?_append] at h
    split at h
    · exact .inr (.inr ⟨by omega, h⟩)
    · rename_i hk
      rw [List.getElem?_drop] at h
      refine .inr (.inl ⟨?_, .inr (by omega)⟩)
      have e : b + bs.length + (j - b - bs.length) = j := by omega
      rw [e] at h
      exact h

theorem truncateTo_records {L : List Bytes} (h : Sized 256 L) (b : Nat) :
    truncateTo L.flatten (256 * b) = (L.take b ++ List.replicate (b - L.length) (zeros 256)).flatten := by
  unfold truncateTo
  rw [h.flatten_length, ← Nat.mul_sub, zeros_records, ← flatten_take h, List.flatten_append]

theorem bmod_cases (x : Int) : x.bmod (2 ^ 64) =
    if x % 18446744073709551616 < 9223372036854775808 then x % 18446744073709551616
    else x % 18446744073709551616 - 18446744073709551616 := rfl

theorem start_ok {d : Bytes} {i : Int64} {m : RmState} (h : removeStart (some d) i = .ok m) :
    m.file = d ∧ m.r = m.w + 256 ∧ (∃ b, m.w = 256 * b) ∧ m.buf = [] ∧ m.phase = .copying := by
  simp only [removeStart] at h
  split at h
  · cases h
  · rename_i h1
    split at h
    · cases h
    · rename_i h2
      injection h with h
      subst h
      have e1 : (1 : Int64).toInt = 1 := by decide
      have e2 : (256 : Int64).toInt = 256 := by decide
      have z : (0 : Int64).toInt = 0 := by decide
      rw [Int64.lt_iff_toInt_lt, z] at h1 h2
      have er : ((i + 1) * 256).toInt = ((i.toInt + 1) * 256).bmod (2 ^ 64) := by
        rw [Int64.toInt_mul, Int64.toInt_add, e1, e2, Int.bmod_mul_bmod]
      have ew : (i * 256).toInt = (i.toInt * 256).bmod (2 ^ 64) := by
        rw [Int64.toInt_mul, e2]
      refine ⟨rfl, ?_, ⟨((i * 256).toInt / 256).toNat, ?_⟩, rfl, rfl⟩
      · show ((i + 1) * 256).toInt.toNat = (i * 256).toInt.toNat + 256
        rw [bmod_cases] at er ew
        split at er <;> split at ew <;> omega
      · show (i * 256).toInt.toNat = _
        rw [bmod_cases] at ew
        split at ew <;> omega

/-! ## Where a record comes from -/

/-- The record in slot `j` is blank, or was appended, or has moved down from its first place, once for each of some
calls; these have all read beyond. -/
def Came (rs A : List Bytes) (calls : Nat → Option Remover) (j : Nat) (x : Bytes) : Prop :=
  x = zeros 256 ∨ x ∈ A ∨ ∃ S : List Nat, S.Nodup ∧ (∀ p ∈ S, ∃ q, calls p = some q ∧ 256 * (j + 2) ≤ q.r) ∧
    rs[j + S.length]? = some x

/-- The same for a record that call `p` has read from slot `k`. -/
def Fetched (rs A : List Bytes) (calls : Nat → Option Remover) (p k : Nat) (x : Bytes) : Prop :=
  x = zeros 256 ∨ x ∈ A ∨ ∃ S : List Nat, S.Nodup ∧ p ∉ S ∧ (∀ p ∈ S, ∃ q, calls p = some q ∧ 256 * (k + 2) ≤ q.r) ∧
    rs[k + S.length]? = some x

/-- Calls only read forward. -/
def Forward (c d : Nat → Option Remover) : Prop := ∀ p q, c p = some q → ∃ q', d p = some q' ∧ q.r ≤ q'.r

theorem Came.mono {rs A B : List Bytes} {c d : Nat → Option Remover} {j : Nat} {x : Bytes} (hA : ∀ y ∈ A, y ∈ B)
    (hf : Forward c d) (h : Came rs A c j x) : Came rs B d j x := by
  rcases h with h | h | ⟨S, h1, h2, h3⟩
  · exact .inl h
  · exact .inr (.inl (hA x h))
  · refine .inr (.inr ⟨S, h1, fun p hp => ?_, h3⟩)
    obtain ⟨q, hq, hr⟩ := h2 p hp
    obtain ⟨q', hq', hr'⟩ := hf p q hq
    exact ⟨q', hq', by omega⟩

theorem Fetched.mono {rs A B : List Bytes} {c d : Nat → Option Remover} {p k : Nat} {x : Bytes} (hA : ∀ y ∈ A, y ∈ B)
    (hf : Forward c d) (h : Fetched rs A c p k x) : Fetched rs B d p k x := by
  rcases h with h | h | ⟨S, h1, h0, h2, h3⟩
  · exact .inl h
  · exact .inr (.inl (hA x h))
  · refine .inr (.inr ⟨S, h1, h0, fun p hp => ?_, h3⟩)
    obtain ⟨q, hq, hr⟩ := h2 p hp
    obtain ⟨q', hq', hr'⟩ := hf p q hq
    exact ⟨q', hq', by omega⟩

/-- What one call holds: the records `bs` read from slot `a` on, to be written one slot lower. -/
def Holds (rs A : List Bytes) (calls : Nat → Option Remover) (p : Nat) (q : Remover) : Prop :=
  ∃ a bs, q.r = 256 * (a + 1 + bs.length) ∧ q.w = 256 * a ∧ q.buf = bs.flatten ∧ Sized 256 bs ∧
    ∀ (i : Nat) x, bs[i]? = some x → Fetched rs A calls p (a + 1 + i) x

structure Near (rs A : List Bytes) (s : Removers) : Prop where
  file : ∃ L, s.file = L.flatten ∧ Sized 256 L ∧ ∀ (j : Nat) x, L[j]? = some x → Came rs A s.calls j x
  held : ∀ p q, s.calls p = some q → Holds rs A s.calls p q

theorem Holds.mono {rs A B : List Bytes} {c d : Nat → Option Remover} {p : Nat} {q : Remover} (hA : ∀ y ∈ A, y ∈ B)
    (hf : Forward c d) (h : Holds rs A c p q) : Holds rs B d p q := by
  obtain ⟨a, bs, h1, h2, h3, h4, h5⟩ := h
  exact ⟨a, bs, h1, h2, h3, h4, fun i x hx => (h5 i x hx).mono hA hf⟩

theorem put_forward {s : Removers} {p : Nat} {q q' : Remover} (h : s.calls p = some q) (hr : q.r ≤ q'.r) :
    Forward s.calls (s.put p q').calls := by
  intro k v hk
  by_cases e : k = p
  · subst e
    rw [h] at hk; injection hk with hk; subst hk
    exact ⟨q', by simp [Removers.put], hr⟩
  · exact ⟨v, by simp [Removers.put, e, hk], Nat.le_refl _⟩

theorem put_new {s : Removers} {p : Nat} {q' : Remover} (h : s.calls p = none) :
    Forward s.calls (s.put p q').calls := by
  intro k v hk
  have e : k ≠ p := by rintro rfl; rw [h] at hk; cases hk
  exact ⟨v, by simp [Removers.put, e, hk], Nat.le_refl _⟩

theorem put_calls {s : Removers} {p : Nat} {q' : Remover} {P : Nat → Remover → Prop}
    (h1 : P p q') (h2 : ∀ k v, s.calls k = some v → P k v) : ∀ k v, (s.put p q').calls k = some v → P k v := by
  intro k v hk
  by_cases e : k = p
  · subst e
    simp [Removers.put] at hk; subst hk; exact h1
  · simp [Removers.put, e] at hk; exact h2 k v hk

/-- The whole invariant is kept when call `p` changes what it holds and the file stays. -/
theorem Near.put {rs A : List Bytes} {s : Removers} (h : Near rs A s) {p : Nat} {q' : Remover}
    (hf : Forward s.calls (s.put p q').calls) (hq : Holds rs A (s.put p q').calls p q') : Near rs A (s.put p q') := by
  obtain ⟨⟨L, e, hs, hc⟩, hh⟩ := h
  refine ⟨⟨L, e, hs, fun j x hx => (hc j x hx).mono (fun _ h => h) hf⟩, ?_⟩
  exact put_calls hq fun k v hk => (hh k v hk).mono (fun _ h => h) hf

theorem Near.refile {rs A : List Bytes} {s : Removers} (h : Near rs A s) {d : Bytes}
    (hd : ∃ L, d = L.flatten ∧ Sized 256 L ∧ ∀ (j : Nat) x, L[j]? = some x → Came rs A s.calls j x) :
    Near rs A { s with file := d } := ⟨hd, h.held⟩

theorem near_step {rs A : List Bytes} {s : Removers} (h : Near rs A s) (a : RvAct)
    (ha : (∀ p n, a = .read p n → 256 ∣ n) ∧ ∀ bs, a = .append bs → bs.length = 256 ∧ bs ∈ A) : Near rs A (s.step a) := by
  cases a with
  | start p index =>
    simp only [Removers.step]
    split
    · exact h
    · rename_i hn
      split
      · rename_i m hm
        obtain ⟨_, hr, ⟨b, hw⟩, hb, _⟩ := start_ok hm
        refine h.put (put_new hn) ⟨b, [], ?_, hw, by simp [hb], fun x hx => absurd hx List.not_mem_nil, fun i x hx => by simp at hx⟩
        simp only [List.length_nil]; omega
      · exact h
  | read p n =>
    simp only [Removers.step]
    split
    · rename_i q hq
      split
      · rename_i hc
        obtain ⟨hc1, hc2, hc3⟩ := hc
        obtain ⟨a, bs, hr, hw, hb, hbs, hf⟩ := h.held p q hq
        have hnil : bs = [] := by
          cases bs with
          | nil => rfl
          | cons b bs =>
            have := hbs b (List.mem_cons_self ..)
            rw [hc2] at hb
            have := congrArg List.length hb
            simp at this
            omega
        subst hnil
        split
        · exact h.put (put_forward hq (Nat.le_refl _)) ⟨a, [], hr, hw, by simp [hc2], hbs, fun i x hx => by simp at hx⟩
        · obtain ⟨k, rfl⟩ := ha.1 p n rfl
          obtain ⟨L, e, hs, hcame⟩ := h.file
          have es : slice s.file q.r (q.r + 256 * k) = ((L.drop (a + 1)).take k).flatten := by
            rw [e, hr, List.length_nil, Nat.add_zero, slice_records hs]
          have hz : Sized 256 ((L.drop (a + 1)).take k) :=
            fun x hx => hs x (List.mem_of_mem_drop (List.mem_of_mem_take hx))
          rw [es]
          have hfw := put_forward (q' := { q with buf := ((L.drop (a + 1)).take k).flatten,
                                                   r := q.r + ((L.drop (a + 1)).take k).flatten.length }) hq (Nat.le_add_right _ _)
          refine h.put hfw ⟨a, (L.drop (a + 1)).take k, ?_, hw, rfl, hz, ?_⟩
          · show q.r + _ = _
            rw [hz.flatten_length, hr]; simp only [List.length_nil]; omega
          · intro i x hx
            have hx' : L[a + 1 + i]? = some x := by
              rw [List.getElem?_take] at hx
              split at hx
              · rwa [List.getElem?_drop] at hx
              · cases hx
            have hc := hcame _ _ hx'
            refine Fetched.mono (fun _ h => h) hfw ?_
            rcases hc with hc | hc | ⟨S, h1, h2, h3⟩
            · exact .inl hc
            · exact .inr (.inl hc)
            · refine .inr (.inr ⟨S, h1, fun hp => ?_, h2, h3⟩)
              obtain ⟨q', hq', hle⟩ := h2 p hp
              rw [hq] at hq'; injection hq' with hq'; subst hq'
              rw [hr] at hle
              simp only [List.length_nil] at hle
              omega
      · exact h
    · exact h
  | write p =>
    simp only [Removers.step]
    split
    · rename_i q hq
      split
      · obtain ⟨a, bs, hr, hw, hb, hbs, hf⟩ := h.held p q hq
        obtain ⟨L, e, hs, hcame⟩ := h.file
        have h' : Near rs A { s with file := writeAt s.file q.w q.buf } := by
          refine h.refile ⟨putRecords L a bs, by rw [e, hw, hb, writeAt_records hs hbs], putRecords_sized hs hbs a, ?_⟩
          intro j x hx
          rcases putRecords_at hx with hx | ⟨hx, _⟩ | ⟨hj, hx⟩
          · exact .inl hx
          · exact hcame j x hx
          · have hi : j - a < bs.length := (List.getElem?_eq_some_iff.1 hx).1
            rcases hf _ x hx with hx | hx | ⟨S, h1, h0, h2, h3⟩
            · exact .inl hx
            · exact .inr (.inl hx)
            · refine .inr (.inr ⟨p :: S, List.nodup_cons.2 ⟨h0, h1⟩, ?_, ?_⟩)
              · intro k hk
                rcases List.mem_cons.1 hk with rfl | hk
                · exact ⟨q, hq, by rw [hr]; omega⟩
                · obtain ⟨v, hv, hle⟩ := h2 k hk
                  exact ⟨v, hv, by omega⟩
              · rw [← h3]; congr 1; simp only [List.length_cons]; omega
        refine h'.put (s := { s with file := writeAt s.file q.w q.buf }) (put_forward (s := { s with file := writeAt s.file q.w q.buf }) hq (Nat.le_refl _))
          ⟨a + bs.length, [], ?_, ?_, rfl, fun x hx => absurd hx List.not_mem_nil, fun i x hx => by simp at hx⟩
        · show q.r = _
          rw [hr]; simp only [List.length_nil]; omega
        · show q.w + q.buf.length = _
          rw [hw, hb, hbs.flatten_length]; omega
      · exact h
    · exact h
  | trunc p =>
    simp only [Removers.step]
    split
    · rename_i q hq
      split
      · obtain ⟨a, bs, hr, hw, hb, hbs, hf⟩ := h.held p q hq
        obtain ⟨L, e, hs, hcame⟩ := h.file
        have h' : Near rs A { s with file := truncateTo s.file q.w } := by
          refine h.refile ⟨_, by rw [e, hw, truncateTo_records hs], ?_, ?_⟩
          · exact Spec.Sized.append (fun x hx => hs x (List.mem_of_mem_take hx)) (zeros_sized _)
          · intro j x hx
            rw [List.getElem?_append] at hx
            split at hx
            · rw [List.getElem?_take] at hx
              split at hx
              · exact hcame j x hx
              · cases hx
            · exact .inl (List.eq_of_mem_replicate (List.mem_of_getElem? hx))
        have hfw := put_forward (s := { s with file := truncateTo s.file q.w }) (q' := { q with phase := .done }) hq (Nat.le_refl _)
        exact h'.put (s := { s with file := truncateTo s.file q.w }) hfw
          ⟨a, bs, hr, hw, hb, hbs, fun i x hx => (hf i x hx).mono (fun _ h => h) hfw⟩
      · exact h
    · exact h
  | append bs =>
    obtain ⟨hl, hA⟩ := ha.2 bs rfl
    obtain ⟨L, e, hs, hcame⟩ := h.file
    refine h.refile ⟨L ++ [bs], by simp [e], hs.append (by simpa [Sized] using hl), ?_⟩
    intro j x hx
    rw [List.getElem?_append] at hx
    split at hx
    · exact hcame j x hx
    · have := List.mem_of_getElem? hx
      rw [List.mem_singleton] at this
      exact .inr (.inl (this ▸ hA))

theorem near_run {rs A : List Bytes} : ∀ (acts : List RvAct) (s : Removers), Near rs A s → WholeSteps acts →
    (∀ x ∈ addedBy acts, x ∈ A) → Near rs A (s.run acts)
  | [], _, h, _, _ => h
  | a :: acts, s, h, hw, hA => by
    refine near_run acts (s.step a) (near_step h a ⟨(hw a (List.mem_cons_self ..)).1, ?_⟩)
      (fun b hb => hw b (List.mem_cons_of_mem _ hb)) (fun x hx => hA x ?_)
    · rintro bs rfl
      exact ⟨(hw _ (List.mem_cons_self ..)).2 bs rfl, hA bs (by simp [addedBy])⟩
    · simp only [addedBy, List.filterMap_cons] at hx ⊢
      split <;> simp [hx]

theorem near_init {rs : List Bytes} (A : List Bytes) (h : Sized 256 rs) : Near rs A (Removers.init rs.flatten) :=
  ⟨⟨rs, rfl, h, fun j x hx => .inr (.inr ⟨[], List.nodup_nil, fun p hp => absurd hp List.not_mem_nil, by simpa using hx⟩)⟩,
    fun p q hq => by cases hq⟩

/-! ## Which calls have begun -/

theorem begun_step {l : List Nat} {s : Removers} (h : ∀ p q, s.calls p = some q → p ∈ l) (a : RvAct) (m : List Nat)
    (hm : ∀ p i, a = .start p i → p ∈ m) : ∀ p q, (s.step a).calls p = some q → p ∈ l ∨ p ∈ m := by
  have keep : ∀ p q, s.calls p = some q → p ∈ l ∨ p ∈ m := fun p q h' => .inl (h p q h')
  cases a with
  | start p i =>
    simp only [Removers.step]
    split
    · exact keep
    · split
      · exact put_calls (P := fun p _ => p ∈ l ∨ p ∈ m) (.inr (hm p i rfl)) keep
      · exact keep
  | read p n =>
    simp only [Removers.step]
    split
    · rename_i q hq
      split
      · split
        · exact put_calls (P := fun p _ => p ∈ l ∨ p ∈ m) (keep p q hq) keep
        · exact put_calls (P := fun p _ => p ∈ l ∨ p ∈ m) (keep p q hq) keep
      · exact keep
    · exact keep
  | write p =>
    simp only [Removers.step]
    split
    · rename_i q hq
      split
      · exact put_calls (s := { s with file := writeAt s.file q.w q.buf }) (P := fun p _ => p ∈ l ∨ p ∈ m) (keep p q hq) keep
      · exact keep
    · exact keep
  | trunc p =>
    simp only [Removers.step]
    split
    · rename_i q hq
      split
      · exact put_calls (s := { s with file := truncateTo s.file q.w }) (P := fun p _ => p ∈ l ∨ p ∈ m) (keep p q hq) keep
      · exact keep
    · exact keep
  | append bs => exact keep

theorem begun_run : ∀ (acts : List RvAct) (s : Removers) (l : List Nat), (∀ p q, s.calls p = some q → p ∈ l) →
    ∀ p q, (s.run acts).calls p = some q → p ∈ l ++ startsOf acts
  | [], _, l, h, p, q, hq => by simpa [startsOf] using h p q hq
  | a :: acts, s, l, h, p, q, hq => by
    have := begun_run acts (s.step a) (l ++ startsOf [a]) (fun p q hq => List.mem_append.2
      (begun_step h a (startsOf [a]) (by rintro p i rfl; simp [startsOf]) p q hq)) p q hq
    rw [List.append_assoc] at this
    have e : startsOf [a] ++ startsOf acts = startsOf (a :: acts) := by
      simp only [startsOf, ← List.filterMap_append, List.singleton_append]
    rwa [e] at this

theorem nodup_le {S l : List Nat} (h : S.Nodup) (hs : ∀ p ∈ S, p ∈ l) : S.length ≤ l.length := by
  induction S generalizing l with
  | nil => exact Nat.zero_le _
  | cons p S ih =>
    rw [List.nodup_cons] at h
    have hp := hs p (List.mem_cons_self ..)
    have := ih (l := l.erase p) h.2 fun k hk =>
      (List.mem_erase_of_ne (by rintro rfl; exact h.1 hk)).2 (hs k (List.mem_cons_of_mem _ hk))
    rw [List.length_erase_of_mem hp] at this
    have : 0 < l.length := List.length_pos_of_mem hp
    simp only [List.length_cons]; omega

/-! ## How long the list is -/

theorem writeAt_length_le (d : Bytes) (w : Nat) (b : Bytes) : d.length ≤ (writeAt d w b).length := by
  unfold writeAt
  simp only [List.length_append, List.length_take, List.length_drop, zeros_length]
  omega

theorem truncateTo_length (d : Bytes) (w : Nat) : (truncateTo d w).length = w := by
  unfold truncateTo
  simp only [List.length_append, List.length_take, zeros_length]
  omega

theorem slice_empty {d : Bytes} {a n : Nat} (hn : 0 < n) (h : slice d a (a + n) = []) : d.length ≤ a := by
  have := congrArg List.length h
  simp only [slice, List.length_drop, List.length_take, List.length_nil] at this
  omega

/-- Each call is in step with itself: it writes one record below where it reads. -/
def Balanced (s : Removers) : Prop := ∀ p q, s.calls p = some q → q.w + 256 + q.buf.length = q.r

theorem balanced_step {s : Removers} (h : Balanced s) (a : RvAct) : Balanced (s.step a) := by
  cases a with
  | start p i =>
    simp only [Removers.step]
    split
    · exact h
    · split
      · rename_i m hm
        obtain ⟨_, hr, _, hb, _⟩ := start_ok hm
        exact put_calls (P := fun _ q => q.w + 256 + q.buf.length = q.r) (by simp [hb, hr]) h
      · exact h
  | read p n =>
    simp only [Removers.step]
    split
    · rename_i q hq
      split
      · rename_i hc
        have := h p q hq
        split
        · exact put_calls (P := fun _ q => q.w + 256 + q.buf.length = q.r) this h
        · refine put_calls (P := fun _ q => q.w + 256 + q.buf.length = q.r) ?_ h
          rw [hc.2.1] at this
          simp only [List.length_nil] at this ⊢
          omega
      · exact h
    · exact h
  | write p =>
    simp only [Removers.step]
    split
    · rename_i q hq
      split
      · have := h p q hq
        refine put_calls (s := { s with file := writeAt s.file q.w q.buf })
          (P := fun _ q => q.w + 256 + q.buf.length = q.r) ?_ h
        simp only [List.length_nil]; omega
      · exact h
    · exact h
  | trunc p =>
    simp only [Removers.step]
    split
    · rename_i q hq
      split
      · exact put_calls (s := { s with file := truncateTo s.file q.w })
          (P := fun _ q => q.w + 256 + q.buf.length = q.r) (h p q hq) h
      · exact h
    · exact h
  | append bs => exact h

/-- The calls `D` have returned, the list is short of `n` bytes by at most a record for each, and a call about to cut
the list will leave at most one more record out. -/
def Tally (n : Nat) (s : Removers) : Prop :=
  ∃ D : List Nat, D.Nodup ∧ (∀ p ∈ D, ∃ q, s.calls p = some q ∧ q.phase = .done) ∧ n ≤ s.file.length + 256 * D.length ∧
    ∀ p q, s.calls p = some q → q.phase = .sawEOF → n ≤ q.w + 256 * (D.length + 1)

/-- A call that has not returned changes. -/
theorem done_kept {s : Removers} {D : List Nat} {p : Nat} {q q' : Remover} (hq : s.calls p = some q) (hp : q.phase ≠ .done)
    (h : ∀ p ∈ D, ∃ q, s.calls p = some q ∧ q.phase = .done) :
    p ∉ D ∧ ∀ k ∈ D, ∃ v, (s.put p q').calls k = some v ∧ v.phase = .done := by
  have hn : p ∉ D := by
    intro hd
    obtain ⟨v, hv, hd⟩ := h p hd
    rw [hq] at hv; injection hv with hv; subst hv
    exact hp hd
  refine ⟨hn, fun k hk => ?_⟩
  have e : k ≠ p := by rintro rfl; exact hn hk
  obtain ⟨v, hv, hd⟩ := h k hk
  exact ⟨v, by simp [Removers.put, e, hv], hd⟩

theorem tally_step {n : Nat} {s : Removers} (hb : Balanced s) (h : Tally n s) (a : RvAct) : Tally n (s.step a) := by
  obtain ⟨D, hD, hd, hl, he⟩ := h
  have same : Tally n s := ⟨D, hD, hd, hl, he⟩
  cases a with
  | start p i =>
    simp only [Removers.step]
    split
    · exact same
    · rename_i hn
      split
      · rename_i m hm
        obtain ⟨_, _, _, _, hp⟩ := start_ok hm
        refine ⟨D, hD, fun k hk => ?_, hl, ?_⟩
        · obtain ⟨v, hv, hv'⟩ := hd k hk
          have e : k ≠ p := by rintro rfl; rw [hn] at hv; cases hv
          exact ⟨v, by simp [Removers.put, e, hv], hv'⟩
        · refine put_calls (P := fun _ q => q.phase = .sawEOF → n ≤ q.w + 256 * (D.length + 1)) ?_ he
          intro h; rw [hp] at h; cases h
      · exact same
  | read p k =>
    simp only [Removers.step]
    split
    · rename_i q hq
      split
      · rename_i hc
        obtain ⟨hc1, hc2, hc3⟩ := hc
        have hnd : q.phase ≠ .done := by rw [hc1]; decide
        split
        · rename_i hs
          refine ⟨D, hD, (done_kept hq hnd hd).2, hl, ?_⟩
          refine put_calls (P := fun _ q => q.phase = .sawEOF → n ≤ q.w + 256 * (D.length + 1)) ?_ he
          intro _
          have h1 := slice_empty hc3 hs
          have h2 := hb p q hq
          rw [hc2] at h2
          simp only [List.length_nil] at h2 ⊢
          omega
        · refine ⟨D, hD, (done_kept hq hnd hd).2, hl, ?_⟩
          refine put_calls (P := fun _ q => q.phase = .sawEOF → n ≤ q.w + 256 * (D.length + 1)) ?_ he
          intro h; rw [show q.phase = .sawEOF from h] at hc1; cases hc1
      · exact same
    · exact same
  | write p =>
    simp only [Removers.step]
    split
    · rename_i q hq
      split
      · rename_i hc
        have hnd : q.phase ≠ .done := by rw [hc.1]; decide
        refine ⟨D, hD, (done_kept (s := { s with file := writeAt s.file q.w q.buf }) hq hnd hd).2, ?_, ?_⟩
        · have := writeAt_length_le s.file q.w q.buf
          show n ≤ (writeAt s.file q.w q.buf).length + _
          omega
        · refine put_calls (s := { s with file := writeAt s.file q.w q.buf })
            (P := fun _ q => q.phase = .sawEOF → n ≤ q.w + 256 * (D.length + 1)) ?_ he
          intro h; rw [show q.phase = .sawEOF from h] at hc; cases hc.1
      · exact same
    · exact same
  | trunc p =>
    simp only [Removers.step]
    split
    · rename_i q hq
      split
      · rename_i hc
        have hnd : q.phase ≠ .done := by rw [hc]; decide
        obtain ⟨hp, hk⟩ := done_kept (s := { s with file := truncateTo s.file q.w }) (q' := { q with phase := .done }) hq hnd hd
        refine ⟨p :: D, List.nodup_cons.2 ⟨hp, hD⟩, ?_, ?_, ?_⟩
        · intro k hk'
          rcases List.mem_cons.1 hk' with rfl | hk'
          · exact ⟨{ q with phase := .done }, by simp [Removers.put], rfl⟩
          · exact hk k hk'
        · show n ≤ (truncateTo s.file q.w).length + _
          rw [truncateTo_length]
          have := he p q hq hc
          simp only [List.length_cons]; omega
        · refine put_calls (s := { s with file := truncateTo s.file q.w })
            (P := fun _ q => q.phase = .sawEOF → n ≤ q.w + 256 * ((p :: D).length + 1)) ?_ ?_
          · intro h; cases h
          · intro k v hk hv
            refine Nat.le_trans (he k v hk hv) (Nat.add_le_add_left (Nat.mul_le_mul_left _ ?_) _)
            rw [List.length_cons]
            exact Nat.le_succ _
      · exact same
    · exact same
  | append bs =>
    refine ⟨D, hD, hd, ?_, he⟩
    show n ≤ (s.file ++ bs).length + _
    rw [List.length_append]; omega

theorem tally_run {n : Nat} : ∀ (acts : List RvAct) (s : Removers), Balanced s → Tally n s → Tally n (s.run acts)
  | [], _, _, h => h
  | a :: acts, _, hb, h => tally_run acts _ (balanced_step hb a) (tally_step hb h a)

/-- With indices in range and no appends the list does not grow, and once a call has returned it is a record shorter. -/
structure Capped (n : Nat) (s : Removers) : Prop where
  reads : ∀ p q, s.calls p = some q → q.r ≤ 256 * n
  size : s.file.length ≤ 256 * n
  less : (∃ p q, s.calls p = some q ∧ q.phase = .done) → s.file.length + 256 ≤ 256 * n

theorem writeAt_length (d : Bytes) (w : Nat) (b : Bytes) : (writeAt d w b).length = max d.length (w + b.length) := by
  unfold writeAt
  simp only [List.length_append, List.length_take, List.length_drop, zeros_length]
  omega

theorem done_before {s : Removers} {p : Nat} {q' : Remover} (hq : q'.phase ≠ .done)
    (h : ∃ k v, (s.put p q').calls k = some v ∧ v.phase = .done) : ∃ k v, s.calls k = some v ∧ v.phase = .done := by
  obtain ⟨k, v, hk, hv⟩ := h
  by_cases e : k = p
  · subst e
    simp [Removers.put] at hk; subst hk; exact absurd hv hq
  · simp [Removers.put, e] at hk; exact ⟨k, v, hk, hv⟩

theorem capped_step {n : Nat} (hn : n ≤ 2 ^ 54) {s : Removers} (hb : Balanced s) (h : Capped n s) (a : RvAct)
    (hi : ∀ p i, a = .start p i → 0 ≤ i.toInt ∧ i.toInt < n) (ha : ∀ bs, a ≠ .append bs) : Capped n (s.step a) := by
  cases a with
  | start p i =>
    obtain ⟨h0, h1⟩ := hi p i rfl
    simp only [Removers.step, removeStart_small s.file i h0 (by omega)]
    split
    · exact h
    · exact ⟨put_calls (P := fun _ q => q.r ≤ 256 * n) (by simp only []; omega) h.reads, h.size,
        fun hd => h.less (done_before (fun e => by cases e) hd)⟩
  | read p k =>
    simp only [Removers.step]
    split
    · rename_i q hq
      split
      · rename_i hc
        have hr := h.reads p q hq
        split
        · exact ⟨put_calls (P := fun _ q => q.r ≤ 256 * n) hr h.reads, h.size, fun hd => h.less (done_before (fun e => by cases e) hd)⟩
        · refine ⟨put_calls (P := fun _ q => q.r ≤ 256 * n) ?_ h.reads, h.size, fun hd => h.less (done_before (by rw [hc.1]; decide) hd)⟩
          have := h.size
          simp only [slice, List.length_drop, List.length_take]
          omega
      · exact h
    · exact h
  | write p =>
    simp only [Removers.step]
    split
    · rename_i q hq
      split
      · rename_i hc
        have hr := h.reads p q hq
        have hbq := hb p q hq
        have hs := h.size
        refine ⟨put_calls (s := { s with file := writeAt s.file q.w q.buf }) (P := fun _ q => q.r ≤ 256 * n) hr h.reads, ?_, fun hd => ?_⟩
        · show (writeAt s.file q.w q.buf).length ≤ _
          rw [writeAt_length]; omega
        · have := h.less (done_before (s := { s with file := writeAt s.file q.w q.buf }) (by rw [hc.1]; decide) hd)
          show (writeAt s.file q.w q.buf).length + _ ≤ _
          rw [writeAt_length]; omega
      · exact h
    · exact h
  | trunc p =>
    simp only [Removers.step]
    split
    · rename_i q hq
      split
      · have hr := h.reads p q hq
        have hbq := hb p q hq
        refine ⟨put_calls (s := { s with file := truncateTo s.file q.w }) (P := fun _ q => q.r ≤ 256 * n) hr h.reads, ?_, fun _ => ?_⟩
        · show (truncateTo s.file q.w).length ≤ _
          rw [truncateTo_length]; omega
        · show (truncateTo s.file q.w).length + _ ≤ _
          rw [truncateTo_length]; omega
      · exact h
    · exact h
  | append bs => exact absurd rfl (ha bs)

theorem capped_run {n : Nat} (hn : n ≤ 2 ^ 54) : ∀ (acts : List RvAct) (s : Removers), Balanced s → Capped n s →
    (∀ a ∈ acts, ∀ p i, a = .start p i → 0 ≤ i.toInt ∧ i.toInt < n) → addedBy acts = [] → Capped n (s.run acts)
  | [], _, _, h, _, _ => h
  | a :: acts, s, hb, h, hi, ha => by
    have hna : ∀ bs, a ≠ .append bs := by rintro bs rfl; simp [addedBy] at ha
    refine capped_run hn acts _ (balanced_step hb a) (capped_step hn hb h a (hi a (List.mem_cons_self ..)) hna)
      (fun b hb => hi b (List.mem_cons_of_mem _ hb)) ?_
    simp only [addedBy, List.filterMap_cons] at ha
    exact ha

/-! ## Below the boards that are removed -/

structure FrontKept (b : Nat) (d : Bytes) (s : Removers) : Prop where
  writes : ∀ p q, s.calls p = some q → b ≤ q.w
  size : b ≤ s.file.length
  kept : s.file.take b = d.take b

theorem writeAt_take {d : Bytes} {w b : Nat} (x : Bytes) (h : b ≤ w) (hs : b ≤ d.length) : (writeAt d w x).take b = d.take b := by
  unfold writeAt
  rw [List.append_assoc, List.take_append_of_le_length (by simp only [List.length_take, List.length_append, zeros_length]; omega),
    List.take_take, Nat.min_eq_left h, List.take_append_of_le_length hs]

theorem truncateTo_take {d : Bytes} {w b : Nat} (h : b ≤ w) (hs : b ≤ d.length) : (truncateTo d w).take b = d.take b := by
  unfold truncateTo
  rw [List.take_append_of_le_length (by simp only [List.length_take]; omega), List.take_take, Nat.min_eq_left h]

theorem below_step {b : Nat} {d : Bytes} {s : Removers} (h : FrontKept b d s) (a : RvAct)
    (hi : ∀ p i, a = .start p i → (b : Int) ≤ 256 * i.toInt ∧ i.toInt < 2 ^ 54) : FrontKept b d (s.step a) := by
  cases a with
  | start p i =>
    obtain ⟨h0, h1⟩ := hi p i rfl
    simp only [Removers.step, removeStart_small s.file i (by omega) h1]
    split
    · exact h
    · exact ⟨put_calls (P := fun _ q => b ≤ q.w) (by simp only []; omega) h.writes, h.size, h.kept⟩
  | read p k =>
    simp only [Removers.step]
    split
    · rename_i q hq
      have hw := h.writes p q hq
      split
      · split
        · exact ⟨put_calls (P := fun _ q => b ≤ q.w) hw h.writes, h.size, h.kept⟩
        · exact ⟨put_calls (P := fun _ q => b ≤ q.w) hw h.writes, h.size, h.kept⟩
      · exact h
    · exact h
  | write p =>
    simp only [Removers.step]
    split
    · rename_i q hq
      have hw := h.writes p q hq
      split
      · refine ⟨put_calls (s := { s with file := writeAt s.file q.w q.buf }) (P := fun _ q => b ≤ q.w) ?_ h.writes, ?_, ?_⟩
        · simp only []; omega
        · exact Nat.le_trans h.size (writeAt_length_le ..)
        · exact (writeAt_take _ hw h.size).trans h.kept
      · exact h
    · exact h
  | trunc p =>
    simp only [Removers.step]
    split
    · rename_i q hq
      have hw := h.writes p q hq
      split
      · refine ⟨put_calls (s := { s with file := truncateTo s.file q.w }) (P := fun _ q => b ≤ q.w) hw h.writes, ?_, ?_⟩
        · show b ≤ (truncateTo s.file q.w).length
          rw [truncateTo_length]; exact hw
        · exact (truncateTo_take hw h.size).trans h.kept
      · exact h
    · exact h
  | append bs =>
    have hs := h.size
    refine ⟨h.writes, ?_, ?_⟩
    · show b ≤ (s.file ++ bs).length
      rw [List.length_append]; omega
    · show (s.file ++ bs).take b = _
      rw [List.take_append_of_le_length hs]; exact h.kept

theorem below_run {b : Nat} {d : Bytes} : ∀ (acts : List RvAct) (s : Removers), FrontKept b d s →
    (∀ a ∈ acts, ∀ p i, a = .start p i → (b : Int) ≤ 256 * i.toInt ∧ i.toInt < 2 ^ 54) → FrontKept b d (s.run acts)
  | [], _, h, _ => h
  | a :: acts, _, h, hi => below_run acts _ (below_step h a (hi a (List.mem_cons_self ..)))
      fun b hb => hi b (List.mem_cons_of_mem _ hb)

/-! ## One call by itself -/

/-- The same call as a removal by itself. -/
def viewOf (s : Removers) (q : Remover) : RmState := ⟨s.file, q.r, q.w, q.buf, q.phase⟩

theorem writeAt_more (f : Bytes) (w : Nat) (b : UInt8) (bs : Bytes) :
    writeAt (writeAt f w [b]) (w + 1) bs = writeAt f w (b :: bs) := by
  have hl : ((f ++ zeros (w - f.length)).take w).length = w := by
    rw [List.length_take, List.length_append, zeros_length]; omega
  have hle : w + 1 ≤ (writeAt f w [b]).length := by rw [writeAt_length]; simp; omega
  have e : writeAt f w [b] = ((f ++ zeros (w - f.length)).take w ++ [b]) ++ f.drop (w + 1) := rfl
  have hl2 : ((f ++ zeros (w - f.length)).take w ++ [b]).length = w + 1 := by rw [List.length_append, hl]; rfl
  show ((writeAt f w [b]) ++ zeros (w + 1 - (writeAt f w [b]).length)).take (w + 1) ++ bs ++
    (writeAt f w [b]).drop (w + 1 + bs.length) = (f ++ zeros (w - f.length)).take w ++ (b :: bs) ++ f.drop (w + (bs.length + 1))
  have z : w + 1 - (writeAt f w [b]).length = 0 := by omega
  rw [z, show zeros 0 = [] from rfl, List.append_nil, e]
  generalize hP : (f ++ zeros (w - f.length)).take w ++ [b] = P at hl2 ⊢
  rw [List.take_append_of_le_length (by omega), List.take_of_length_le (by omega), ← List.drop_drop,
    List.drop_append_of_le_length (l₁ := P) (by omega), List.drop_of_length_le (l := P) (by omega), List.nil_append,
    List.drop_drop, ← hP]
  simp only [List.append_assoc, List.singleton_append]
  rw [show w + 1 + bs.length = w + (bs.length + 1) by omega]

theorem puts_run (r : Nat) : ∀ (bs : Bytes) (b : UInt8) (f : Bytes) (w : Nat),
    (⟨f, r, w, b :: bs, .copying⟩ : RmState).run (List.replicate (b :: bs).length .put) =
      some ⟨writeAt f w (b :: bs), r, w + (b :: bs).length, [], .copying⟩
  | [], b, f, w => rfl
  | c :: bs, b, f, w => by
    have := puts_run r bs c (writeAt f w [b]) (w + 1)
    rw [writeAt_more] at this
    simp only [List.length_cons, List.replicate_succ, RmState.run, RmState.step] at this ⊢
    rw [this]
    congr 2
    omega

theorem alone_step {s : Removers} {p : Nat} {q : Remover} (hq : s.calls p = some q) (a : RvAct)
    (ha : (∃ n, a = .read p n) ∨ a = .write p ∨ a = .trunc p) :
    ∃ racts q', Alone racts ∧ (viewOf s q).run racts = some (viewOf (s.step a) q') ∧ (s.step a).calls p = some q' ∧
      ∀ k, k ≠ p → (s.step a).calls k = s.calls k := by
  have same : ∃ racts q', Alone racts ∧ (viewOf s q).run racts = some (viewOf s q') ∧ s.calls p = some q' ∧
      ∀ k, k ≠ p → s.calls k = s.calls k :=
    ⟨[], q, fun a ha => absurd ha List.not_mem_nil, rfl, hq, fun _ _ => rfl⟩
  have putp : ∀ (s : Removers) (q' : Remover), (s.put p q').calls p = some q' := fun s q' => by simp [Removers.put]
  have puto : ∀ (s : Removers) (q' : Remover) k, k ≠ p → (s.put p q').calls k = s.calls k :=
    fun s q' k hk => by simp [Removers.put, hk]
  rcases ha with ⟨n, rfl⟩ | rfl | rfl
  · simp only [Removers.step, hq]
    split
    · rename_i hc
      obtain ⟨hc1, hc2, hc3⟩ := hc
      split
      · rename_i hs
        refine ⟨[.eof], _, by simp [Alone], ?_, putp _ _, puto _ _⟩
        simp [RmState.run, RmState.step, viewOf, hc1, hc2, slice_empty hc3 hs, Removers.put]
      · rename_i hs
        refine ⟨[.read (slice s.file q.r (q.r + n)).length], _, by simp [Alone], ?_, putp _ _, puto _ _⟩
        have hpos : 0 < (slice s.file q.r (q.r + n)).length := List.length_pos_iff.2 hs
        have hle : q.r + (slice s.file q.r (q.r + n)).length ≤ s.file.length := by
          simp only [slice, List.length_drop, List.length_take] at hpos ⊢; omega
        have e : slice s.file q.r (q.r + (slice s.file q.r (q.r + n)).length) = slice s.file q.r (q.r + n) := by
          have hl : (slice s.file q.r (q.r + n)).length = min (q.r + n) s.file.length - q.r := by simp [slice]
          have e' : q.r + (slice s.file q.r (q.r + n)).length = min (q.r + n) s.file.length := by omega
          rw [e']
          unfold slice
          by_cases hm : q.r + n ≤ s.file.length
          · rw [Nat.min_eq_left hm]
          · rw [Nat.min_eq_right (by omega), List.take_of_length_le (i := q.r + n) (by omega), List.take_length]
        simp only [RmState.run, RmState.step, viewOf, hc1, hc2, e, Removers.put]
        rw [if_pos ⟨trivial, trivial, hpos, hle⟩]
    · exact same
  · simp only [Removers.step, hq]
    split
    · rename_i hc
      obtain ⟨hc1, hc2⟩ := hc
      obtain ⟨b, bs, hb⟩ := List.exists_cons_of_ne_nil hc2
      refine ⟨List.replicate (b :: bs).length .put, _, ?_, ?_, putp _ _, puto { s with file := _ } _⟩
      · intro a ha; rw [List.eq_of_mem_replicate ha]; intro bs h; cases h
      · simp only [viewOf, hc1, hb, puts_run, Removers.put]
    · exact same
  · simp only [Removers.step, hq]
    split
    · rename_i hc
      refine ⟨[.trunc], _, by simp [Alone], ?_, putp _ _, puto { s with file := _ } _⟩
      simp [RmState.run, RmState.step, viewOf, hc, Removers.put]
    · exact same

theorem rm_run_append : ∀ (a b : List RmAct) (s t : RmState), s.run a = some t → s.run (a ++ b) = t.run b
  | [], _, _, _, h => by injection h with h; subst h; rfl
  | x :: a, b, s, t, h => by
    simp only [List.cons_append, RmState.run] at h ⊢
    cases hs : s.step x with
    | none => rw [hs] at h; cases h
    | some u => rw [hs] at h; exact rm_run_append a b u t h

theorem alone_run {p : Nat} : ∀ (acts : List RvAct) (s : Removers) (q : Remover), s.calls p = some q →
    (∀ a ∈ acts, (∃ n, a = .read p n) ∨ a = .write p ∨ a = .trunc p) →
    ∃ racts q', Alone racts ∧ (viewOf s q).run racts = some (viewOf (s.run acts) q') ∧ (s.run acts).calls p = some q' ∧
      ∀ k, k ≠ p → (s.run acts).calls k = s.calls k
  | [], s, q, hq, _ => ⟨[], q, fun a ha => absurd ha List.not_mem_nil, rfl, hq, fun _ _ => rfl⟩
  | a :: acts, s, q, hq, ha => by
    obtain ⟨r1, q1, h1, h2, h3, h4⟩ := alone_step hq a (ha a (List.mem_cons_self ..))
    obtain ⟨r2, q2, g1, g2, g3, g4⟩ := alone_run acts (s.step a) q1 h3 fun b hb => ha b (List.mem_cons_of_mem _ hb)
    refine ⟨r1 ++ r2, q2, ?_, ?_, g3, fun k hk => (g4 k hk).trans (h4 k hk)⟩
    · intro x hx
      rcases List.mem_append.1 hx with hx | hx
      · exact h1 x hx
      · exact g1 x hx
    · rw [rm_run_append r1 r2 _ _ h2]; exact g2

end Verif
