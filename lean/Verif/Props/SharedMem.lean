import Verif.Proofs.SharedMem
import Verif.Props.FileIndex
/-!
# C87, C88: System V shared memory
-/

namespace Verif

namespace Spec

/-- A call of any process. -/
inductive ShmOp where
  | create (key size : Int) (a : Nat)
  | remove (key : Int)
  | close (v : View)
  | store (v : View) (off : Nat) (b : Bytes)
  deriving DecidableEq

/-- The tables after a call; a call that fails changes nothing; the kernel never picks an address that is in use. -/
def shmStep (s : Ipc) : ShmOp → Ipc
  | .create key size a => if s.map a = none then (match createKey s key size a with | .ok (_, t) => t | _ => s) else s
  | .remove key => match removeKey s key with | .ok t => t | _ => s
  | .close v => match closeShm s v with | .ok t => t | _ => s
  | .store v off b => match s.store v off b with | .ok t => t | _ => s

/-- No segments, nothing attached. -/
def noShm (limit : Nat) : Ipc := ⟨fun _ => none, 0, fun _ => none, limit⟩

/-- The tables after some calls. -/
def ShmReachable (s : Ipc) : Prop := ∃ limit ops, limit < 2 ^ 63 ∧ s = List.foldl shmStep (noShm limit) ops

/-- A segment has the key that a call with `key` asks for. -/
def HasKey (key : Int) (g : Seg) : Prop := (g.key.toNat : Int) = key % 2 ^ 32

instance (key : Int) (g : Seg) : Decidable (HasKey key g) := inferInstanceAs (Decidable (_ = _))

end Spec
open Spec

/-! ## Lemmas -/

theorem shmKey_toNat (key : Int) : ((shmKey key).toNat : Int) = key % 2 ^ 32 := by
  unfold shmKey
  rw [UInt32.toNat_ofNat']
  have h0 : 0 ≤ key % 2 ^ 32 := Int.emod_nonneg _ (by decide)
  have h1 : key % 2 ^ 32 < 2 ^ 32 := Int.emod_lt_of_pos _ (by decide)
  rw [Nat.mod_eq_of_lt (by omega)]
  omega

theorem hasKey_iff {key : Int} {g : Seg} : HasKey key g ↔ g.key = shmKey key := by
  unfold HasKey
  rw [← shmKey_toNat]
  constructor
  · intro h
    exact UInt32.toNat_inj.1 (by omega)
  · rintro h
    rw [h]

theorem shmKey_zero {key : Int} : shmKey key = 0 ↔ key % 2 ^ 32 = 0 := by
  rw [← shmKey_toNat]
  constructor
  · intro h
    rw [h]
    rfl
  · intro h
    have : (shmKey key).toNat = 0 := by omega
    exact UInt32.toNat_inj.1 (by rw [this]; rfl)

theorem shmStep_wf {s : Ipc} (w : s.WF) (op : ShmOp) : (shmStep s op).WF := by
  cases op with
  | create key size a =>
    simp only [shmStep]
    split
    · rename_i ha
      split
      · rename_i h
        exact createKey_wf w ha h
      · exact w
    · exact w
  | remove key =>
    simp only [shmStep]
    split
    · rename_i h
      exact removeKey_wf w h
    · exact w
  | close v =>
    simp only [shmStep]
    split
    · rename_i h
      exact w.shmdt h
    · exact w
  | store v off b =>
    simp only [shmStep]
    split
    · rename_i h
      exact store_wf w h
    · exact w

theorem noShm_wf (limit : Nat) : (noShm limit).WF := by
  constructor <;> simp [noShm]

theorem foldl_wf {s : Ipc} (w : s.WF) (ops : List ShmOp) : (List.foldl shmStep s ops).WF := by
  induction ops generalizing s with
  | nil => exact w
  | cons op ops ih => exact ih (shmStep_wf w op)

theorem shmget_limit {s t : Ipc} {key size : Int} {c : Bool} {i : Nat} (h : s.shmget key size c = .ok (i, t)) :
    t.limit = s.limit := by
  unfold Ipc.shmget Ipc.newseg at h
  (repeat' split at h) <;> cases h <;> rfl

theorem shmStep_limit (s : Ipc) (op : ShmOp) : (shmStep s op).limit = s.limit := by
  cases op with
  | create key size a =>
    simp only [shmStep]
    split
    · split
      · rename_i h
        obtain ⟨i, s1, g, h0, h1, h2, -⟩ := createKey_eq h
        rw [← shmget_limit h0]
        unfold Ipc.shmat at h2
        rw [h1] at h2
        cases h2
        rfl
      · rfl
    · rfl
  | remove key =>
    simp only [shmStep]
    split
    · rename_i h
      unfold removeKey at h
      obtain ⟨⟨i, s1⟩, h0, h1⟩ := Res.bind_eq_ok.1 h
      rw [← shmget_limit h0]
      simp only at h1
      unfold Ipc.shmRmid at h1
      split at h1 <;> cases h1
      rfl
    · rfl
  | close v =>
    simp only [shmStep]
    split
    · rename_i h
      unfold closeShm Ipc.shmdt at h
      (repeat' split at h) <;> cases h <;> rfl
    · rfl
  | store v off b =>
    simp only [shmStep]
    split
    · rename_i h
      unfold Ipc.store at h
      (repeat' split at h) <;> cases h <;> rfl
    · rfl

theorem Spec.ShmReachable.wf {s : Ipc} (h : ShmReachable s) : s.WF := by
  obtain ⟨limit, ops, -, rfl⟩ := h
  exact foldl_wf (noShm_wf limit) ops

theorem Spec.ShmReachable.limit {s : Ipc} (h : ShmReachable s) : s.limit < 2 ^ 63 := by
  obtain ⟨limit, ops, hl, rfl⟩ := h
  have : ∀ (t : Ipc), (List.foldl shmStep t ops).limit = t.limit := by
    induction ops with
    | nil => intro t; rfl
    | cons op ops ih => intro t; rw [List.foldl_cons, ih, shmStep_limit]
  rw [this]
  exact hl

theorem Spec.ShmReachable.step {s : Ipc} (h : ShmReachable s) (op : ShmOp) : ShmReachable (shmStep s op) := by
  obtain ⟨limit, ops, hl, rfl⟩ := h
  exact ⟨limit, ops ++ [op], hl, by rw [List.foldl_append]; rfl⟩

/-- Attaching shows the first bytes of the segment. -/
theorem view_attached {s t : Ipc} {i a n : Nat} {g : Seg} (hs : s.seg i = some g) (h : s.shmat i a = .ok t)
    (hn : n ≤ g.bytes.length) : t.view ⟨a, n⟩ = .ok (g.bytes.take n) := by
  unfold Ipc.shmat at h
  rw [hs] at h
  cases h
  unfold Ipc.view
  simp only [setAt_same]
  rw [if_neg (by omega)]

theorem shmat_ok {s : Ipc} {i : Nat} {g : Seg} (hs : s.seg i = some g) (a : Nat) : ∃ t, s.shmat i a = .ok t := by
  unfold Ipc.shmat
  rw [hs]
  exact ⟨_, rfl⟩

theorem shmget_hit {s : Ipc} (w : s.WF) {key size : Int} {c : Bool} {i : Nat} {g : Seg} (hs : s.seg i = some g)
    (hk : HasKey key g) (h0 : key % 2 ^ 32 ≠ 0) :
    s.shmget key size c = if g.bytes.length < sizeT size then .err "invalid argument" else .ok (i, s) := by
  have hz : shmKey key ≠ 0 := fun h => h0 (shmKey_zero.1 h)
  unfold Ipc.shmget
  rw [if_neg hz, Ipc.find_some w hs (hasKey_iff.1 hk) hz]
  simp only [hs]

theorem shmget_miss {s : Ipc} {key size : Int} {c : Bool} (h0 : key % 2 ^ 32 ≠ 0)
    (hm : ∀ i g, s.seg i = some g → ¬ HasKey key g) :
    s.shmget key size c = if c then s.newseg (shmKey key) (sizeT size) else .err "no such file or directory" := by
  have hz : shmKey key ≠ 0 := fun h => h0 (shmKey_zero.1 h)
  unfold Ipc.shmget
  rw [if_neg hz, Ipc.find_none (fun i g hi he => hm i g hi (hasKey_iff.2 he))]

theorem shmget_private {s : Ipc} {key size : Int} {c : Bool} (h0 : key % 2 ^ 32 = 0) :
    s.shmget key size c = s.newseg 0 (sizeT size) := by
  unfold Ipc.shmget
  rw [if_pos (shmKey_zero.2 h0)]

theorem sizeT_zero : sizeT 0 = 0 := rfl

theorem sizeT_pos {size : Int} (h : 0 ≤ size) (h1 : size < 2 ^ 64) : sizeT size = size.toNat := by
  unfold sizeT
  rw [Int.emod_eq_of_lt h h1]

/-! ## C87: which segment a key opens -/

/-- **C87**, opening: exactly the segment with the key (modulo 2^32) is shown, in its full length; without one, and for key
0, opening fails. -/
theorem C87_open_exact (s : Ipc) (hr : ShmReachable s) (key : Int) (a : Nat) :
    (∀ i g, s.seg i = some g → HasKey key g → key % 2 ^ 32 ≠ 0 →
      ∃ t, openKey s key a = .ok (⟨a, g.bytes.length⟩, t) ∧ t.view ⟨a, g.bytes.length⟩ = .ok g.bytes) ∧
    ((key % 2 ^ 32 = 0 ∨ ∀ i g, s.seg i = some g → ¬ HasKey key g) → ∃ e, openKey s key a = .err e) := by
  constructor
  · intro i g hs hk h0
    obtain ⟨t, ht⟩ := shmat_ok hs a
    refine ⟨t, ?_, ?_⟩
    · unfold openKey createKey
      rw [shmget_hit hr.wf hs hk h0, sizeT_zero, if_neg (by omega), Res.ok_bind]
      simp only [if_true]
      unfold Ipc.shmStat
      rw [hs]
      simp only [Res.ok_bind]
      rw [ht, Res.ok_bind]
    · rw [view_attached hs ht (Nat.le_refl _), List.take_length]
  · rintro (h0 | hm)
    · refine ⟨"invalid argument", ?_⟩
      unfold openKey createKey
      rw [shmget_private h0, sizeT_zero]
      rfl
    · by_cases h0 : key % 2 ^ 32 = 0
      · refine ⟨"invalid argument", ?_⟩
        unfold openKey createKey
        rw [shmget_private h0, sizeT_zero]
        rfl
      · refine ⟨"no such file or directory", ?_⟩
        unfold openKey createKey
        rw [shmget_miss h0 hm]
        rfl

/-- **C87**, creating with a size: a segment that exists is shown from its start in the length asked for, or refused when
it is shorter; otherwise a new segment of zeros is made; sizes below 1 (but 0) or above the limit are refused. -/
theorem C87_create_exact (s : Ipc) (hr : ShmReachable s) (key size : Int) (a : Nat) (hz : size ≠ 0)
    (h1 : -(2 ^ 63) ≤ size) (h2 : size < 2 ^ 63) :
    (∀ i g, s.seg i = some g → HasKey key g → key % 2 ^ 32 ≠ 0 →
      if 0 < size ∧ size ≤ g.bytes.length then
        ∃ t, createKey s key size a = .ok (⟨a, size.toNat⟩, t) ∧ t.view ⟨a, size.toNat⟩ = .ok (g.bytes.take size.toNat)
      else ∃ e, createKey s key size a = .err e) ∧
    ((key % 2 ^ 32 = 0 ∨ ∀ i g, s.seg i = some g → ¬ HasKey key g) →
      if 0 < size ∧ size ≤ s.limit then
        ∃ t g, createKey s key size a = .ok (⟨a, size.toNat⟩, t) ∧
          t.view ⟨a, size.toNat⟩ = .ok (List.replicate size.toNat 0) ∧
          s.seg s.next = none ∧ t.seg s.next = some g ∧ HasKey key g ∧ g.bytes = List.replicate size.toNat 0
      else ∃ e, createKey s key size a = .err e) := by
  have w := hr.wf
  have hlim := hr.limit
  have hneg : size < 0 → 2 ^ 63 ≤ sizeT size := by
    intro h
    unfold sizeT
    have : size % 2 ^ 64 = size + 2 ^ 64 := by omega
    omega
  constructor
  · intro i g hs hk h0
    have hsz := (w.sizes i g hs).2
    split
    · rename_i hc
      obtain ⟨t, ht⟩ := shmat_ok hs a
      refine ⟨t, ?_, ?_⟩
      · unfold createKey
        rw [shmget_hit w hs hk h0, sizeT_pos (by omega) (by omega), if_neg (by omega), Res.ok_bind]
        simp only [if_neg hz, Res.ok_bind]
        rw [ht, Res.ok_bind]
      · exact view_attached hs ht (by omega)
    · rename_i hc
      refine ⟨"invalid argument", ?_⟩
      unfold createKey
      rw [shmget_hit w hs hk h0, if_pos ?_]
      · rfl
      · by_cases h : size < 0
        · have := hneg h
          omega
        · rw [sizeT_pos (by omega) (by omega)]
          omega
  · intro hm
    have key' : s.shmget key size (size != 0) = s.newseg (shmKey key) (sizeT size) := by
      by_cases h0 : key % 2 ^ 32 = 0
      · rw [shmget_private h0, shmKey_zero.2 h0]
      · rw [shmget_miss h0 (hm.resolve_left h0), if_pos (by simpa using hz)]
    have fresh : s.seg s.next = none := by
      cases hs : s.seg s.next with
      | none => rfl
      | some g => exact absurd (w.ids _ _ hs) (Nat.lt_irrefl _)
    split
    · rename_i hc
      have e : sizeT size = size.toNat := sizeT_pos (by omega) (by omega)
      have hn : s.newseg (shmKey key) (sizeT size) = .ok (s.next,
          { s with seg := setAt s.seg s.next (some ⟨shmKey key, zeros size.toNat, [], false⟩), next := s.next + 1 }) := by
        unfold Ipc.newseg
        rw [e, if_neg (by omega)]
      generalize hs1 : ({ s with seg := setAt s.seg s.next (some ⟨shmKey key, zeros size.toNat, [], false⟩), next := s.next + 1 } : Ipc) = s1 at hn
      have hg : s1.seg s.next = some ⟨shmKey key, zeros size.toNat, [], false⟩ := by
        rw [← hs1]
        exact setAt_same _ _ _
      obtain ⟨t, ht⟩ := shmat_ok hg a
      refine ⟨t, ⟨shmKey key, zeros size.toNat, [a], false⟩, ?_, ?_, fresh, ?_, hasKey_iff.2 rfl, rfl⟩
      · unfold createKey
        rw [key', hn, Res.ok_bind]
        simp only [if_neg hz, Res.ok_bind]
        rw [ht, Res.ok_bind]
      · rw [view_attached hg ht (by simp [zeros])]
        simp [zeros]
      · unfold Ipc.shmat at ht
        rw [hg] at ht
        cases ht
        exact setAt_same _ _ _
    · rename_i hc
      refine ⟨"invalid argument", ?_⟩
      unfold createKey
      rw [key']
      unfold Ipc.newseg
      rw [if_pos ?_]
      · rfl
      · by_cases h : size < 0
        · have := hneg h
          right
          omega
        · rw [sizeT_pos (by omega) (by omega)]
          omega

/-- The claim: two keys that differ never open the same segment. -/
def Spec.KeysDiffer : Prop :=
  ∀ s, ShmReachable s → ∀ k1 k2 : Int, -(2 ^ 63) ≤ k1 → k1 < 2 ^ 63 → -(2 ^ 63) ≤ k2 → k2 < 2 ^ 63 → k1 ≠ k2 →
    ∀ a b v1 v2 t1 t2, openKey s k1 a = .ok (v1, t1) → openKey s k2 b = .ok (v2, t2) → t1.map v1.addr ≠ t2.map v2.addr

/-- **C87** fails for keys that differ by 2^32. -/
theorem C87_keys_refuted : ¬ Spec.KeysDiffer := by
  intro h
  have hr : ShmReachable (shmStep (noShm 100) (.create 1228 4 0)) := ⟨100, [.create 1228 4 0], by decide, rfl⟩
  have hg : (shmStep (noShm 100) (.create 1228 4 0)).seg 0 = some ⟨1228, [0, 0, 0, 0], [0], false⟩ := by decide
  obtain ⟨t1, e1, -⟩ := (C87_open_exact _ hr 1228 1).1 0 _ hg (by decide) (by decide)
  obtain ⟨t2, e2, -⟩ := (C87_open_exact _ hr (1228 + 2 ^ 32) 1).1 0 _ hg (by decide) (by decide)
  refine h _ hr 1228 (1228 + 2 ^ 32) (by decide) (by decide) (by decide) (by decide) (by decide) 1 1 _ _ _ _ e1 e2 ?_
  obtain ⟨i, s1, g, q0, q1, q2, -, -⟩ := createKey_eq e1
  obtain ⟨i', s1', g', p0, p1, p2, -, -⟩ := createKey_eq e2
  rw [shmget_hit hr.wf hg (by decide) (by decide)] at q0 p0
  cases q0
  cases p0
  unfold Ipc.shmat at q2 p2
  rw [hg] at q2 p2
  cases q2
  cases p2
  rfl

/-- **C87** (partial: keys that fit 32 bits): keys that differ open different segments. -/
theorem C87_keys_partial (s : Ipc) (hr : ShmReachable s) (k1 k2 : Int) (h1 : -(2 ^ 31) ≤ k1) (h2 : k1 < 2 ^ 31)
    (h3 : -(2 ^ 31) ≤ k2) (h4 : k2 < 2 ^ 31) (hne : k1 ≠ k2) (a b : Nat) (v1 v2 : View) (t1 t2 : Ipc)
    (e1 : openKey s k1 a = .ok (v1, t1)) (e2 : openKey s k2 b = .ok (v2, t2)) : t1.map v1.addr ≠ t2.map v2.addr := by
  have found : ∀ (k : Int) (a : Nat) (v : View) (t : Ipc), openKey s k a = .ok (v, t) →
      ∃ i g, s.seg i = some g ∧ HasKey k g ∧ t.map v.addr = some i := by
    intro k a v t e
    have e' := e
    by_cases h0 : k % 2 ^ 32 = 0
    · obtain ⟨_, he⟩ := (C87_open_exact s hr k a).2 (.inl h0)
      rw [he] at e
      cases e
    · by_cases hm : ∀ i g, s.seg i = some g → ¬ HasKey k g
      · obtain ⟨_, he⟩ := (C87_open_exact s hr k a).2 (.inr hm)
        rw [he] at e
        cases e
      · obtain ⟨i, hm⟩ := Classical.not_forall.1 hm
        obtain ⟨g, hm⟩ := Classical.not_forall.1 hm
        obtain ⟨hs, hk⟩ := Classical.not_imp.1 hm
        have hk := Classical.not_not.1 hk
        refine ⟨i, g, hs, hk, ?_⟩
        obtain ⟨i', s1, g', q0, q1, q2, q3, -⟩ := createKey_eq e'
        rw [shmget_hit hr.wf hs hk h0, sizeT_zero, if_neg (by omega)] at q0
        cases q0
        unfold Ipc.shmat at q2
        rw [hs] at q2
        cases q2
        rw [q3]
        exact setAt_same _ _ _
  obtain ⟨i, g, hs, hk, hm⟩ := found k1 a v1 t1 e1
  obtain ⟨j, g', hs', hk', hm'⟩ := found k2 b v2 t2 e2
  rw [hm, hm']
  intro e
  cases e
  rw [hs] at hs'
  cases hs'
  unfold HasKey at hk hk'
  omega

/-- **C87**, removing: fails iff there is nothing to open; afterwards the key opens nothing, and everything that was open
shows what it showed. -/
theorem C87_remove_exact (s : Ipc) (hr : ShmReachable s) (key : Int) :
    ((∃ i g, s.seg i = some g ∧ HasKey key g) ∧ key % 2 ^ 32 ≠ 0 →
      ∃ t, removeKey s key = .ok t ∧ (∀ a, ∃ e, openKey t key a = .err e) ∧ ∀ v, t.view v = s.view v) ∧
    ((key % 2 ^ 32 = 0 ∨ ∀ i g, s.seg i = some g → ¬ HasKey key g) → ∃ e, removeKey s key = .err e) := by
  have w := hr.wf
  constructor
  · rintro ⟨⟨i, g, hs, hk⟩, h0⟩
    have hz : shmKey key ≠ 0 := fun h => h0 (shmKey_zero.1 h)
    have e : removeKey s key = .ok { s with seg := setAt s.seg i (if g.att = [] then none else some { g with key := 0, dest := true }) } := by
      unfold removeKey
      rw [shmget_hit w hs hk h0, sizeT_zero, if_neg (by omega), Res.ok_bind]
      simp only [Ipc.shmRmid, hs]
    have hrt := hr.step (.remove key)
    simp only [shmStep, e] at hrt
    refine ⟨_, e, ?_, ?_⟩
    · intro a
      refine (C87_open_exact _ hrt key a).2 (.inr ?_)
      intro j g' hj hk'
      simp only at hj
      by_cases ej : j = i
      · subst ej
        rw [setAt_same] at hj
        split at hj
        · cases hj
        · cases hj
          exact hz (hasKey_iff.1 hk').symm
      · rw [setAt_ne _ _ ej] at hj
        exact ej (w.keys j i g' g hj hs (by rw [hasKey_iff.1 hk', hasKey_iff.1 hk]) (by rw [hasKey_iff.1 hk']; exact hz))
    · intro v
      unfold Ipc.view
      simp only
      cases hm : s.map v.addr with
      | none => rfl
      | some j =>
        simp only
        by_cases ej : j = i
        · subst ej
          obtain ⟨g', hg', hin⟩ := (w.maps v.addr j).1 hm
          rw [hs] at hg'
          cases hg'
          rw [setAt_same, hs, if_neg (List.ne_nil_of_mem hin)]
        · rw [setAt_ne _ _ ej]
  · intro hm
    by_cases h0 : key % 2 ^ 32 = 0
    · refine ⟨"invalid argument", ?_⟩
      unfold removeKey
      rw [shmget_private h0, sizeT_zero]
      rfl
    · refine ⟨"no such file or directory", ?_⟩
      unfold removeKey
      rw [shmget_miss h0 (hm.resolve_left h0)]
      rfl

/-! ### Segments without a key -/

/-- A segment that no call can find any more. -/
theorem orphan_step {s : Ipc} (w : s.WF) {i : Nat} (h : ∃ g, s.seg i = some g ∧ g.key = 0 ∧ g.dest = false) (op : ShmOp) :
    ∃ g, (shmStep s op).seg i = some g ∧ g.key = 0 ∧ g.dest = false := by
  obtain ⟨g, hs, hk, hd⟩ := h
  have lt := w.ids _ _ hs
  -- a lookup never gives this segment, and leaves it alone
  have look : ∀ {key size : Int} {c : Bool} {j : Nat} {t : Ipc}, s.shmget key size c = .ok (j, t) → j ≠ i ∧ t.seg i = some g := by
    intro key size c j t h
    have ns : ∀ {k n}, s.newseg k n = .ok (j, t) → j ≠ i ∧ t.seg i = some g := by
      intro k n h
      unfold Ipc.newseg at h
      split at h
      · cases h
      · cases h
        exact ⟨by omega, by simp only; rw [setAt_ne _ _ (by omega)]; exact hs⟩
    by_cases h0 : key % 2 ^ 32 = 0
    · rw [shmget_private h0] at h
      exact ns h
    · by_cases hm : ∀ i g, s.seg i = some g → ¬ HasKey key g
      · rw [shmget_miss h0 hm] at h
        split at h
        · exact ns h
        · cases h
      · obtain ⟨i', hm⟩ := Classical.not_forall.1 hm
        obtain ⟨g', hm⟩ := Classical.not_forall.1 hm
        obtain ⟨hs', hk'⟩ := Classical.not_imp.1 hm
        have hk' := Classical.not_not.1 hk'
        rw [shmget_hit w hs' hk' h0] at h
        split at h
        · cases h
        · cases h
          refine ⟨?_, hs⟩
          rintro rfl
          rw [hs] at hs'
          cases hs'
          rw [hasKey_iff, hk] at hk'
          exact h0 (shmKey_zero.1 hk'.symm)
  cases op with
  | create key size a =>
    simp only [shmStep]
    split
    · split
      · rename_i h
        obtain ⟨j, s1, g1, q0, q1, q2, -, -⟩ := createKey_eq h
        obtain ⟨hne, hs1⟩ := look q0
        unfold Ipc.shmat at q2
        rw [q1] at q2
        cases q2
        exact ⟨g, by simp only; rw [setAt_ne _ _ (Ne.symm hne)]; exact hs1, hk, hd⟩
      · exact ⟨g, hs, hk, hd⟩
    · exact ⟨g, hs, hk, hd⟩
  | remove key =>
    simp only [shmStep]
    split
    · rename_i h
      unfold removeKey at h
      obtain ⟨⟨j, s1⟩, q0, q1⟩ := Res.bind_eq_ok.1 h
      obtain ⟨hne, hs1⟩ := look q0
      simp only at q1
      unfold Ipc.shmRmid at q1
      split at q1
      · cases q1
      · cases q1
        exact ⟨g, by simp only; rw [setAt_ne _ _ (Ne.symm hne)]; exact hs1, hk, hd⟩
    · exact ⟨g, hs, hk, hd⟩
  | close v =>
    simp only [shmStep]
    split
    · rename_i h
      unfold closeShm Ipc.shmdt at h
      split at h
      · cases h
      · rename_i j hj
        split at h
        · cases h
          exact ⟨g, hs, hk, hd⟩
        · rename_i g' hg'
          cases h
          simp only
          by_cases e : i = j
          · subst e
            rw [hs] at hg'
            cases hg'
            rw [setAt_same, if_neg (by simp [hd])]
            exact ⟨_, rfl, hk, hd⟩
          · rw [setAt_ne _ _ e]
            exact ⟨g, hs, hk, hd⟩
    · exact ⟨g, hs, hk, hd⟩
  | store v off b =>
    simp only [shmStep]
    split
    · rename_i h
      unfold Ipc.store at h
      split at h
      · cases h
      · split at h
        · cases h
        · rename_i j hj
          split at h
          · cases h
          · rename_i g' hg'
            split at h
            · cases h
            · cases h
              simp only
              by_cases e : i = j
              · subst e
                rw [hs] at hg'
                cases hg'
                rw [setAt_same]
                exact ⟨_, rfl, hk, hd⟩
              · rw [setAt_ne _ _ e]
                exact ⟨g, hs, hk, hd⟩
    · exact ⟨g, hs, hk, hd⟩

/-- The claim: what is created with a key can be removed with it. -/
def Spec.Removable : Prop :=
  ∀ s, ShmReachable s → ∀ (key size : Int) a v t, s.map a = none → createKey s key size a = .ok (v, t) →
    ∃ u, removeKey t key = .ok u

/-- **C87** fails for key 0: the segment is there for ever, whatever is called afterwards, even when it is closed. -/
theorem C87_private_kept (s : Ipc) (hr : ShmReachable s) (key size : Int) (h0 : key % 2 ^ 32 = 0) (a : Nat) (v : View)
    (t : Ipc) (ha : s.map a = none) (h : createKey s key size a = .ok (v, t)) (ops : List ShmOp) :
    (∃ e, removeKey t key = .err e) ∧ ∃ g, (List.foldl shmStep t ops).seg s.next = some g := by
  have wt : t.WF := createKey_wf hr.wf ha h
  constructor
  · refine ⟨"invalid argument", ?_⟩
    unfold removeKey
    rw [shmget_private h0, sizeT_zero]
    rfl
  · have start : ∃ g, t.seg s.next = some g ∧ g.key = 0 ∧ g.dest = false := by
      obtain ⟨i, s1, g, q0, q1, q2, -, -⟩ := createKey_eq h
      rw [shmget_private h0] at q0
      unfold Ipc.newseg at q0
      split at q0
      · cases q0
      · cases q0
        unfold Ipc.shmat at q2
        rw [q1] at q2
        cases q2
        simp only [setAt_same] at q1 ⊢
        cases q1
        exact ⟨_, rfl, rfl, rfl⟩
    have : ∀ (u : Ipc), u.WF → (∃ g, u.seg s.next = some g ∧ g.key = 0 ∧ g.dest = false) →
        ∃ g, (List.foldl shmStep u ops).seg s.next = some g ∧ g.key = 0 ∧ g.dest = false := by
      induction ops with
      | nil => intro u _ h; exact h
      | cons op ops ih => intro u wu h; exact ih _ (shmStep_wf wu op) (orphan_step wu h op)
    obtain ⟨g, hg, -⟩ := this t wt start
    exact ⟨g, hg⟩

theorem C87_removable_refuted : ¬ Spec.Removable := by
  intro h
  have hr : ShmReachable (noShm 100) := ⟨100, [], by decide, rfl⟩
  have hc := (C87_create_exact _ hr 0 4 0 (by decide) (by decide) (by decide)).2 (.inl (by decide))
  rw [if_pos ⟨by decide, by decide⟩] at hc
  obtain ⟨t, g, ht, -⟩ := hc
  obtain ⟨u, hu⟩ := h _ hr 0 4 0 _ _ rfl ht
  obtain ⟨⟨e, he⟩, -⟩ := C87_private_kept _ hr 0 4 (by decide) 0 _ _ rfl ht []
  rw [he] at hu
  cases hu

/-- **C87** (partial: keys that are not 0 modulo 2^32). -/
theorem C87_removable_partial (s : Ipc) (hr : ShmReachable s) (key size : Int) (h0 : key % 2 ^ 32 ≠ 0) (a : Nat) (v : View)
    (t : Ipc) (ha : s.map a = none) (h : createKey s key size a = .ok (v, t)) : ∃ u, removeKey t key = .ok u := by
  have hrt := hr.step (.create key size a)
  simp only [shmStep, ha, if_true, h] at hrt
  refine Exists.imp (fun _ h => h.1) ((C87_remove_exact t hrt key).1 ⟨?_, h0⟩)
  obtain ⟨i, s1, g, q0, q1, q2, -, -⟩ := createKey_eq h
  have hk : HasKey key g := by
    by_cases hm : ∀ i g, s.seg i = some g → ¬ HasKey key g
    · rw [shmget_miss h0 hm] at q0
      split at q0
      · unfold Ipc.newseg at q0
        split at q0
        · cases q0
        · cases q0
          simp only [setAt_same] at q1
          cases q1
          exact hasKey_iff.2 rfl
      · cases q0
    · obtain ⟨i', hm⟩ := Classical.not_forall.1 hm
      obtain ⟨g', hm⟩ := Classical.not_forall.1 hm
      obtain ⟨hs', hk'⟩ := Classical.not_imp.1 hm
      have hk' := Classical.not_not.1 hk'
      rw [shmget_hit hr.wf hs' hk' h0] at q0
      split at q0
      · cases q0
      · cases q0
        rw [hs'] at q1
        cases q1
        exact hk'
  unfold Ipc.shmat at q2
  rw [q1] at q2
  cases q2
  exact ⟨i, _, setAt_same _ _ _, hk⟩

/-- A state with a segment under key 1228 that two processes have open. -/
def Spec.twoViews : Ipc := List.foldl shmStep (noShm 100) [.create 1228 8 0, .create 1228 0 1, .store ⟨0, 8⟩ 2 [7, 9]]

theorem twoViews_reachable : ShmReachable twoViews := ⟨100, _, by decide, rfl⟩

example : twoViews.seg 0 = some ⟨1228, [0, 0, 7, 9, 0, 0, 0, 0], [1, 0], false⟩ ∧
    HasKey 1228 ⟨1228, [0, 0, 7, 9, 0, 0, 0, 0], [1, 0], false⟩ ∧ twoViews.view ⟨1, 8⟩ = .ok [0, 0, 7, 9, 0, 0, 0, 0] := by
  decide

/-! ## C88: what the open views show -/

theorem view_ok {s : Ipc} {v : View} {d : Bytes} (h : s.view v = .ok d) :
    ∃ i g, s.map v.addr = some i ∧ s.seg i = some g ∧ v.len ≤ g.bytes.length ∧ d = g.bytes.take v.len := by
  unfold Ipc.view at h
  split at h
  · cases h
  · rename_i i hm
    split at h
    · cases h
    · rename_i g hg
      split at h
      · cases h
      · rename_i hl
        exact ⟨i, g, hm, hg, by omega, (Res.ok.inj h).symm⟩

theorem view_intro {s : Ipc} {v : View} {i : Nat} {g : Seg} (hm : s.map v.addr = some i) (hg : s.seg i = some g)
    (hl : v.len ≤ g.bytes.length) : s.view v = .ok (g.bytes.take v.len) := by
  unfold Ipc.view
  rw [hm]
  simp only
  rw [hg]
  simp only
  rw [if_neg (by omega)]

/-- **C88**, storing: every view of the same segment shows the stored bytes at their place and everything else as before;
every other view is unchanged. -/
theorem C88_store_exact (s t : Ipc) (v w : View) (off : Nat) (b d : Bytes) (h : s.store v off b = .ok t)
    (hw : s.view w = .ok d) :
    ∃ d', t.view w = .ok d' ∧ d'.length = d.length ∧ ∀ j, j < d.length →
      d'[j]? = if s.map w.addr = s.map v.addr ∧ off ≤ j ∧ j < off + b.length then b[j - off]? else d[j]? := by
  obtain ⟨i, g, hm, hg, hl, rfl⟩ := view_ok hw
  unfold Ipc.store at h
  split at h
  · cases h
  · rename_i h0
    split at h
    · cases h
    · rename_i k hk
      split at h
      · cases h
      · rename_i g' hg'
        split at h
        · cases h
        · rename_i hlen
          cases h
          by_cases e : i = k
          · subst e
            rw [hg] at hg'
            cases hg'
            have hwl : (writeAt g.bytes off b).length = g.bytes.length := writeAt_length_inside (by omega)
            refine ⟨_, view_intro (g := { g with bytes := writeAt g.bytes off b }) hm (setAt_same _ _ _) (by simp only; omega), ?_, ?_⟩
            · simp only [List.length_take, hwl]
            · intro j hj
              simp only [List.length_take] at hj
              rw [List.getElem?_take_of_lt (by omega), writeAt_getElem?, List.getElem?_take_of_lt (by omega), hm, hk]
              by_cases hc : off ≤ j ∧ j < off + b.length
              · rw [if_pos hc, if_pos ⟨rfl, hc⟩]
              · rw [if_neg hc, if_pos (by omega), if_neg (fun h => hc h.2)]
          · refine ⟨_, view_intro hm (by simp only; rw [setAt_ne _ _ e]; exact hg) hl, rfl, ?_⟩
            intro j hj
            rw [if_neg]
            rintro ⟨h, -⟩
            rw [hm, hk] at h
            exact e (Option.some.inj h)

/-- One call that neither stores nor closes this view leaves what it shows. -/
theorem C88_undisturbed (s : Ipc) (hr : ShmReachable s) (w : View) (d : Bytes) (hw : s.view w = .ok d) (op : ShmOp)
    (h1 : ∀ v, op = .close v → v.addr ≠ w.addr) (h2 : ∀ v off b, op ≠ .store v off b) : (shmStep s op).view w = .ok d := by
  have wf := hr.wf
  obtain ⟨i, g, hm, hg, hl, rfl⟩ := view_ok hw
  cases op with
  | create key size a =>
    simp only [shmStep]
    split
    · rename_i ha
      have hne : w.addr ≠ a := by
        rintro e
        rw [← e, hm] at ha
        cases ha
      split
      · rename_i t h
        obtain ⟨k, s1, g1, q0, q1, q2, -, -⟩ := createKey_eq h
        have hs1 : s1.seg i = some g ∧ s1.map = s.map := by
          have lt := wf.ids _ _ hg
          unfold Ipc.shmget Ipc.newseg at q0
          (repeat' split at q0) <;> cases q0 <;> refine ⟨?_, rfl⟩ <;> first | exact hg | (simp only; rw [setAt_ne _ _ (by omega)]; exact hg)
        unfold Ipc.shmat at q2
        rw [q1] at q2
        cases q2
        by_cases e : i = k
        · subst e
          rw [q1] at hs1
          have e2 := Option.some.inj hs1.1
          subst e2
          exact view_intro (i := i) (g := { g1 with att := a :: g1.att })
            (by simp only; rw [setAt_ne _ _ hne, hs1.2]; exact hm) (setAt_same _ _ _) hl
        · exact view_intro (i := i) (by simp only; rw [setAt_ne _ _ hne, hs1.2]; exact hm)
            (by simp only; rw [setAt_ne _ _ e]; exact hs1.1) hl
      · exact hw
    · exact hw
  | remove key =>
    simp only [shmStep]
    split
    · rename_i t h
      by_cases hm : (∃ i g, s.seg i = some g ∧ HasKey key g) ∧ key % 2 ^ 32 ≠ 0
      · obtain ⟨t', e, -, hv⟩ := (C87_remove_exact s hr key).1 hm
        rw [h] at e
        cases e
        rw [hv]
        exact hw
      · obtain ⟨e, he⟩ := (C87_remove_exact s hr key).2 (by
          by_cases h0 : key % 2 ^ 32 = 0
          · exact .inl h0
          · exact .inr (fun i g h1 h2 => hm ⟨⟨i, g, h1, h2⟩, h0⟩))
        rw [h] at he
        cases he
    · exact hw
  | close v =>
    have hne := h1 v rfl
    simp only [shmStep]
    split
    · rename_i t h
      unfold closeShm Ipc.shmdt at h
      split at h
      · cases h
      · rename_i k hk
        obtain ⟨g', hg', hin⟩ := (wf.maps _ _).1 hk
        rw [hg'] at h
        cases h
        by_cases e : i = k
        · subst e
          rw [hg] at hg'
          cases hg'
          obtain ⟨g0, h0, hin'⟩ := (wf.maps _ _).1 hm
          rw [hg] at h0
          cases h0
          have hin2 : w.addr ∈ g.att.erase v.addr := (List.mem_erase_of_ne (Ne.symm hne)).2 hin'
          refine view_intro (i := i) (g := { g with att := g.att.erase v.addr })
            (by simp only; rw [setAt_ne _ _ (Ne.symm hne)]; exact hm) ?_ hl
          simp only
          rw [setAt_same, if_neg (fun h => List.ne_nil_of_mem hin2 h.2)]
        · exact view_intro (i := i) (by simp only; rw [setAt_ne _ _ (Ne.symm hne)]; exact hm)
            (by simp only; rw [setAt_ne _ _ e]; exact hg) hl
    · exact hw
  | store v off b => exact absurd rfl (h2 v off b)

/-- **C88**: an open view stays open, in the same length, until it is closed, whatever anybody calls; the segment being
removed does not matter. -/
theorem C88_until_closed (s : Ipc) (hr : ShmReachable s) (w : View) (d : Bytes) (hw : s.view w = .ok d) (ops : List ShmOp)
    (h1 : ∀ v, ShmOp.close v ∈ ops → v.addr ≠ w.addr) :
    ∃ d', (List.foldl shmStep s ops).view w = .ok d' ∧ d'.length = d.length := by
  induction ops generalizing s d with
  | nil => exact ⟨d, hw, rfl⟩
  | cons op ops ih =>
    have hop : ∃ d', (shmStep s op).view w = .ok d' ∧ d'.length = d.length := by
      by_cases hst : ∃ v off b, op = .store v off b
      · obtain ⟨v, off, b, rfl⟩ := hst
        simp only [shmStep]
        split
        · rename_i t h
          obtain ⟨d', h', hl, -⟩ := C88_store_exact s t v w off b d h hw
          exact ⟨d', h', hl⟩
        · exact ⟨d, hw, rfl⟩
      · exact ⟨d, C88_undisturbed s hr w d hw op (fun v e => h1 v (by rw [← e]; exact List.mem_cons_self))
          (fun v off b e => hst ⟨v, off, b, e⟩), rfl⟩
    obtain ⟨d', h', hl⟩ := hop
    obtain ⟨d'', h'', hl'⟩ := ih _ (hr.step op) d' h' (fun v hv => h1 v (List.mem_cons_of_mem _ hv))
    exact ⟨d'', h'', by rw [hl', hl]⟩

/-- **C88**: what a view shows changes only by stores: without any, it shows the same bytes until it is closed. -/
theorem C88_only_stores (s : Ipc) (hr : ShmReachable s) (w : View) (d : Bytes) (hw : s.view w = .ok d) (ops : List ShmOp)
    (h1 : ∀ v, ShmOp.close v ∈ ops → v.addr ≠ w.addr) (h2 : ∀ v off b, ShmOp.store v off b ∉ ops) :
    (List.foldl shmStep s ops).view w = .ok d := by
  induction ops generalizing s with
  | nil => exact hw
  | cons op ops ih =>
    exact ih _ (hr.step op) (C88_undisturbed s hr w d hw op (fun v e => h1 v (by rw [← e]; exact List.mem_cons_self))
      (fun v off b e => h2 v off b (by rw [← e]; exact List.mem_cons_self)))
      (fun v hv => h1 v (List.mem_cons_of_mem _ hv)) (fun v off b hv => h2 v off b (List.mem_cons_of_mem _ hv))

/-- **C88**, every access: a view shows something exactly while it is mapped to memory that is long enough, and an access at any other time
is fatal; storing works exactly when the bytes fit in an open view, and is fatal otherwise. Neither ever returns an error. -/
theorem C88_access_exact (s : Ipc) (v : View) :
    ((∃ d, s.view v = .ok d ∧ d.length = v.len) ∨ s.view v = .panic) ∧
    (∀ off b, ((∃ d, s.view v = .ok d) ∧ off + b.length ≤ v.len → ∃ t, s.store v off b = .ok t) ∧
      (¬ ((∃ d, s.view v = .ok d) ∧ off + b.length ≤ v.len) → s.store v off b = .panic)) := by
  unfold Ipc.view Ipc.store
  cases s.map v.addr with
  | none => simp
  | some i =>
    simp only
    cases s.seg i with
    | none => simp
    | some g =>
      simp only
      by_cases hl : g.bytes.length < v.len
      · simp [hl]
      · simp only [hl, if_false]
        refine ⟨Or.inl ⟨_, rfl, by rw [List.length_take]; omega⟩, fun off b => ⟨?_, ?_⟩⟩
        · rintro ⟨_, h⟩
          rw [if_neg (by omega)]
          exact ⟨_, rfl⟩
        · intro h
          rw [if_pos]
          refine Classical.byContradiction fun hn => h ⟨⟨_, rfl⟩, by omega⟩

/-- **C88**: closing an open view works; an access afterwards is fatal. -/
theorem C88_close (s : Ipc) (v : View) (d : Bytes) (hv : s.view v = .ok d) :
    ∃ t, closeShm s v = .ok t ∧ t.view v = .panic ∧ ∃ e, closeShm t v = .err e := by
  obtain ⟨i, g, hm, hg, hl, rfl⟩ := view_ok hv
  have e : closeShm s v = .ok { s with
      map := setAt s.map v.addr none
      seg := setAt s.seg i (if g.dest ∧ g.att.erase v.addr = [] then none else some { g with att := g.att.erase v.addr }) } := by
    unfold closeShm Ipc.shmdt
    rw [hm]
    simp only
    rw [hg]
  refine ⟨_, e, ?_, "invalid argument", ?_⟩
  · simp only [Ipc.view, setAt_same]
  · simp only [closeShm, Ipc.shmdt, setAt_same]

/-- The claim: closing a view a second time disturbs nobody. -/
def Spec.CloseTwice : Prop :=
  ∀ s, ShmReachable s → ∀ v d, s.view v = .ok d → ∀ ops, (∀ x, ShmOp.close x ∉ ops) →
    ∀ w d', w ≠ v → (List.foldl shmStep (shmStep s (.close v)) ops).view w = .ok d' →
      (shmStep (List.foldl shmStep (shmStep s (.close v)) ops) (.close v)).view w = .ok d'

/-- **C88** fails: the address may have been given to another view, and closing the old one again closes that. -/
theorem C88_close_twice_refuted : ¬ Spec.CloseTwice := by
  intro h
  have := h twoViews twoViews_reachable ⟨0, 8⟩ [0, 0, 7, 9, 0, 0, 0, 0] (by decide) [.create 5 4 0] (by simp) ⟨0, 4⟩ [0, 0, 0, 0]
    (by decide) (by decide)
  revert this
  decide

/-- **C88** (partial: the address is not in use again): closing a second time disturbs nobody. -/
theorem C88_close_twice_partial (s : Ipc) (hr : ShmReachable s) (v w : View) (d' : Bytes) (ops : List ShmOp)
    (hne : w.addr ≠ v.addr)
    (hw : (List.foldl shmStep (shmStep s (.close v)) ops).view w = .ok d') :
    (shmStep (List.foldl shmStep (shmStep s (.close v)) ops) (.close v)).view w = .ok d' := by
  have hr' : ∀ (ops : List ShmOp) (t : Ipc), ShmReachable t → ShmReachable (List.foldl shmStep t ops) := by
    intro ops
    induction ops with
    | nil => intro t h; exact h
    | cons op ops ih => intro t h; exact ih _ (h.step op)
  refine C88_undisturbed _ (hr' _ _ (hr.step _)) w d' hw _ ?_ (fun _ _ _ h => nomatch h)
  intro x hx
  cases hx
  exact Ne.symm hne

end Verif
