import Verif.Model.SharedMem
import Verif.Proofs.RecordFile
/-!
# Lemmas about the kernel's tables
-/

namespace Verif

theorem setAt_same {α : Type} (f : Nat → Option α) (i : Nat) (x : Option α) : setAt f i x i = x := by simp [setAt]

theorem setAt_ne {α : Type} (f : Nat → Option α) {i j : Nat} (x : Option α) (h : j ≠ i) : setAt f i x j = f j := by
  simp [setAt, h]

/-- The tables agree with one another. -/
structure Ipc.WF (s : Ipc) : Prop where
  ids : ∀ i g, s.seg i = some g → i < s.next
  keys : ∀ i j g h, s.seg i = some g → s.seg j = some h → g.key = h.key → g.key ≠ 0 → i = j
  maps : ∀ a i, s.map a = some i ↔ ∃ g, s.seg i = some g ∧ a ∈ g.att
  once : ∀ i g, s.seg i = some g → g.att.Nodup
  marked : ∀ i g, s.seg i = some g → g.dest = true → g.key = 0 ∧ g.att ≠ []
  sizes : ∀ i g, s.seg i = some g → 0 < g.bytes.length ∧ g.bytes.length ≤ s.limit

theorem Ipc.find_some {s : Ipc} (w : s.WF) {k : UInt32} {i : Nat} {g : Seg} (h : s.seg i = some g) (hk : g.key = k)
    (h0 : k ≠ 0) : s.find k = some i := by
  unfold find
  cases hf : (List.range s.next).find? _ with
  | none =>
    rw [List.find?_eq_none] at hf
    have := hf i (List.mem_range.2 (w.ids i g h))
    rw [h] at this
    simp [hk] at this
  | some j =>
    have hj := List.find?_some hf
    cases hs : s.seg j with
    | none => rw [hs] at hj; cases hj
    | some g' =>
      rw [hs] at hj
      have e : g'.key = k := by simpa using hj
      rw [w.keys i j g g' h hs (by rw [hk, e]) (by rw [hk]; exact h0)]

theorem Ipc.find_none {s : Ipc} {k : UInt32} (h : ∀ i g, s.seg i = some g → g.key ≠ k) : s.find k = none := by
  unfold find
  rw [List.find?_eq_none]
  intro i _ hi
  cases hs : s.seg i with
  | none => rw [hs] at hi; cases hi
  | some g =>
    rw [hs] at hi
    exact h i g hs (by simpa using hi)

theorem Ipc.WF.newseg {s s' : Ipc} (w : s.WF) {k : UInt32} {n i : Nat} (hk : k ≠ 0 → ∀ i g, s.seg i = some g → g.key ≠ k)
    (h : s.newseg k n = .ok (i, s')) : s'.WF := by
  unfold Ipc.newseg at h
  split at h
  · cases h
  · rename_i hn
    cases h
    have fresh : s.seg s.next = none := by
      cases hs : s.seg s.next with
      | none => rfl
      | some g => exact absurd (w.ids _ _ hs) (Nat.lt_irrefl _)
    constructor
    · intro i g hi
      simp only at hi ⊢
      by_cases e : i = s.next
      · omega
      · rw [setAt_ne _ _ e] at hi
        have := w.ids i g hi
        omega
    · intro i j g g' hi hj hkk h0
      simp only at hi hj
      by_cases e : i = s.next
      · subst e
        rw [setAt_same] at hi
        cases hi
        by_cases e' : j = s.next
        · exact e'.symm
        · rw [setAt_ne _ _ e'] at hj
          exact absurd hkk.symm (hk h0 j g' hj)
      · rw [setAt_ne _ _ e] at hi
        by_cases e' : j = s.next
        · subst e'
          rw [setAt_same] at hj
          cases hj
          simp only at hkk
          exact absurd hkk (hk (hkk ▸ h0) i g hi)
        · rw [setAt_ne _ _ e'] at hj
          exact w.keys i j g g' hi hj hkk h0
    · intro a i
      simp only
      rw [w.maps a i]
      by_cases e : i = s.next
      · subst e
        rw [setAt_same, fresh]
        simp
      · rw [setAt_ne _ _ e]
    · intro i g hi
      simp only at hi
      by_cases e : i = s.next
      · subst e
        rw [setAt_same] at hi
        cases hi
        exact List.nodup_nil
      · rw [setAt_ne _ _ e] at hi
        exact w.once i g hi
    · intro i g hi hd
      simp only at hi
      by_cases e : i = s.next
      · subst e
        rw [setAt_same] at hi
        cases hi
        cases hd
      · rw [setAt_ne _ _ e] at hi
        exact w.marked i g hi hd
    · intro i g hi
      simp only at hi ⊢
      by_cases e : i = s.next
      · subst e
        rw [setAt_same] at hi
        cases hi
        simp only [zeros, List.length_replicate]
        omega
      · rw [setAt_ne _ _ e] at hi
        exact w.sizes i g hi

theorem Ipc.WF.shmget {s s' : Ipc} (w : s.WF) {key size : Int} {c : Bool} {i : Nat}
    (h : s.shmget key size c = .ok (i, s')) : s'.WF := by
  unfold Ipc.shmget at h
  split at h
  · exact w.newseg (fun h => absurd rfl h) h
  · split at h
    · split at h
      · split at h
        · cases h
        · cases h; exact w
      · cases h
    · rename_i hf
      split at h
      · refine w.newseg (fun h0 j g hj hk => ?_) h
        rw [Ipc.find_some w hj hk h0] at hf
        cases hf
      · cases h

theorem Ipc.WF.shmat {s s' : Ipc} (w : s.WF) {i a : Nat} (ha : s.map a = none) (h : s.shmat i a = .ok s') : s'.WF := by
  unfold Ipc.shmat at h
  cases hs : s.seg i with
  | none => rw [hs] at h; cases h
  | some g =>
    rw [hs] at h
    cases h
    have notin : a ∉ g.att := by
      intro hm
      rw [(w.maps a i).2 ⟨g, hs, hm⟩] at ha
      cases ha
    constructor
    · intro j g' hj
      simp only at hj ⊢
      by_cases e : j = i
      · subst e; exact w.ids _ _ hs
      · rw [setAt_ne _ _ e] at hj; exact w.ids _ _ hj
    · intro j k g1 g2 hj hk hkk h0
      simp only at hj hk
      by_cases e : j = i
      · subst e
        rw [setAt_same] at hj
        cases hj
        by_cases e' : k = j
        · exact e'.symm
        · rw [setAt_ne _ _ e'] at hk
          exact w.keys _ _ _ _ hs hk hkk h0
      · rw [setAt_ne _ _ e] at hj
        by_cases e' : k = i
        · subst e'
          rw [setAt_same] at hk
          cases hk
          exact w.keys _ _ _ _ hj hs hkk h0
        · rw [setAt_ne _ _ e'] at hk
          exact w.keys _ _ _ _ hj hk hkk h0
    · intro b j
      simp only
      by_cases e : j = i
      · subst e
        rw [setAt_same]
        by_cases eb : b = a
        · subst eb
          rw [setAt_same]
          exact iff_of_true rfl ⟨_, rfl, List.mem_cons_self⟩
        · rw [setAt_ne _ _ eb, w.maps b j, hs]
          simp [eb]
      · rw [setAt_ne _ _ e]
        by_cases eb : b = a
        · subst eb
          rw [setAt_same, ← w.maps b j, ha]
          simp [Ne.symm e]
        · rw [setAt_ne _ _ eb, w.maps b j]
    · intro j g' hj
      simp only at hj
      by_cases e : j = i
      · subst e
        rw [setAt_same] at hj
        cases hj
        exact List.nodup_cons.2 ⟨notin, w.once _ _ hs⟩
      · rw [setAt_ne _ _ e] at hj; exact w.once _ _ hj
    · intro j g' hj hd
      simp only at hj
      by_cases e : j = i
      · subst e
        rw [setAt_same] at hj
        cases hj
        exact ⟨(w.marked _ _ hs hd).1, List.cons_ne_nil _ _⟩
      · rw [setAt_ne _ _ e] at hj; exact w.marked _ _ hj hd
    · intro j g' hj
      simp only at hj ⊢
      by_cases e : j = i
      · subst e
        rw [setAt_same] at hj
        cases hj
        have := w.sizes _ _ hs
        exact this
      · rw [setAt_ne _ _ e] at hj; exact w.sizes _ _ hj

theorem Ipc.WF.shmdt {s s' : Ipc} (w : s.WF) {a : Nat} (h : s.shmdt a = .ok s') : s'.WF := by
  unfold Ipc.shmdt at h
  cases hm : s.map a with
  | none => rw [hm] at h; cases h
  | some i =>
    obtain ⟨g, hs, hin⟩ := (w.maps a i).1 hm
    rw [hm] at h
    simp only at h
    rw [hs] at h
    cases h
    have nd := w.once _ _ hs
    -- what the new segment table holds
    have hseg : ∀ j g', setAt s.seg i (if g.dest ∧ g.att.erase a = [] then none else some { g with att := g.att.erase a }) j =
        some g' → (j ≠ i ∧ s.seg j = some g') ∨ (j = i ∧ g' = { g with att := g.att.erase a } ∧
          ¬ (g.dest = true ∧ g.att.erase a = [])) := by
      intro j g' hj
      by_cases e : j = i
      · subst e
        rw [setAt_same] at hj
        split at hj
        · cases hj
        · rename_i hn
          cases hj
          exact .inr ⟨rfl, rfl, by simpa using hn⟩
      · rw [setAt_ne _ _ e] at hj
        exact .inl ⟨e, hj⟩
    constructor
    · intro j g' hj
      rcases hseg j g' hj with ⟨_, hj⟩ | ⟨e, _, _⟩
      · exact w.ids _ _ hj
      · subst e; exact w.ids _ _ hs
    · intro j k g1 g2 hj hk hkk h0
      rcases hseg j g1 hj with ⟨_, q1⟩ | ⟨e, e2, _⟩ <;> rcases hseg k g2 hk with ⟨_, q2⟩ | ⟨e', e2', _⟩
      · exact w.keys _ _ _ _ q1 q2 hkk h0
      · subst e' e2'; exact w.keys _ _ _ _ q1 hs hkk h0
      · subst e e2; exact w.keys _ _ _ _ hs q2 hkk h0
      · rw [e, e']
    · intro b j
      simp only
      by_cases eb : b = a
      · subst eb
        rw [setAt_same]
        refine iff_of_false (fun h => nomatch h) ?_
        rintro ⟨g', hj, hb⟩
        rcases hseg j g' hj with ⟨ne, hj⟩ | ⟨e, e2, _⟩
        · have := (w.maps b j).2 ⟨g', hj, hb⟩
          rw [hm] at this
          exact ne (Option.some.inj this).symm
        · subst e2
          exact nd.not_mem_erase hb
      · rw [setAt_ne _ _ eb, w.maps b j]
        by_cases e : j = i
        · subst e
          rw [setAt_same, hs]
          constructor
          · rintro ⟨g', hg, hb⟩
            cases hg
            have hb' : b ∈ g.att.erase a := (List.mem_erase_of_ne eb).2 hb
            rw [if_neg (by rintro ⟨_, h⟩; rw [h] at hb'; cases hb')]
            exact ⟨_, rfl, hb'⟩
          · rintro ⟨g', hg, hb⟩
            split at hg
            · cases hg
            · cases hg
              exact ⟨g, rfl, List.mem_of_mem_erase hb⟩
        · rw [setAt_ne _ _ e]
    · intro j g' hj
      rcases hseg j g' hj with ⟨_, hj⟩ | ⟨_, e2, _⟩
      · exact w.once _ _ hj
      · subst e2; exact nd.erase a
    · intro j g' hj hd
      rcases hseg j g' hj with ⟨_, hj⟩ | ⟨_, e2, hn⟩
      · exact w.marked _ _ hj hd
      · subst e2
        exact ⟨(w.marked _ _ hs hd).1, fun h => hn ⟨hd, h⟩⟩
    · intro j g' hj
      rcases hseg j g' hj with ⟨_, hj⟩ | ⟨_, e2, hn⟩
      · exact w.sizes _ _ hj
      · subst e2
        exact w.sizes i g hs

theorem Ipc.WF.shmRmid {s s' : Ipc} (w : s.WF) {i : Nat} (h : s.shmRmid i = .ok s') : s'.WF := by
  unfold Ipc.shmRmid at h
  cases hs : s.seg i with
  | none => rw [hs] at h; cases h
  | some g =>
    rw [hs] at h
    cases h
    have hseg : ∀ j g', setAt s.seg i (if g.att = [] then none else some { g with key := 0, dest := true }) j = some g' →
        (j ≠ i ∧ s.seg j = some g') ∨ (j = i ∧ g' = { g with key := 0, dest := true } ∧ g.att ≠ []) := by
      intro j g' hj
      by_cases e : j = i
      · subst e
        rw [setAt_same] at hj
        split at hj
        · cases hj
        · rename_i hn
          cases hj
          exact .inr ⟨rfl, rfl, hn⟩
      · rw [setAt_ne _ _ e] at hj
        exact .inl ⟨e, hj⟩
    constructor
    · intro j g' hj
      rcases hseg j g' hj with ⟨_, hj⟩ | ⟨e, _, _⟩
      · exact w.ids _ _ hj
      · subst e; exact w.ids _ _ hs
    · intro j k g1 g2 hj hk hkk h0
      rcases hseg j g1 hj with ⟨_, hj⟩ | ⟨e, e2, _⟩ <;> rcases hseg k g2 hk with ⟨_, hk⟩ | ⟨e', e2', _⟩
      · exact w.keys _ _ _ _ hj hk hkk h0
      · subst e2'; exact absurd hkk h0
      · subst e2; exact absurd rfl h0
      · rw [e, e']
    · intro b j
      simp only
      rw [w.maps b j]
      by_cases e : j = i
      · subst e
        rw [setAt_same, hs]
        by_cases hn : g.att = []
        · rw [if_pos hn]
          simp [hn]
        · rw [if_neg hn]
          simp
      · rw [setAt_ne _ _ e]
    · intro j g' hj
      rcases hseg j g' hj with ⟨_, hj⟩ | ⟨_, e2, _⟩
      · exact w.once _ _ hj
      · subst e2
        have := w.once _ _ hs
        exact this
    · intro j g' hj hd
      rcases hseg j g' hj with ⟨_, hj⟩ | ⟨_, e2, hn⟩
      · exact w.marked _ _ hj hd
      · subst e2
        exact ⟨rfl, hn⟩
    · intro j g' hj
      rcases hseg j g' hj with ⟨_, hj⟩ | ⟨_, e2, hn⟩
      · exact w.sizes _ _ hj
      · subst e2
        exact w.sizes i g hs

theorem Ipc.WF.setBytes {s : Ipc} (w : s.WF) {i : Nat} {g : Seg} (hs : s.seg i = some g) {b : Bytes}
    (hb : b.length = g.bytes.length) : ({ s with seg := setAt s.seg i (some { g with bytes := b }) } : Ipc).WF := by
  have hseg : ∀ j g', setAt s.seg i (some { g with bytes := b }) j = some g' →
      ∃ g0, s.seg j = some g0 ∧ g'.key = g0.key ∧ g'.att = g0.att ∧ g'.dest = g0.dest ∧
        g'.bytes.length = g0.bytes.length := by
    intro j g' hj
    by_cases e : j = i
    · subst e
      rw [setAt_same] at hj
      cases hj
      exact ⟨g, hs, rfl, rfl, rfl, hb⟩
    · rw [setAt_ne _ _ e] at hj
      exact ⟨g', hj, rfl, rfl, rfl, rfl⟩
  constructor
  · intro j g' hj
    obtain ⟨g0, h, _⟩ := hseg j g' hj
    exact w.ids _ _ h
  · intro j k g1 g2 hj hk hkk h0
    obtain ⟨a, ha, ka, _⟩ := hseg j g1 hj
    obtain ⟨c, hc, kc, _⟩ := hseg k g2 hk
    exact w.keys _ _ _ _ ha hc (by rw [← ka, ← kc, hkk]) (by rw [← ka]; exact h0)
  · intro a j
    simp only
    rw [w.maps a j]
    by_cases e : j = i
    · subst e
      rw [setAt_same, hs]
      simp
    · rw [setAt_ne _ _ e]
  · intro j g' hj
    obtain ⟨g0, h, _, ea, _⟩ := hseg j g' hj
    rw [ea]
    exact w.once _ _ h
  · intro j g' hj hd
    obtain ⟨g0, h, ek, ea, ed, _⟩ := hseg j g' hj
    rw [ek, ea]
    exact w.marked _ _ h (by rw [← ed]; exact hd)
  · intro j g' hj
    obtain ⟨g0, h, _, _, _, el⟩ := hseg j g' hj
    rw [el]
    exact w.sizes _ _ h

theorem writeAt_length_inside {d : Bytes} {off : Nat} {b : Bytes} (h : off + b.length ≤ d.length) :
    (writeAt d off b).length = d.length := by
  unfold writeAt zeros
  rw [show off - d.length = 0 by omega, List.replicate_zero, List.append_nil]
  simp
  omega

theorem createKey_eq {s s' : Ipc} {key size : Int} {a : Nat} {v : View} (h : createKey s key size a = .ok (v, s')) :
    ∃ i s1 g, s.shmget key size (size != 0) = .ok (i, s1) ∧ s1.seg i = some g ∧ s1.shmat i a = .ok s' ∧ v.addr = a ∧
      v.len = (if size = 0 then g.bytes.length else size.toNat) := by
  unfold createKey at h
  obtain ⟨⟨i, s1⟩, h0, h1⟩ := Res.bind_eq_ok.1 h
  simp only at h1
  obtain ⟨n, h2, h3⟩ := Res.bind_eq_ok.1 h1
  obtain ⟨s2, h4, h5⟩ := Res.bind_eq_ok.1 h3
  cases h5
  have : ∃ g, s1.seg i = some g := by
    unfold Ipc.shmat at h4
    cases hs : s1.seg i with
    | none => rw [hs] at h4; cases h4
    | some g => exact ⟨g, rfl⟩
  obtain ⟨g, hg⟩ := this
  refine ⟨i, s1, g, h0, hg, h4, rfl, ?_⟩
  split at h2
  · rename_i h0
    rw [if_pos h0]
    unfold Ipc.shmStat at h2
    rw [hg] at h2
    exact (Res.ok.inj h2).symm
  · rename_i h0
    rw [if_neg h0]
    exact (Res.ok.inj h2).symm

theorem createKey_wf {s s' : Ipc} (w : s.WF) {key size : Int} {a : Nat} {v : View} (ha : s.map a = none)
    (h : createKey s key size a = .ok (v, s')) : s'.WF := by
  obtain ⟨i, s1, g, h0, _, h2, _⟩ := createKey_eq h
  have hm : s1.map = s.map := by
    unfold Ipc.shmget Ipc.newseg at h0
    (repeat' split at h0) <;> cases h0 <;> rfl
  exact (w.shmget h0).shmat (by rw [hm]; exact ha) h2

theorem removeKey_wf {s s' : Ipc} (w : s.WF) {key : Int} (h : removeKey s key = .ok s') : s'.WF := by
  unfold removeKey at h
  obtain ⟨⟨i, s1⟩, h0, h1⟩ := Res.bind_eq_ok.1 h
  exact (w.shmget h0).shmRmid h1

theorem store_wf {s s' : Ipc} (w : s.WF) {v : View} {off : Nat} {b : Bytes} (h : s.store v off b = .ok s') : s'.WF := by
  unfold Ipc.store at h
  split at h
  · cases h
  · split at h
    · cases h
    · split at h
      · cases h
      · rename_i g hg
        split at h
        · cases h
        · rename_i h1 _ _ _ _ h2
          cases h
          refine w.setBytes hg (writeAt_length_inside ?_)
          omega

end Verif
