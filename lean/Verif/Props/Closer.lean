import Verif.Props.Accounts
import Verif.Props.WeakRacing
import Verif.Props.PartLoss
/-!
# Closer statements

C147 about caches, C149 about what is remembered, C155 about what may be found after a loss.
-/

namespace Verif
open Spec

/-- **C147, segments, exactly.** The account that made a segment may read and write it, and the superuser; nobody else. -/
theorem C147_segment (a b : Account) :
    ((createKeyPerm a).mayRead b = true ↔ b.uid = 0 ∨ b.uid = a.uid) ∧ ((createKeyPerm a).mayWrite b = true ↔ b.uid = 0 ∨ b.uid = a.uid) := by
  have h : ∀ own grp other : UInt32, (0o600 : UInt32) &&& own ≠ 0 → (0o600 : UInt32) &&& grp = 0 → (0o600 : UInt32) &&& other = 0 →
      ((createKeyPerm a).allows b own grp other = true ↔ b.uid = 0 ∨ b.uid = a.uid) := by
    intro own grp other h1 h2 h3
    simp only [Perm.allows, Perm.bitFor, createKeyPerm, Bool.or_eq_true, beq_iff_eq, bne_iff_ne]
    by_cases e : b.uid = a.uid
    · simp [e, h1]
    · simp only [e, if_false, or_false]
      by_cases hg : b.isIn a.gid = true <;> simp [hg, h2, h3]
  exact ⟨h _ _ _ (by decide) (by decide) (by decide), h _ _ _ (by decide) (by decide) (by decide)⟩

/-- **C147, cache files, exactly.** Who may write to the file of a cache. -/
theorem C147_file (a b : Account) (dir : Perm) :
    (createMmapPerm a dir).mayWrite b = true ↔ b.uid = 0 ∨
      (b.uid = a.uid ∧ a.umask &&& 0o200 ≠ 0o200) ∨
      (b.uid ≠ a.uid ∧ b.isIn (if dir.mode &&& 0o2000 != 0 then dir.group else a.gid) = true ∧ a.umask &&& 0o020 ≠ 0o020) ∨
      (b.uid ≠ a.uid ∧ b.isIn (if dir.mode &&& 0o2000 != 0 then dir.group else a.gid) = false ∧ a.umask &&& 0o002 ≠ 0o002) := by
  have hg : (createMmapPerm a dir).group = if dir.mode &&& 0o2000 != 0 then dir.group else a.gid := rfl
  revert hg
  generalize (if dir.mode &&& 0o2000 != 0 then dir.group else a.gid) = g
  intro hg
  have key : ∀ bit : UInt32, (0o666 : UInt32) &&& bit = bit → (∀ m : UInt32, bit &&& ~~~ m = 0 ↔ m &&& bit = bit) → ((createMmapPerm a dir).mode &&& bit ≠ 0 ↔ a.umask &&& bit ≠ bit) := by
    intro bit hb hm
    unfold createMmapPerm
    rw [made_and, hb, ne_eq, hm]
  have k1 := key 0o200 (by decide) fun m => and_not_zero (i := 7) (by decide) (by decide)
  have k2 := key 0o020 (by decide) fun m => and_not_zero (i := 4) (by decide) (by decide)
  have k3 := key 0o002 (by decide) fun m => and_not_zero (i := 1) (by decide) (by decide)
  simp only [Perm.mayWrite, Perm.allows, Perm.bitFor, Bool.or_eq_true, beq_iff_eq, bne_iff_ne]
  have ho : (createMmapPerm a dir).owner = a.uid := rfl
  rw [ho, hg]
  by_cases e : b.uid = a.uid
  · simp only [e, if_true, k1, not_true, false_and, or_false, true_and, ne_eq]
  · cases hi : b.isIn g <;> simp [e, k2, k3]


/-! ## Late stores -/

/-- Whatever a connector once had may still be loaded. -/
theorem weak_remembers_step (mem : Nat → UInt8) (s : WeakState) (g : Nat) (b : Bool) (age k : Nat) (x : GoString)
    (h : x ∈ s.now.homes k :: s.past k) : x ∈ (s.step mem g b age).1.now.homes k :: (s.step mem g b age).1.past k := by
  unfold WeakState.step
  split
  · exact h
  split
  · exact h
  · exact h
  · show x ∈ _ :: (if _ then _ else _)
    split
    · next e => rw [e]; exact h
    · exact List.mem_cons_of_mem _ h

/-- **C149.** Every home that a connector ever had may be loaded ever after, both words of it: a store is never sure to have been seen. -/
theorem C149_never_forgotten (mem : Nat → UInt8) (s : WeakState) (pre post : List (Nat × Bool × Nat)) (k : Nat) :
    ∃ age, (s.run mem (pre ++ post)).1.word k true age = ((s.run mem pre).1.now.homes k).addr ∧
      (s.run mem (pre ++ post)).1.word k false age = ((s.run mem pre).1.now.homes k).len := by
  have keep : ∀ (post : List (Nat × Bool × Nat)) (s : WeakState) (x : GoString), x ∈ s.now.homes k :: s.past k →
      x ∈ (s.run mem post).1.now.homes k :: (s.run mem post).1.past k := by
    intro post
    induction post with
    | nil => exact fun s x h => h
    | cons y post ih => exact fun s x h => ih _ x (weak_remembers_step mem s y.1 y.2.1 y.2.2 k x h)
  have split : ∀ (pre : List (Nat × Bool × Nat)) (s : WeakState), (s.run mem (pre ++ post)).1 = ((s.run mem pre).1.run mem post).1 := by
    intro pre
    induction pre with
    | nil => exact fun s => rfl
    | cons y pre ih => exact fun s => ih _
  rw [split]
  obtain ⟨i, hi, e⟩ := List.getElem_of_mem (keep post (s.run mem pre).1 _ (List.mem_cons_self ..))
  refine ⟨i, ?_, ?_⟩ <;> simp only [WeakState.word, List.getD_eq_getElem?_getD, List.getElem?_eq_getElem hi, e] <;> rfl

/-- **C149.** A home is remembered when another takes its place, and once. -/
theorem C149_past_changes (mem : Nat → UInt8) (s : WeakState) (sched : List (Nat × Bool × Nat)) (k : Nat)
    (h : ∀ (i : Nat) x, (s.now.homes k :: s.past k)[i]? = some x → (s.now.homes k :: s.past k)[i + 1]? ≠ some x) (i : Nat) (x : GoString)
    (hx : ((s.run mem sched).1.now.homes k :: (s.run mem sched).1.past k)[i]? = some x) :
    ((s.run mem sched).1.now.homes k :: (s.run mem sched).1.past k)[i + 1]? ≠ some x := by
  induction sched generalizing s with
  | nil => exact h i x hx
  | cons y sched ih =>
    refine ih (s.step mem y.1 y.2.1 y.2.2).1 (fun i x => ?_) hx
    unfold WeakState.step
    split
    · exact h i x
    split
    · exact h i x
    · exact h i x
    · show (_ :: (if _ then _ else _) : List GoString)[i]? = _ → (_ :: (if _ then _ else _) : List GoString)[i + 1]? ≠ _
      split
      · next e => rw [e]; exact h i x
      · next e =>
        cases i with
        | zero =>
          intro h1 h2
          exact e (Option.some.inj (h1.trans h2.symm))
        | succ i => exact h i x

/-- **C155, clients.** Where a file had not been before, NUL bytes may be found for what was written at its end; only there. -/
theorem C155_clients_nul (db : DB) (c : Codec) (s : House) (sched : List (Nat × Nat)) (M : FS) (l : Path) (d y z : Bytes)
    (hl : l ≠ []) (hM : s.Moment db c sched M) (h0 : s.fs.get l = some (.file d)) (h1 : M.get l = some (.file (d ++ y)))
    (hz : z.length = y.length) (hy : ∀ i : Nat, i < z.length → z[i]? = some 0 ∨ z[i]? = y[i]?) :
    s.PartLoss db c sched (M.set l (.file (d ++ z))) := by
  intro l'
  by_cases e : l' = l
  · subst e
    refine .inr ⟨d ++ z, d ++ y, M, get_set_self hl _, hM, h1, by simp [hz], fun i b hb => ?_⟩
    by_cases hi : i < d.length
    · rw [List.getElem?_append_left hi] at hb
      exact .inr ⟨M, d ++ y, hM, h1, by rw [List.getElem?_append_left hi]; exact hb⟩
    · rw [List.getElem?_append_right (by omega)] at hb
      have hlt : i - d.length < z.length := by
        by_cases hlt : i - d.length < z.length
        · exact hlt
        · rw [List.getElem?_eq_none (by omega)] at hb; cases hb
      rcases hy _ hlt with h | h
      · rw [hb] at h
        cases h
        exact .inl ⟨rfl, fun d' hd' => (by rw [h0] at hd'; cases hd'; omega)⟩
      · exact .inr ⟨M, d ++ y, hM, h1, by rw [List.getElem?_append_right (by omega), ← h]; exact hb⟩
  · exact .inl ⟨M, hM, get_set_ne (Ne.symm e) _⟩

/-- C147_file, C147_segment: without a mask everybody may write to the file of a cache, and nobody else to a segment. -/
example : (createMmapPerm ⟨1000, 1000, [], 0⟩ ⟨0, 0, 0o1777⟩).mayWrite ⟨1001, 1001, [], 0o022⟩ = true ∧
    (createKeyPerm ⟨1000, 1000, [], 0⟩).mayWrite ⟨1001, 1000, [1000], 0o022⟩ = false ∧
    (createKeyPerm ⟨1000, 7, [], 0⟩).mayRead ⟨1000, 8, [], 0o022⟩ = true := by decide

/-- C149_never_forgotten: the home of before, once an `Open` has returned. -/
example : ∃ age, weakAfter.word 0 true age = (raceBeside.homes 0).addr ∧ weakAfter.word 0 false age = (raceBeside.homes 0).len :=
  C149_never_forgotten raceMem ⟨raceBeside, fun _ => []⟩ [] [(0, true, 0), (0, true, 0), (0, true, 0)] 0

/-- C149_past_changes: a connector with nothing before. -/
example (i : Nat) (x : GoString) (h : (weakAfter.now.homes 0 :: weakAfter.past 0)[i]? = some x) : (weakAfter.now.homes 0 :: weakAfter.past 0)[i + 1]? ≠ some x :=
  C149_past_changes raceMem ⟨raceBeside, fun _ => []⟩ _ 0 (fun i x h => by cases i <;> simp_all) i x h

/-- C155_clients_nul: both records lost in the middle. -/
example : (opening clearListFS twoAdders).PartLoss sampleDB asciiCodec [(0, 0), (0, 0), (1, 0), (1, 0)]
    ((((opening clearListFS twoAdders).run sampleDB asciiCodec ([(0, 0), (0, 0), (1, 0), (1, 0)].take 4)).1.outage [(1, 20), (0, 128)]).set
      (at_ sampleDB (.articleIndex (ascii "S"))) (.file (List.replicate 148 0))) :=
  C155_clients_nul sampleDB asciiCodec _ _ _ (at_ sampleDB (.articleIndex (ascii "S"))) []
    ((fileAt (((opening clearListFS twoAdders).run sampleDB asciiCodec ([(0, 0), (0, 0), (1, 0), (1, 0)].take 4)).1.outage [(1, 20), (0, 128)])
      (at_ sampleDB (.articleIndex (ascii "S")))).getD []) (List.replicate 148 0) (by decide +kernel) ⟨4, _, rfl⟩ (by decide +kernel) (by decide +kernel)
    (by decide +kernel) (fun i hi => .inl (by rw [List.getElem?_replicate, if_pos (by simpa using hi)]))

end Verif
