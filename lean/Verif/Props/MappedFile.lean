import Verif.Props.SharedMem
/-!
# C89: mapped files
-/

namespace Verif

namespace Spec

/-- A call of any process. -/
inductive MmapOp where
  | create (path : Bytes) (size : Int) (a : Nat)
  | open (path : Bytes) (a : Nat)
  | remove (path : Bytes)
  | close (v : View)
  | store (v : View) (off : Nat) (b : Bytes)
  deriving DecidableEq

/-- The files after a call. `CreateMmap` changes them even when it fails. -/
def mmapStep (s : MFS) : MmapOp → MFS
  | .create path size a => if s.map a = none then (createMmap s path size a).2 else s
  | .open path a => if s.map a = none then (openMmap s path a).2 else s
  | .remove path => match removeMmap s path with | .ok t => t | _ => s
  | .close v => match closeMmap s v with | .ok t => t | _ => s
  | .store v off b => match s.store v off b with | .ok t => t | _ => s

/-- No files. -/
def noFiles : MFS := ⟨fun _ => none, fun _ => [], 0, fun _ => none⟩

def MmapReachable (s : MFS) : Prop := ∃ ops, s = List.foldl mmapStep noFiles ops

/-- The content of a file. -/
def content (s : MFS) (path : Bytes) : Option Bytes := (s.names path).map s.inode

end Spec
open Spec

/-! ## Lemmas -/

/-- The tables agree with one another; there are no links. -/
structure MFS.WF (s : MFS) : Prop where
  names : ∀ p i, s.names p = some i → i < s.next
  inj : ∀ p q i, s.names p = some i → s.names q = some i → p = q
  maps : ∀ a i n, s.map a = some (i, n) → i < s.next

theorem MFS.WF.mapFile {s : MFS} (w : s.WF) {i : Nat} (hi : i < s.next) (a : Nat) : (s.mapFile i a).2.WF := by
  unfold MFS.mapFile
  split
  · exact w
  · constructor
    · exact w.names
    · exact w.inj
    · intro b j n hb
      simp only at hb
      by_cases e : b = a
      · subst e
        rw [setAt_same] at hb
        cases hb
        exact hi
      · rw [setAt_ne _ _ e] at hb
        exact w.maps b j n hb

/-- `os.Create`: the inode and the files afterwards. -/
theorem createMmap_eq (s : MFS) (path : Bytes) (size : Int) (a : Nat) :
    createMmap s path size a =
      (let i := (s.names path).getD s.next
       let s1 : MFS := { names := fun p => if p = path then some i else s.names p
                         inode := fun j => if j = i then [] else s.inode j
                         next := if s.names path = none then s.next + 1 else s.next
                         map := s.map }
       if size < 0 then (.err "truncate error", s1)
       else MFS.mapFile { s1 with inode := fun j => if j = i then zeros size.toNat else s1.inode j } i a) := by
  unfold createMmap
  cases h : s.names path with
  | none => simp
  | some i =>
    have e : (fun p => if p = path then some i else s.names p) = s.names := by
      funext p
      by_cases hp : p = path
      · rw [if_pos hp, hp, h]
      · rw [if_neg hp]
    simp only [Option.getD_some]
    rw [e]
    simp

theorem createMmap_wf {s : MFS} (w : s.WF) (path : Bytes) (size : Int) (a : Nat) : (createMmap s path size a).2.WF := by
  rw [createMmap_eq]
  have hi : (s.names path).getD s.next < (if s.names path = none then s.next + 1 else s.next) := by
    cases h : s.names path with
    | none => simp
    | some i => simpa using w.names path i h
  have hle : s.next ≤ (if s.names path = none then s.next + 1 else s.next) := by split <;> omega
  have w1 : ∀ f, (MFS.mk (fun p => if p = path then some ((s.names path).getD s.next) else s.names p) f
      (if s.names path = none then s.next + 1 else s.next) s.map).WF := by
    intro f
    constructor
    · intro p i h
      simp only at h ⊢
      by_cases e : p = path
      · rw [if_pos e] at h
        cases h
        exact hi
      · rw [if_neg e] at h
        have := w.names p i h
        omega
    · intro p q i hp hq
      simp only at hp hq
      have other : ∀ r, r ≠ path → s.names r = some i → (s.names path).getD s.next ≠ i := by
        intro r hr h e
        cases h' : s.names path with
        | none =>
          rw [h'] at e
          have := w.names r i h
          simp only [Option.getD_none] at e
          omega
        | some j =>
          rw [h'] at e
          simp only [Option.getD_some] at e
          subst e
          exact hr (w.inj r path j h h')
      by_cases e : p = path <;> by_cases e' : q = path
      · rw [e, e']
      · rw [if_pos e] at hp
        rw [if_neg e'] at hq
        exact absurd (Option.some.inj hp) (other q e' hq)
      · rw [if_neg e] at hp
        rw [if_pos e'] at hq
        exact absurd (Option.some.inj hq) (other p e hp)
      · rw [if_neg e] at hp
        rw [if_neg e'] at hq
        exact w.inj p q i hp hq
    · intro b j n hb
      simp only at hb ⊢
      have := w.maps b j n hb
      omega
  simp only
  split
  · exact w1 _
  · exact (w1 _).mapFile hi a

theorem mmapStep_wf {s : MFS} (w : s.WF) (op : MmapOp) : (mmapStep s op).WF := by
  cases op with
  | create path size a =>
    simp only [mmapStep]
    split
    · exact createMmap_wf w path size a
    · exact w
  | «open» path a =>
    simp only [mmapStep]
    split
    · unfold openMmap
      split
      · exact w
      · rename_i i hi
        exact w.mapFile (w.names path i hi) a
    · exact w
  | remove path =>
    simp only [mmapStep]
    split
    · rename_i t h
      unfold removeMmap at h
      split at h
      · cases h
      · cases h
        refine ⟨?_, ?_, w.maps⟩
        · intro p i h
          simp only at h
          split at h
          · cases h
          · exact w.names p i h
        · intro p q i hp hq
          simp only at hp hq
          split at hp
          · cases hp
          · split at hq
            · cases hq
            · exact w.inj p q i hp hq
    · exact w
  | close v =>
    simp only [mmapStep]
    split
    · rename_i t h
      unfold closeMmap at h
      split at h
      · cases h
      · split at h
        · cases h
          refine ⟨w.names, w.inj, ?_⟩
          intro b j n hb
          simp only at hb
          by_cases e : b = v.addr
          · subst e
            rw [setAt_same] at hb
            cases hb
          · rw [setAt_ne _ _ e] at hb
            exact w.maps b j n hb
        · cases h
    · exact w
  | store v off b =>
    simp only [mmapStep]
    split
    · rename_i t h
      unfold MFS.store at h
      (repeat' split at h) <;> cases h
      exact ⟨w.names, w.inj, w.maps⟩
    · exact w

theorem Spec.MmapReachable.wf {s : MFS} (h : MmapReachable s) : s.WF := by
  obtain ⟨ops, rfl⟩ := h
  have : ∀ (t : MFS), t.WF → (List.foldl mmapStep t ops).WF := by
    induction ops with
    | nil => intro t h; exact h
    | cons op ops ih => intro t h; exact ih _ (mmapStep_wf h op)
  exact this _ (by constructor <;> simp [noFiles])

theorem Spec.MmapReachable.step {s : MFS} (h : MmapReachable s) (op : MmapOp) : MmapReachable (mmapStep s op) := by
  obtain ⟨ops, rfl⟩ := h
  exact ⟨ops ++ [op], by rw [List.foldl_append]; rfl⟩

theorem pages_ge (n : Nat) : n ≤ pages n := by unfold pages; omega

theorem mapFile_view {s : MFS} {i a : Nat} (h : (s.inode i).length ≠ 0) :
    (s.mapFile i a).1 = .ok ⟨a, (s.inode i).length⟩ ∧ (s.mapFile i a).2.view ⟨a, (s.inode i).length⟩ = .ok (s.inode i) := by
  unfold MFS.mapFile
  rw [if_neg h]
  refine ⟨rfl, ?_⟩
  unfold MFS.view
  simp only [setAt_same]
  have := pages_ge (s.inode i).length
  rw [if_neg (by omega), List.take_append_of_le_length (Nat.le_refl _), List.take_length]

theorem mapFile_rest (s : MFS) (i b : Nat) : (∀ a, a ≠ b → (s.mapFile i b).2.map a = s.map a) ∧
    (s.mapFile i b).2.inode = s.inode ∧ (s.mapFile i b).2.names = s.names ∧ (s.mapFile i b).2.next = s.next := by
  unfold MFS.mapFile
  split
  · exact ⟨fun _ _ => rfl, rfl, rfl, rfl⟩
  · exact ⟨fun a h => setAt_ne _ _ h, rfl, rfl, rfl⟩

/-! ## C89 -/

/-- **C89**, opening: an existing file that is not empty is shown in full; anything else is an error that changes nothing. -/
theorem C89_open_exact (s : MFS) (path : Bytes) (a : Nat) :
    match content s path with
    | some d => if d ≠ [] then
        (openMmap s path a).1 = .ok ⟨a, d.length⟩ ∧ (openMmap s path a).2.view ⟨a, d.length⟩ = .ok d ∧
          ∀ p, content (openMmap s path a).2 p = content s p
      else (∃ e, (openMmap s path a).1 = .err e) ∧ (openMmap s path a).2 = s
    | none => (∃ e, (openMmap s path a).1 = .err e) ∧ (openMmap s path a).2 = s := by
  unfold content openMmap
  cases h : s.names path with
  | none => exact ⟨⟨_, rfl⟩, rfl⟩
  | some i =>
    simp only [Option.map_some]
    split
    · rename_i hne
      have hl : (s.inode i).length ≠ 0 := fun h => hne (List.eq_nil_of_length_eq_zero h)
      obtain ⟨h1, h2⟩ := mapFile_view (a := a) hl
      refine ⟨h1, h2, fun p => ?_⟩
      unfold MFS.mapFile
      rw [if_neg hl]
    · rename_i hne
      have hnil : s.inode i = [] := Classical.not_not.1 hne
      unfold MFS.mapFile
      rw [if_pos (by rw [hnil]; rfl)]
      exact ⟨⟨_, rfl⟩, rfl⟩

/-- **C89**, creating: with a positive size the file holds that many zeros, whatever it held; with another size the call
fails, and the file is empty. No other file changes. -/
theorem C89_create_exact (s : MFS) (hr : MmapReachable s) (path : Bytes) (size : Int) (a : Nat) :
    (∀ p, p ≠ path → content (createMmap s path size a).2 p = content s p) ∧
    if 0 < size then
      (createMmap s path size a).1 = .ok ⟨a, size.toNat⟩ ∧
      (createMmap s path size a).2.view ⟨a, size.toNat⟩ = .ok (List.replicate size.toNat 0) ∧
      content (createMmap s path size a).2 path = some (List.replicate size.toNat 0)
    else (∃ e, (createMmap s path size a).1 = .err e) ∧ content (createMmap s path size a).2 path = some [] := by
  have w := hr.wf
  rw [createMmap_eq]
  generalize hi : (s.names path).getD s.next = i
  have other : ∀ p j, p ≠ path → s.names p = some j → j ≠ i := by
    rintro p j hp h rfl
    cases h' : s.names path with
    | none =>
      rw [h'] at hi
      have := w.names p j h
      simp only [Option.getD_none] at hi
      omega
    | some k =>
      rw [h'] at hi
      simp only [Option.getD_some] at hi
      subst hi
      exact hp (w.inj p path k h h')
  simp only
  by_cases hneg : size < 0
  · rw [if_pos hneg]
    refine ⟨?_, ?_⟩
    · intro p hp
      unfold content
      simp only [if_neg hp]
      cases h : s.names p with
      | none => rfl
      | some j => simp only [Option.map_some]; rw [if_neg (other p j hp h)]
    · rw [if_neg (by omega)]
      refine ⟨⟨"truncate error", rfl⟩, ?_⟩
      unfold content
      simp
  · rw [if_neg hneg]
    generalize hs1 : (MFS.mk (fun p => if p = path then some i else s.names p)
      (fun j => if j = i then zeros size.toNat else if j = i then [] else s.inode j)
      (if s.names path = none then s.next + 1 else s.next) s.map) = s1
    have hin : s1.inode i = List.replicate size.toNat 0 := by rw [← hs1]; simp [zeros]
    have hnm : s1.names path = some i := by rw [← hs1]; simp
    have hc : ∀ p, content (s1.mapFile i a).2 p = content s1 p := by
      intro p
      unfold MFS.mapFile
      split <;> rfl
    refine ⟨?_, ?_⟩
    · intro p hp
      rw [hc, ← hs1]
      unfold content
      simp only [if_neg hp]
      cases h : s.names p with
      | none => rfl
      | some j =>
        have := other p j hp h
        simp only [Option.map_some]
        rw [if_neg this, if_neg this]
    · have hcp : content (s1.mapFile i a).2 path = some (List.replicate size.toNat 0) := by
        rw [hc]
        unfold content
        rw [hnm, Option.map_some, hin]
      split
      · rename_i hpos
        have hl : (s1.inode i).length ≠ 0 := by rw [hin, List.length_replicate]; omega
        obtain ⟨h1, h2⟩ := mapFile_view (a := a) hl
        rw [hin, List.length_replicate] at h1 h2
        exact ⟨h1, h2, hcp⟩
      · have h0 : size.toNat = 0 := by omega
        refine ⟨⟨"mmap error", ?_⟩, ?_⟩
        · unfold MFS.mapFile
          rw [if_pos (by rw [hin, h0]; rfl)]
        · rw [hcp, h0]
          rfl

/-- The claim: creating a cache that fails leaves the files as they were. -/
def Spec.FailedCreateKeeps : Prop :=
  ∀ s, MmapReachable s → ∀ path size a e, (createMmap s path size a).1 = .err e →
    ∀ p, content (createMmap s path size a).2 p = content s p

/-- **C89** fails: a size that is refused destroys the file. -/
theorem C89_failed_create_refuted : ¬ Spec.FailedCreateKeeps := by
  intro h
  have hr : MmapReachable (mmapStep noFiles (.create (ascii "bbs.shm") 4 0)) := ⟨[.create (ascii "bbs.shm") 4 0], rfl⟩
  have := h _ hr (ascii "bbs.shm") (-1) 1 "truncate error" (by decide) (ascii "bbs.shm")
  revert this
  decide

/-- **C89**, storing: the file and every view of it have the stored bytes at their place, everything else is as before. -/
theorem C89_store_exact (s t : MFS) (v : View) (off : Nat) (b : Bytes) (h : s.store v off b = .ok t) :
    ∃ i n, s.map v.addr = some (i, n) ∧ t.names = s.names ∧ t.map = s.map ∧ (t.inode i).length = (s.inode i).length ∧
      (∀ j, j ≠ i → t.inode j = s.inode j) ∧
      ∀ j, (t.inode i)[j]? = if off ≤ j ∧ j < off + b.length then b[j - off]? else (s.inode i)[j]? := by
  unfold MFS.store at h
  split at h
  · cases h
  · split at h
    · cases h
    · rename_i i n hm
      split at h
      · cases h
      · rename_i hl
        cases h
        refine ⟨i, n, hm, rfl, rfl, ?_, ?_, ?_⟩
        · simp only [if_true]
          exact writeAt_length_inside (by omega)
        · intro j hj
          simp only [if_neg hj]
        · intro j
          simp only [if_true]
          rw [writeAt_getElem?]
          by_cases hc : off ≤ j ∧ j < off + b.length
          · rw [if_pos hc, if_pos hc]
          · rw [if_neg hc, if_neg hc]
            by_cases hj : j < (s.inode i).length
            · rw [if_pos hj]
            · rw [if_neg hj, if_neg (by omega), List.getElem?_eq_none (by omega)]

/-- **C89**: a view shows the file that it maps (as long as the file is not shortened). -/
theorem C89_view_exact (s : MFS) (v : View) (i n : Nat) (hm : s.map v.addr = some (i, n)) (hl : v.len ≤ (s.inode i).length) :
    s.view v = .ok ((s.inode i).take v.len) := by
  unfold MFS.view
  rw [hm]
  simp only
  have := pages_ge (s.inode i).length
  rw [if_neg (by omega), List.take_append_of_le_length hl]

/-- **C89**, every access: a view shows something exactly while it is mapped and no page of it lies beyond the end of the file, and an
access at any other time is fatal; storing inside an open view and the file works. Neither ever returns an error. -/
theorem C89_access_exact (s : MFS) (v : View) :
    ((∃ i n, s.map v.addr = some (i, n) ∧ v.len ≤ ((s.inode i).length + 4095) / 4096 * 4096 ∧
        s.view v = .ok ((s.inode i ++ List.replicate v.len 0).take v.len)) ∨
      ((∀ i n, s.map v.addr = some (i, n) → ((s.inode i).length + 4095) / 4096 * 4096 < v.len) ∧ s.view v = .panic)) ∧
    (∀ off b, ((∃ i n, s.map v.addr = some (i, n) ∧ off + b.length ≤ (s.inode i).length) ∧ off + b.length ≤ v.len →
        ∃ t, s.store v off b = .ok t) ∧
      (¬ ((∃ i n, s.map v.addr = some (i, n) ∧ off + b.length ≤ (s.inode i).length) ∧ off + b.length ≤ v.len) →
        s.store v off b = .panic)) := by
  unfold MFS.view MFS.store pages zeros
  cases s.map v.addr with
  | none => simp
  | some p =>
    obtain ⟨i, n⟩ := p
    simp only
    constructor
    · by_cases hl : ((s.inode i).length + 4095) / 4096 * 4096 < v.len
      · right
        rw [if_pos hl]
        refine ⟨?_, rfl⟩
        rintro _ _ h
        cases h
        exact hl
      · left
        rw [if_neg hl]
        exact ⟨i, n, rfl, by omega, rfl⟩
    · intro off b
      constructor
      · rintro ⟨⟨_, _, h, h1⟩, h2⟩
        cases h
        rw [if_neg (by omega), if_neg (by omega)]
        exact ⟨_, rfl⟩
      · intro h
        by_cases h2 : v.len < off + b.length
        · rw [if_pos h2]
        · rw [if_neg h2, if_pos]
          exact Classical.byContradiction fun hn => h ⟨⟨i, n, rfl, by omega⟩, by omega⟩

/-- **C89**, closing: a view that is open is closed, so that it cannot be used any more, and nothing else changes; closing anything else (a view that
is closed already, or one of another length) is an error. -/
theorem C89_close_exact (s : MFS) (v : View) :
    ((∃ i, s.map v.addr = some (i, v.len)) ∧ ∃ t, closeMmap s v = .ok t ∧ t.view v = .panic ∧ (∀ p, content t p = content s p) ∧
        (∀ w, w.addr ≠ v.addr → t.view w = s.view w) ∧ closeMmap t v = .err "invalid argument") ∨
      ((∀ i, s.map v.addr ≠ some (i, v.len)) ∧ closeMmap s v = .err "invalid argument") := by
  unfold closeMmap
  cases h : s.map v.addr with
  | none => exact Or.inr ⟨fun i e => (by cases e), rfl⟩
  | some p =>
    obtain ⟨i, n⟩ := p
    simp only
    by_cases hn : n = v.len
    · left
      rw [if_pos hn]
      refine ⟨⟨i, by rw [hn]⟩, _, rfl, ?_, fun _ => rfl, ?_, ?_⟩
      · unfold MFS.view
        simp only [setAt_same]
      · intro w hw
        unfold MFS.view
        simp only [setAt_ne _ _ hw]
      · simp only [setAt_same]
    · right
      rw [if_neg hn]
      exact ⟨fun i' e => hn (by cases e; rfl), rfl⟩

/-- One call leaves a mapped file as long as it was, unless it creates that file anew. -/
theorem mapped_step {s : MFS} {path : Bytes} {i n a : Nat} (hm : s.map a = some (i, n))
    (hp : ∀ p, s.names p = some i → p = path) (hi : i < s.next) (op : MmapOp) (h1 : ∀ size b, op ≠ .create path size b)
    (h2 : ∀ v, op = .close v → v.addr ≠ a) :
    (mmapStep s op).map a = some (i, n) ∧ ((mmapStep s op).inode i).length = (s.inode i).length ∧
      (∀ p, (mmapStep s op).names p = some i → p = path) ∧ i < (mmapStep s op).next := by
  cases op with
  | create q size b =>
    simp only [mmapStep]
    split
    · rename_i hb
      have hne : a ≠ b := by rintro rfl; rw [hm] at hb; cases hb
      have hq : q ≠ path := by rintro rfl; exact h1 size b rfl
      have hk : (s.names q).getD s.next ≠ i := by
        cases h : s.names q with
        | none => simp only [Option.getD_none]; omega
        | some k =>
          simp only [Option.getD_some]
          rintro rfl
          exact hq (hp q h)
      rw [createMmap_eq]
      generalize (s.names q).getD s.next = k at hk
      simp only
      have hnx : i < (if s.names q = none then s.next + 1 else s.next) := by split <;> omega
      have hnm : ∀ p, (if p = q then some k else s.names p) = some i → p = path := by
        intro p h
        split at h
        · exact absurd (Option.some.inj h) hk
        · exact hp p h
      split
      · exact ⟨hm, by simp [Ne.symm hk], hnm, hnx⟩
      · obtain ⟨m1, m2, m3, m4⟩ := mapFile_rest (MFS.mk (fun p => if p = q then some k else s.names p)
          (fun j => if j = k then zeros size.toNat else if j = k then [] else s.inode j)
          (if s.names q = none then s.next + 1 else s.next) s.map) k b
        rw [m1 a hne, m2, m3, m4]
        exact ⟨hm, by simp [Ne.symm hk], hnm, hnx⟩
    · exact ⟨hm, rfl, hp, hi⟩
  | «open» q b =>
    simp only [mmapStep]
    split
    · rename_i hb
      have hne : a ≠ b := by rintro rfl; rw [hm] at hb; cases hb
      unfold openMmap
      split
      · exact ⟨hm, rfl, hp, hi⟩
      · unfold MFS.mapFile
        split
        · exact ⟨hm, rfl, hp, hi⟩
        · exact ⟨by simp only; rw [setAt_ne _ _ hne]; exact hm, rfl, hp, hi⟩
    · exact ⟨hm, rfl, hp, hi⟩
  | remove q =>
    simp only [mmapStep]
    split
    · rename_i t h
      unfold removeMmap at h
      split at h
      · cases h
      · cases h
        refine ⟨hm, rfl, ?_, hi⟩
        intro p h
        simp only at h
        split at h
        · cases h
        · exact hp p h
    · exact ⟨hm, rfl, hp, hi⟩
  | close v =>
    have hne := h2 v rfl
    simp only [mmapStep]
    split
    · rename_i t h
      unfold closeMmap at h
      split at h
      · cases h
      · split at h
        · cases h
          exact ⟨by simp only; rw [setAt_ne _ _ (Ne.symm hne)]; exact hm, rfl, hp, hi⟩
        · cases h
    · exact ⟨hm, rfl, hp, hi⟩
  | store v off b =>
    simp only [mmapStep]
    split
    · rename_i t h
      obtain ⟨k, m, e1, e2, e3, e4, e5, -⟩ := C89_store_exact s t v off b h
      have hnx : t.next = s.next := by
        unfold MFS.store at h
        (repeat' split at h) <;> cases h
        rfl
      refine ⟨by rw [e3]; exact hm, ?_, by rw [e2]; exact hp, by rw [hnx]; exact hi⟩
      by_cases e : i = k
      · rw [e, e4]
      · rw [e5 i e]
    · exact ⟨hm, rfl, hp, hi⟩

/-- The claim: an open view can be read until it is closed. -/
def Spec.MappedUntilClosed : Prop :=
  ∀ s, MmapReachable s → ∀ v d, s.view v = .ok d → ∀ ops, (∀ x, MmapOp.close x ∈ ops → x.addr ≠ v.addr) →
    ∃ d', (List.foldl mmapStep s ops).view v = .ok d'

/-- **C89** fails: whoever creates the file again with another size makes every access to the old view fatal. -/
theorem C89_until_closed_refuted : ¬ Spec.MappedUntilClosed := by
  intro h
  have hr : MmapReachable (mmapStep noFiles (.create (ascii "bbs.shm") 4 0)) := ⟨[.create (ascii "bbs.shm") 4 0], rfl⟩
  obtain ⟨d', hd⟩ := h _ hr ⟨0, 4⟩ [0, 0, 0, 0] (by decide) [.create (ascii "bbs.shm") 0 1] (by simp)
  have e : (List.foldl mmapStep (mmapStep noFiles (.create (ascii "bbs.shm") 4 0)) [.create (ascii "bbs.shm") 0 1]).view ⟨0, 4⟩ =
      .panic := by decide
  rw [e] at hd
  cases hd

/-- **C89** (partial: nobody creates the file again): a view can be read in full until it is closed, even when the file is
removed. -/
theorem C89_until_closed_partial (s : MFS) (hr : MmapReachable s) (path : Bytes) (i n : Nat) (v : View)
    (hp : s.names path = some i) (hm : s.map v.addr = some (i, n)) (hl : v.len ≤ (s.inode i).length) (ops : List MmapOp)
    (h1 : ∀ size b, MmapOp.create path size b ∉ ops) (h2 : ∀ x, MmapOp.close x ∈ ops → x.addr ≠ v.addr) :
    ∃ d, (List.foldl mmapStep s ops).view v = .ok d ∧ d.length = v.len := by
  have w := hr.wf
  have key : ∀ (t : MFS), t.WF → t.map v.addr = some (i, n) → (∀ p, t.names p = some i → p = path) → i < t.next →
      v.len ≤ (t.inode i).length → (List.foldl mmapStep t ops).map v.addr = some (i, n) ∧
        v.len ≤ ((List.foldl mmapStep t ops).inode i).length := by
    induction ops with
    | nil => intro t _ q1 _ _ q2; exact ⟨q1, q2⟩
    | cons op ops ih =>
      intro t wt q1 q2 q3 q4
      obtain ⟨a1, a2, a3, a4⟩ := mapped_step q1 q2 q3 op (fun size b e => h1 size b (by rw [← e]; exact List.mem_cons_self))
        (fun x e => h2 x (by rw [← e]; exact List.mem_cons_self))
      exact ih (fun size b hc => h1 size b (List.mem_cons_of_mem _ hc)) (fun x hx => h2 x (List.mem_cons_of_mem _ hx)) _
        (mmapStep_wf wt op) a1 a3 a4 (by rw [a2]; exact q4)
  obtain ⟨k1, k2⟩ := key s w hm (fun p h => w.inj p path i h hp) (w.names path i hp) hl
  refine ⟨_, C89_view_exact _ v i n k1 k2, ?_⟩
  rw [List.length_take]
  omega

/-- **C89**, removing: the file cannot be opened afterwards; what is open shows what it showed. -/
theorem C89_remove_exact (s : MFS) (path : Bytes) :
    match content s path with
    | some _ => ∃ t, removeMmap s path = .ok t ∧ content t path = none ∧ (∀ p, p ≠ path → content t p = content s p) ∧
        ∀ v, t.view v = s.view v
    | none => ∃ e, removeMmap s path = .err e := by
  unfold content removeMmap
  cases h : s.names path with
  | none => exact ⟨_, rfl⟩
  | some i =>
    refine ⟨_, rfl, by simp, ?_, fun v => rfl⟩
    intro p hp
    simp only [if_neg hp]

/-- **C89**: the content of a file outlasts its views: it changes only by stores, and by creating or removing the file. -/
theorem C89_persists (s : MFS) (hr : MmapReachable s) (path : Bytes) (op : MmapOp)
    (h1 : ∀ size b, op ≠ .create path size b) (h2 : op ≠ .remove path) (h3 : ∀ v off b, op ≠ .store v off b) :
    content (mmapStep s op) path = content s path := by
  cases op with
  | create q size b =>
    simp only [mmapStep]
    split
    · exact (C89_create_exact s hr q size b).1 path (fun e => h1 size b (by rw [e]))
    · rfl
  | «open» q b =>
    simp only [mmapStep]
    split
    · unfold openMmap MFS.mapFile
      split
      · rfl
      · split <;> rfl
    · rfl
  | remove q =>
    simp only [mmapStep]
    split
    · rename_i t h
      unfold removeMmap at h
      split at h
      · cases h
      · cases h
        unfold content
        simp only
        rw [if_neg (fun e => h2 (by rw [e]))]
    · rfl
  | close v =>
    simp only [mmapStep]
    split
    · rename_i t h
      unfold closeMmap at h
      (repeat' split at h) <;> cases h
      rfl
    · rfl
  | store v off b => exact absurd rfl (h3 v off b)

example : ∃ t, closeMmap (Spec.mmapStep Spec.noFiles (.create (ascii "bbs.shm") 4 0)) ⟨0, 4⟩ = .ok t := ⟨_, rfl⟩

/-- A file that two processes have open, into which one has stored. -/
def Spec.twoMaps : MFS := List.foldl mmapStep noFiles
  [.create (ascii "bbs.shm") 4 0, .open (ascii "bbs.shm") 1, .store ⟨0, 4⟩ 1 [42], .close ⟨0, 4⟩]

example : MmapReachable twoMaps ∧ twoMaps.names (ascii "bbs.shm") = some 0 ∧ twoMaps.map 1 = some (0, 4) ∧
    twoMaps.view ⟨1, 4⟩ = .ok [0, 42, 0, 0] ∧ content twoMaps (ascii "bbs.shm") = some [0, 42, 0, 0] :=
  ⟨⟨_, rfl⟩, by decide⟩

end Verif
