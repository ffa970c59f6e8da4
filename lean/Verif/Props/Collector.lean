import Verif.Model.Collector
import Verif.Props.CacheOpen
/-!
# C138: open caches and the garbage collector
-/

namespace Verif

namespace Spec

/-- What happens in a process, and around it. -/
inductive ProcAct where
  | open (conn : Bytes) (a : Nat)
  | close (h : Nat)
  | drop (h : Nat)
  | collect (h : Nat)
  | shm (op : ShmOp)
  | mmap (op : MmapOp)
  deriving DecidableEq

/-- An open cache of the process has its buffer at this address. -/
def ownsShm (p : Proc) (a : Nat) : Bool := p.handles.any fun x => x.finalizer && match x.buf with
  | .shm v => v.addr == a
  | .mmap _ => false

@[inherit_doc ownsShm] def ownsMmap (p : Proc) (a : Nat) : Bool := p.handles.any fun x => x.finalizer && match x.buf with
  | .shm _ => false
  | .mmap v => v.addr == a

/-- One step. The program opens a cache (at a free address), closes one it still refers to, or uses one for the last time; the runtime collects;
any process creates, removes, stores, and closes what is not an open cache of this process. What cannot happen changes nothing. -/
def procStep (p : Proc) : ProcAct → Proc
  | .open conn a => if p.mem.ipc.map a = none ∧ p.mem.mfs.map a = none then (match p.open conn a with | .ok q => q | _ => p) else p
  | .close h => if (p.handles[h]?.map (·.live)) = some true then (p.close h).2 else p
  | .drop h => p.drop h
  | .collect h => p.collect h
  | .shm op => match op with
    | .close v => if ownsShm p v.addr then p else { p with mem := { p.mem with ipc := shmStep p.mem.ipc (.close v) } }
    | op => { p with mem := { p.mem with ipc := shmStep p.mem.ipc op } }
  | .mmap op => match op with
    | .close v => if ownsMmap p v.addr then p else { p with mem := { p.mem with mfs := mmapStep p.mem.mfs (.close v) } }
    | op => { p with mem := { p.mem with mfs := mmapStep p.mem.mfs op } }

/-- Some steps. -/
def procRun (p : Proc) (acts : List ProcAct) : Proc := acts.foldl procStep p

/-- A process that has opened nothing yet, in a system that others have used. -/
def Fresh (p : Proc) : Prop := p.handles = [] ∧ ShmReachable p.mem.ipc ∧ MmapReachable p.mem.mfs

/-- The program closes no cache twice. -/
def ClosesOnce (acts : List ProcAct) : Prop := ∀ h, acts.count (.close h) ≤ 1

end Spec
open Spec

/-! ## Lemmas -/

/-- A buffer is where its cache was opened: closing it works. -/
def Mem.Has (m : Mem) : Buf → Nat → Prop
  | .shm v, i => m.ipc.map v.addr = some i
  | .mmap v, i => m.mfs.map v.addr = some (i, v.len)

/-- Two buffers at different places. -/
def Apart : Buf → Buf → Prop
  | .shm v, .shm w => v.addr ≠ w.addr
  | .mmap v, .mmap w => v.addr ≠ w.addr
  | _, _ => True

theorem Mem.Has.behind {m : Mem} {b : Buf} {i : Nat} (h : m.Has b i) : m.behind b = some i := by
  cases b with
  | shm v => exact h
  | mmap v => simp only [Mem.Has] at h; simp only [Mem.behind, h, Option.map_some]

/-- The effect of a successful close. -/
theorem Mem.Has.close {m : Mem} {b : Buf} {i : Nat} (h : m.Has b i) :
    ∃ m', m.close b = .ok m' ∧ m'.behind b = none ∧ (∀ c j, Apart b c → m.Has c j → m'.Has c j) ∧
      (∃ ops, m'.ipc = List.foldl shmStep m.ipc ops ∧ (∀ v, .close v ∈ ops → .shm v = b) ∧ ∀ v o d, .store v o d ∉ ops) ∧
      (∃ ops, m'.mfs = List.foldl mmapStep m.mfs ops ∧ ∀ v, .close v ∈ ops → .mmap v = b) := by
  cases b with
  | shm v =>
    simp only [Mem.Has] at h
    obtain ⟨s, hs, hmap⟩ : ∃ s, closeShm m.ipc v = .ok s ∧ s.map = setAt m.ipc.map v.addr none := by
      unfold closeShm Ipc.shmdt
      rw [h]
      simp only
      split
      · exact ⟨_, rfl, rfl⟩
      · exact ⟨_, rfl, rfl⟩
    refine ⟨{ m with ipc := s }, by simp only [Mem.close, hs, Res.ok_bind], ?_, ?_, ⟨[.close v], ?_, ?_, (fun w o d h => by simp at h)⟩, ⟨[], rfl, (fun _ h => nomatch h)⟩⟩
    · simp only [Mem.behind, hmap, setAt_same]
    · intro c j ha hc
      cases c with
      | shm w => simp only [Mem.Has] at hc ⊢; rw [hmap, setAt_ne _ _ (Ne.symm ha)]; exact hc
      | mmap w => exact hc
    · simp only [List.foldl_cons, List.foldl_nil, shmStep, hs]
    · intro w hw
      simp only [List.mem_singleton] at hw
      cases hw
      rfl
  | mmap v =>
    simp only [Mem.Has] at h
    obtain ⟨s, hs, hmap⟩ : ∃ s, closeMmap m.mfs v = .ok s ∧ s.map = setAt m.mfs.map v.addr none := by
      unfold closeMmap
      rw [h]
      simp only [if_true]
      exact ⟨_, rfl, rfl⟩
    refine ⟨{ m with mfs := s }, by simp only [Mem.close, hs, Res.ok_bind], ?_, ?_, ⟨[], rfl, (fun _ h => nomatch h), (fun _ _ _ h => nomatch h)⟩, ⟨[.close v], ?_, ?_⟩⟩
    · simp only [Mem.behind, hmap, setAt_same, Option.map_none]
    · intro c j ha hc
      cases c with
      | shm w => exact hc
      | mmap w => simp only [Mem.Has] at hc ⊢; rw [hmap, setAt_ne _ _ (Ne.symm ha)]; exact hc
    · simp only [List.foldl_cons, List.foldl_nil, mmapStep, hs]
    · intro w hw
      simp only [List.mem_singleton] at hw
      cases hw
      rfl

theorem shmStep_map {s : Ipc} {a i : Nat} (h : s.map a = some i) (op : ShmOp) (h1 : ∀ v, op = .close v → v.addr ≠ a) :
    (shmStep s op).map a = some i := by
  cases op with
  | create key size b =>
    simp only [shmStep]
    split
    · rename_i hb
      have hne : a ≠ b := by rintro rfl; rw [h] at hb; cases hb
      split
      · rename_i v t ht
        unfold createKey at ht
        obtain ⟨⟨k, s1⟩, e1, ht⟩ := Res.bind_eq_ok.mp ht
        obtain ⟨n, e2, ht⟩ := Res.bind_eq_ok.mp ht
        obtain ⟨s2, e3, ht⟩ := Res.bind_eq_ok.mp ht
        cases ht
        have hs1 : s1.map = s.map := by
          unfold Ipc.shmget Ipc.newseg at e1
          (repeat' split at e1) <;> first | (cases e1; rfl) | cases e1
        unfold Ipc.shmat at e3
        split at e3
        · cases e3
          simp only
          rw [setAt_ne _ _ hne, hs1]
          exact h
        · cases e3
      · exact h
    · exact h
  | remove key =>
    simp only [shmStep]
    split
    · rename_i t ht
      unfold removeKey at ht
      obtain ⟨⟨k, s1⟩, e1, ht⟩ := Res.bind_eq_ok.mp ht
      have hs1 : s1.map = s.map := by
        unfold Ipc.shmget Ipc.newseg at e1
        (repeat' split at e1) <;> first | (cases e1; rfl) | cases e1
      simp only [Ipc.shmRmid] at ht
      split at ht
      · cases ht
      · cases ht
        simp only
        rw [hs1]
        exact h
    · exact h
  | close v =>
    simp only [shmStep]
    split
    · rename_i t ht
      unfold closeShm Ipc.shmdt at ht
      split at ht
      · cases ht
      · split at ht <;> cases ht <;> simp only <;> rw [setAt_ne _ _ (Ne.symm (h1 v rfl))] <;> exact h
    · exact h
  | store v off b =>
    simp only [shmStep]
    split
    · rename_i t ht
      unfold Ipc.store at ht
      (repeat' split at ht) <;> first | (cases ht; exact h) | cases ht
    · exact h

theorem mmapStep_map {s : MFS} {a : Nat} {x : Nat × Nat} (h : s.map a = some x) (op : MmapOp) (h1 : ∀ v, op = .close v → v.addr ≠ a) :
    (mmapStep s op).map a = some x := by
  have hmf : ∀ (t : MFS) (i b : Nat), t.map a = some x → a ≠ b → (t.mapFile i b).2.map a = some x := by
    intro t i b ht hb
    rw [(mapFile_rest t i b).1 a hb]
    exact ht
  cases op with
  | create q size b =>
    simp only [mmapStep]
    split
    · rename_i hb
      have hne : a ≠ b := by rintro rfl; rw [h] at hb; cases hb
      rw [createMmap_eq]
      simp only
      split
      · exact h
      · exact hmf _ _ _ h hne
    · exact h
  | «open» q b =>
    simp only [mmapStep]
    split
    · rename_i hb
      have hne : a ≠ b := by rintro rfl; rw [h] at hb; cases hb
      unfold openMmap
      split
      · exact h
      · exact hmf _ _ _ h hne
    · exact h
  | remove q =>
    simp only [mmapStep]
    split
    · rename_i t ht
      unfold removeMmap at ht
      split at ht <;> cases ht
      exact h
    · exact h
  | close v =>
    simp only [mmapStep]
    split
    · rename_i t ht
      unfold closeMmap at ht
      (repeat' split at ht) <;> cases ht
      simp only
      rw [setAt_ne _ _ (Ne.symm (h1 v rfl))]
      exact h
    · exact h
  | store v off b =>
    simp only [mmapStep]
    split
    · rename_i t ht
      unfold MFS.store at ht
      (repeat' split at ht) <;> first | (cases ht; exact h) | cases ht
    · exact h

/-- The effect of opening at a free address. -/
theorem newBuf_step {m m' : Mem} {conn : Bytes} {a : Nat} {b : Buf} (h : newBuf m conn a = .ok (b, m')) (h0 : m.ipc.map a = none ∧ m.mfs.map a = none) :
    (∃ i, m'.Has b i) ∧ (∀ c j, m.Has c j → m'.Has c j ∧ Apart b c) ∧
      (∃ ops, m'.ipc = List.foldl shmStep m.ipc ops ∧ (∀ v, .close v ∉ ops) ∧ ∀ v o d, .store v o d ∉ ops) ∧ (∃ ops, m'.mfs = List.foldl mmapStep m.mfs ops ∧ ∀ v, .close v ∉ ops) := by
  unfold newBuf at h
  obtain ⟨k, -, h⟩ := Res.bind_eq_ok.mp h
  cases k with
  | shm key =>
    simp only at h
    obtain ⟨⟨v, s⟩, e, h⟩ := Res.bind_eq_ok.mp h
    cases h
    have hst : shmStep m.ipc (.create key 0 a) = s := by
      simp only [shmStep, h0.1, if_true]
      rw [show createKey m.ipc key 0 a = .ok (v, s) from e]
    have hv : v.addr = a ∧ ∃ i, s.map a = some i := by
      unfold openKey createKey at e
      obtain ⟨⟨k, s1⟩, -, e⟩ := Res.bind_eq_ok.mp e
      obtain ⟨n, -, e⟩ := Res.bind_eq_ok.mp e
      obtain ⟨s2, e3, e⟩ := Res.bind_eq_ok.mp e
      cases e
      refine ⟨rfl, k, ?_⟩
      unfold Ipc.shmat at e3
      split at e3
      · cases e3
        exact setAt_same _ _ _
      · cases e3
    refine ⟨?_, ?_, ⟨[.create key 0 a], hst.symm, (fun w h => by simp at h), (fun w o d h => by simp at h)⟩, ⟨[], rfl, (fun _ h => nomatch h)⟩⟩
    · obtain ⟨i, hi⟩ := hv.2
      exact ⟨i, (by simp only [Mem.Has, hv.1, hi])⟩
    · intro c j hc
      cases c with
      | shm w =>
        simp only [Mem.Has, Apart] at hc ⊢
        refine ⟨?_, ?_⟩
        · rw [← hst]
          exact shmStep_map hc _ (fun _ e => nomatch e)
        · rw [hv.1]
          rintro rfl
          rw [h0.1] at hc
          cases hc
      | mmap w => exact ⟨hc, trivial⟩
  | mmap path =>
    simp only at h
    obtain ⟨v, e, h⟩ := Res.bind_eq_ok.mp h
    cases h
    have hst : mmapStep m.mfs (.open path a) = (openMmap m.mfs path a).2 := by simp only [mmapStep, h0.2, if_true]
    have hv : v.addr = a ∧ ∃ i, (openMmap m.mfs path a).2.map a = some (i, v.len) := by
      unfold openMmap at e ⊢
      split at e
      · cases e
      · rename_i i hi
        unfold MFS.mapFile at e ⊢
        split at e
        · cases e
        · rename_i hn
          cases e
          simp only [if_neg hn]
          exact ⟨trivial, i, setAt_same _ _ _⟩
    refine ⟨?_, ?_, ⟨[], rfl, (fun _ h => nomatch h), (fun _ _ _ h => nomatch h)⟩, ⟨[.open path a], hst.symm, (fun w h => by simp at h)⟩⟩
    · obtain ⟨i, hi⟩ := hv.2
      exact ⟨i, (by simp only [Mem.Has, hv.1, hi])⟩
    · intro c j hc
      cases c with
      | shm w => exact ⟨hc, trivial⟩
      | mmap w =>
        simp only [Mem.Has, Apart] at hc ⊢
        refine ⟨?_, ?_⟩
        · rw [← hst]
          exact mmapStep_map hc _ (fun _ e => nomatch e)
        · rw [hv.1]
          rintro rfl
          rw [h0.2] at hc
          cases hc

/-- What holds of a process that has made the steps `past`. -/
structure Proc.Sound (p : Proc) (past : List ProcAct) : Prop where
  has : ∀ (h : Nat) (x : Handle), p.handles[h]? = some x → x.finalizer = true → ∃ i, p.mem.Has x.buf i
  apart : ∀ (h k : Nat) (x y : Handle), p.handles[h]? = some x → p.handles[k]? = some y → x.finalizer = true → y.finalizer = true → h ≠ k → Apart x.buf y.buf
  closed : ∀ (h : Nat) (x : Handle), p.handles[h]? = some x → x.live = true → x.finalizer = false → .close h ∈ past
  shm : ShmReachable p.mem.ipc
  mmap : MmapReachable p.mem.mfs

/-- What a step does to the memory: operations on the two tables, of which those that close do not close `b`, and none stores into a segment unless `st`. -/
def Mem.Leads (m m' : Mem) (b : Buf) (st : Prop) : Prop :=
  (∃ ops, m'.ipc = List.foldl shmStep m.ipc ops ∧ (∀ v w, .close v ∈ ops → b = .shm w → v.addr ≠ w.addr) ∧ ∀ v o d, .store v o d ∈ ops → st) ∧
    (∃ ops, m'.mfs = List.foldl mmapStep m.mfs ops ∧ ∀ v w, .close v ∈ ops → b = .mmap w → v.addr ≠ w.addr)

theorem Mem.Leads.refl (m : Mem) (b : Buf) (st : Prop) : m.Leads m b st := ⟨⟨[], rfl, (fun _ _ h => nomatch h), (fun _ _ _ h => nomatch h)⟩, ⟨[], rfl, (fun _ _ h => nomatch h)⟩⟩

theorem Mem.Leads.trans {m m' m'' : Mem} {b : Buf} {s t st : Prop} (h : m.Leads m' b s) (h' : m'.Leads m'' b t) (hs : s → st) (ht : t → st) : m.Leads m'' b st := by
  obtain ⟨⟨o1, e1, c1, s1⟩, ⟨o2, e2, c2⟩⟩ := h
  obtain ⟨⟨o3, e3, c3, s3⟩, ⟨o4, e4, c4⟩⟩ := h'
  refine ⟨⟨o1 ++ o3, by rw [List.foldl_append, ← e1, e3], ?_, (fun v o d hv => (List.mem_append.mp hv).elim (hs ∘ s1 v o d) (ht ∘ s3 v o d))⟩, ⟨o2 ++ o4, by rw [List.foldl_append, ← e2, e4], ?_⟩⟩
  · intro v w hv
    exact (List.mem_append.mp hv).elim (c1 v w) (c3 v w)
  · intro v w hv
    exact (List.mem_append.mp hv).elim (c2 v w) (c4 v w)

theorem shmFold_map {a i : Nat} (ops : List ShmOp) : ∀ s : Ipc, s.map a = some i → (∀ v, .close v ∈ ops → v.addr ≠ a) →
    (List.foldl shmStep s ops).map a = some i := by
  induction ops with
  | nil => intro s h _; exact h
  | cons o os ih =>
    intro s h h1
    refine ih _ (shmStep_map h o ?_) (fun v hv => h1 v (List.mem_cons_of_mem _ hv))
    rintro v rfl
    exact h1 v (List.mem_cons_self ..)

theorem mmapFold_map {a : Nat} {x : Nat × Nat} (ops : List MmapOp) : ∀ s : MFS, s.map a = some x → (∀ v, .close v ∈ ops → v.addr ≠ a) →
    (List.foldl mmapStep s ops).map a = some x := by
  induction ops with
  | nil => intro s h _; exact h
  | cons o os ih =>
    intro s h h1
    refine ih _ (mmapStep_map h o ?_) (fun v hv => h1 v (List.mem_cons_of_mem _ hv))
    rintro v rfl
    exact h1 v (List.mem_cons_self ..)

theorem Mem.Leads.has {m m' : Mem} {b : Buf} {i : Nat} {st : Prop} (h : m.Leads m' b st) (hb : m.Has b i) : m'.Has b i := by
  obtain ⟨⟨o1, e1, c1, -⟩, ⟨o2, e2, c2⟩⟩ := h
  cases b with
  | shm v =>
    simp only [Mem.Has] at hb ⊢
    rw [e1]
    exact shmFold_map _ _ hb (fun w hw => c1 w v hw rfl)
  | mmap v =>
    simp only [Mem.Has] at hb ⊢
    rw [e2]
    exact mmapFold_map _ _ hb (fun w hw => c2 w v hw rfl)

theorem shmFold_reachable (ops : List ShmOp) : ∀ s : Ipc, ShmReachable s → ShmReachable (List.foldl shmStep s ops) := by
  induction ops with
  | nil => intro s h; exact h
  | cons o os ih => intro s h; exact ih _ (h.step o)

theorem mmapFold_reachable (ops : List MmapOp) : ∀ s : MFS, MmapReachable s → MmapReachable (List.foldl mmapStep s ops) := by
  induction ops with
  | nil => intro s h; exact h
  | cons o os ih => intro s h; exact ih _ (h.step o)

theorem Mem.Leads.reachable {m m' : Mem} {b : Buf} {st : Prop} (h : m.Leads m' b st) (h1 : ShmReachable m.ipc) (h2 : MmapReachable m.mfs) :
    ShmReachable m'.ipc ∧ MmapReachable m'.mfs := by
  obtain ⟨⟨o1, e1, -⟩, ⟨o2, e2, -⟩⟩ := h
  exact ⟨e1 ▸ shmFold_reachable o1 _ h1, e2 ▸ mmapFold_reachable o2 _ h2⟩

/-- Something is stored into a segment. -/
def Stores (act : ProcAct) : Prop := ∃ v o d, act = .shm (.store v o d)

/-- Nothing about the caches of the process changes, and the memory of the open ones is left alone. -/
theorem Proc.Sound.quiet {p : Proc} {past : List ProcAct} (hs : p.Sound past) (m' : Mem) (act : ProcAct)
    (h1 : ShmReachable m'.ipc) (h2 : MmapReachable m'.mfs) (h3 : ∀ (h : Nat) (x : Handle), p.handles[h]? = some x → x.finalizer = true → p.mem.Leads m' x.buf (Stores act)) :
    Proc.Sound { p with mem := m' } (past ++ [act]) where
  has h x hx hf := by
    obtain ⟨i, hi⟩ := hs.has h x hx hf
    exact ⟨i, (h3 h x hx hf).has hi⟩
  apart := hs.apart
  closed h x hx hl hf := List.mem_append_left _ (hs.closed h x hx hl hf)
  shm := h1
  mmap := h2

theorem getElem?_set_cases {α : Type} {l : List α} {h k : Nat} {x y : α} (e : (l.set h x)[k]? = some y) : k = h ∧ y = x ∨ k ≠ h ∧ l[k]? = some y := by
  rw [List.getElem?_set] at e
  split at e
  · rename_i hk
    split at e
    · cases e; exact .inl ⟨hk.symm, rfl⟩
    · cases e
  · rename_i hk
    exact .inr ⟨fun h' => hk h'.symm, e⟩

theorem Apart.symm {a b : Buf} (h : Apart a b) : Apart b a := by
  cases a <;> cases b <;> first | exact trivial | exact Ne.symm h

/-- Closing an open cache, by the program or by the runtime. -/
theorem Proc.Sound.release {p : Proc} {past : List ProcAct} (hs : p.Sound past) (act : ProcAct) (h : Nat) (x : Handle) (hx : p.handles[h]? = some x)
    (hf : x.finalizer = true) (hl : x.live = true → act = .close h) :
    ∃ m', p.close h = (.ok (), ⟨m', p.handles.set h { x with finalizer := false }⟩) ∧ m'.behind x.buf = none ∧
      Proc.Sound ⟨m', p.handles.set h { x with finalizer := false }⟩ (past ++ [act]) ∧
      ∀ (k : Nat) (y : Handle), p.handles[k]? = some y → y.finalizer = true → k ≠ h → p.mem.Leads m' y.buf (Stores act) := by
  obtain ⟨i, hi⟩ := hs.has h x hx hf
  obtain ⟨m', e, hb, hc, ⟨o1, e1, c1, s1⟩, ⟨o2, e2, c2⟩⟩ := hi.close
  have hlead : ∀ (k : Nat) (y : Handle), p.handles[k]? = some y → y.finalizer = true → k ≠ h → p.mem.Leads m' y.buf (Stores act) := by
    intro k y hy hyf hk
    have ha := hs.apart k h y x hy hx hyf hf hk
    refine ⟨⟨o1, e1, ?_, (fun v o d h => absurd h (s1 v o d))⟩, ⟨o2, e2, ?_⟩⟩
    · intro v w hv hw
      have := c1 v hv
      rw [hw, ← this] at ha
      exact Ne.symm ha
    · intro v w hv hw
      have := c2 v hv
      rw [hw, ← this] at ha
      exact Ne.symm ha
  refine ⟨m', by simp only [Proc.close, hx, e], hb, ?_, hlead⟩
  refine { has := ?_, apart := ?_, closed := ?_, shm := e1 ▸ shmFold_reachable o1 _ hs.shm, mmap := e2 ▸ mmapFold_reachable o2 _ hs.mmap }
  · intro k y hy hyf
    rcases getElem?_set_cases hy with ⟨-, rfl⟩ | ⟨hk, hy⟩
    · cases hyf
    · obtain ⟨j, hj⟩ := hs.has k y hy hyf
      exact ⟨j, (hlead k y hy hyf hk).has hj⟩
  · intro k l y z hy hz hyf hzf hkl
    rcases getElem?_set_cases hy with ⟨-, rfl⟩ | ⟨-, hy⟩
    · cases hyf
    · rcases getElem?_set_cases hz with ⟨-, rfl⟩ | ⟨-, hz⟩
      · cases hzf
      · exact hs.apart k l y z hy hz hyf hzf hkl
  · intro k y hy hyl hyf
    rcases getElem?_set_cases hy with ⟨rfl, rfl⟩ | ⟨-, hy⟩
    · rw [hl hyl]
      exact List.mem_append_right _ (List.mem_singleton_self _)
    · exact List.mem_append_left _ (hs.closed k y hy hyl hyf)

/-- The cache with this number: still open, at the same place, and in use unless it was dropped. -/
def Proc.Keeps (p q : Proc) (k : Nat) (y : Handle) (act : ProcAct) : Prop :=
  p.mem.Leads q.mem y.buf (Stores act) ∧ ∃ z, q.handles[k]? = some z ∧ z.buf = y.buf ∧ z.finalizer = true ∧ (act ≠ .drop k → z.live = y.live)

theorem ownsShm_of {p : Proc} {k : Nat} {y : Handle} {v : View} (hy : p.handles[k]? = some y) (hf : y.finalizer = true) (hb : y.buf = .shm v) :
    ownsShm p v.addr = true := by
  unfold ownsShm
  rw [List.any_eq_true]
  refine ⟨y, List.mem_of_getElem? hy, ?_⟩
  rw [hf, hb]
  simp only [Bool.true_and, beq_self_eq_true]

theorem ownsMmap_of {p : Proc} {k : Nat} {y : Handle} {v : View} (hy : p.handles[k]? = some y) (hf : y.finalizer = true) (hb : y.buf = .mmap v) :
    ownsMmap p v.addr = true := by
  unfold ownsMmap
  rw [List.any_eq_true]
  refine ⟨y, List.mem_of_getElem? hy, ?_⟩
  rw [hf, hb]
  simp only [Bool.true_and, beq_self_eq_true]

theorem Proc.Keeps.same {p : Proc} {m' : Mem} {k : Nat} {y : Handle} {act : ProcAct} (hy : p.handles[k]? = some y) (hf : y.finalizer = true)
    (h : p.mem.Leads m' y.buf (Stores act)) : p.Keeps { p with mem := m' } k y act := ⟨h, y, hy, rfl, hf, fun _ => rfl⟩

theorem Proc.Sound.shmOp {p : Proc} {past : List ProcAct} (hs : p.Sound past) (op : ShmOp)
    (h : ∀ v, op = .close v → ownsShm p v.addr = false) :
    Proc.Sound { p with mem := { p.mem with ipc := shmStep p.mem.ipc op } } (past ++ [.shm op]) ∧
      ∀ (k : Nat) (y : Handle), p.handles[k]? = some y → y.finalizer = true → p.Keeps { p with mem := { p.mem with ipc := shmStep p.mem.ipc op } } k y (.shm op) := by
  have hl : ∀ (k : Nat) (y : Handle), p.handles[k]? = some y → y.finalizer = true → p.mem.Leads { p.mem with ipc := shmStep p.mem.ipc op } y.buf (Stores (.shm op)) := by
    intro k y hy hf
    refine ⟨⟨[op], rfl, ?_, (fun v o d h => ⟨v, o, d, by rw [List.mem_singleton.mp h]⟩)⟩, ⟨[], rfl, (fun _ _ h => nomatch h)⟩⟩
    intro v w hv hw
    simp only [List.mem_singleton] at hv
    have h1 := h v hv.symm
    have h2 := ownsShm_of hy hf hw
    intro e
    rw [e, h2] at h1
    cases h1
  exact ⟨hs.quiet _ (.shm op) (hs.shm.step op) hs.mmap hl, fun k y hy hf => .same hy hf (hl k y hy hf)⟩

theorem Proc.Sound.mmapOp {p : Proc} {past : List ProcAct} (hs : p.Sound past) (op : MmapOp)
    (h : ∀ v, op = .close v → ownsMmap p v.addr = false) :
    Proc.Sound { p with mem := { p.mem with mfs := mmapStep p.mem.mfs op } } (past ++ [.mmap op]) ∧
      ∀ (k : Nat) (y : Handle), p.handles[k]? = some y → y.finalizer = true → p.Keeps { p with mem := { p.mem with mfs := mmapStep p.mem.mfs op } } k y (.mmap op) := by
  have hl : ∀ (k : Nat) (y : Handle), p.handles[k]? = some y → y.finalizer = true → p.mem.Leads { p.mem with mfs := mmapStep p.mem.mfs op } y.buf (Stores (.mmap op)) := by
    intro k y hy hf
    refine ⟨⟨[], rfl, (fun _ _ h => nomatch h), (fun _ _ _ h => nomatch h)⟩, ⟨[op], rfl, ?_⟩⟩
    intro v w hv hw
    simp only [List.mem_singleton] at hv
    have h1 := h v hv.symm
    have h2 := ownsMmap_of hy hf hw
    intro e
    rw [e, h2] at h1
    cases h1
  exact ⟨hs.quiet _ (.mmap op) hs.shm (hs.mmap.step op) hl, fun k y hy hf => .same hy hf (hl k y hy hf)⟩

theorem Proc.Sound.idle {p : Proc} {past : List ProcAct} (hs : p.Sound past) (act : ProcAct) :
    p.Sound (past ++ [act]) ∧ ∀ (k : Nat) (y : Handle), p.handles[k]? = some y → y.finalizer = true → p.Keeps p k y act :=
  ⟨hs.quiet p.mem act hs.shm hs.mmap (fun _ x _ _ => .refl _ x.buf _), fun _ y hy hf => .same hy hf (.refl _ y.buf _)⟩

/-- One step of a process that closes no cache twice. -/
theorem Proc.Sound.step {p : Proc} {past : List ProcAct} (hs : p.Sound past) (act : ProcAct) (h1 : ∀ h, act = .close h → .close h ∉ past) :
    (procStep p act).Sound (past ++ [act]) ∧
      ∀ (k : Nat) (y : Handle), p.handles[k]? = some y → y.finalizer = true → act ≠ .close k → (act = .collect k → y.live = true) →
        p.Keeps (procStep p act) k y act := by
  have idle : procStep p act = p → (procStep p act).Sound (past ++ [act]) ∧
      ∀ (k : Nat) (y : Handle), p.handles[k]? = some y → y.finalizer = true → act ≠ .close k → (act = .collect k → y.live = true) →
        p.Keeps (procStep p act) k y act := by
    intro e
    rw [e]
    exact ⟨(hs.idle act).1, fun k y hy hf _ _ => (hs.idle act).2 k y hy hf⟩
  have rel : ∀ h x, p.handles[h]? = some x → x.finalizer = true → (x.live = true → act = .close h) → (act = .close h ∨ act = .collect h ∧ x.live = false) →
      procStep p act = (p.close h).2 → (procStep p act).Sound (past ++ [act]) ∧
      ∀ (k : Nat) (y : Handle), p.handles[k]? = some y → y.finalizer = true → act ≠ .close k → (act = .collect k → y.live = true) →
        p.Keeps (procStep p act) k y act := by
    intro h x hx hf hl hact e
    obtain ⟨m', e1, -, hs', hlead⟩ := hs.release act h x hx hf hl
    rw [e, e1]
    refine ⟨hs', ?_⟩
    intro k y hy hyf hk hk'
    have hne : k ≠ h := by
      rintro rfl
      rcases hact with hc | ⟨hc, hc'⟩
      · exact hk hc
      · rw [hx] at hy
        cases hy
        rw [hk' hc] at hc'
        cases hc'
    exact ⟨hlead k y hy hyf hne, y, (by simp only [List.getElem?_set_ne (Ne.symm hne), hy]), rfl, hyf, fun _ => rfl⟩
  cases act with
  | «open» conn a =>
    by_cases h0 : p.mem.ipc.map a = none ∧ p.mem.mfs.map a = none
    · cases hn : newBuf p.mem conn a with
      | ok r =>
        obtain ⟨b, m'⟩ := r
        have e : procStep p (.open conn a) = ⟨m', p.handles ++ [⟨b, true, true⟩]⟩ := by
          simp only [procStep, if_pos h0, Proc.open, hn, Res.ok_bind]
        obtain ⟨⟨i, hi⟩, hc, ⟨o1, e1, c1, s1⟩, ⟨o2, e2, c2⟩⟩ := newBuf_step hn h0
        have hlead : ∀ b st, p.mem.Leads m' b st := fun b st => ⟨⟨o1, e1, (fun v _ hv => absurd hv (c1 v)), (fun v o d hv => absurd hv (s1 v o d))⟩, ⟨o2, e2, fun v _ hv => absurd hv (c2 v)⟩⟩
        have hget : ∀ (k : Nat) (y : Handle), (p.handles ++ [⟨b, true, true⟩])[k]? = some y → p.handles[k]? = some y ∧ k < p.handles.length ∨ y = ⟨b, true, true⟩ ∧ k = p.handles.length := by
          intro k y hy
          rw [List.getElem?_append] at hy
          split at hy
          · rename_i hk; exact .inl ⟨hy, hk⟩
          · rename_i hk
            have hk0 : k - p.handles.length = 0 := by
              cases hj : k - p.handles.length with
              | zero => rfl
              | succ j => rw [hj] at hy; cases hy
            rw [hk0] at hy
            cases hy
            exact .inr ⟨rfl, by omega⟩
        rw [e]
        refine ⟨{ has := ?_, apart := ?_, closed := ?_, shm := e1 ▸ shmFold_reachable o1 _ hs.shm, mmap := e2 ▸ mmapFold_reachable o2 _ hs.mmap }, ?_⟩
        · intro k y hy hyf
          rcases hget k y hy with ⟨hy, -⟩ | ⟨rfl, -⟩
          · obtain ⟨j, hj⟩ := hs.has k y hy hyf
            exact ⟨j, (hc _ j hj).1⟩
          · exact ⟨i, hi⟩
        · intro k l y z hy hz hyf hzf hkl
          rcases hget k y hy with ⟨hy, -⟩ | ⟨rfl, rfl⟩
          · rcases hget l z hz with ⟨hz, -⟩ | ⟨rfl, -⟩
            · exact hs.apart k l y z hy hz hyf hzf hkl
            · obtain ⟨j, hj⟩ := hs.has k y hy hyf
              exact (hc _ j hj).2.symm
          · rcases hget l z hz with ⟨hz, -⟩ | ⟨-, rfl⟩
            · obtain ⟨j, hj⟩ := hs.has l z hz hzf
              exact (hc _ j hj).2
            · exact absurd rfl hkl
        · intro k y hy hyl hyf
          rcases hget k y hy with ⟨hy, -⟩ | ⟨rfl, -⟩
          · exact List.mem_append_left _ (hs.closed k y hy hyl hyf)
          · cases hyf
        · intro k y hy hyf _ _
          refine ⟨hlead _ _, y, ?_, rfl, hyf, fun _ => rfl⟩
          simp only
          rw [List.getElem?_append_left (List.getElem?_eq_some_iff.mp hy).1]
          exact hy
      | err _ => exact idle (by simp only [procStep, if_pos h0, Proc.open, hn, Res.err_bind])
      | panic => exact idle (by simp only [procStep, if_pos h0, Proc.open, hn, Res.panic_bind])
      | diverge => exact idle (by simp only [procStep, if_pos h0, Proc.open, hn, Res.diverge_bind])
    · exact idle (by simp only [procStep, if_neg h0])
  | close h =>
    cases hx : p.handles[h]? with
    | none => exact idle (by simp only [procStep, hx, Option.map_none, reduceCtorEq, if_false])
    | some x =>
      by_cases hl : x.live = true
      · have hf : x.finalizer = true := by
          cases hf : x.finalizer with
          | true => rfl
          | false => exact absurd (hs.closed h x hx hl hf) (h1 h rfl)
        exact rel h x hx hf (fun _ => rfl) (.inl rfl) (by simp only [procStep, hx, Option.map_some, hl, if_true])
      · exact idle (by simp only [procStep, hx, Option.map_some, Option.some.injEq, if_neg hl])
  | drop h =>
    cases hx : p.handles[h]? with
    | none => exact idle (by simp only [procStep, Proc.drop, hx])
    | some x =>
      have e : procStep p (.drop h) = { p with handles := p.handles.set h { x with live := false } } := by simp only [procStep, Proc.drop, hx]
      have hget : ∀ (k : Nat) (y : Handle), (p.handles.set h { x with live := false })[k]? = some y → ∃ z, p.handles[k]? = some z ∧ z.buf = y.buf ∧ z.finalizer = y.finalizer ∧ (y.live = true → z.live = true) := by
        intro k y hy
        rcases getElem?_set_cases hy with ⟨rfl, rfl⟩ | ⟨-, hy⟩
        · exact ⟨x, hx, rfl, rfl, (fun h => nomatch h)⟩
        · exact ⟨y, hy, rfl, rfl, id⟩
      rw [e]
      refine ⟨{ has := ?_, apart := ?_, closed := ?_, shm := hs.shm, mmap := hs.mmap }, ?_⟩
      · intro k y hy hyf
        obtain ⟨z, hz, hb, hzf, -⟩ := hget k y hy
        obtain ⟨i, hi⟩ := hs.has k z hz (hzf.trans hyf)
        exact ⟨i, hb ▸ hi⟩
      · intro k l y y' hy hy' hyf hyf' hkl
        obtain ⟨z, hz, hb, hzf, -⟩ := hget k y hy
        obtain ⟨z', hz', hb', hzf', -⟩ := hget l y' hy'
        have := hs.apart k l z z' hz hz' (hzf.trans hyf) (hzf'.trans hyf') hkl
        rw [hb, hb'] at this
        exact this
      · intro k y hy hyl hyf
        obtain ⟨z, hz, -, hzf, hzl⟩ := hget k y hy
        exact List.mem_append_left _ (hs.closed k z hz (hzl hyl) (hzf.trans hyf))
      · intro k y hy hyf _ _
        refine ⟨.refl _ _ _, ?_⟩
        by_cases hk : k = h
        · subst hk
          rw [hx] at hy
          cases hy
          refine ⟨{ x with live := false }, ?_, rfl, hyf, fun h => absurd rfl h⟩
          simp only
          rw [List.getElem?_set_self (List.getElem?_eq_some_iff.mp hx).1]
        · exact ⟨y, (by simp only [List.getElem?_set_ne (Ne.symm hk), hy]), rfl, hyf, fun _ => rfl⟩
  | collect h =>
    cases hx : p.handles[h]? with
    | none => exact idle (by simp only [procStep, Proc.collect, hx])
    | some x =>
      by_cases hc : x.live = false ∧ x.finalizer = true
      · exact rel h x hx hc.2 (fun hl => by rw [hc.1] at hl; cases hl) (.inr ⟨rfl, hc.1⟩) (by simp only [procStep, Proc.collect, hx, if_pos hc])
      · exact idle (by simp only [procStep, Proc.collect, hx, if_neg hc])
  | shm op =>
    have go : (∀ v, op = .close v → ownsShm p v.addr = false) → procStep p (.shm op) = { p with mem := { p.mem with ipc := shmStep p.mem.ipc op } } →
        (procStep p (.shm op)).Sound (past ++ [.shm op]) ∧ ∀ (k : Nat) (y : Handle), p.handles[k]? = some y → y.finalizer = true →
          ProcAct.shm op ≠ .close k → (ProcAct.shm op = .collect k → y.live = true) → p.Keeps (procStep p (.shm op)) k y (.shm op) := by
      intro h e
      rw [e]
      exact ⟨(hs.shmOp op h).1, fun k y hy hf _ _ => (hs.shmOp op h).2 k y hy hf⟩
    cases op with
    | close v =>
      by_cases ho : ownsShm p v.addr = true
      · exact idle (by simp only [procStep, if_pos ho])
      · refine go ?_ (by simp only [procStep, if_neg ho])
        intro w hw
        cases hw
        exact Bool.eq_false_iff.mpr ho
    | create _ _ _ => exact go (fun _ h => nomatch h) rfl
    | remove _ => exact go (fun _ h => nomatch h) rfl
    | store _ _ _ => exact go (fun _ h => nomatch h) rfl
  | mmap op =>
    have go : (∀ v, op = .close v → ownsMmap p v.addr = false) → procStep p (.mmap op) = { p with mem := { p.mem with mfs := mmapStep p.mem.mfs op } } →
        (procStep p (.mmap op)).Sound (past ++ [.mmap op]) ∧ ∀ (k : Nat) (y : Handle), p.handles[k]? = some y → y.finalizer = true →
          ProcAct.mmap op ≠ .close k → (ProcAct.mmap op = .collect k → y.live = true) → p.Keeps (procStep p (.mmap op)) k y (.mmap op) := by
      intro h e
      rw [e]
      exact ⟨(hs.mmapOp op h).1, fun k y hy hf _ _ => (hs.mmapOp op h).2 k y hy hf⟩
    cases op with
    | close v =>
      by_cases ho : ownsMmap p v.addr = true
      · exact idle (by simp only [procStep, if_pos ho])
      · refine go ?_ (by simp only [procStep, if_neg ho])
        intro w hw
        cases hw
        exact Bool.eq_false_iff.mpr ho
    | create _ _ _ => exact go (fun _ h => nomatch h) rfl
    | «open» _ _ => exact go (fun _ h => nomatch h) rfl
    | remove _ => exact go (fun _ h => nomatch h) rfl
    | store _ _ _ => exact go (fun _ h => nomatch h) rfl

theorem Proc.Sound.run {p : Proc} {past : List ProcAct} (hs : p.Sound past) (acts : List ProcAct) (hc : ClosesOnce (past ++ acts)) :
    (procRun p acts).Sound (past ++ acts) := by
  induction acts generalizing p past with
  | nil => rw [List.append_nil]; exact hs
  | cons act acts ih =>
    have hs' := (hs.step act (by
      rintro h rfl hm
      have h1 := hc h
      have h2 := List.count_pos_iff.mpr hm
      rw [List.count_append, List.count_cons_self] at h1
      omega)).1
    have e : past ++ act :: acts = (past ++ [act]) ++ acts := by simp only [List.append_assoc, List.singleton_append]
    rw [e] at hc ⊢
    exact ih hs' hc

theorem Proc.Sound.kept {p : Proc} {past : List ProcAct} (hs : p.Sound past) (acts : List ProcAct) (hc : ClosesOnce (past ++ acts)) (k : Nat) (y : Handle)
    (hy : p.handles[k]? = some y) (hf : y.finalizer = true) (hl : y.live = true) (h1 : .close k ∉ acts) (h2 : .drop k ∉ acts) :
    p.mem.Leads (procRun p acts).mem y.buf (∃ a ∈ acts, Stores a) ∧ (procRun p acts).handles[k]? = some y := by
  induction acts generalizing p past with
  | nil => exact ⟨.refl _ _ _, hy⟩
  | cons act acts ih =>
    obtain ⟨hs', hk⟩ := hs.step act (by
      rintro h rfl hm
      have h1 := hc h
      have h2 := List.count_pos_iff.mpr hm
      rw [List.count_append, List.count_cons_self] at h1
      omega)
    obtain ⟨hle, z, hz, hb, hzf, hzl⟩ := hk k y hy hf (fun e => h1 (e ▸ List.mem_cons_self ..)) (fun _ => hl)
    have hzl := hzl (fun e => h2 (e ▸ List.mem_cons_self ..))
    have hzy : z = y := by
      cases z; cases y
      simp only at hb hzf hzl hf
      rw [hb, hzf, hzl, hf]
    subst hzy
    have e : past ++ act :: acts = (past ++ [act]) ++ acts := by simp only [List.append_assoc, List.singleton_append]
    rw [e] at hc
    obtain ⟨hle', hz'⟩ := ih hs' hc hz (fun h => h1 (List.mem_cons_of_mem _ h)) (fun h => h2 (List.mem_cons_of_mem _ h))
    exact ⟨hle.trans hle' (fun h => ⟨act, List.mem_cons_self .., h⟩) (fun ⟨a, ha, h⟩ => ⟨a, List.mem_cons_of_mem _ ha, h⟩), hz'⟩

theorem Spec.Fresh.sound {p : Proc} (h : Fresh p) : p.Sound [] where
  has k x hx := by rw [h.1] at hx; cases hx
  apart k l x y hx := by rw [h.1] at hx; cases hx
  closed k x hx := by rw [h.1] at hx; cases hx
  shm := h.2.1
  mmap := h.2.2

theorem closesOnce_left {a b : List ProcAct} (h : ClosesOnce (a ++ b)) : ClosesOnce a := by
  intro k
  have := h k
  rw [List.count_append] at this
  omega

/-- A cache whose finalizer is cleared has been collected or closed; without either it is set. -/
theorem finalizer_set {p : Proc} {past : List ProcAct} (hs : p.Sound past) {h : Nat} {x : Handle} (hx : p.handles[h]? = some x) (hl : x.live = true)
    (hc : .close h ∉ past) : x.finalizer = true := by
  cases hf : x.finalizer with
  | true => rfl
  | false => exact absurd (hs.closed h x hx hl hf) hc

/-! ## C138 -/

/-- The claim: the memory behind a cache stays the same until the program closes that cache. -/
def Spec.StaysUntilClosed : Prop :=
  ∀ p, Fresh p → ∀ before after, ClosesOnce (before ++ after) → ∀ (h : Nat) (x : Handle), (procRun p before).handles[h]? = some x →
    .close h ∉ before ++ after → (procRun (procRun p before) after).mem.behind x.buf = (procRun p before).mem.behind x.buf

/-- Two segments, and nothing open in this process. -/
def Spec.twoSegments : Proc :=
  ⟨⟨List.foldl shmStep (noShm 1000) [.create 7 100 0, .create 8 100 1, .store ⟨1, 100⟩ 36 (le32 5)], noFiles⟩, []⟩

theorem twoSegments_fresh : Fresh twoSegments := ⟨rfl, ⟨1000, _, by decide, rfl⟩, ⟨[], rfl⟩⟩

/-- **C138 is violated**: a cache that the program does not refer to any more loses its memory, although a slice of it is still in use. -/
theorem C138_stays_refuted : ¬ StaysUntilClosed := by
  intro h
  have h0 := h twoSegments twoSegments_fresh [.open (ascii "shmkey:7") 2] [.drop 0, .collect 0]
    (by intro k; simp) 0 ⟨.shm ⟨2, 100⟩, true, true⟩ (by decide +kernel) (by simp)
  revert h0
  decide +kernel

/-- The claim for `Money`: while it runs, nobody stores anything and the program closes nothing: it returns the money of the user in this cache. -/
def Spec.MoneySafe : Prop :=
  ∀ p, Fresh p → ∀ before after, ClosesOnce before → ∀ (h : Nat) (x : Handle), (procRun p before).handles[h]? = some x → x.live = true → .close h ∉ before →
    (∀ a ∈ after, (∃ k, a = .drop k ∨ a = .collect k) ∨ ∃ conn b, a = .open conn b) → ∀ s pos uid y, moneyThrough (procRun p before).mem x.buf s pos uid = .ok y →
      moneyThrough (procRun (procRun p before) after).mem x.buf s pos uid = .ok y

/-- **C138 is violated** for `Money`: its last use of the cache comes before its last use of the memory. The read faults. -/
theorem C138_money_refuted : ¬ MoneySafe := by
  intro h
  have h0 := h twoSegments twoSegments_fresh [.open (ascii "shmkey:7") 2] [.drop 0, .collect 0]
    (by intro k; simp) 0 ⟨.shm ⟨2, 100⟩, true, true⟩ (by decide +kernel) rfl (by simp)
    (by
      intro a ha
      simp only [List.mem_cons, List.not_mem_nil, or_false] at ha
      rcases ha with rfl | rfl
      · exact .inl ⟨0, .inl rfl⟩
      · exact .inl ⟨0, .inr rfl⟩)
    ⟨4, 2, 3, false, 0⟩ ⟨0, 4, 8, 20, 32, 0, 48, 56, 60, 64⟩ 1 0 (by decide +kernel)
  revert h0
  decide +kernel

/-- The money in one cache, read from the memory of another one that was opened meanwhile: no fault, another number. -/
theorem C138_money_other :
    let p := procRun twoSegments [.open (ascii "shmkey:7") 2]
    let q := procRun p [.drop 0, .collect 0, .open (ascii "shmkey:8") 2]
    let s : Layout := ⟨4, 2, 3, false, 0⟩
    let pos : CachePos := ⟨0, 4, 8, 20, 32, 0, 48, 56, 60, 64⟩
    moneyThrough p.mem (.shm ⟨2, 100⟩) s pos 1 = .ok 0 ∧ moneyThrough q.mem (.shm ⟨2, 100⟩) s pos 1 = .ok 5 := by
  decide +kernel

/-- **C138**, what does hold: as long as the program still refers to a cache and does not close it, and closes no cache twice, the memory behind it stays
the same, whatever the runtime collects and whatever others do. For shared memory: the buffer can be read in its full length; and without stores
it shows the same bytes. -/
theorem C138_stays_partial (p : Proc) (hp : Fresh p) (before after : List ProcAct) (hc : ClosesOnce (before ++ after)) (h : Nat) (x : Handle)
    (hx : (procRun p before).handles[h]? = some x) (hl : x.live = true) (h1 : .close h ∉ before ++ after) (h2 : .drop h ∉ after) :
    (procRun (procRun p before) after).mem.behind x.buf = (procRun p before).mem.behind x.buf ∧ (procRun p before).mem.behind x.buf ≠ none ∧
      (∀ v, x.buf = .mmap v → (procRun (procRun p before) after).mem.mfs.map v.addr = (procRun p before).mem.mfs.map v.addr) ∧
      ∀ v d, x.buf = .shm v → (procRun p before).mem.view x.buf = .ok d →
        (∃ d', (procRun (procRun p before) after).mem.view x.buf = .ok d' ∧ d'.length = d.length) ∧
        ((∀ v o b, .shm (.store v o b) ∉ after) → (procRun (procRun p before) after).mem.view x.buf = .ok d) := by
  have hs := hp.sound.run before (by rw [List.nil_append]; exact closesOnce_left hc)
  rw [List.nil_append] at hs
  have hf := finalizer_set hs hx hl (fun hm => h1 (List.mem_append_left _ hm))
  obtain ⟨i, hi⟩ := hs.has h x hx hf
  obtain ⟨hle, -⟩ := hs.kept after hc h x hx hf hl (fun hm => h1 (List.mem_append_right _ hm)) h2
  refine ⟨by rw [(hle.has hi).behind, hi.behind], by rw [hi.behind]; exact nofun, ?_, ?_⟩
  · intro v hv
    have hi' := hle.has hi
    rw [hv] at hi hi'
    simp only [Mem.Has] at hi hi'
    rw [hi, hi']
  intro v d hv hd
  obtain ⟨⟨ops, e, hcl, hst⟩, -⟩ := hle
  rw [hv] at hd ⊢
  simp only [Mem.view] at hd ⊢
  rw [e]
  refine ⟨C88_until_closed _ hs.shm v d hd ops (fun w hw => hcl w v hw hv), ?_⟩
  intro hno
  refine C88_only_stores _ hs.shm v d hd ops (fun w hw => hcl w v hw hv) ?_
  intro w o b hw
  obtain ⟨a, ha, w', o', b', rfl⟩ := hst w o b hw
  exact hno w' o' b' ha

/-- **C138** for `Money`, what does hold: with the cache still referred to after the call (and not closed meanwhile), `Money` on shared memory does not
fault, and without stores it returns the money it would have returned at once. -/
theorem C138_money_partial (p : Proc) (hp : Fresh p) (before after : List ProcAct) (hc : ClosesOnce (before ++ after)) (h : Nat) (x : Handle)
    (hx : (procRun p before).handles[h]? = some x) (hl : x.live = true) (h1 : .close h ∉ before ++ after) (h2 : .drop h ∉ after) (v : View)
    (hv : x.buf = .shm v) (s : Layout) (pos : CachePos) (uid : Int) (y : Int32) (hm : moneyThrough (procRun p before).mem x.buf s pos uid = .ok y) :
    (∃ y', moneyThrough (procRun (procRun p before) after).mem x.buf s pos uid = .ok y') ∧
      ((∀ v o b, .shm (.store v o b) ∉ after) → moneyThrough (procRun (procRun p before) after).mem x.buf s pos uid = .ok y) := by
  have hk := (C138_stays_partial p hp before after hc h x hx hl h1 h2).2.2.2 v
  unfold moneyThrough Mem.cache at hm ⊢
  obtain ⟨c, e, hm⟩ := Res.bind_eq_ok.mp hm
  obtain ⟨d, hd, e⟩ := Res.bind_eq_ok.mp e
  cases e
  obtain ⟨⟨d', hd', hlen⟩, hsame⟩ := hk d hv hd
  refine ⟨?_, fun hno => ?_⟩
  · rw [hd']
    simp only [Res.ok_bind]
    unfold CacheState.money goSlice at hm ⊢
    simp only at hm ⊢
    rw [hlen]
    split at hm
    · rename_i hr
      rw [if_pos hr]
      exact ⟨_, rfl⟩
    · cases hm
  · rw [hsame hno]
    simp only [Res.ok_bind]
    exact hm

/-- **C138**: a cache that the program dropped without closing it is closed by the runtime: `Close` succeeds, its memory is detached, every other open cache
keeps its memory, and collecting it again does nothing. -/
theorem C138_collected (p : Proc) (hp : Fresh p) (acts : List ProcAct) (hc : ClosesOnce acts) (h : Nat) (x : Handle)
    (hx : (procRun p acts).handles[h]? = some x) (hl : x.live = false) (hf : x.finalizer = true) :
    ((procRun p acts).close h).1 = .ok () ∧ ((procRun p acts).collect h).mem.behind x.buf = none ∧
      ((procRun p acts).collect h).collect h = (procRun p acts).collect h ∧
      ∀ (k : Nat) (y : Handle), k ≠ h → (procRun p acts).handles[k]? = some y → y.finalizer = true →
        ((procRun p acts).collect h).mem.behind y.buf = (procRun p acts).mem.behind y.buf := by
  have hs := hp.sound.run acts (by rw [List.nil_append]; exact hc)
  rw [List.nil_append] at hs
  obtain ⟨m', e, hb, -, hlead⟩ := hs.release (.collect h) h x hx hf (fun h => by rw [hl] at h; cases h)
  have ec : (procRun p acts).collect h = ⟨m', (procRun p acts).handles.set h { x with finalizer := false }⟩ := by
    unfold Proc.collect
    rw [hx]
    simp only
    rw [if_pos ⟨hl, hf⟩, e]
  refine ⟨by rw [e], by rw [ec]; exact hb, ?_, ?_⟩
  · rw [ec]
    generalize procRun p acts = q at *
    unfold Proc.collect
    rw [List.getElem?_set_self (List.getElem?_eq_some_iff.mp hx).1]
    simp
  · intro k y hk hy hyf
    rw [ec]
    obtain ⟨i, hi⟩ := hs.has k y hy hyf
    rw [hi.behind, ((hlead k y hy hyf hk).has hi).behind]

/-- **C138**: the runtime never closes a cache that the program has closed, whatever happens in between. -/
theorem C138_closed_left (p : Proc) (h : Nat) (acts : List ProcAct) (hx : p.handles[h]? ≠ none) (hp : p.handles[h]?.map (·.live) = some true)
    (hok : (p.close h).1 = .ok () ∨ ∃ e, (p.close h).1 = .err e) :
    (procRun (procStep p (.close h)) acts).collect h = procRun (procStep p (.close h)) acts := by
  have key : ∀ (acts : List ProcAct) (q : Proc), (∃ y, q.handles[h]? = some y ∧ y.finalizer = false) → ∃ y, (procRun q acts).handles[h]? = some y ∧ y.finalizer = false := by
    intro acts
    induction acts with
    | nil => intro q h; exact h
    | cons a as ih =>
      intro q hq
      refine ih _ ?_
      have set : ∀ (k : Nat) (x z : Handle), q.handles[k]? = some x → (x.finalizer = false → z.finalizer = false) →
          ∃ y, (q.handles.set k z)[h]? = some y ∧ y.finalizer = false := by
        intro k x z hk hz
        obtain ⟨y, hy, hyf⟩ := hq
        by_cases e : k = h
        · subst e
          rw [hk] at hy
          cases hy
          exact ⟨z, List.getElem?_set_self (List.getElem?_eq_some_iff.mp hk).1, hz hyf⟩
        · exact ⟨y, (by rw [List.getElem?_set_ne e]; exact hy), hyf⟩
      have hclose : ∀ k, ∃ y, (q.close k).2.handles[h]? = some y ∧ y.finalizer = false := by
        intro k
        unfold Proc.close
        split
        · exact hq
        · rename_i x hk
          have := set k x { x with finalizer := false } hk (fun _ => rfl)
          simp only
          split
          · exact this
          · exact this
          · exact hq
          · exact hq
      cases a with
      | «open» conn a =>
        simp only [procStep]
        split
        · unfold Proc.open
          cases hn : newBuf q.mem conn a with
          | ok r =>
            simp only [Res.ok_bind]
            obtain ⟨y, hy, hyf⟩ := hq
            exact ⟨y, (by rw [List.getElem?_append_left (List.getElem?_eq_some_iff.mp hy).1]; exact hy), hyf⟩
          | err _ => exact hq
          | panic => exact hq
          | diverge => exact hq
        · exact hq
      | close k =>
        simp only [procStep]
        split
        · exact hclose k
        · exact hq
      | drop k =>
        simp only [procStep]
        unfold Proc.drop
        split
        · exact hq
        · rename_i x hk
          exact set k x _ hk id
      | collect k =>
        simp only [procStep]
        unfold Proc.collect
        split
        · exact hq
        · split
          · exact hclose k
          · exact hq
      | shm op => cases op <;> simp only [procStep] <;> (try split) <;> exact hq
      | mmap op => cases op <;> simp only [procStep] <;> (try split) <;> exact hq
  have h0 : ∃ y, (procStep p (.close h)).handles[h]? = some y ∧ y.finalizer = false := by
    simp only [procStep, if_pos hp]
    cases hh : p.handles[h]? with
    | none => exact absurd hh hx
    | some x =>
      have hlt := (List.getElem?_eq_some_iff.mp hh).1
      unfold Proc.close at hok ⊢
      rw [hh] at hok ⊢
      simp only at hok ⊢
      cases hc : p.mem.close x.buf with
      | ok m => exact ⟨_, List.getElem?_set_self hlt, rfl⟩
      | err m => exact ⟨_, List.getElem?_set_self hlt, rfl⟩
      | panic => rw [hc] at hok; rcases hok with h | ⟨_, h⟩ <;> cases h
      | diverge => rw [hc] at hok; rcases hok with h | ⟨_, h⟩ <;> cases h
  obtain ⟨y, hy, hyf⟩ := key acts _ h0
  unfold Proc.collect
  rw [hy]
  simp only [hyf, Bool.false_eq_true, and_false, if_false]

/-- The claim without the condition that no cache is closed twice. -/
def Spec.StaysThoughOthersClosedTwice : Prop :=
  ∀ p, Fresh p → ∀ before after, ∀ (h : Nat) (x : Handle), (procRun p before).handles[h]? = some x → x.live = true →
    .close h ∉ before ++ after → .drop h ∉ after → (procRun (procRun p before) after).mem.behind x.buf = (procRun p before).mem.behind x.buf

/-- **C138 is violated** by a program that closes another cache twice: the second `Close` detaches what has been mapped at the same address since. -/
theorem C138_twice_refuted : ¬ StaysThoughOthersClosedTwice := by
  intro h
  have h0 := h twoSegments twoSegments_fresh [.open (ascii "shmkey:7") 2, .close 0, .open (ascii "shmkey:8") 2] [.close 0] 1 ⟨.shm ⟨2, 100⟩, true, true⟩
    (by decide +kernel) rfl (by simp) (by simp)
  revert h0
  decide +kernel

/-- The hypotheses of `C138_stays_partial`, `C138_money_partial`: while the first cache is in use, a second one is opened, dropped, collected; its segment removed. -/
example : let before : List ProcAct := [.open (ascii "shmkey:8") 2, .open (ascii "shmkey:7") 3]
    let after : List ProcAct := [.drop 1, .collect 1, .collect 0, .shm (.remove 8), .open (ascii "shmkey:7") 3]
    let q := procRun twoSegments before
    Fresh twoSegments ∧ ClosesOnce (before ++ after) ∧ q.handles[0]? = some ⟨.shm ⟨2, 100⟩, true, true⟩ ∧ .close 0 ∉ before ++ after ∧ .drop 0 ∉ after ∧
      moneyThrough q.mem (.shm ⟨2, 100⟩) ⟨4, 2, 3, false, 0⟩ ⟨0, 4, 8, 20, 32, 0, 48, 56, 60, 64⟩ 1 = .ok 5 ∧
      (procRun q after).handles.length = 3 ∧ (procRun q after).mem.behind (.shm ⟨2, 100⟩) = some 1 := by
  refine ⟨twoSegments_fresh, ?_, by decide +kernel, by simp, by simp, by decide +kernel, by decide +kernel, by decide +kernel⟩
  intro k
  simp

/-- The hypotheses of `C138_collected`. -/
example : let acts : List ProcAct := [.open (ascii "shmkey:8") 2, .open (ascii "shmkey:7") 3, .drop 0]
    ClosesOnce acts ∧ (procRun twoSegments acts).handles[0]? = some ⟨.shm ⟨2, 100⟩, true, false⟩ ∧
      (procRun twoSegments acts).handles[1]? = some ⟨.shm ⟨3, 100⟩, true, true⟩ := by
  refine ⟨?_, by decide +kernel, by decide +kernel⟩
  intro k
  simp

/-- The hypotheses of `C138_closed_left`. -/
example : let p := procRun twoSegments [.open (ascii "shmkey:8") 2]
    p.handles[0]?.map (·.live) = some true ∧ (p.close 0).1 = .ok () := by
  decide +kernel

end Verif
