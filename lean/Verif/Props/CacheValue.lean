import Verif.Model.CacheValue
import Verif.Props.SharedMem
import Verif.Props.Cache
/-!
# C144: what opening a cache returns when it fails
-/

namespace Verif
open Spec

/-- The full claim of C144: no cache is returned with an error. -/
def Spec.C144 : Prop :=
  ∀ sys m conn a v e m', newCacheValue sys m conn a = .ok (v, some e, m') → v = .nil

/-- No method of the value works. -/
def Spec.Useless (sys : System) (m : Mem) (v : CacheValue) : Prop := v.bytes m = .panic ∧ v.close sys m = .panic

/-- The value is the open cache `b`. -/
def Spec.valueOf : Buf → CacheValue
  | .shm v => .shm (some v)
  | .mmap v => .mmap (some v)

theorem openMmap_state (s : MFS) (path : Bytes) (a : Nat) : (∃ v, (openMmap s path a).1 = .ok v) ∨ ((∃ e, (openMmap s path a).1 = .err e) ∧ (openMmap s path a).2 = s) := by
  unfold openMmap MFS.mapFile
  split
  · exact .inr ⟨⟨_, rfl⟩, rfl⟩
  · split
    · exact .inr ⟨⟨_, rfl⟩, rfl⟩
    · exact .inl ⟨_, rfl⟩

theorem selectBackend_total (conn : Bytes) : (∃ b, selectBackend conn = .ok b) ∨ ∃ e, selectBackend conn = .err e := by
  unfold selectBackend
  split
  · next h => exact absurd h (splitByte_ne_nil _ _)
  · exact .inl ⟨_, rfl⟩
  · split
    · split
      · exact .inr ⟨_, rfl⟩
      · exact .inl ⟨_, rfl⟩
    · split
      · exact .inl ⟨_, rfl⟩
      · exact .inr ⟨_, rfl⟩

theorem openKey_total (s : Ipc) (hr : ShmReachable s) (key : Int) (a : Nat) :
    (∃ n t d, openKey s key a = .ok (⟨a, n⟩, t) ∧ t.view ⟨a, n⟩ = .ok d) ∨ ∃ e, openKey s key a = .err e := by
  obtain ⟨h1, h2⟩ := C87_open_exact s hr key a
  by_cases h : key % 2 ^ 32 = 0 ∨ ∀ i g, s.seg i = some g → ¬ HasKey key g
  · exact .inr (h2 h)
  · rw [not_or] at h
    obtain ⟨h0, h⟩ := h
    rw [Classical.not_forall] at h
    obtain ⟨i, h⟩ := h
    rw [Classical.not_forall] at h
    obtain ⟨g, h⟩ := h
    rw [Classical.not_imp, Classical.not_not] at h
    obtain ⟨t, h3, h4⟩ := h1 i g h.1 h.2 h0
    exact .inl ⟨_, t, _, h3, h4⟩

theorem openMmap_view {s : MFS} {path : Bytes} {a : Nat} {v : View} (h : (openMmap s path a).1 = .ok v) : ∃ d, (openMmap s path a).2.view v = .ok d := by
  unfold openMmap at *
  split at h
  · cases h
  · next i hi =>
    unfold MFS.mapFile at *
    split at h
    · cases h
    · next hn =>
      cases h
      rw [if_neg hn]
      unfold MFS.view setAt
      simp only [if_true]
      have : ¬ pages (s.inode i).length < (s.inode i).length := by unfold pages; omega
      rw [if_neg this]
      exact ⟨_, rfl⟩

/-- **C144**, on a Unix: opening ends, and does so with a cache that can be read and no error; or with an error, the memory as it was, and a value no
method of which works, which is nil exactly if the connection string was refused. -/
theorem C144_exact (m : Mem) (hr : ShmReachable m.ipc) (conn : Bytes) (a : Nat) : ∃ v e m', newCacheValue .unix m conn a = .ok (v, e, m') ∧
    (e = none ↔ ∃ d, v.bytes m' = .ok d) ∧ (e ≠ none → m' = m ∧ Useless .unix m v ∧ (v = .nil ↔ ∃ e', selectBackend conn = .err e')) := by
  unfold newCacheValue
  rcases selectBackend_total conn with ⟨b, hb⟩ | ⟨e, he⟩
  · rw [hb]
    cases b with
    | shm key =>
      simp only [openKeyOn]
      rcases openKey_total m.ipc hr key a with ⟨n, t, d, h1, h2⟩ | ⟨e, h⟩
      · rw [h1]
        exact ⟨_, _, _, rfl, ⟨fun _ => ⟨d, h2⟩, fun _ => rfl⟩, fun h => absurd rfl h⟩
      · rw [h]
        refine ⟨_, _, _, rfl, ⟨nofun, ?_⟩, fun _ => ⟨rfl, ⟨rfl, rfl⟩, nofun, ?_⟩⟩
        · rintro ⟨d, hd⟩; cases hd
        · rintro ⟨e', he'⟩; cases he'
    | mmap path =>
      simp only [openMmapOn]
      rcases openMmap_state m.mfs path a with ⟨v, h1⟩ | ⟨⟨e, h1⟩, h2⟩
      · obtain ⟨d, hd⟩ := openMmap_view h1
        rw [show openMmap m.mfs path a = (.ok v, (openMmap m.mfs path a).2) from Prod.ext h1 rfl]
        exact ⟨_, _, _, rfl, ⟨fun _ => ⟨d, hd⟩, fun _ => rfl⟩, fun h => absurd rfl h⟩
      · rw [show openMmap m.mfs path a = (.err e, m.mfs) from Prod.ext h1 h2]
        refine ⟨_, _, _, rfl, ⟨nofun, ?_⟩, fun _ => ⟨rfl, ⟨rfl, rfl⟩, nofun, ?_⟩⟩
        · rintro ⟨d, hd⟩; cases hd
        · rintro ⟨e', he'⟩; cases he'
  · rw [he]
    refine ⟨_, _, _, rfl, ⟨nofun, ?_⟩, fun _ => ⟨rfl, ⟨rfl, rfl⟩, fun _ => ⟨e, rfl⟩, fun _ => rfl⟩⟩
    rintro ⟨d, hd⟩; cases hd

/-- **C144**, the part that holds: a connection string with an unknown scheme, or a key that is no number, gives no cache. (Missing for the full claim:
a file or a key that cannot be opened.) -/
theorem C144_partial (sys : System) (m : Mem) (s t : Bytes) (hs : 58 ∉ s)
    (h : s ≠ ascii "file" ∧ s ≠ ascii "shmkey" ∨ s = ascii "shmkey" ∧ 58 ∉ t ∧ atoi t = none) (a : Nat) :
    ∃ e, newCacheValue sys m (s ++ 58 :: t) a = .ok (.nil, some e, m) := by
  unfold newCacheValue
  rcases h with ⟨h1, h2⟩ | ⟨h1, h2, h3⟩
  · rw [C52_other s t hs h1 h2]
    exact ⟨_, rfl⟩
  · have := C52_exact s t [] hs h2 (.inl rfl)
    rw [List.append_nil, if_pos h1, h3] at this
    rw [this]
    exact ⟨_, rfl⟩

theorem no_both {v w : CacheValue} {e : String} {m m' : Mem} (h : Res.ok (v, some e, m) = .ok (w, none, m')) : False := by
  have := congrArg (fun x : CacheValue × Option String × Mem => x.2.1) (Res.ok.inj h)
  cases this

/-- **C144**: opening succeeds when, and with what, C89 says. -/
theorem C144_same (m : Mem) (conn : Bytes) (a : Nat) (b : Buf) (m' : Mem) :
    newBuf m conn a = .ok (b, m') ↔ newCacheValue .unix m conn a = .ok (valueOf b, none, m') := by
  unfold newBuf newCacheValue
  cases selectBackend conn with
  | err e => exact ⟨nofun, fun h => (no_both h).elim⟩
  | panic => exact ⟨nofun, nofun⟩
  | diverge => exact ⟨nofun, nofun⟩
  | ok x =>
    rw [Res.ok_bind]
    cases x with
    | shm key =>
      simp only [openKeyOn]
      cases openKey m.ipc key a with
      | ok r =>
        constructor
        · intro h; cases h; rfl
        · intro h
          cases b with
          | shm v => cases h; rfl
          | mmap v => cases h
      | err e => exact ⟨nofun, fun h => (no_both h).elim⟩
      | panic => exact ⟨nofun, nofun⟩
      | diverge => exact ⟨nofun, nofun⟩
    | mmap path =>
      simp only [openMmapOn]
      obtain ⟨r, s⟩ := openMmap m.mfs path a
      cases r with
      | ok v =>
        constructor
        · intro h; cases h; rfl
        · intro h
          cases b with
          | shm v => cases h
          | mmap v => cases h; rfl
      | err e => exact ⟨nofun, fun h => (no_both h).elim⟩
      | panic => exact ⟨nofun, nofun⟩
      | diverge => exact ⟨nofun, nofun⟩

/-- **C144**, on Windows: nothing can be opened; every connection string gives an error and a value no method of which works, nil or not. -/
theorem C144_windows (m : Mem) (conn : Bytes) (a : Nat) : ∃ v e, newCacheValue .windows m conn a = .ok (v, some e, m) ∧ Useless .windows m v ∧
    (v = .nil ↔ ∃ e', selectBackend conn = .err e') := by
  unfold newCacheValue
  rcases selectBackend_total conn with ⟨b, hb⟩ | ⟨e, he⟩
  · rw [hb]
    cases b with
    | shm key => exact ⟨_, _, rfl, ⟨rfl, rfl⟩, nofun, fun ⟨_, h⟩ => by cases h⟩
    | mmap path =>
      simp only [openMmapOn]
      cases m.mfs.names path <;> exact ⟨_, _, rfl, ⟨rfl, rfl⟩, nofun, fun ⟨_, h⟩ => by cases h⟩
  · rw [he]
    exact ⟨_, _, rfl, ⟨rfl, rfl⟩, fun _ => ⟨e, rfl⟩, fun _ => rfl⟩

/-- **C144**, for the cache of the package `pttbbs`, whose pointer is checked before it becomes a value: an error and nil, or no error and the open
cache. -/
theorem C144_pttbbs (sys : System) (m : Mem) (conn : Bytes) (s : Layout) (a : Nat) (x : Option (CacheValue × CachePos)) (e : Option String) (m' : Mem)
    (h : pttNewCache sys m conn s a = .ok (x, e, m')) : (x = none ↔ e ≠ none) ∧
      ∀ v p, x = some (v, p) → sys = .unix ∧ ∃ b, v = valueOf b ∧ newCache m conn s a = .ok (b, p, m') := by
  unfold pttNewCache at h
  obtain ⟨⟨v, e1, m1⟩, h1, h2⟩ := Res.bind_eq_ok.mp h
  cases e1 with
  | some e1 =>
    cases h2
    exact ⟨⟨nofun, fun _ => rfl⟩, nofun⟩
  | none =>
    obtain ⟨p, h3, h4⟩ := Res.bind_eq_ok.mp h2
    cases h4
    refine ⟨⟨nofun, fun h => absurd rfl h⟩, ?_⟩
    rintro v' p' hx
    cases hx
    cases sys with
    | windows =>
      obtain ⟨v', e', h5, _⟩ := C144_windows m conn a
      rw [h1] at h5
      cases h5
    | unix =>
      have hb : ∃ b, v = valueOf b := by
        unfold newCacheValue at h1
        split at h1
        · cases h1
        · cases h1
        · cases h1
        · split at h1
          · cases h1; exact ⟨.shm _, rfl⟩
          · cases h1
          · cases h1
          · cases h1
        · split at h1
          · cases h1; exact ⟨.mmap _, rfl⟩
          · cases h1
          · cases h1
          · cases h1
      obtain ⟨b, rfl⟩ := hb
      refine ⟨rfl, b, rfl, ?_⟩
      unfold newCache
      rw [(C144_same m conn a b m').mpr h1, Res.ok_bind]
      simp only
      rw [h3, Res.ok_bind]

/-- An empty memory. -/
def noMem : Mem := ⟨noShm 100, ⟨fun _ => none, fun _ => [], 0, fun _ => none⟩⟩

/-- **C144 is false of the code**: for a file that does not exist, a value that is not nil is returned. -/
theorem C144_refuted : ¬ Spec.C144 := by
  intro h
  cases h .unix noMem (ascii "file:/x") 0 (.mmap none) "open error" noMem rfl

/-- **C144 is false of the code** for keys, too. -/
theorem C144_key_refuted : ¬ ∀ sys m key a v e m', newCacheValue sys m (ascii "shmkey:" ++ decInt key) a = .ok (v, some e, m') → v = .nil := by
  intro h
  cases h .unix noMem 1228 0 (.shm none) "no such file or directory" noMem rfl

/-- **C144, closing.** Closing a cache does what C88 and C89 say; on Windows it fails, and does not crash. -/
theorem C144_close (m : Mem) (b : Buf) : (valueOf b).close .unix m = m.close b ∧ ∃ e, (valueOf b).close .windows m = .err e := by
  cases b <;> exact ⟨rfl, _, rfl⟩

example : ShmReachable noMem.ipc := ⟨100, [], by decide, rfl⟩
example : newCacheValue .unix noMem (ascii "shmkey:12x") 0 = .ok (.nil, some "atoi error", noMem) := rfl
example : (58 : UInt8) ∉ ascii "http" ∧ ascii "http" ≠ ascii "file" ∧ ascii "http" ≠ ascii "shmkey" := by decide

/-- A file of three bytes. -/
def oneFile : Mem := ⟨noShm 100, ⟨fun p => if p = ascii "/x" then some 0 else none, fun _ => [1, 2, 3], 1, fun _ => none⟩⟩

example : ∃ m', newCacheValue .unix oneFile (ascii "file:/x") 7 = .ok (.mmap (some ⟨7, 3⟩), none, m') ∧ (CacheValue.mmap (some ⟨7, 3⟩)).bytes m' = .ok [1, 2, 3] := ⟨_, rfl, by decide +kernel⟩
example : newCacheValue .windows oneFile (ascii "file:/x") 7 = .ok (.mmap none, some "mmap error", oneFile) := rfl
example : ∃ p m', pttNewCache .unix oneFile (ascii "file:/x") ⟨4, 50, 12, false, 0⟩ 7 = .ok (some (.mmap (some ⟨7, 3⟩), p), none, m') := ⟨_, _, rfl⟩

end Verif
