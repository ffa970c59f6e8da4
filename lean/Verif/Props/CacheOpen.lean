import Verif.Props.MappedFile
import Verif.Props.CLayout
import Verif.Props.Cache
/-!
# C90, C91, C92: the state buffer, opening a cache, reading beside a writer
-/

namespace Verif

namespace Spec

/-- `ShmidDs` — /repo/cache/systemvshm_linux.go:11-33; Go lays out a structure by the same rule. -/
def goShmidDs : List (String × CType) :=
  [("key", .int 1), ("uid", .int 1), ("gid", .int 1), ("cuid", .int 1), ("cgid", .int 1), ("mode", .short), ("pad1", .short),
   ("seq", .short), ("pad2", .short), ("reserved1", .long 1), ("reserved2", .long 1), ("segsz", .long 1), ("atime", .long 1),
   ("dtime", .long 1), ("ctime", .long 1), ("cpid", .int 1), ("lpid", .int 1), ("nattch", .long 1), ("internal", .long 1)]

/-- `struct shmid64_ds`, which the kernel fills in (Linux, `asm-generic/ipcbuf.h` and `shmbuf.h`, 64 bits). -/
def kernelShmidDs : List (String × CType) :=
  [("key", .int 1), ("uid", .int 1), ("gid", .int 1), ("cuid", .int 1), ("cgid", .int 1), ("mode", .int 1),
   ("seq", .short), ("pad2", .short), ("unused1", .long 1), ("unused2", .long 1), ("segsz", .long 1), ("atime", .long 1),
   ("dtime", .long 1), ("ctime", .long 1), ("cpid", .int 1), ("lpid", .int 1), ("nattch", .long 1), ("unused4", .long 1),
   ("unused5", .long 1)]

end Spec
open Spec

/-! ## C90 -/

/-- `shmctl(IPC_STAT)` — /repo/cache/systemvshm.go:60-65: the kernel copies its structure to the address of the buffer. -/
def statCopy (mem : Bytes) (p : Nat) (ds : Bytes) : Bytes := writeAt mem p ds

/-- **C90**, sizes: the kernel writes 112 bytes, the buffer has 104. -/
theorem C90_sizes : structSize goShmidDs = 104 ∧ structSize kernelShmidDs = 112 := by decide +kernel

/-- **C90**, the size: for every memory, address and state, the length that `CreateKey` takes from the buffer is the one the
kernel reported. -/
theorem C90_segsz (mem ds : Bytes) (p : Nat) (hd : ds.length = structSize kernelShmidDs) :
    member goShmidDs ((statCopy mem p ds).drop p) "segsz" = member kernelShmidDs ds "segsz" := by
  have hg : whereIs goShmidDs "segsz" = (48, 8) := by decide +kernel
  have hk : whereIs kernelShmidDs "segsz" = (48, 8) := by decide +kernel
  have hs : structSize kernelShmidDs = 112 := C90_sizes.2
  rw [hs] at hd
  unfold member
  rw [hg, hk]
  simp only
  rw [List.drop_drop]
  refine List.ext_getElem? (fun j => ?_)
  by_cases hj : j < 8
  · rw [List.getElem?_take_of_lt hj, List.getElem?_take_of_lt hj, List.getElem?_drop, List.getElem?_drop]
    unfold statCopy
    rw [writeAt_getElem?, if_pos (by omega)]
    congr 1
    omega
  · rw [List.getElem?_eq_none (by rw [List.length_take]; omega), List.getElem?_eq_none (by rw [List.length_take]; omega)]

/-- The claim: the call changes no memory outside the buffer. -/
def Spec.StatInside : Prop :=
  ∀ (mem ds : Bytes) (p : Nat), ds.length = structSize kernelShmidDs → p + structSize kernelShmidDs ≤ mem.length →
    ∀ j, (j < p ∨ p + structSize goShmidDs ≤ j) → (statCopy mem p ds)[j]? = mem[j]?

/-- **C90** fails: the eight bytes behind the buffer are overwritten. -/
theorem C90_overflow_refuted : ¬ Spec.StatInside := by
  intro h
  have := h (List.replicate 112 1) (List.replicate 112 0) 0 (by decide +kernel) (by decide +kernel) 104 (.inr (by decide +kernel))
  revert this
  decide +kernel

/-- **C90**, exactly: the bytes changed are the buffer and the eight behind it, which take the kernel's last member. -/
theorem C90_exact (mem ds : Bytes) (p : Nat) (hd : ds.length = structSize kernelShmidDs)
    (hp : p + structSize kernelShmidDs ≤ mem.length) (j : Nat) :
    (statCopy mem p ds)[j]? =
      if p ≤ j ∧ j < p + structSize goShmidDs + 8 then ds[j - p]? else mem[j]? := by
  rw [C90_sizes.2] at hd hp
  rw [C90_sizes.1]
  unfold statCopy
  rw [writeAt_getElem?]
  by_cases h : p ≤ j ∧ j < p + 104 + 8
  · rw [if_pos h, if_pos (by omega)]
  · rw [if_neg h, if_neg (by omega)]
    by_cases hj : j < mem.length
    · rw [if_pos hj]
    · rw [if_neg hj, if_neg (by omega), List.getElem?_eq_none (by omega)]

/-! ## C91 -/

/-- **C91**: `shmkey:` with a number opens the segment of that key, and shows it in full. -/
theorem C91_key (m : Mem) (hr : ShmReachable m.ipc) (n : Int) (h0 : -(2 ^ 63) ≤ n) (h1 : n < 2 ^ 63) (a i : Nat) (g : Seg)
    (hs : m.ipc.seg i = some g) (hk : HasKey n g) (hn : n % 2 ^ 32 ≠ 0) :
    ∃ m', newBuf m (ascii "shmkey:" ++ decInt n) a = .ok (.shm ⟨a, g.bytes.length⟩, m') ∧
      m'.view (.shm ⟨a, g.bytes.length⟩) = .ok g.bytes ∧ m'.mfs = m.mfs := by
  obtain ⟨t, h2, h3⟩ := (C87_open_exact m.ipc hr n a).1 i g hs hk hn
  refine ⟨{ m with ipc := t }, ?_, h3, rfl⟩
  unfold newBuf
  rw [C52_key n h0 h1, Res.ok_bind]
  simp only
  rw [h2, Res.ok_bind]

/-- **C91**: `file:` with a path, or the path alone, opens that file, and shows it in full. -/
theorem C91_file (m : Mem) (p d : Bytes) (hp : 58 ∉ p) (hc : content m.mfs p = some d) (hd : d ≠ []) (a : Nat) (conn : Bytes)
    (h : conn = p ∨ conn = ascii "file:" ++ p) :
    ∃ m', newBuf m conn a = .ok (.mmap ⟨a, d.length⟩, m') ∧ m'.view (.mmap ⟨a, d.length⟩) = .ok d ∧ m'.ipc = m.ipc := by
  have hsel : selectBackend conn = .ok (.mmap p) := by
    rcases h with rfl | rfl
    · exact C52_plain _ hp
    · exact C52_file_partial p hp
  have hx := C89_open_exact m.mfs p a
  rw [hc] at hx
  simp only [if_pos hd] at hx
  refine ⟨{ m with mfs := (openMmap m.mfs p a).2 }, ?_, hx.2.1, rfl⟩
  unfold newBuf
  rw [hsel, Res.ok_bind]
  simp only
  rw [hx.1, Res.ok_bind]

/-- **C91**, live: after any process stores the money of a user into the segment, through whatever view, the open cache
reads that money; and reads everyone else's as before. -/
theorem C91_money_live (m : Mem) (v w : View) (d : Bytes) (s : Layout) (hv : Spec.ValidLayout s)
    (p : CachePos) (hp : caculatePos s = .ok p) (h0 : m.ipc.view v = .ok d) (hl : p.userInfo ≤ d.length)
    (hm : m.ipc.map w.addr = m.ipc.map v.addr) (uid : Int) (u0 : 0 ≤ uid) (u1 : uid < s.maxUsers) (x : UInt32) (t : Ipc)
    (hst : m.ipc.store w (p.money + 4 * uid).toNat (le32 x) = .ok t) :
    ∃ c c', m.cache (.shm v) s p = .ok c ∧ ({ m with ipc := t } : Mem).cache (.shm v) s p = .ok c' ∧
      c'.money uid = .ok x.toInt32 ∧
      ∀ other, 0 ≤ other → other < s.maxUsers → other ≠ uid → c'.money other = c.money other := by
  obtain ⟨d', h1, hlen, hbytes⟩ := C88_store_exact m.ipc t w v (p.money + 4 * uid).toNat (le32 x) d hst h0
  have hnc : ∀ b : Bytes, newCacheState b s = .ok { bytes := b, layout := s, pos := p } := by
    intro b
    unfold newCacheState
    rw [hp]
    rfl
  have hx4 : (le32 x).length = 4 := rfl
  obtain ⟨p', hp', q⟩ := caculatePos_valid s hv
  rw [hp] at hp'
  cases hp'
  have hH : (0 : Int) < 2 ^ s.hashBits.toNat := Int.pow_pos (by omega)
  have q6' : p.hashHead ≥ p.money + 4 * s.maxUsers + 8 := by
    have q6 := q.hashHead
    rw [q6]; split <;> omega
  have q0 := q.nextLow
  have q3 := q.userID; have q4 := q.money
  have q7 := q.number; have q8 := q.loaded; have q9 := q.userInfo
  have hi := hv.idLen
  have hexp : 0 ≤ (s.maxUsers + 1) * (s.idLen + 1) := Int.mul_nonneg (by omega) (by omega)
  have bytesAt : ∀ j : Nat, j < d.length → d'[j]? = if (p.money + 4 * uid).toNat ≤ j ∧ j < (p.money + 4 * uid).toNat + 4 then
      (le32 x)[j - (p.money + 4 * uid).toNat]? else d[j]? := by
    intro j hj
    rw [hbytes j hj, hx4]
    by_cases hc : (p.money + 4 * uid).toNat ≤ j ∧ j < (p.money + 4 * uid).toNat + 4
    · rw [if_pos hc, if_pos ⟨hm.symm, hc⟩]
    · rw [if_neg hc, if_neg (fun h => hc h.2)]
  have sl : ∀ (e : Bytes) (lo hi j : Nat), (slice e lo hi)[j]? = if lo + j < hi then e[lo + j]? else none := by
    intro e lo hi j
    unfold slice
    rw [List.getElem?_drop, List.getElem?_take]
  refine ⟨{ bytes := d, layout := s, pos := p }, { bytes := d', layout := s, pos := p }, ?_, ?_, ?_, ?_⟩
  · unfold Mem.cache Mem.view
    simp only [h0]
    rfl
  · unfold Mem.cache Mem.view
    simp only [h1]
    rfl
  · rw [(C51_reads_partial s hv d' _ (hnc d') (by simp only; rw [hlen]; exact hl) uid u0 u1).2.1]
    have e : slice d' (p.money + 4 * uid).toNat (p.money + 4 * (uid + 1)).toNat = le32 x := by
      refine List.ext_getElem? (fun j => ?_)
      rw [sl]
      by_cases hj : j < 4
      · rw [if_pos (by omega), bytesAt _ (by omega), if_pos (by omega)]
        congr 1
        omega
      · rw [if_neg (by omega), List.getElem?_eq_none (by rw [hx4]; omega)]
    simp only [e]
    rw [rd32_le32]
  · intro other o0 o1 hne
    rw [(C51_reads_partial s hv d' _ (hnc d') (by simp only; rw [hlen]; exact hl) other o0 o1).2.1,
      (C51_reads_partial s hv d _ (hnc d) hl other o0 o1).2.1]
    have e : slice d' (p.money + 4 * other).toNat (p.money + 4 * (other + 1)).toNat =
        slice d (p.money + 4 * other).toNat (p.money + 4 * (other + 1)).toNat := by
      refine List.ext_getElem? (fun j => ?_)
      rw [sl, sl]
      by_cases hj : j < 4
      · rw [if_pos (by omega), if_pos (by omega), bytesAt _ (by omega), if_neg (by omega)]
      · rw [if_neg (by omega), if_neg (by omega)]
    simp only [e]

/-- A segment large enough for two users, open twice; the second user's money is stored. -/
example : let s : Layout := ⟨4, 2, 3, false, 0⟩
    let t := List.foldl shmStep (noShm 1000) [.create 7 100 0, .create 7 0 1]
    Spec.ValidLayout s ∧ ∃ p d u, caculatePos s = .ok p ∧ t.view ⟨0, 100⟩ = .ok d ∧ p.userInfo ≤ d.length ∧ t.map 1 = t.map 0 ∧
      t.store ⟨1, 100⟩ (p.money + 4 * 1).toNat (le32 5) = .ok u ∧ u.view ⟨0, 100⟩ ≠ t.view ⟨0, 100⟩ := by
  refine ⟨⟨by decide, by decide, by decide, by decide, by decide⟩, ⟨0, 4, 8, 20, 32, 0, 48, 56, 60, 64⟩, List.replicate 100 0, ?_⟩
  have e : ∃ u, (List.foldl shmStep (noShm 1000) [.create 7 100 0, .create 7 0 1]).store ⟨1, 100⟩ 36 (le32 5) = .ok u ∧
      u.view ⟨0, 100⟩ = .ok (writeAt (List.replicate 100 0) 36 (le32 5)) := by
    refine ⟨_, rfl, ?_⟩
    decide +kernel
  obtain ⟨u, e1, e2⟩ := e
  refine ⟨u, by decide +kernel, by decide +kernel, by decide +kernel, by decide +kernel, e1, ?_⟩
  rw [e2]
  decide +kernel

/-- The claim: given its file, the sample program prints the version, a user and their money. -/
def Spec.SampleWorks : Prop := ∃ m a r, sampleMain m a = .ok r

/-- **C91** fails for the sample program: without the file it prints an error, with it it divides by zero; and the file is
`/dump.shm`, not `../../dump.shm`. -/
theorem C91_sample_exact (m : Mem) (a : Nat) :
    (∃ d, content m.mfs (ascii "//../../dump.shm") = some d ∧ d ≠ []) ∧ sampleMain m a = .panic ∨
    (∀ d, content m.mfs (ascii "//../../dump.shm") = some d → d = []) ∧ ∃ e, sampleMain m a = .err e := by
  have hx := C89_open_exact m.mfs (ascii "//../../dump.shm") a
  have hsel : selectBackend (ascii "file://../../dump.shm") = .ok (.mmap (ascii "//../../dump.shm")) := by decide
  cases hc : content m.mfs (ascii "//../../dump.shm") with
  | none =>
    rw [hc] at hx
    obtain ⟨⟨e, he⟩, -⟩ := hx
    refine .inr ⟨fun d h => (nomatch h), e, ?_⟩
    unfold sampleMain newCache newBuf
    rw [hsel, Res.ok_bind]
    simp only
    rw [he]
    rfl
  | some d =>
    rw [hc] at hx
    by_cases hd : d = []
    · simp only [hd, ne_eq, not_true_eq_false, if_false] at hx
      obtain ⟨⟨e, he⟩, -⟩ := hx
      refine .inr ⟨fun d' h => by cases h; exact hd, e, ?_⟩
      unfold sampleMain newCache newBuf
      rw [hsel, Res.ok_bind]
      simp only
      rw [he]
      rfl
    · simp only [if_pos (show d ≠ [] from hd)] at hx
      refine .inl ⟨⟨d, rfl, hd⟩, ?_⟩
      unfold sampleMain newCache newBuf
      rw [hsel, Res.ok_bind]
      simp only
      rw [hx.1]
      rfl

theorem C91_sample_refuted : ¬ Spec.SampleWorks := by
  rintro ⟨m, a, r, h⟩
  rcases C91_sample_exact m a with ⟨-, h'⟩ | ⟨-, e, h'⟩ <;> rw [h'] at h <;> cases h

/-! ## C92 -/

/-- The entry of a user at one time: up to the first NUL. -/
def Spec.entryAt (mem : Nat → Bytes) (start len t : Nat) : Bytes :=
  (((List.range len).map fun k => (mem t).getD (start + k) 0)).takeWhile (· != 0)

/-- The claim: reading a user's id beside a writer gives an id that the entry held at some time of the reading. -/
def Spec.UntornRead : Prop :=
  ∀ (mem : Nat → Bytes) (start len : Nat), ∃ t, t < 2 * len ∧ userIDLive mem start len = entryAt mem start len t

/-- **C92** fails: beside one change from `abc` to `xy`, the reader gets `x`, `y`, NUL; nobody was ever called that. -/
theorem C92_torn_refuted : ¬ Spec.UntornRead := by
  intro h
  obtain ⟨t, -, ht⟩ := h (fun t => if t < 4 then ascii "abc" ++ [0] else ascii "xy" ++ [0, 0]) 0 4
  have e : userIDLive (fun t => if t < 4 then ascii "abc" ++ [0] else ascii "xy" ++ [0, 0]) 0 4 = ascii "xy" ++ [0] := by decide
  rw [e] at ht
  have hz : (0 : UInt8) ∈ entryAt (fun t => if t < 4 then ascii "abc" ++ [0] else ascii "xy" ++ [0, 0]) 0 4 t := by
    rw [← ht]
    decide
  unfold entryAt at hz
  have := List.all_takeWhile (p := (fun x : UInt8 => x != 0))
    (l := (List.range 4).map fun k => ((fun t => if t < 4 then ascii "abc" ++ [0] else ascii "xy" ++ [0, 0]) t : Bytes).getD (0 + k) 0)
  rw [List.all_eq_true] at this
  have := this 0 hz
  simp at this

/-- **C92** (partial: nobody writes to the entry meanwhile): the id is read. -/
theorem C92_untorn_partial (mem : Nat → Bytes) (start len : Nat)
    (h : ∀ t, t < 2 * len → ∀ k, k < len → (mem t).getD (start + k) 0 = (mem 0).getD (start + k) 0) :
    userIDLive mem start len = entryAt mem start len 0 := by
  unfold userIDLive entryAt
  have e : ((List.range len).map fun k => (mem k).getD (start + k) 0) = (List.range len).map fun k => (mem 0).getD (start + k) 0 := by
    refine List.map_congr_left (fun k hk => ?_)
    have := List.mem_range.1 hk
    exact h k (by omega) k this
  rw [e]
  simp only
  generalize hL : ((List.range len).map fun k => (mem 0).getD (start + k) 0) = L
  have hn : (L.takeWhile (· != 0)).length ≤ len := by
    have := (List.takeWhile_prefix (fun x : UInt8 => x != 0) (l := L)).length_le
    have hl : L.length = len := by rw [← hL]; simp
    omega
  have hp : L.takeWhile (· != 0) = L.take (L.takeWhile (· != 0)).length :=
    List.prefix_iff_eq_take.1 (List.takeWhile_prefix _)
  conv => rhs; rw [hp, ← hL, ← List.map_take]
  rw [List.take_range, Nat.min_eq_left (by rw [hL]; exact hn), hL]
  refine List.map_congr_left (fun k hk => ?_)
  have := List.mem_range.1 hk
  exact h (len + k) (by omega) k (by omega)

/-- **C92**, whatever happens: the id read is no longer than the entry, and each of its bytes stood at its place when it was
copied. -/
theorem C92_bytes (mem : Nat → Bytes) (start len : Nat) :
    (userIDLive mem start len).length ≤ len ∧
    ∀ k, k < (userIDLive mem start len).length →
      (userIDLive mem start len)[k]? = some ((mem (len + k)).getD (start + k) 0) := by
  have hn : (userIDLive mem start len).length =
      (((List.range len).map fun k => (mem k).getD (start + k) 0).takeWhile (· != 0)).length := by
    simp [userIDLive]
  constructor
  · rw [hn]
    have := (List.takeWhile_prefix (fun x : UInt8 => x != 0) (l := (List.range len).map fun k => (mem k).getD (start + k) 0)).length_le
    simpa using this
  · intro k hk
    rw [hn] at hk
    unfold userIDLive
    simp only
    rw [List.getElem?_map, List.getElem?_range hk]
    rfl

example : userIDLive (fun _ => [9, 9] ++ ascii "SYSOP" ++ [0, 0]) 2 7 = ascii "SYSOP" := by decide

end Verif
