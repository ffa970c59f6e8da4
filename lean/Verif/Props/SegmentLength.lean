import Verif.Props.CacheOpen
/-!
# C152: the length of a segment, on every system the package is built for

`CreateKey` (/repo/cache/systemvshm.go:56-65) takes the length of a segment from a structure that the kernel fills in. The package declares that
structure twice, for Linux (systemvshm_linux.go:11-33) and for Darwin (systemvshm_darwin.go:5-23). On 32-bit x86 Go aligns 64-bit members to 4, and
the members that the kernel declares `long` have 32 bits; Darwin's header packs its structure to 4. A 64-bit member aligned to 4 is `.int 2` here.
Not covered: 32-bit ARM, where the same call makes the kernel write its old structure.
-/

namespace Verif

namespace Spec

/-- Systems for which the package is built with shared memory. -/
inductive Host where
  | linux64
  | linux386
  | darwin
  deriving DecidableEq

/-- `ShmidDs` of the package — /repo/cache/systemvshm_linux.go:11-33, systemvshm_darwin.go:5-23. -/
def Host.goDs : Host → List (String × CType)
  | .linux64 => goShmidDs
  | .linux386 =>
    [("key", .int 1), ("uid", .int 1), ("gid", .int 1), ("cuid", .int 1), ("cgid", .int 1), ("mode", .short), ("pad1", .short),
     ("seq", .short), ("pad2", .short), ("reserved1", .int 2), ("reserved2", .int 2), ("segsz", .int 2), ("atime", .int 2),
     ("dtime", .int 2), ("ctime", .int 2), ("cpid", .int 1), ("lpid", .int 1), ("nattch", .int 2), ("internal", .int 2)]
  | .darwin =>
    [("uid", .int 1), ("gid", .int 1), ("cuid", .int 1), ("cgid", .int 1), ("mode", .int 1), ("seq", .short), ("key", .short),
     ("segsz", .long 1), ("lpid", .int 1), ("cpid", .int 1), ("nattch", .short), ("atime", .long 1), ("dtime", .long 1), ("ctime", .long 1),
     ("internal", .long 1)]

/-- The structure that the kernel fills in: `asm-generic/ipcbuf.h` and `shmbuf.h` of Linux, `sys/ipc.h` and `sys/shm.h` of Darwin. -/
def Host.kernelDs : Host → List (String × CType)
  | .linux64 => kernelShmidDs
  | .linux386 =>
    [("key", .int 1), ("uid", .int 1), ("gid", .int 1), ("cuid", .int 1), ("cgid", .int 1), ("mode", .short), ("pad1", .char 2),
     ("seq", .short), ("pad2", .short), ("unused1", .int 1), ("unused2", .int 1), ("segsz", .int 1), ("atime", .int 1), ("atime_high", .int 1),
     ("dtime", .int 1), ("dtime_high", .int 1), ("ctime", .int 1), ("ctime_high", .int 1), ("cpid", .int 1), ("lpid", .int 1),
     ("nattch", .int 1), ("unused4", .int 1), ("unused5", .int 1)]
  | .darwin =>
    [("uid", .int 1), ("gid", .int 1), ("cuid", .int 1), ("cgid", .int 1), ("mode", .short), ("seq", .short), ("key", .int 1),
     ("segsz", .int 2), ("lpid", .int 1), ("cpid", .int 1), ("nattch", .short), ("atime", .int 2), ("dtime", .int 2), ("ctime", .int 2),
     ("internal", .int 2)]

/-- A 64-bit number with sign. -/
def sgn64 (b : Bytes) : Int := if num b < 2 ^ 63 then num b else (num b : Int) - 2 ^ 64

/-- `int(ds.ShmSegsz)` — /repo/cache/systemvshm.go:64: `int` has 32 bits on a 32-bit system. -/
def Host.asInt : Host → Bytes → Int
  | .linux386, b => sgn (b.take 4)
  | _, b => sgn64 b

/-- The length that `CreateKey` takes from the buffer at `p` after the kernel has written `ds` there. -/
def Host.taken (h : Host) (mem ds : Bytes) (p : Nat) : Int := h.asInt (member h.goDs ((statCopy mem p ds).drop p) "segsz")

/-- The length that the kernel reports. -/
def Host.reported (h : Host) (ds : Bytes) : Int := num (member h.kernelDs ds "segsz")

/-- The full claim of C152, for segments whose length an `int` can hold. -/
def LengthRight : Prop :=
  ∀ (h : Host) (mem ds : Bytes) (p : Nat), ds.length = structSize h.kernelDs → h.reported ds < 2 ^ 31 → h.taken mem ds p = h.reported ds

end Spec
open Spec

/-- Where things are. -/
theorem C152_places :
    (whereIs Host.linux64.goDs "segsz" = (48, 8) ∧ whereIs Host.linux64.kernelDs "segsz" = (48, 8)) ∧
    (whereIs Host.linux386.goDs "segsz" = (44, 8) ∧ whereIs Host.linux386.kernelDs "segsz" = (36, 4) ∧
      whereIs Host.linux386.kernelDs "atime_high" = (44, 4)) ∧
    (whereIs Host.darwin.goDs "segsz" = (24, 8) ∧ whereIs Host.darwin.kernelDs "segsz" = (24, 8)) := by decide +kernel

theorem host_sizes :
    structSize Host.linux64.goDs = 104 ∧ structSize Host.linux64.kernelDs = 112 ∧ structSize Host.linux386.goDs = 100 ∧
    structSize Host.linux386.kernelDs = 84 ∧ structSize Host.darwin.goDs = 80 ∧ structSize Host.darwin.kernelDs = 76 := by decide +kernel

/-- What is read at a place of the buffer is what the kernel wrote at that place. -/
theorem statCopy_part (mem ds : Bytes) (p o n : Nat) (h : o + n ≤ ds.length) :
    (((statCopy mem p ds).drop p).drop o).take n = (ds.drop o).take n := by
  rw [List.drop_drop]
  refine List.ext_getElem? (fun j => ?_)
  by_cases hj : j < n
  · rw [List.getElem?_take_of_lt hj, List.getElem?_take_of_lt hj, List.getElem?_drop, List.getElem?_drop]
    unfold statCopy
    rw [writeAt_getElem?, if_pos (by omega)]
    congr 1
    omega
  · rw [List.getElem?_eq_none (by rw [List.length_take]; omega), List.getElem?_eq_none (by rw [List.length_take]; omega)]

theorem num_lt' (b : Bytes) : num b < 256 ^ b.length := by
  induction b with
  | nil => simp [num]
  | cons x b ih =>
    simp only [num, List.length_cons, Nat.pow_succ]
    have := x.toNat_lt
    omega

/-- **C152 (exact).** On 64-bit Linux and on Darwin the length taken is the one reported, or that less 2⁶⁴ if an `int` cannot hold it; on 32-bit x86 Linux
it is the upper half of the time of the last attachment. -/
theorem C152_exact (h : Host) (mem ds : Bytes) (p : Nat) (hd : ds.length = structSize h.kernelDs) :
    h.taken mem ds p = match h with
      | .linux386 => sgn (member h.kernelDs ds "atime_high")
      | _ => if h.reported ds ≤ 9223372036854775807 then h.reported ds else h.reported ds - 18446744073709551616 := by
  obtain ⟨⟨a1, a2⟩, ⟨b1, b2, b3⟩, ⟨c1, c2⟩⟩ := C152_places
  obtain ⟨-, s1, -, s2, -, s3⟩ := host_sizes
  cases h with
  | linux64 =>
    simp only [Host.taken, Host.asInt, Host.reported, member, a1, a2]
    rw [statCopy_part _ _ _ _ _ (by omega)]
    unfold sgn64
    split
    · rw [if_pos (by omega)]
    · rw [if_neg (by omega)]
      rfl
  | linux386 =>
    simp only [Host.taken, Host.asInt, member, b1, b3]
    rw [statCopy_part _ _ _ _ _ (by omega), List.take_take]
    rfl
  | darwin =>
    simp only [Host.taken, Host.asInt, Host.reported, member, c1, c2]
    rw [statCopy_part _ _ _ _ _ (by omega)]
    unfold sgn64
    split
    · rw [if_pos (by omega)]
    · rw [if_neg (by omega)]
      rfl

/-- **C152** (partial: 64-bit Linux and Darwin). -/
theorem C152_partial (h : Host) (h32 : h ≠ .linux386) (mem ds : Bytes) (p : Nat) (hd : ds.length = structSize h.kernelDs)
    (hs : h.reported ds < 2 ^ 31) : h.taken mem ds p = h.reported ds := by
  have := C152_exact h mem ds p hd
  cases h with
  | linux64 => exact this.trans (if_pos (by omega))
  | linux386 => exact absurd rfl h32
  | darwin => exact this.trans (if_pos (by omega))

/-- A segment of 5000 bytes that nobody attached yet, as 32-bit x86 Linux reports it. -/
def seg5000 : Bytes := zeros 36 ++ [0x88, 0x13, 0, 0] ++ zeros 44

/-- **C152 is false of the code**: on 32-bit x86 Linux the length is taken from somewhere else. -/
theorem C152_refuted : ¬ LengthRight := by
  intro h
  have := h .linux386 [] seg5000 0 (by decide +kernel) (by decide +kernel)
  revert this
  decide +kernel

/-- **C152, what comes of it.** On 32-bit x86 Linux, whatever the segment, as long as the clock fits in 32 bits the buffer that `OpenKey` makes has no
bytes, so that the first thing asked of the cache is a panic. -/
theorem C152_empty (mem ds : Bytes) (p : Nat) (hd : ds.length = structSize Host.linux386.kernelDs)
    (ht : member Host.linux386.kernelDs ds "atime_high" = [0, 0, 0, 0]) (buf : Bytes) (hb : (buf.length : Int) = Host.linux386.taken mem ds p) (s : Layout)
    (c : CacheState) (hc : newCacheState buf s = .ok c) : buf = [] ∧ c.version = .panic := by
  have h1 : Host.linux386.taken mem ds p = 0 := by
    obtain ⟨-, -, -, s2, -, -⟩ := host_sizes
    have e : Host.linux386.taken mem ds p = sgn (member Host.linux386.kernelDs ds "atime_high") := by
      simp only [Host.taken, Host.asInt, member, C152_places.2.1.1, C152_places.2.1.2.2]
      rw [statCopy_part _ _ _ _ _ (by omega), List.take_take]
      rfl
    rw [e, ht]
    rfl
  have h2 : buf = [] := List.length_eq_zero_iff.mp (by omega)
  subst h2
  refine ⟨rfl, ?_⟩
  unfold newCacheState at hc
  obtain ⟨pos, hp, hc⟩ := Res.bind_eq_ok.mp hc
  cases Res.ok.inj hc
  have hv : pos.version = 0 := by
    unfold caculatePos at hp
    obtain ⟨_, _, hp⟩ := Res.bind_eq_ok.mp hp
    obtain ⟨_, _, hp⟩ := Res.bind_eq_ok.mp hp
    rw [← Res.ok.inj hp]
  simp only [CacheState.version, hv]
  rfl

/-- **C152, the memory behind the buffer.** The kernel writes beyond the buffer on 64-bit Linux only. -/
theorem C152_inside (h : Host) :
    (∀ (mem ds : Bytes) (p : Nat), ds.length = structSize h.kernelDs → p + structSize h.kernelDs ≤ mem.length →
      ∀ j, (j < p ∨ p + structSize h.goDs ≤ j) → (statCopy mem p ds)[j]? = mem[j]?) ↔ h ≠ .linux64 := by
  obtain ⟨s1, s2, s3, s4, s5, s6⟩ := host_sizes
  constructor
  · rintro hc rfl
    exact C90_overflow_refuted hc
  · intro hne mem ds p hd hp j hj
    unfold statCopy
    rw [writeAt_getElem?]
    have : structSize h.kernelDs ≤ structSize h.goDs := by
      cases h with
      | linux64 => exact absurd rfl hne
      | linux386 => omega
      | darwin => omega
    rw [if_neg (by omega)]
    by_cases h2 : j < mem.length
    · rw [if_pos h2]
    · rw [if_neg h2, if_neg (by omega), List.getElem?_eq_none (by omega)]

/-- The hypotheses of `C152_exact` and `C152_empty` hold for the segment of 5000 bytes. -/
example : seg5000.length = structSize Host.linux386.kernelDs ∧ Host.linux386.reported seg5000 = 5000 ∧
    member Host.linux386.kernelDs seg5000 "atime_high" = [0, 0, 0, 0] ∧ Host.linux386.taken (zeros 200) seg5000 7 = 0 := by decide +kernel

example : (match newCacheState [] ⟨4, 50, 12, false, 4⟩ with | .ok _ => true | _ => false) = true := by decide +kernel

/-- On Darwin a segment of 5000 bytes is taken to have 5000 bytes. -/
example : Host.darwin.taken (zeros 200) (zeros 24 ++ [0x88, 0x13] ++ zeros 50) 7 = 5000 := by decide +kernel

end Verif
