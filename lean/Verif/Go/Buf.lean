import Verif.Go.Basic
/-!
# Go slices and fixed-size record buffers

A record writer of `/repo` allocates a zeroed buffer and then performs a sequence of
`copy(ret[a:b], data)`, `PutUint32(ret[a:a+4], v)` and `ret[i] = b` statements. All three are
instances of `Write`: overwrite at most `lim - off` bytes from `off` on.
-/

namespace Verif

/-- `data[a:b]` for `a ≤ b ≤ len data` (callers guard the bounds; out of bounds is a panic in Go). -/
def slice (data : Bytes) (a b : Nat) : Bytes := (data.take b).drop a

/-- `data[i]` for `i < len data` (callers guard the bounds). -/
def byteAt (data : Bytes) (i : Nat) : UInt8 := data.getD i 0

/-- `make([]byte, n)`. -/
def zeros (n : Nat) : Bytes := List.replicate n 0

/-- One buffer write: Go's `copy(buf[off:lim], data)`. -/
structure Write where
  off : Nat
  lim : Nat
  data : Bytes

/-- `copy(buf[a:b], s)`. -/
def wCopy (a b : Nat) (s : Bytes) : Write := ⟨a, b, s⟩
/-- `binary.LittleEndian.PutUint32(buf[a:a+4], v)`. -/
def w32 (a : Nat) (v : UInt32) : Write := ⟨a, a + 4, le32 v⟩
/-- `binary.LittleEndian.PutUint16(buf[a:a+2], v)`. -/
def w16 (a : Nat) (v : UInt16) : Write := ⟨a, a + 2, le16 v⟩
/-- `buf[a] = v`. -/
def w8 (a : Nat) (v : UInt8) : Write := ⟨a, a + 1, [v]⟩

/-- Effect of one write on a buffer with `w.lim ≤ buf.length`. -/
def Write.apply (buf : Bytes) (w : Write) : Bytes :=
  buf.take w.off ++ w.data.take (w.lim - w.off) ++
    buf.drop (w.off + (w.data.take (w.lim - w.off)).length)

/-- The writes of a record writer, in program order, on a fresh zero buffer of `n` bytes. -/
def runWrites (n : Nat) (ws : List Write) : Bytes := ws.foldl Write.apply (zeros n)

/-- A string in an `n`-byte zero-padded field, truncated if too long. -/
def padTo (n : Nat) (s : Bytes) : Bytes := s.take n ++ zeros (n - s.length)

/-- `bytes.Trim(b, "\x00")`: drop leading and trailing NUL bytes. -/
def trimNul (b : Bytes) : Bytes :=
  ((b.dropWhile (· == 0)).reverse.dropWhile (· == 0)).reverse

/-! ## Basic lemmas -/

@[simp] theorem zeros_length (n : Nat) : (zeros n).length = n := by simp [zeros]
@[simp] theorem padTo_length (n : Nat) (s : Bytes) : (padTo n s).length = n := by
  simp [padTo]; omega

theorem padTo_eq_of_length {n : Nat} {s : Bytes} (h : s.length = n) : padTo n s = s := by
  subst h; simp [padTo, zeros]

theorem padTo_eq_append {n : Nat} {s : Bytes} (h : s.length ≤ n) :
    padTo n s = s ++ zeros (n - s.length) := by
  simp [padTo, List.take_of_length_le h]

@[simp] theorem slice_length (d : Bytes) (a b : Nat) : (slice d a b).length = min b d.length - a := by
  simp [slice]

theorem slice_getElem? (d : Bytes) (a b i : Nat) :
    (slice d a b)[i]? = if a + i < b then d[a + i]? else none := by
  simp only [slice, List.getElem?_drop, List.getElem?_take]

theorem slice_zeros {n a b : Nat} (h : b ≤ n) : slice (zeros n) a b = zeros (b - a) := by
  simp [slice, zeros, List.take_replicate, List.drop_replicate, Nat.min_eq_left h]

theorem Write.apply_length {buf : Bytes} {w : Write} (h1 : w.off ≤ w.lim) (h2 : w.lim ≤ buf.length) :
    (Write.apply buf w).length = buf.length := by
  simp [Write.apply]; omega

theorem Write.apply_getElem? {buf : Bytes} {w : Write} (h1 : w.off ≤ w.lim) (h2 : w.lim ≤ buf.length)
    (i : Nat) :
    (Write.apply buf w)[i]? =
      if w.off ≤ i ∧ i < w.lim ∧ i - w.off < w.data.length then w.data[i - w.off]? else buf[i]? := by
  have hoff : w.off ≤ buf.length := by omega
  simp only [Write.apply, List.getElem?_append, List.length_append, List.length_take,
    List.getElem?_take, List.getElem?_drop, Nat.min_eq_left hoff]
  split
  · rename_i hlt
    split
    · rw [if_neg (by omega)]
    · rename_i hge
      rw [if_pos (by omega), if_pos (by omega)]
  · rename_i hge
    rw [if_neg (by omega)]
    congr 1
    omega

/-- Two writes whose target ranges do not overlap. -/
def Write.Disjoint (w w' : Write) : Prop := w.lim ≤ w'.off ∨ w'.lim ≤ w.off

instance (w w' : Write) : Decidable (Write.Disjoint w w') := by
  unfold Write.Disjoint; infer_instance

/-- All targets are inside a buffer of `n` bytes. -/
def WritesIn (n : Nat) (ws : List Write) : Prop := ∀ w ∈ ws, w.off ≤ w.lim ∧ w.lim ≤ n

theorem foldl_apply_length {ws : List Write} {buf : Bytes} (h : WritesIn buf.length ws) :
    (ws.foldl Write.apply buf).length = buf.length := by
  induction ws generalizing buf with
  | nil => rfl
  | cons w ws ih =>
    have hw := h w (by simp)
    have hl := Write.apply_length hw.1 hw.2
    simp only [List.foldl_cons]
    rw [ih (by rw [hl]; exact fun w' hw' => h w' (by simp [hw'])), hl]

theorem runWrites_length {n : Nat} {ws : List Write} (h : WritesIn n ws) :
    (runWrites n ws).length = n := by
  unfold runWrites
  rw [foldl_apply_length (by simpa using h)]; simp

/-- A range that no write targets keeps its old content. -/
theorem slice_foldl_untouched {ws : List Write} {buf : Bytes} (h : WritesIn buf.length ws) {a b : Nat}
    (hd : ∀ w ∈ ws, w.lim ≤ a ∨ b ≤ w.off) :
    slice (ws.foldl Write.apply buf) a b = slice buf a b := by
  induction ws generalizing buf with
  | nil => rfl
  | cons w ws ih =>
    have hw := h w (by simp)
    have hl := Write.apply_length hw.1 hw.2
    simp only [List.foldl_cons]
    rw [ih (by rw [hl]; exact fun w' hw' => h w' (by simp [hw'])) (fun w' hw' => hd w' (by simp [hw']))]
    apply List.ext_getElem?
    intro i
    rw [slice_getElem?, slice_getElem?, Write.apply_getElem? hw.1 hw.2]
    have := hd w (by simp)
    split
    · rw [if_neg (by omega)]
    · rfl

theorem slice_runWrites_untouched {n : Nat} {ws : List Write} (h : WritesIn n ws) {a b : Nat} (hb : b ≤ n)
    (hd : ∀ w ∈ ws, w.lim ≤ a ∨ b ≤ w.off) :
    slice (runWrites n ws) a b = zeros (b - a) := by
  unfold runWrites
  rw [slice_foldl_untouched (by simpa using h) hd, slice_zeros hb]

theorem slice_apply_self {buf : Bytes} {w : Write} (h1 : w.off ≤ w.lim) (h2 : w.lim ≤ buf.length)
    (hz : slice buf w.off w.lim = zeros (w.lim - w.off)) :
    slice (Write.apply buf w) w.off w.lim = padTo (w.lim - w.off) w.data := by
  apply List.ext_getElem?
  intro i
  have hzi : (slice buf w.off w.lim)[i]? = (zeros (w.lim - w.off))[i]? := by rw [hz]
  rw [slice_getElem?] at hzi ⊢
  rw [Write.apply_getElem? h1 h2]
  simp only [padTo, zeros, List.getElem?_append, List.length_take, List.getElem?_take,
    List.getElem?_replicate] at hzi ⊢
  have hsub : w.off + i - w.off = i := by omega
  rw [hsub]
  by_cases hi : w.off + i < w.lim
  · rw [if_pos hi] at hzi ⊢
    rw [if_pos (by omega)] at hzi
    by_cases hd : i < w.data.length
    · rw [if_pos (by omega), if_pos (by omega), if_pos (by omega)]
    · rw [if_neg (by omega), if_neg (by omega), if_pos (by omega), hzi]
  · rw [if_neg hi, if_neg (by omega), if_neg (by omega)]

/-- **Read-back.** If the targets of all writes are pairwise disjoint and inside the buffer, then after
all writes every target range holds its own data, zero-padded. -/
theorem slice_runWrites {n : Nat} {ws : List Write} (hin : WritesIn n ws)
    (hd : ws.Pairwise Write.Disjoint) {w : Write} (hw : w ∈ ws) :
    slice (runWrites n ws) w.off w.lim = padTo (w.lim - w.off) w.data := by
  obtain ⟨pre, post, rfl⟩ := List.append_of_mem hw
  have hwin := hin w (by simp)
  have hpre : WritesIn n pre := fun x hx => hin x (by simp [hx])
  have hpost : WritesIn n post := fun x hx => hin x (by simp [hx])
  rw [List.pairwise_append] at hd
  obtain ⟨_, hd2, hd3⟩ := hd
  rw [List.pairwise_cons] at hd2
  have hl1 : (pre.foldl Write.apply (zeros n)).length = n := by
    rw [foldl_apply_length (by simpa using hpre)]; simp
  have hl2 := Write.apply_length (buf := pre.foldl Write.apply (zeros n)) hwin.1 (by omega)
  unfold runWrites
  rw [List.foldl_append, List.foldl_cons]
  rw [slice_foldl_untouched (by rw [hl2, hl1]; exact hpost)
    (fun x hx => by have := hd2.1 x hx; unfold Write.Disjoint at this; omega)]
  apply slice_apply_self hwin.1 (by omega)
  rw [slice_foldl_untouched (by simpa using hpre)
    (fun x hx => by have := hd3 x hx w (by simp); unfold Write.Disjoint at this; omega)]
  exact slice_zeros hwin.2

/-- Writes with increasing, non-overlapping targets between `lo` and `hi`. -/
def Ordered (hi : Nat) : Nat → List Write → Prop
  | lo, [] => lo ≤ hi
  | lo, w :: ws => lo ≤ w.off ∧ w.off ≤ w.lim ∧ Ordered hi w.lim ws

theorem Ordered.bounds {hi lo : Nat} {ws : List Write} (h : Ordered hi lo ws) :
    lo ≤ hi ∧ ∀ w ∈ ws, lo ≤ w.off ∧ w.off ≤ w.lim ∧ w.lim ≤ hi := by
  induction ws generalizing lo with
  | nil => exact ⟨h, by simp⟩
  | cons w ws ih =>
    obtain ⟨h1, h2, h3⟩ := h
    have := ih h3
    refine ⟨by omega, ?_⟩
    intro x hx
    rcases List.mem_cons.mp hx with rfl | hx
    · exact ⟨h1, h2, this.1⟩
    · have := this.2 x hx; omega

theorem Ordered.writesIn {hi lo : Nat} {ws : List Write} (h : Ordered hi lo ws) : WritesIn hi ws :=
  fun w hw => (h.bounds.2 w hw).2

theorem Ordered.disjoint {hi lo : Nat} {ws : List Write} (h : Ordered hi lo ws) :
    ws.Pairwise Write.Disjoint := by
  induction ws generalizing lo with
  | nil => exact List.Pairwise.nil
  | cons w ws ih =>
    obtain ⟨h1, h2, h3⟩ := h
    exact List.Pairwise.cons (fun x hx => Or.inl (h3.bounds.2 x hx).1) (ih h3)

theorem Ordered.append {hi mid lo : Nat} {ws ws' : List Write} (h : Ordered mid lo ws)
    (h' : Ordered hi mid ws') : Ordered hi lo (ws ++ ws') := by
  induction ws generalizing lo with
  | nil =>
    cases ws' with
    | nil => exact Nat.le_trans h h'
    | cons w ws' => exact ⟨Nat.le_trans h h'.1, h'.2⟩
  | cons w ws ih => exact ⟨h.1, h.2.1, ih h.2.2⟩

/-- A loop writing `n` consecutive `k`-byte entries from `a` on. -/
theorem Ordered.ofFn (a k n : Nat) (f : Fin n → Write)
    (hf : ∀ i, (f i).off = a + k * i ∧ (f i).lim = a + k * i + k) : Ordered (a + k * n) a (List.ofFn f) := by
  induction n with
  | zero => simp [Ordered]
  | succ n ih =>
    rw [List.ofFn_succ_last]
    apply Ordered.append (ih (fun i => f i.castSucc) (fun i => by simpa using hf i.castSucc))
    have := hf (Fin.last n)
    simp only [Fin.val_last] at this
    simp only [Ordered, this]
    rw [Nat.mul_succ]; omega

theorem Ordered.mono {hi hi' lo : Nat} {ws : List Write} (h : Ordered hi lo ws) (hh : hi ≤ hi') :
    Ordered hi' lo ws := by
  induction ws generalizing lo with
  | nil => exact Nat.le_trans h hh
  | cons w ws ih => exact ⟨h.1, h.2.1, ih h.2.2⟩

/-- A write that fills its whole target and is not overwritten later is read back. -/
theorem slice_runWrites_last {n : Nat} {ws : List Write} (hin : WritesIn n ws) {pre post : List Write}
    {w : Write} (hs : ws = pre ++ w :: post) (hf : w.data.length = w.lim - w.off)
    (hd : ∀ x ∈ post, x.lim ≤ w.off ∨ w.lim ≤ x.off) :
    slice (runWrites n ws) w.off w.lim = w.data := by
  subst hs
  have hwin := hin w (by simp)
  have hpre : WritesIn n pre := fun x hx => hin x (by simp [hx])
  have hpost : WritesIn n post := fun x hx => hin x (by simp [hx])
  have hl1 : (pre.foldl Write.apply (zeros n)).length = n := by
    rw [foldl_apply_length (by simpa using hpre)]; simp
  have hl2 := Write.apply_length (buf := pre.foldl Write.apply (zeros n)) hwin.1 (by omega)
  unfold runWrites
  rw [List.foldl_append, List.foldl_cons]
  rw [slice_foldl_untouched (by rw [hl2, hl1]; exact hpost) hd]
  apply List.ext_getElem?
  intro i
  rw [slice_getElem?, Write.apply_getElem? hwin.1 (by omega)]
  have hsub : w.off + i - w.off = i := by omega
  rw [hsub]
  by_cases hi : w.off + i < w.lim
  · rw [if_pos hi, if_pos (by omega)]
  · rw [if_neg hi, List.getElem?_eq_none (by omega)]

theorem slice_append_slice {d : Bytes} {a b c : Nat} (h1 : a ≤ b) (h2 : b ≤ c) :
    slice d a c = slice d a b ++ slice d b c := by
  apply List.ext_getElem?
  intro i
  rw [List.getElem?_append, slice_length, slice_getElem?, slice_getElem?, slice_getElem?]
  by_cases hi : i < min b d.length - a
  · rw [if_pos hi, if_pos (by omega), if_pos (by omega)]
  · rw [if_neg hi]
    by_cases hb : b ≤ d.length
    · have e : b + (i - (min b d.length - a)) = a + i := by omega
      rw [e]
    · rw [List.getElem?_eq_none (by omega : d.length ≤ a + i),
        List.getElem?_eq_none (by omega : d.length ≤ b + (i - (min b d.length - a)))]
      simp

theorem padTo_append_zeros {n k : Nat} {s : Bytes} (h : s.length ≤ n) :
    padTo n s ++ zeros k = padTo (n + k) s := by
  rw [padTo_eq_append h, padTo_eq_append (by omega), List.append_assoc]
  congr 1
  rw [zeros, zeros, zeros, List.replicate_append_replicate]
  congr 1
  omega

theorem byteAt_eq_slice (d : Bytes) (i : Nat) (h : i < d.length) : slice d i (i + 1) = [byteAt d i] := by
  apply List.ext_getElem?
  intro j
  rw [slice_getElem?]
  cases j with
  | zero => simp [byteAt, h]
  | succ j => simp

/-! ## Strings in padded fields -/

theorem takeWhile_ne_zero_append_zeros {s : Bytes} (h : (0 : UInt8) ∉ s) (k : Nat) :
    (s ++ zeros k).takeWhile (· != 0) = s := by
  induction s with
  | nil => cases k <;> simp [zeros, List.replicate_succ]
  | cons b s ih =>
    simp only [List.mem_cons, not_or] at h
    have hb : (b != 0) = true := by simpa using fun e => h.1 e.symm
    simp [hb, ih h.2]

theorem dropWhile_zero_zeros_append (k : Nat) (s : Bytes) :
    (zeros k ++ s).dropWhile (· == 0) = s.dropWhile (· == 0) := by
  induction k with
  | zero => simp [zeros]
  | succ k ih =>
    have : zeros (k + 1) = 0 :: zeros k := by simp [zeros, List.replicate_succ]
    rw [this, List.cons_append, List.dropWhile_cons]
    simpa using ih

/-- A string that neither starts nor ends with NUL. -/
def NulEndsFree (s : Bytes) : Prop := s.head? ≠ some 0 ∧ s.getLast? ≠ some 0

instance (s : Bytes) : Decidable (NulEndsFree s) := by unfold NulEndsFree; infer_instance

theorem dropWhile_zero_of_head {s : Bytes} (h : s.head? ≠ some 0) : s.dropWhile (· == 0) = s := by
  cases s with
  | nil => rfl
  | cons b s =>
    have hb : (b == 0) = false := by
      simp only [List.head?_cons, ne_eq, Option.some.injEq] at h
      simpa using h
    simp [hb]

theorem trimNul_append_zeros {s : Bytes} (h : NulEndsFree s) (k : Nat) : trimNul (s ++ zeros k) = s := by
  unfold trimNul
  rcases List.eq_nil_or_concat s with hs | ⟨s', b, hs⟩
  · subst hs
    have : ([] ++ zeros k : Bytes) = zeros k ++ [] := by simp
    rw [this, dropWhile_zero_zeros_append]; rfl
  · have h1 : (s ++ zeros k).dropWhile (· == 0) = s ++ zeros k := by
      apply dropWhile_zero_of_head
      rw [List.head?_append]
      have hne : s.head? ≠ none := by
        subst hs; simp
      cases hh : s.head? with
      | none => exact absurd hh hne
      | some x => simpa [hh] using h.1
    rw [h1, List.reverse_append]
    have hz : (zeros k).reverse = zeros k := by simp [zeros]
    rw [hz, dropWhile_zero_zeros_append, dropWhile_zero_of_head, List.reverse_reverse]
    rw [List.head?_reverse]; exact h.2

theorem trimNul_padTo {n : Nat} {s : Bytes} (h : NulEndsFree s) (hl : s.length ≤ n) :
    trimNul (padTo n s) = s := by
  rw [padTo_eq_append hl, trimNul_append_zeros h]

theorem takeWhile_padTo {n : Nat} {s : Bytes} (h : (0 : UInt8) ∉ s) (hl : s.length ≤ n) :
    (padTo n s).takeWhile (· != 0) = s := by
  rw [padTo_eq_append hl, takeWhile_ne_zero_append_zeros h]

theorem nulEndsFree_of_not_mem {s : Bytes} (h : (0 : UInt8) ∉ s) : NulEndsFree s := by
  constructor
  · intro e; exact h (List.mem_of_head? e)
  · intro e; exact h (List.mem_of_getLast? e)

end Verif
