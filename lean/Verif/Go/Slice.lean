import Verif.Go.Buf
/-!
# Go byte slices with length and capacity

A slice expression `s[lo:hi]` is checked against the capacity, an index expression `s[i]` against the length.
-/

namespace Verif

/-- A byte slice: the memory from its first element to its capacity, and its length (at most that). -/
structure GSlice where
  mem : Bytes
  len : Nat
  deriving DecidableEq, Repr

/-- A slice whose capacity is its length, as made by `make([]byte, n)`. -/
def GSlice.full (b : Bytes) : GSlice := ⟨b, b.length⟩

/-- What `ioutil.ReadFile` returns for a file with these contents: its buffer has room for 512 bytes at least (`bytes.MinRead` up to Go 1.15, `os.ReadFile`
since). Simplification: no more than that, and the rest is zero; see C08_memory. -/
def GSlice.ofFile (b : Bytes) : GSlice := ⟨b ++ zeros (512 - b.length), b.length⟩

/-- The bytes of `s[lo:hi]`. -/
def GSlice.sub (s : GSlice) (lo hi : Nat) : Res Bytes :=
  if lo ≤ hi ∧ hi ≤ s.mem.length then .ok (slice s.mem lo hi) else .panic

/-- `s[i]`. -/
def GSlice.at (s : GSlice) (i : Nat) : Res UInt8 := if i < s.len then .ok (byteAt s.mem i) else .panic

/-- The loop `for i := range v { v[i] = f(i) }` over an array of `n` elements. -/
def vecM {α : Type} : (n : Nat) → (Fin n → Res α) → Res (Vector α n)
  | 0, _ => .ok #v[]
  | n + 1, f => do
    let v ← vecM n (fun i => f i.castSucc)
    let x ← f (Fin.last n)
    .ok (v.push x)

/-- A call that returns a value or panics. -/
def Res.OkOrPanic {α : Type} (r : Res α) : Prop := r = .panic ∨ ∃ a, r = .ok a

theorem Res.OkOrPanic.ok {α : Type} (a : α) : (Res.ok a).OkOrPanic := .inr ⟨a, rfl⟩

theorem Res.OkOrPanic.bind {α β : Type} {r : Res α} {f : α → Res β} (h : r.OkOrPanic) (hf : ∀ a, (f a).OkOrPanic) :
    (r >>= f).OkOrPanic := by
  rcases h with h | ⟨a, h⟩
  · rw [h]; exact .inl rfl
  · rw [h]; exact hf a

theorem GSlice.sub_okOrPanic (s : GSlice) (lo hi : Nat) : (s.sub lo hi).OkOrPanic := by
  unfold GSlice.sub
  split
  · exact .ok _
  · exact .inl rfl

theorem GSlice.at_okOrPanic (s : GSlice) (i : Nat) : (s.at i).OkOrPanic := by
  unfold GSlice.at
  split
  · exact .ok _
  · exact .inl rfl

theorem vecM_okOrPanic {α : Type} {n : Nat} {f : Fin n → Res α} (h : ∀ i, (f i).OkOrPanic) : (vecM n f).OkOrPanic := by
  induction n with
  | zero => exact .ok _
  | succ n ih => exact (ih (fun i => h _)).bind fun _ => (h _).bind fun _ => .ok _

theorem GSlice.sub_eq_ok {s : GSlice} {lo hi : Nat} {b : Bytes} :
    s.sub lo hi = .ok b ↔ (lo ≤ hi ∧ hi ≤ s.mem.length) ∧ slice s.mem lo hi = b := by
  unfold GSlice.sub
  split
  · simp_all
  · exact ⟨fun h => by simp at h, fun h => absurd h.1 ‹_›⟩

theorem GSlice.at_eq_ok {s : GSlice} {i : Nat} {b : UInt8} : s.at i = .ok b ↔ i < s.len ∧ byteAt s.mem i = b := by
  unfold GSlice.at
  split
  · simp_all
  · exact ⟨fun h => by simp at h, fun h => absurd h.1 ‹_›⟩

theorem vecM_eq {α : Type} {n : Nat} {f : Fin n → Res α} {g : Fin n → α} (h : ∀ i, f i = .ok (g i)) :
    vecM n f = .ok (Vector.ofFn g) := by
  induction n with
  | zero => rfl
  | succ n ih =>
    unfold vecM
    rw [ih (g := fun i => g i.castSucc) (fun i => h _), Res.ok_bind, h, Res.ok_bind, Vector.ofFn_succ]
    rfl

/-- If the loop ends, every step of it ended. -/
theorem vecM_ok {α : Type} {n : Nat} {f : Fin n → Res α} {v : Vector α n} (h : vecM n f = .ok v) (i : Fin n) :
    ∃ a, f i = .ok a := by
  induction n with
  | zero => exact i.elim0
  | succ n ih =>
    unfold vecM at h
    obtain ⟨w, hw, h⟩ := Res.bind_eq_ok.mp h
    obtain ⟨x, hx, h⟩ := Res.bind_eq_ok.mp h
    by_cases hi : i = Fin.last n
    · exact ⟨x, hi ▸ hx⟩
    · have hl : i.val < n := by
        have := i.isLt
        have : i.val ≠ n := fun e => hi (Fin.ext e)
        omega
      have := ih hw ⟨i.val, hl⟩
      exact this

/-- A call that returns the value `a` under a condition and panics otherwise. -/
theorem Res.OkOrPanic.eq_ite {α : Type} {r : Res α} (h : r.OkOrPanic) {p : Prop} [Decidable p] {a : α} (h1 : p → r = .ok a)
    (h2 : ∀ b, r = .ok b → p) : r = if p then .ok a else .panic := by
  split
  · exact h1 ‹_›
  · rcases h with h | ⟨b, h⟩
    · exact h
    · exact absurd (h2 b h) ‹_›

end Verif
