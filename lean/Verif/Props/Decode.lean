import Verif.Proofs.Decode
import Verif.Model.RecordFile
/-!
# C62: decoding and encoding records never crash
-/

namespace Verif

/-- Close `off ≤ lim ∧ lim ≤ n` for each write of a literal list. -/
local macro "inBounds" h:ident : tactic => `(tactic|
  ((repeat (rcases $h:ident with $h:ident | $h:ident; · (subst $h:ident; exact ⟨Nat.le_of_ble_eq_true rfl, Nat.le_of_ble_eq_true rfl⟩)));
   subst $h:ident; exact ⟨Nat.le_of_ble_eq_true rfl, Nat.le_of_ble_eq_true rfl⟩))

/-- The full claim: whatever slice a decoder is given, it returns. -/
def Spec.C62 : Prop := ∀ (c : Codec) (s : GSlice), s.len ≤ s.mem.length →
  (FileHeader.decode c s).Returns ∧ (BoardHeader.decode c s).Returns ∧ (Userec.decode c s).Returns ∧
  (UserInfo.decode c s).Returns ∧ (FormosaHeader.decode c s).Returns

/-- **C62** is false: no decoder checks the length. -/
theorem C62_refuted : ¬ Spec.C62 := by
  intro h
  obtain ⟨h, -⟩ := h asciiCodec ⟨[], 0⟩ (Nat.le_refl _)
  exact h

/-- **C62, exactly.** A decoder crashes exactly when an indexed byte lies beyond the length or a sliced field beyond the
capacity. -/
theorem C62_exact (c : Codec) (s : GSlice) (hs : s.len ≤ s.mem.length) :
    ((FileHeader.decode c s).Returns ↔ 125 ≤ s.len) ∧
    ((BoardHeader.decode c s).Returns ↔ 209 ≤ s.len ∧ 216 ≤ s.mem.length) ∧
    ((Userec.decode c s).Returns ↔ 454 ≤ s.len ∧ 484 ≤ s.mem.length) ∧
    ((UserInfo.decode c s).Returns ↔ 3449 ≤ s.len ∧ 3475 ≤ s.mem.length) ∧
    ((FormosaHeader.decode c s).Returns ↔ 227 ≤ s.mem.length) := by
  have key : ∀ {α : Type} (p : Prop) [Decidable p] (a : α), (if p then Res.ok a else Res.panic).Returns ↔ p := by
    intro α p _ a
    by_cases h : p
    · simp [h, Res.Returns]
    · simp [h, Res.Returns]
  rw [FileHeader.decode_eq c s hs, BoardHeader.decode_eq, Userec.decode_eq, UserInfo.decode_eq, FormosaHeader.decode_eq]
  exact ⟨key _ _, key _ _, key _ _, key _ _, key _ _⟩

/-- **C62** for the buffers the library itself hands out: whole records. -/
theorem C62_records_partial (c : Codec) (b : Bytes) :
    (b.length = 128 → (FileHeader.unmarshal c b).Returns) ∧ (b.length = 256 → (BoardHeader.unmarshal c b).Returns) ∧
    (b.length = 512 → (Userec.unmarshal c b).Returns) ∧ (b.length = 3484 → (UserInfo.unmarshal c b).Returns) ∧
    (b.length = 248 → (FormosaHeader.unmarshal c b).Returns) := by
  obtain ⟨h1, h2, h3, h4, h5⟩ := C62_exact c (GSlice.full b) (Nat.le_refl _)
  simp only [show (GSlice.full b).len = b.length from rfl, show (GSlice.full b).mem = b from rfl] at h1 h2 h3 h4 h5
  exact ⟨fun h => h1.mpr (by omega), fun h => h2.mpr (by omega), fun h => h3.mpr (by omega), fun h => h4.mpr (by omega),
    fun h => h5.mpr (by omega)⟩

/-- **C62.** Encoders: every write of every record lies inside the fresh buffer, so no slice or index expression of a writer
can fail. -/
theorem C62_encode (c : Codec) :
    (∀ f : FileHeader, ∀ w ∈ f.writes c, w.off ≤ w.lim ∧ w.lim ≤ 128) ∧
    (∀ b : BoardHeader, ∀ w ∈ b.writes c, w.off ≤ w.lim ∧ w.lim ≤ 256) ∧
    (∀ u : Userec, ∀ w ∈ u.writes c, w.off ≤ w.lim ∧ w.lim ≤ 512) ∧
    (∀ u : UserInfo, ∀ w ∈ u.writes c, w.off ≤ w.lim ∧ w.lim ≤ 3484) := by
  refine ⟨?_, ?_, ?_, ?_⟩
  · intro f w hw
    simp only [FileHeader.writes, List.mem_cons, List.not_mem_nil, or_false] at hw
    inBounds hw
  · intro b w hw
    have hp : ∀ a l, a ≤ 144 → ∀ w ∈ wPair a l, w.off ≤ w.lim ∧ w.lim ≤ 256 := by
      intro a l ha w hw
      match l, hw with
      | [x, y], hw =>
        simp only [wPair, List.mem_cons, List.not_mem_nil, or_false] at hw
        rcases hw with rfl | rfl
        · simp only [w32]; omega
        · simp only [w32]; omega
    simp only [BoardHeader.writes, List.mem_append, List.mem_cons, List.not_mem_nil, or_false] at hw
    rcases hw with ((hw | hw) | hw) | hw
    · inBounds hw
    · exact hp _ _ (by decide) _ hw
    · exact hp _ _ (by decide) _ hw
    · inBounds hw
  · intro u w hw
    simp only [Userec.writes, List.mem_cons, List.not_mem_nil, or_false] at hw
    inBounds hw
  · intro u w hw
    simp only [UserInfo.writes, UserInfo.writesA, UserInfo.writesB, List.mem_append, List.mem_cons, List.not_mem_nil, or_false,
      List.mem_ofFn] at hw
    rcases hw with ((((((hw | ⟨i, rfl⟩) | ⟨i, rfl⟩) | ⟨i, rfl⟩) | hw) | ⟨i, rfl⟩) | hw) | hw
    · inBounds hw
    · have := i.isLt; simp only [w32]; omega
    · have := i.isLt; simp only [w32]; omega
    · have := i.isLt; simp only [w32]; omega
    · inBounds hw
    · have := i.isLt; simp only [wCopy]; omega
    · inBounds hw
    · inBounds hw

/-- A 216-byte window into a longer buffer is enough for a board, even a 209-byte one. -/
example : (BoardHeader.decode asciiCodec ⟨zeros 256, 209⟩).Returns ∧ ¬ (BoardHeader.decode asciiCodec ⟨zeros 256, 208⟩).Returns := by
  rw [(C62_exact _ _ (by simp)).2.1, (C62_exact _ _ (by simp)).2.1]
  simp

end Verif
