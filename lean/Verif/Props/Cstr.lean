import Verif.Model.Cstr
import Verif.Proofs.Record
/-!
# C01: C-string extraction
-/

namespace Verif

theorem cstr_split (b : Bytes) :
    (0 ∉ b ∧ b.takeWhile (· != 0) = b) ∨
    ∃ rest, b = b.takeWhile (· != 0) ++ 0 :: rest := by
  induction b with
  | nil => left; simp
  | cons x xs ih =>
    by_cases hx : x = 0
    · subst hx; right; exact ⟨xs, by simp⟩
    · have h2 : (x != 0) = true := by simpa using hx
      simp only [List.takeWhile_cons, h2, if_true]
      rcases ih with ⟨h, e⟩ | ⟨rest, e⟩
      · left
        refine ⟨?_, by rw [e]⟩
        simp only [List.mem_cons, not_or]
        exact ⟨fun h => hx h.symm, h⟩
      · right; exact ⟨rest, by rw [List.cons_append, ← e]⟩

theorem takeWhile_no_nul (b : Bytes) : 0 ∉ b.takeWhile (· != 0) := by
  intro h
  have := List.all_takeWhile (p := (· != (0 : UInt8))) (l := b)
  rw [List.all_eq_true] at this
  simpa using this 0 h

/-- **C01.** The result has no NUL; the input is the result alone, or the result followed by a NUL and more;
an input without NUL is returned whole; converting again changes nothing. -/
theorem C01_cstr_prefix (b : Bytes) :
    0 ∉ cstrToString b ∧
    (b = cstrToString b ∨ ∃ rest, b = cstrToString b ++ 0 :: rest) ∧
    (0 ∉ b → cstrToString b = b) ∧
    cstrToString (cstrToString b) = cstrToString b := by
  have key : ∀ x : Bytes, cstrToString x = x.takeWhile (· != 0) := cstrToBytes_eq_takeWhile
  have nn := takeWhile_no_nul b
  have whole : ∀ x : Bytes, 0 ∉ x → cstrToString x = x := by
    intro x hx
    rw [key]
    rcases cstr_split x with ⟨_, e⟩ | ⟨rest, e⟩
    · exact e
    · exact absurd (by rw [e]; simp) hx
  refine ⟨by rw [key]; exact nn, ?_, whole b, whole _ (by rw [key]; exact nn)⟩
  rcases cstr_split b with ⟨_, e⟩ | ⟨rest, e⟩
  · left; rw [key]; exact e.symm
  · right; exact ⟨rest, by rw [key]; exact e⟩

/-- C01 determines the result: any function with these two facts is this one. -/
theorem C01_cstr_unique (b r : Bytes) (h0 : 0 ∉ r) (hr : b = r ∨ ∃ rest, b = r ++ 0 :: rest) :
    cstrToString b = r := by
  have key : ∀ x : Bytes, cstrToString x = x.takeWhile (· != 0) := cstrToBytes_eq_takeWhile
  rcases hr with rfl | ⟨rest, rfl⟩
  · exact (C01_cstr_prefix b).2.2.1 h0
  · rw [key]
    induction r with
    | nil => simp
    | cons x xs ih =>
      simp only [List.mem_cons, not_or] at h0
      have h2 : (x != 0) = true := by simpa using fun e => h0.1 e.symm
      simp only [List.cons_append, List.takeWhile_cons, h2, if_true, ih h0.2]

/-- A concrete case with content after the terminator. -/
example : cstrToString (ascii "SYSOP" ++ [0] ++ ascii "junk" ++ [0, 0]) = ascii "SYSOP" := by decide

end Verif
