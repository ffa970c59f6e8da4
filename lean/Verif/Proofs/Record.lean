import Verif.Spec.Fields
import Verif.Model.Cstr
/-!
# Helper lemmas for record round trips
-/

namespace Verif
open Spec

/-- Field `k` of a record reads back as written. -/
theorem readField {n : Nat} {ws : List Write} (hin : WritesIn n ws) (hd : ws.Pairwise Write.Disjoint)
    (w : Write) (hw : w ∈ ws) : slice (runWrites n ws) w.off w.lim = padTo (w.lim - w.off) w.data :=
  slice_runWrites hin hd hw

theorem read_copy {n : Nat} {ws : List Write} (hin : WritesIn n ws) (hd : ws.Pairwise Write.Disjoint)
    {a b : Nat} {s : Bytes} (hw : wCopy a b s ∈ ws) : slice (runWrites n ws) a b = padTo (b - a) s :=
  slice_runWrites hin hd hw

theorem read_32 {n : Nat} {ws : List Write} (hin : WritesIn n ws) (hd : ws.Pairwise Write.Disjoint)
    {a : Nat} {v : UInt32} (hw : w32 a v ∈ ws) : slice (runWrites n ws) a (a + 4) = le32 v := by
  have h := slice_runWrites hin hd hw
  simp only [w32] at h
  rw [h]
  apply padTo_eq_of_length
  simp

theorem read_16 {n : Nat} {ws : List Write} (hin : WritesIn n ws) (hd : ws.Pairwise Write.Disjoint)
    {a : Nat} {v : UInt16} (hw : w16 a v ∈ ws) : slice (runWrites n ws) a (a + 2) = le16 v := by
  have h := slice_runWrites hin hd hw
  simp only [w16] at h
  rw [h]
  apply padTo_eq_of_length
  simp

theorem read_8 {n : Nat} {ws : List Write} (hin : WritesIn n ws) (hd : ws.Pairwise Write.Disjoint)
    {a : Nat} {v : UInt8} (hw : w8 a v ∈ ws) : byteAt (runWrites n ws) a = v := by
  have h := slice_runWrites hin hd hw
  have hi := hin _ hw
  simp only [w8] at h hi
  have hl := runWrites_length hin
  have h2 := byteAt_eq_slice (runWrites n ws) a (by omega)
  rw [h] at h2
  have h3 : padTo (a + 1 - a) [v] = [v] := padTo_eq_of_length (by simp)
  rw [h3] at h2
  simpa using h2.symm

theorem read_untouched_8 {n : Nat} {ws : List Write} (hin : WritesIn n ws) {a : Nat} (ha : a < n)
    (hd : ∀ w ∈ ws, w.lim ≤ a ∨ a + 1 ≤ w.off) : byteAt (runWrites n ws) a = 0 := by
  have h := slice_runWrites_untouched hin (a := a) (b := a + 1) (by omega) hd
  have hl := runWrites_length hin
  rw [byteAt_eq_slice _ _ (by omega)] at h
  have : zeros (a + 1 - a) = [0] := by
    have : a + 1 - a = 1 := by omega
    rw [this]; rfl
  rw [this] at h
  simpa using h

theorem cstrToBytes_eq_takeWhile (b : Bytes) : cstrToBytes b = b.takeWhile (· != 0) := by
  unfold cstrToBytes indexByte
  induction b with
  | nil => rfl
  | cons x xs ih =>
    rw [List.findIdx?_cons]
    by_cases hx : x = 0
    · subst hx; simp
    · have h1 : (x == 0) = false := by simpa using hx
      have h2 : (x != 0) = true := by simpa using hx
      simp only [h1, List.takeWhile_cons, h2]
      cases hf : xs.findIdx? (· == 0) with
      | none => simp [hf] at ih ⊢; exact ih
      | some k => simp [hf] at ih ⊢; exact ih

theorem cstr_padTo {n : Nat} {s : Bytes} (h : FitsCstr n s) : cstrToBytes (padTo n s) = s := by
  rw [cstrToBytes_eq_takeWhile, takeWhile_padTo h.2 h.1]

theorem trim_padTo {n : Nat} {s : Bytes} (h : FitsTrim n s) : trimNul (padTo n s) = s :=
  trimNul_padTo h.2 h.1

theorem time_roundtrip {t : Int} (h : FitsTime t) : timeOfU32 (unixU32 t) = t :=
  timeOfU32_unixU32 h.1 h.2

/-! ### Values that need not fit -/

theorem takeWhile_append_zeros (s : Bytes) (k : Nat) : (s ++ zeros k).takeWhile (· != 0) = s.takeWhile (· != 0) := by
  induction s with
  | nil =>
    cases k with
    | zero => rfl
    | succ k => simp [zeros, List.replicate_succ]
  | cons x xs ih =>
    rw [List.cons_append, List.takeWhile_cons, List.takeWhile_cons, ih]

theorem takeWhile_padTo_cut (n : Nat) (s : Bytes) : (padTo n s).takeWhile (· != 0) = cut n s :=
  takeWhile_append_zeros _ _

theorem cstr_padTo_cut (n : Nat) (s : Bytes) : cstrToBytes (padTo n s) = cut n s := by
  rw [cstrToBytes_eq_takeWhile, takeWhile_padTo_cut]

theorem dropWhile_zeros (k : Nat) (s : Bytes) : (zeros k ++ s).dropWhile (· == 0) = s.dropWhile (· == 0) := by
  induction k with
  | zero => rfl
  | succ k ih =>
    rw [show zeros (k + 1) = 0 :: zeros k from rfl, List.cons_append, List.dropWhile_cons_of_pos (by decide)]
    exact ih

theorem dropWhile_nil {s : Bytes} (h : ∀ x ∈ s, (x == 0) = true) : s.dropWhile (· == 0) = [] := by
  induction s with
  | nil => rfl
  | cons x xs ih =>
    rw [List.dropWhile_cons, if_pos (h x List.mem_cons_self)]
    exact ih fun y hy => h y (List.mem_cons_of_mem _ hy)

theorem trimNul_append_zeros_any (s : Bytes) (k : Nat) : trimNul (s ++ zeros k) = trimNul s := by
  unfold trimNul
  have hz : (zeros k).reverse = zeros k := by simp [zeros]
  by_cases h : ∀ x ∈ s, (x == 0) = true
  · have e1 : s.dropWhile (· == 0) = [] := by
      exact dropWhile_nil h
    have e2 : (s ++ zeros k).dropWhile (· == 0) = [] := by
      refine dropWhile_nil ?_
      intro x hx
      rcases List.mem_append.mp hx with hx | hx
      · exact h x hx
      · simp only [zeros, List.mem_replicate] at hx
        rw [hx.2]; rfl
    rw [e1, e2]
  · have e : (s ++ zeros k).dropWhile (· == 0) = s.dropWhile (· == 0) ++ zeros k := by
      clear hz
      induction s with
      | nil => simp at h
      | cons x xs ih =>
        rw [List.cons_append, List.dropWhile_cons, List.dropWhile_cons]
        cases hx : (x == 0) with
        | true =>
          apply ih
          intro hh
          apply h
          intro y hy
          rcases List.mem_cons.mp hy with rfl | hy
          · exact hx
          · exact hh y hy
        | false => rfl
    rw [e, List.reverse_append, hz, dropWhile_zeros]

theorem trimNul_padTo_cut (n : Nat) (s : Bytes) : trimNul (padTo n s) = cutTrim n s := trimNul_append_zeros_any _ _

theorem time_wrap (t : Int) : timeOfU32 (unixU32 t) = wrap32 t := by
  simp only [timeOfU32, unixU32, UInt32.toNat_ofNat', wrap32]
  omega

theorem cut_of_fits {n : Nat} {s : Bytes} (h : FitsCstr n s) : cut n s = s := by
  rw [← takeWhile_padTo_cut, takeWhile_padTo h.2 h.1]

theorem cutTrim_of_fits {n : Nat} {s : Bytes} (h : FitsTrim n s) : cutTrim n s = s := by
  rw [← trimNul_padTo_cut, trim_padTo h]

theorem wrap32_of_fits {t : Int} (h : FitsTime t) : wrap32 t = t := by
  rw [← time_wrap, time_roundtrip h]

@[simp] theorem rd32_padTo (v : UInt32) : rd32 (padTo 4 (le32 v)) = v := by
  rw [padTo_eq_of_length (by simp)]; simp

@[simp] theorem rd16_padTo (v : UInt16) : rd16 (padTo 2 (le16 v)) = v := by
  rw [padTo_eq_of_length (by simp)]; simp

theorem UInt32.toInt32_toUInt32 (x : Int32) : x.toUInt32.toInt32 = x := rfl
theorem vector_ofFn_getElem {α : Type} {n : Nat} (v : Vector α n) : (Vector.ofFn fun i : Fin n => v[i]) = v := by
  ext i hi; simp
theorem UInt16.toInt16_toUInt16 (x : Int16) : x.toUInt16.toInt16 = x := rfl

end Verif
