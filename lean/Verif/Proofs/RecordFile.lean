import Verif.Proofs.Decode
import Verif.Model.RecordFile
import Verif.Spec.Records
import Verif.Proofs.Record
/-!
# Helper lemmas for record files
-/

namespace Verif
open Spec

/-! ## Slots of a concatenation of records -/

theorem Spec.Sized.flatten_length {size : Nat} {rs : List Bytes} (h : Sized size rs) :
    rs.flatten.length = size * rs.length := by
  induction rs with
  | nil => simp
  | cons r rs ih =>
    have h1 := h r (by simp)
    have h2 := ih (fun x hx => h x (by simp [hx]))
    simp only [List.flatten_cons, List.length_append, h1, h2, List.length_cons, Nat.mul_add]
    omega

theorem Spec.Sized.tail {size : Nat} {r : Bytes} {rs : List Bytes} (h : Sized size (r :: rs)) : Sized size rs :=
  fun x hx => h x (by simp [hx])

theorem Spec.Sized.append {size : Nat} {rs ss : List Bytes} (h : Sized size rs) (h' : Sized size ss) :
    Sized size (rs ++ ss) := by
  intro x hx
  rcases List.mem_append.mp hx with hx | hx
  · exact h x hx
  · exact h' x hx

theorem slice_flatten {size : Nat} {rs : List Bytes} (h : Sized size rs) (tl : Bytes) :
    ∀ k (hk : k < rs.length), slice (rs.flatten ++ tl) (size * k) (size * k + size) = rs[k] := by
  induction rs with
  | nil => intro k hk; simp at hk
  | cons r rs ih =>
    intro k hk
    have h1 : r.length = size := h r (by simp)
    cases k with
    | zero => simp [slice, List.append_assoc, ← h1]
    | succ k =>
      have := ih h.tail k (by simpa using hk)
      have e : size * (k + 1) = r.length + size * k := by rw [h1, Nat.mul_add]; omega
      rw [e]
      simp only [List.flatten_cons, List.append_assoc, List.getElem_cons_succ]
      rw [← this]
      unfold slice
      rw [Nat.add_assoc, List.take_length_add_append, List.drop_length_add_append]

theorem slot_flatten {size : Nat} {rs : List Bytes} (h : Sized size rs) (tl : Bytes) (k : Nat) (hk : k < rs.length) :
    slot size (rs.flatten ++ tl) k = rs[k] := by
  unfold slot
  rw [slice_flatten h tl k hk]
  exact padTo_eq_of_length (h _ (List.getElem_mem hk))

theorem slots_flatten {size : Nat} (hs : 0 < size) {rs : List Bytes} (h : Sized size rs) : slots size rs.flatten = rs := by
  have hn : (rs.flatten.length + size - 1) / size = rs.length := by
    rw [h.flatten_length]
    apply Nat.div_eq_of_lt_le
    · rw [Nat.mul_comm]; omega
    · rw [Nat.add_mul, Nat.mul_comm]; omega
  apply List.ext_getElem
  · simp only [slots, List.length_map, List.length_range, hn]
  · intro i h1 h2
    simp only [slots, List.getElem_map, List.getElem_range]
    have := slot_flatten h [] i h2
    simpa using this

/-- A file whose size is a multiple of `size` is a concatenation of records. -/
theorem aligned_flatten {size : Nat} : ∀ (n : Nat) (d : Bytes), d.length = size * n →
    ∃ rs, Sized size rs ∧ d = rs.flatten ∧ rs.length = n := by
  intro n
  induction n with
  | zero => intro d hd; exact ⟨[], by simp [Sized], by simpa using hd, rfl⟩
  | succ n ih =>
    intro d hd
    have e : size * (n + 1) = size * n + size := by rw [Nat.mul_add]; omega
    obtain ⟨rs, h1, h2, h3⟩ := ih (d.drop size) (by simp; omega)
    refine ⟨d.take size :: rs, ?_, by simp [← h2], by simp [h3]⟩
    intro x hx
    rcases List.mem_cons.mp hx with rfl | hx
    · simp; omega
    · exact h1 x hx

/-! ## The read loop on a regular file -/

theorem lt_ceil {size : Nat} (hs : 0 < size) (len k : Nat) : k < (len + size - 1) / size ↔ size * k < len := by
  rw [← Nat.succ_le_iff, Nat.le_div_iff_mul_le hs, Nat.succ_mul, Nat.mul_comm k size]
  omega

theorem readLoop_file {α : Type} {size : Nat} (hs : 0 < size) {parse : Bytes → Res α} {p : Bytes → α}
    (hp : ∀ b, b.length = size → parse b = .ok (p b)) (d : Bytes) (fuel : Nat) :
    ∀ k, k ≤ (d.length + size - 1) / size → (d.length + size - 1) / size < k + fuel →
    readLoop size parse (fileSrc size d) fuel k =
      .ok ((List.range' k ((d.length + size - 1) / size - k)).map (fun j => p (slot size d j))) := by
  induction fuel with
  | zero => intro k h1 h2; omega
  | succ fuel ih =>
    intro k h1 h2
    have hc := lt_ceil hs d.length k
    generalize hN : (d.length + size - 1) / size = N at *
    by_cases hk : k < N
    · have ihk := ih (k + 1) (by omega) (by omega)
      have hsrc : fileSrc size d k = .data (slice d (size * k) (size * k + size)) := by
        rw [fileSrc, if_pos (hc.mp hk)]
      have e : N - k = (N - (k + 1)) + 1 := by omega
      rw [readLoop, hsrc, e, List.range'_succ]
      simp only [hp _ (padTo_length _ _), ihk, Res.ok_bind, List.map_cons]
      rfl
    · have hsrc : fileSrc size d k = .eof := by rw [fileSrc, if_neg (fun h => hk (hc.mpr h))]
      have e : N - k = 0 := by omega
      rw [readLoop, hsrc, e]
      rfl

theorem ceil_le {size : Nat} (hs : 0 < size) (len : Nat) : (len + size - 1) / size ≤ len := by
  rcases Nat.lt_or_ge len ((len + size - 1) / size) with h | h
  · have := (lt_ceil hs len len).mp h
    have := Nat.le_mul_of_pos_left len hs
    omega
  · exact h

theorem readLoop_slots {α : Type} {size : Nat} (hs : 0 < size) {parse : Bytes → Res α} {p : Bytes → α}
    (hp : ∀ b, b.length = size → parse b = .ok (p b)) (d : Bytes) (fuel : Nat) (hf : d.length < fuel) :
    readLoop size parse (fileSrc size d) fuel 0 = .ok ((slots size d).map p) := by
  have := ceil_le hs d.length
  rw [readLoop_file hs hp d fuel 0 (Nat.zero_le _) (by omega)]
  simp [slots, List.range_eq_range', Function.comp_def]

theorem readFile_slots {α : Type} {size : Nat} (hs : 0 < size) {parse : Bytes → Res α} {p : Bytes → α}
    (hp : ∀ b, b.length = size → parse b = .ok (p b)) (d : Bytes) :
    readFile size parse (some d) = .ok ((slots size d).map p) :=
  readLoop_slots hs hp d _ (by omega)

theorem readFile_fuel {α : Type} {size : Nat} (hs : 0 < size) {parse : Bytes → Res α} {p : Bytes → α}
    (hp : ∀ b, b.length = size → parse b = .ok (p b)) (d : Bytes) (fuel : Nat) (hf : d.length < fuel) :
    readLoop size parse (fileSrc size d) fuel 0 = readFile size parse (some d) := by
  rw [readLoop_slots hs hp d fuel hf, readFile_slots hs hp d]

theorem FileHeader.unmarshal_eq (c : Codec) (b : Bytes) (h : b.length = 128) :
    FileHeader.unmarshal c b = .ok (FileHeader.parse c b) := by simp [FileHeader.unmarshal_def, h]

theorem BoardHeader.unmarshal_eq (c : Codec) (b : Bytes) (h : b.length = 256) :
    BoardHeader.unmarshal c b = .ok (BoardHeader.parse c b) := by simp [BoardHeader.unmarshal_def, h]

theorem Userec.unmarshal_eq (c : Codec) (b : Bytes) (h : b.length = 512) :
    Userec.unmarshal c b = .ok (Userec.parse c b) := by simp [Userec.unmarshal_def, h]

/-! ## Appending -/

theorem foldl_appendFile {α : Type} (m : α → Bytes) (f : Option Bytes) (rs : List α) :
    (rs.foldl (fun f r => appendFile f (m r)) f).getD [] = f.getD [] ++ (rs.map m).flatten := by
  induction rs generalizing f with
  | nil => simp
  | cons r rs ih => rw [List.foldl_cons, ih]; simp [appendFile]

theorem foldl_appendFile_some {α : Type} (m : α → Bytes) (f : Option Bytes) (rs : List α)
    (h : f ≠ none ∨ rs ≠ []) :
    rs.foldl (fun f r => appendFile f (m r)) f = some (f.getD [] ++ (rs.map m).flatten) := by
  cases rs with
  | nil =>
    cases f with
    | none => simp at h
    | some d => simp
  | cons r rs =>
    have := foldl_appendFile m (appendFile f (m r)) rs
    have h2 : ∀ (d : Bytes) (rs : List α), ∃ d', rs.foldl (fun f r => appendFile f (m r)) (some d) = some d' := by
      intro d rs
      induction rs generalizing d with
      | nil => exact ⟨d, rfl⟩
      | cons r rs ih => exact ih _
    obtain ⟨d', hd'⟩ := h2 (f.getD [] ++ m r) rs
    simp only [List.foldl_cons]
    have e : appendFile f (m r) = some (f.getD [] ++ m r) := rfl
    rw [e] at this ⊢
    rw [hd'] at this ⊢
    simp only [Option.getD_some] at this
    simp [this]

/-! ## Positioned writes -/

theorem writeAt_record {size : Nat} {rs : List Bytes} (h : Sized size rs) {i : Nat} (hi : i < rs.length)
    {rec : Bytes} (hr : rec.length = size) :
    writeAt rs.flatten (size * i) rec = (rs.set i rec).flatten := by
  have hpre : Sized size (rs.take i) := fun x hx => h x (List.mem_of_mem_take hx)
  have hmid : rs[i].length = size := h _ (List.getElem_mem hi)
  have e : rs.flatten = (rs.take i).flatten ++ (rs[i] ++ (rs.drop (i + 1)).flatten) := by
    rw [← List.flatten_cons, ← List.flatten_append, ← List.drop_eq_getElem_cons hi, List.take_append_drop]
  have hl : (rs.take i).flatten.length = size * i := by
    rw [hpre.flatten_length, List.length_take, Nat.min_eq_left (by omega)]
  rw [List.set_eq_take_append_cons_drop, if_pos hi]
  simp only [List.flatten_append, List.flatten_cons]
  unfold writeAt
  rw [e]
  generalize (rs.take i).flatten = A at hl ⊢
  generalize (rs.drop (i + 1)).flatten = B
  have z : size * i - (A ++ (rs[i] ++ B)).length = 0 := by simp; omega
  rw [z, ← hl]
  simp only [zeros, List.replicate_zero, List.append_nil, List.take_left, List.append_assoc]
  rw [hr, ← hmid, List.drop_length_add_append, List.drop_left]

theorem writeAt_beyond {d : Bytes} {off : Nat} (h : d.length ≤ off) (bs : Bytes) :
    writeAt d off bs = d ++ zeros (off - d.length) ++ bs := by
  unfold writeAt
  rw [List.take_of_length_le (by simp; omega), List.drop_eq_nil_of_le (by omega), List.append_nil]

end Verif
