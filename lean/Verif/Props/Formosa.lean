import Verif.Proofs.Decode
import Verif.Model.Formosa
import Verif.Proofs.RecordFile
import Verif.Spec.Fields
/-!
# C58: the Formosa article index
-/

namespace Verif
open Spec

/-- The documented record, field after field, with arbitrary bytes in the gaps. -/
structure Spec.FormosaRecord where
  filename : Bytes
  gap1 : Bytes
  postno : Int32
  gap2 : Bytes
  owner : Bytes
  modified : UInt32
  gap3 : Bytes
  title : Bytes
  gap4 : Bytes

/-- The fields fit, the gaps have the documented lengths, and the codec is faithful on the title. -/
structure Spec.FormosaRecord.Valid (c : Codec) (r : FormosaRecord) : Prop where
  filename : FitsTrim 44 r.filename
  gap1 : r.gap1.length = 28
  gap2 : r.gap2.length = 4
  owner : FitsTrim 72 r.owner
  gap3 : r.gap3.length = 4
  title : FitsTrim 67 (c.enc r.title)
  titleC : c.dec (c.enc r.title) = r.title
  gap4 : r.gap4.length = 21

def Spec.FormosaRecord.bytes (c : Codec) (r : FormosaRecord) : Bytes :=
  padTo 44 r.filename ++ r.gap1 ++ le32 r.postno.toUInt32 ++ r.gap2 ++ padTo 72 r.owner ++ le32 r.modified ++ r.gap3 ++
    padTo 67 (c.enc r.title) ++ r.gap4

theorem Spec.FormosaRecord.bytes_length {c : Codec} {r : FormosaRecord} (h : r.Valid c) : (r.bytes c).length = 248 := by
  simp [Spec.FormosaRecord.bytes, h.gap1, h.gap2, h.gap3, h.gap4]

theorem slice_mid (a b c : Bytes) (i j : Nat) (hi : a.length = i) (hj : i + b.length = j) : slice (a ++ b ++ c) i j = b := by
  unfold slice
  have h1 : (a ++ b).length = j := by simp [hi, hj]
  rw [List.take_left' h1, List.drop_left' hi]

/-- **C58.** Every field is found, whatever the bytes in the gaps. -/
theorem C58_fields (c : Codec) (r : FormosaRecord) (h : r.Valid c) :
    FormosaHeader.unmarshal c (r.bytes c) = .ok ⟨r.filename, r.modified.toNat, r.owner, r.title, r.postno⟩ := by
  rw [FormosaHeader.unmarshal_def]
  rw [if_neg (by rw [FormosaRecord.bytes_length h]; omega)]
  have s1 : slice (r.bytes c) 0 44 = padTo 44 r.filename := by
    have := slice_mid [] (padTo 44 r.filename) (r.gap1 ++ le32 r.postno.toUInt32 ++ r.gap2 ++ padTo 72 r.owner ++
      le32 r.modified ++ r.gap3 ++ padTo 67 (c.enc r.title) ++ r.gap4) 0 44 rfl (by simp)
    simpa [FormosaRecord.bytes, List.append_assoc] using this
  have s2 : slice (r.bytes c) 72 76 = le32 r.postno.toUInt32 := by
    have := slice_mid (padTo 44 r.filename ++ r.gap1) (le32 r.postno.toUInt32) (r.gap2 ++ padTo 72 r.owner ++
      le32 r.modified ++ r.gap3 ++ padTo 67 (c.enc r.title) ++ r.gap4) 72 76 (by simp [h.gap1]) (by simp)
    simpa [FormosaRecord.bytes, List.append_assoc] using this
  have s3 : slice (r.bytes c) 80 152 = padTo 72 r.owner := by
    have := slice_mid (padTo 44 r.filename ++ r.gap1 ++ le32 r.postno.toUInt32 ++ r.gap2) (padTo 72 r.owner) (
      le32 r.modified ++ r.gap3 ++ padTo 67 (c.enc r.title) ++ r.gap4) 80 152 (by simp [h.gap1, h.gap2]) (by simp)
    simpa [FormosaRecord.bytes, List.append_assoc] using this
  have s4 : slice (r.bytes c) 152 156 = le32 r.modified := by
    have := slice_mid (padTo 44 r.filename ++ r.gap1 ++ le32 r.postno.toUInt32 ++ r.gap2 ++ padTo 72 r.owner) (le32 r.modified)
      (r.gap3 ++ padTo 67 (c.enc r.title) ++ r.gap4) 152 156 (by simp [h.gap1, h.gap2]) (by simp)
    simpa [FormosaRecord.bytes, List.append_assoc] using this
  have s5 : slice (r.bytes c) 160 227 = padTo 67 (c.enc r.title) := by
    have := slice_mid (padTo 44 r.filename ++ r.gap1 ++ le32 r.postno.toUInt32 ++ r.gap2 ++ padTo 72 r.owner ++ le32 r.modified ++
      r.gap3) (padTo 67 (c.enc r.title)) r.gap4 160 227 (by simp [h.gap1, h.gap2, h.gap3]) (by simp)
    simpa [FormosaRecord.bytes, List.append_assoc] using this
  unfold FormosaHeader.parse
  rw [s1, s2, s3, s4, s5, trimNul_padTo h.filename.2 h.filename.1, trimNul_padTo h.owner.2 h.owner.1,
    trimNul_padTo h.title.2 h.title.1, rd32_le32, rd32_le32, h.titleC]
  rfl

/-- **C58.** Two records agreeing on the documented positions decode to the same value. -/
theorem C58_positions_only (c : Codec) (d d' : Bytes) (h : d.length = 248) (h' : d'.length = 248)
    (he : ∀ i, i < 44 ∨ (72 ≤ i ∧ i < 76) ∨ (80 ≤ i ∧ i < 156) ∨ (160 ≤ i ∧ i < 227) → d[i]? = d'[i]?) :
    FormosaHeader.unmarshal c d = FormosaHeader.unmarshal c d' := by
  have key : ∀ a b, (∀ i, a ≤ i → i < b → d[i]? = d'[i]?) → slice d a b = slice d' a b := by
    intro a b hab
    apply List.ext_getElem?
    intro i
    rw [slice_getElem?, slice_getElem?]
    split
    · exact hab _ (by omega) (by omega)
    · rfl
  rw [FormosaHeader.unmarshal_def, FormosaHeader.unmarshal_def]
  unfold FormosaHeader.parse
  rw [h, h', key 0 44 (fun i _ _ => he i (by omega)), key 152 156 (fun i _ _ => he i (by omega)),
    key 80 152 (fun i _ _ => he i (by omega)), key 160 227 (fun i _ _ => he i (by omega)),
    key 72 76 (fun i _ _ => he i (by omega))]

theorem FormosaHeader.unmarshal_eq (c : Codec) (b : Bytes) (h : b.length = 248) :
    FormosaHeader.unmarshal c b = .ok (FormosaHeader.parse c b) := by
  rw [FormosaHeader.unmarshal_def]
  rw [if_neg (by omega)]

/-- **C58.** A file of `n` records yields `n` values, in order. -/
theorem C58_file (c : Codec) (rs : List FormosaRecord) (h : ∀ r ∈ rs, r.Valid c) :
    openFormosaFile c (some (rs.map (fun r => r.bytes c)).flatten) =
      .ok (rs.map (fun r => ⟨r.filename, r.modified.toNat, r.owner, r.title, r.postno⟩)) := by
  have hs : Sized 248 (rs.map (fun r => r.bytes c)) := by
    intro x hx
    obtain ⟨r, hr, rfl⟩ := List.mem_map.mp hx
    exact FormosaRecord.bytes_length (h r hr)
  unfold openFormosaFile
  rw [readFile_slots (by omega) (FormosaHeader.unmarshal_eq c), slots_flatten (by omega) hs, List.map_map]
  congr 1
  apply List.map_congr_left
  intro r hr
  have := C58_fields c r (h r hr)
  rw [FormosaHeader.unmarshal_eq c _ (FormosaRecord.bytes_length (h r hr))] at this
  exact Res.ok.inj this

/-- **C58.** A file of any content yields one value for every started 248-byte record, the last one completed by zeros. -/
theorem C58_any_file (c : Codec) (d : Bytes) : ∃ l, openFormosaFile c (some d) = .ok l ∧ l.length = (d.length + 247) / 248 ∧
    ∀ k, (hk : k < l.length) → FormosaHeader.unmarshal c (padTo 248 (slice d (248 * k) (248 * k + 248))) = .ok l[k] := by
  refine ⟨(slots 248 d).map (FormosaHeader.parse c), readFile_slots (by omega) (FormosaHeader.unmarshal_eq c) d, ?_, ?_⟩
  · simp [slots]
  · intro k hk
    rw [FormosaHeader.unmarshal_eq c _ (padTo_length _ _), List.getElem_map]
    congr 2
    simp [slots, slot]

/-- **C58.** A missing file is an error. -/
theorem C58_missing (c : Codec) : openFormosaFile c none = .err "no such file or directory" := rfl

example : (⟨ascii "M.1.A", zeros 28, 7, zeros 4, ascii "SYSOP", 1, zeros 4, ascii "hello", zeros 21⟩ : Spec.FormosaRecord).Valid
    asciiCodec := by
  refine ⟨by decide, rfl, rfl, by decide, rfl, by decide, by decide, rfl⟩

end Verif
