import Verif.Model.FileHeader
import Verif.Model.Board
import Verif.Model.Userec
import Verif.Model.UserInfo
import Verif.Model.Formosa
/-!
# Which buffers the record decoders accept
-/

namespace Verif

/-- Peel the binds of a decoder. -/
local macro "okOrPanic" : tactic => `(tactic|
  repeat' (first
    | exact Res.OkOrPanic.ok _
    | exact GSlice.sub_okOrPanic _ _ _
    | exact GSlice.at_okOrPanic _ _
    | refine vecM_okOrPanic fun _ => ?_
    | refine Res.OkOrPanic.bind ?_ fun _ => ?_))

theorem FileHeader.decode_eq (c : Codec) (s : GSlice) (hs : s.len ≤ s.mem.length) :
    FileHeader.decode c s = if 124 < s.len then .ok (FileHeader.parse c s.mem) else .panic := by
  refine Res.OkOrPanic.eq_ite ?_ ?_ ?_
  · unfold FileHeader.decode
    okOrPanic
    split
    · okOrPanic
    · okOrPanic
  · intro h
    have h1 : ∀ a b, a ≤ b → b ≤ 124 → s.sub a b = .ok (slice s.mem a b) := fun a b x y =>
      GSlice.sub_eq_ok.mpr ⟨⟨x, by omega⟩, rfl⟩
    have h2 : ∀ a, a ≤ 124 → s.at a = .ok (byteAt s.mem a) := fun a x => GSlice.at_eq_ok.mpr ⟨by omega, rfl⟩
    unfold FileHeader.decode FileHeader.parse
    simp only [h1, h2, Res.ok_bind, Nat.reduceLeDiff, Nat.zero_le, Nat.le_refl, Res.pure_eq]
    split <;> simp_all
  · intro b h
    unfold FileHeader.decode at h
    simp only [Res.bind_eq_ok, GSlice.at_eq_ok] at h
    obtain ⟨_, _, _, _, _, _, _, _, _, _, _, _, _, _, _, _, _, ⟨h, _⟩, _⟩ := h
    exact h

theorem FormosaHeader.decode_eq (c : Codec) (s : GSlice) :
    FormosaHeader.decode c s = if 227 ≤ s.mem.length then .ok (FormosaHeader.parse c s.mem) else .panic := by
  refine Res.OkOrPanic.eq_ite ?_ ?_ ?_
  · unfold FormosaHeader.decode
    okOrPanic
  · intro h
    have h1 : ∀ a b, a ≤ b → b ≤ 227 → s.sub a b = .ok (slice s.mem a b) := fun a b x y =>
      GSlice.sub_eq_ok.mpr ⟨⟨x, by omega⟩, rfl⟩
    unfold FormosaHeader.decode FormosaHeader.parse
    simp only [h1, Res.ok_bind, Nat.reduceLeDiff, Nat.zero_le, Nat.le_refl, Res.pure_eq]
  · intro b h
    unfold FormosaHeader.decode at h
    simp only [Res.bind_eq_ok, GSlice.sub_eq_ok] at h
    obtain ⟨_, _, _, _, _, _, _, ⟨⟨_, h⟩, _⟩, _⟩ := h
    exact h

theorem BoardHeader.decode_eq (c : Codec) (s : GSlice) :
    BoardHeader.decode c s = if 208 < s.len ∧ 216 ≤ s.mem.length then .ok (BoardHeader.parse c s.mem) else .panic := by
  refine Res.OkOrPanic.eq_ite ?_ ?_ ?_
  · unfold BoardHeader.decode
    okOrPanic
  · intro h
    have h1 : ∀ a b, a ≤ b → b ≤ 216 → s.sub a b = .ok (slice s.mem a b) := fun a b x y =>
      GSlice.sub_eq_ok.mpr ⟨⟨x, by omega⟩, rfl⟩
    have h2 : ∀ a, a ≤ 208 → s.at a = .ok (byteAt s.mem a) := fun a x => GSlice.at_eq_ok.mpr ⟨by omega, rfl⟩
    unfold BoardHeader.decode BoardHeader.parse
    simp only [h1, h2, Res.ok_bind, Nat.reduceLeDiff, Nat.zero_le, Nat.le_refl, Res.pure_eq]
  · intro b h
    unfold BoardHeader.decode at h
    simp only [Res.bind_eq_ok, GSlice.at_eq_ok, GSlice.sub_eq_ok] at h
    grind

theorem Userec.decode_eq (c : Codec) (s : GSlice) :
    Userec.decode c s = if 453 < s.len ∧ 484 ≤ s.mem.length then .ok (Userec.parse c s.mem) else .panic := by
  refine Res.OkOrPanic.eq_ite ?_ ?_ ?_
  · unfold Userec.decode
    okOrPanic
  · intro h
    have h1 : ∀ a b, a ≤ b → b ≤ 484 → s.sub a b = .ok (slice s.mem a b) := fun a b x y =>
      GSlice.sub_eq_ok.mpr ⟨⟨x, by omega⟩, rfl⟩
    have h2 : ∀ a, a ≤ 453 → s.at a = .ok (byteAt s.mem a) := fun a x => GSlice.at_eq_ok.mpr ⟨by omega, rfl⟩
    unfold Userec.decode Userec.parse
    simp only [h1, h2, Res.ok_bind, Nat.reduceLeDiff, Nat.zero_le, Nat.le_refl, Res.pure_eq]
  · intro b h
    unfold Userec.decode at h
    simp only [Res.bind_eq_ok, GSlice.at_eq_ok, GSlice.sub_eq_ok] at h
    grind

set_option maxRecDepth 4000 in
theorem UserInfo.decode_eq (c : Codec) (s : GSlice) :
    UserInfo.decode c s = if 3448 < s.len ∧ 3475 ≤ s.mem.length then .ok (UserInfo.parse c s.mem) else .panic := by
  refine Res.OkOrPanic.eq_ite ?_ ?_ ?_
  · unfold UserInfo.decode
    okOrPanic
  · intro h
    have h1 : ∀ a b, a ≤ b → b ≤ 3475 → s.sub a b = .ok (slice s.mem a b) := fun a b x y =>
      GSlice.sub_eq_ok.mpr ⟨⟨x, by omega⟩, rfl⟩
    have h2 : ∀ a, a ≤ 3448 → s.at a = .ok (byteAt s.mem a) := fun a x => GSlice.at_eq_ok.mpr ⟨by omega, rfl⟩
    have v1 := vecM_eq (n := 256) (f := fun i => do return (rd32 (← s.sub (100 + 4 * i) (100 + 4 * i + 4))).toInt32)
      (g := fun i => (rd32 (slice s.mem (100 + 4 * i) (100 + 4 * i + 4))).toInt32)
      (fun i => by have := i.isLt; rw [h1 _ _ (by omega) (by omega)]; rfl)
    have v2 := vecM_eq (n := 256) (f := fun i => do return rd32 (← s.sub (1128 + 4 * i) (1128 + 4 * i + 4)))
      (g := fun i => rd32 (slice s.mem (1128 + 4 * i) (1128 + 4 * i + 4)))
      (fun i => by have := i.isLt; rw [h1 _ _ (by omega) (by omega)]; rfl)
    have v3 := vecM_eq (n := 32) (f := fun i => do return (rd32 (← s.sub (2156 + 4 * i) (2156 + 4 * i + 4))).toInt32)
      (g := fun i => (rd32 (slice s.mem (2156 + 4 * i) (2156 + 4 * i + 4))).toInt32)
      (fun i => by have := i.isLt; rw [h1 _ _ (by omega) (by omega)]; rfl)
    have v4 := vecM_eq (n := 10) (f := fun i => s.sub (2292 + 100 * i) (2292 + 100 * i + 100))
      (g := fun i => slice s.mem (2292 + 100 * i) (2292 + 100 * i + 100))
      (fun i => by have := i.isLt; rw [h1 _ _ (by omega) (by omega)])
    unfold UserInfo.decode UserInfo.parse
    rw [v1, v2, v3, v4]
    simp only [h1, h2, Res.ok_bind, Nat.reduceLeDiff, Nat.zero_le, Nat.le_refl, Res.pure_eq]
  · intro b h
    unfold UserInfo.decode at h
    simp only [Res.bind_eq_ok, GSlice.at_eq_ok, GSlice.sub_eq_ok] at h
    grind

/-! ## The same on buffers made by `make` -/

theorem FileHeader.unmarshal_def (c : Codec) (d : Bytes) :
    FileHeader.unmarshal c d = if d.length < 125 then .panic else .ok (FileHeader.parse c d) := by
  have e := FileHeader.decode_eq c (GSlice.full d) (Nat.le_refl _)
  have l : (GSlice.full d).len = d.length := rfl
  have m : (GSlice.full d).mem = d := rfl
  unfold FileHeader.unmarshal
  by_cases h : d.length < 125
  · rw [e, if_neg (by rw [l]; omega), if_pos h]
  · rw [e, if_pos (by rw [l]; omega), if_neg h, m]

theorem FormosaHeader.unmarshal_def (c : Codec) (d : Bytes) :
    FormosaHeader.unmarshal c d = if d.length < 227 then .panic else .ok (FormosaHeader.parse c d) := by
  have e := FormosaHeader.decode_eq c (GSlice.full d)
  have l : (GSlice.full d).len = d.length := rfl
  have m : (GSlice.full d).mem = d := rfl
  unfold FormosaHeader.unmarshal
  by_cases h : d.length < 227
  · rw [e, if_neg (by rw [m]; omega), if_pos h]
  · rw [e, if_pos (by rw [m]; omega), if_neg h, m]

theorem BoardHeader.unmarshal_def (c : Codec) (d : Bytes) :
    BoardHeader.unmarshal c d = if d.length < 216 then .panic else .ok (BoardHeader.parse c d) := by
  have e := BoardHeader.decode_eq c (GSlice.full d)
  have l : (GSlice.full d).len = d.length := rfl
  have m : (GSlice.full d).mem = d := rfl
  unfold BoardHeader.unmarshal
  by_cases h : d.length < 216
  · rw [e, if_neg (by rw [l, m]; omega), if_pos h]
  · rw [e, if_pos (by rw [l, m]; omega), if_neg h, m]

theorem Userec.unmarshal_def (c : Codec) (d : Bytes) :
    Userec.unmarshal c d = if d.length < 484 then .panic else .ok (Userec.parse c d) := by
  have e := Userec.decode_eq c (GSlice.full d)
  have l : (GSlice.full d).len = d.length := rfl
  have m : (GSlice.full d).mem = d := rfl
  unfold Userec.unmarshal
  by_cases h : d.length < 484
  · rw [e, if_neg (by rw [l, m]; omega), if_pos h]
  · rw [e, if_pos (by rw [l, m]; omega), if_neg h, m]

theorem UserInfo.unmarshal_def (c : Codec) (d : Bytes) :
    UserInfo.unmarshal c d = if d.length < 3475 then .panic else .ok (UserInfo.parse c d) := by
  have e := UserInfo.decode_eq c (GSlice.full d)
  have l : (GSlice.full d).len = d.length := rfl
  have m : (GSlice.full d).mem = d := rfl
  unfold UserInfo.unmarshal
  by_cases h : d.length < 3475
  · rw [e, if_neg (by rw [l, m]; omega), if_pos h]
  · rw [e, if_pos (by rw [l, m]; omega), if_neg h, m]

end Verif
