import Verif.Model.OnlineFile
import Verif.Props.OnlineRecord
import Verif.Proofs.RecordFile
/-!
# C115: files of online records
-/

namespace Verif
open Spec

theorem UserInfo.unmarshal_padTo (c : Codec) (bs : Bytes) :
    UserInfo.unmarshal c (padTo 3484 bs) = .ok (UserInfo.parse c (padTo 3484 bs)) := by
  simp [UserInfo.unmarshal_def, padTo_length]

/-- **C115, for any source of bytes**: after `k` pieces the file ends or a read fails. The records are the pieces, each filled up with zero
bytes; a failure is reported, and no records are returned. -/
theorem C115_any_source (c : Codec) (src : Nat → ReadRes) (pieces : List Bytes) (fuel : Nat) (hf : pieces.length < fuel)
    (hp : ∀ (j : Nat) (h : j < pieces.length), src j = .data pieces[j]) :
    (src pieces.length = .eof →
      onlineLoop c src fuel 0 = .ok (pieces.map fun b => UserInfo.parse c (padTo 3484 b))) ∧
    (src pieces.length = .fail → onlineLoop c src fuel 0 = .err "read error") := by
  have H : ∀ (ps : List Bytes) (fuel k : Nat), ps.length < fuel → (∀ (j : Nat) (h : j < ps.length), src (k + j) = .data ps[j]) →
      (src (k + ps.length) = .eof → onlineLoop c src fuel k = .ok (ps.map fun b => UserInfo.parse c (padTo 3484 b))) ∧
      (src (k + ps.length) = .fail → onlineLoop c src fuel k = .err "read error") := by
    intro ps
    induction ps with
    | nil =>
      intro fuel k hf _
      obtain ⟨fuel, rfl⟩ : ∃ n, fuel = n + 1 := ⟨fuel - 1, by simp at hf; omega⟩
      refine ⟨fun h => ?_, fun h => ?_⟩ <;> (simp only [List.length_nil, Nat.add_zero] at h; simp [onlineLoop, h])
    | cons b ps ih =>
      intro fuel k hf hp
      obtain ⟨fuel, rfl⟩ : ∃ n, fuel = n + 1 := ⟨fuel - 1, by simp at hf; omega⟩
      have h0 : src k = .data b := hp 0 (by simp)
      have := ih fuel (k + 1) (by simp at hf; omega) (fun j hj => by
        have := hp (j + 1) (by simp; omega)
        simpa [Nat.add_assoc, Nat.add_comm 1 j] using this)
      have e : k + (b :: ps).length = k + 1 + ps.length := by simp; omega
      rw [e, onlineLoop, h0]
      refine ⟨fun h => ?_, fun h => ?_⟩
      · simp [UserInfo.unmarshal_padTo, this.1 h]
      · simp [UserInfo.unmarshal_padTo, this.2 h]
  have := H pieces fuel 0 hf (by simpa using hp)
  simpa using this

/-- **C115, any file**: one record per started slot of 3484 bytes; the last one may be filled up with zero bytes. -/
theorem C115_file (c : Codec) (d : Bytes) :
    openUserInfoCache c (some d) = .ok ((slots 3484 d).map (UserInfo.parse c)) := by
  have hs : (0 : Nat) < 3484 := by omega
  have hl := ceil_le hs d.length
  let ps := (List.range ((d.length + 3484 - 1) / 3484)).map fun k => slice d (3484 * k) (3484 * k + 3484)
  have hps : ps.length = (d.length + 3484 - 1) / 3484 := by simp [ps]
  have := (C115_any_source c (fileSrc 3484 d) ps (d.length + 1) (by omega) (by
    intro j hj
    have := (lt_ceil hs d.length j).mp (by omega)
    rw [fileSrc, if_pos this]
    simp [ps])).1 (by
      have : ¬ 3484 * ps.length < d.length := fun h => by
        have := (lt_ceil hs d.length ps.length).mpr h
        omega
      rw [fileSrc, if_neg this])
  rw [openUserInfoCache, this]
  simp [slots, slot, ps, Function.comp_def]

/-- **C115, when the file can be read**: an error is answered exactly for a file that does not exist, and the program never crashes. -/
theorem C115_exists (c : Codec) (file : Option Bytes) :
    ((∃ e, openUserInfoCache c file = .err e) ↔ file = none) ∧ ((∃ us, openUserInfoCache c file = .ok us) ↔ file ≠ none) := by
  cases file with
  | none => exact ⟨⟨fun _ => rfl, fun _ => ⟨_, rfl⟩⟩, ⟨fun ⟨_, h⟩ => (by cases h), fun h => absurd rfl h⟩⟩
  | some d =>
    have e := C115_file c d
    exact ⟨⟨fun ⟨_, h⟩ => (by rw [e] at h; cases h), fun h => (by cases h)⟩, ⟨fun _ => (by simp), fun _ => ⟨_, e⟩⟩⟩

/-- The full claim of C115: a file of saved records gives the records back. -/
def Spec.OnlineFileRoundtrip (c : Codec) : Prop :=
  ∀ us : List UserInfo, (∀ u ∈ us, u.Storable c) → openUserInfoCache c (some (us.map (UserInfo.marshal c)).flatten) = .ok us

/-- **C115** (partial: as in C06, three game scores are those of other games): the records of any number of users come back in their
order, and a piece of a further record, shorter than 3484 bytes, is one more record. -/
theorem C115_roundtrip_partial (c : Codec) (us : List UserInfo) (hu : ∀ u ∈ us, u.Storable c) (torn : Bytes) (ht : torn.length < 3484) :
    openUserInfoCache c (some ((us.map (UserInfo.marshal c)).flatten ++ torn)) =
      .ok ((us.map fun u => { u with
            five := { u.five with tie := u.chineseChess.tie }
            chineseChess := { u.chineseChess with win := u.chessEloRating, lose := u.goChess.win } }) ++
        (if torn = [] then [] else [UserInfo.parse c (torn ++ zeros (3484 - torn.length))])) := by
  have hsz : Sized 3484 (us.map (UserInfo.marshal c)) := by
    intro x hx
    obtain ⟨u, _, rfl⟩ := List.mem_map.mp hx
    exact u.marshal_length c
  have hfl := hsz.flatten_length
  have hps : ∀ u ∈ us, UserInfo.parse c (padTo 3484 (u.marshal c)) = { u with
            five := { u.five with tie := u.chineseChess.tie }
            chineseChess := { u.chineseChess with win := u.chessEloRating, lose := u.goChess.win } } := by
    intro u hm
    have := C06_online_record_roundtrip_partial c u (hu u hm)
    have e := UserInfo.unmarshal_padTo c (u.marshal c)
    rw [padTo_eq_of_length this.1] at e ⊢
    exact Res.ok.inj (e.symm.trans this.2)
  have hmap : (us.map (UserInfo.marshal c)).map (fun b => UserInfo.parse c (padTo 3484 b)) = us.map fun u => { u with
            five := { u.five with tie := u.chineseChess.tie }
            chineseChess := { u.chineseChess with win := u.chessEloRating, lose := u.goChess.win } } := by
    rw [List.map_map]
    exact List.map_congr_left hps
  have hlen : (us.map (UserInfo.marshal c)).length = us.length := List.length_map ..
  have hget : ∀ j (hj : j < us.length), fileSrc 3484 ((us.map (UserInfo.marshal c)).flatten ++ torn) j =
      .data ((us.map (UserInfo.marshal c))[j]'(by omega)) := by
    intro j hj
    rw [fileSrc, if_pos (by rw [List.length_append, hfl, hlen]; omega), slice_flatten hsz torn j (by omega)]
  by_cases h0 : torn = []
  · subst h0
    have := (C115_any_source c _ (us.map (UserInfo.marshal c)) (((us.map (UserInfo.marshal c)).flatten ++ []).length + 1)
      (by rw [List.length_append, hfl, hlen]; omega) (fun j hj => hget j (by omega))).1 (by
        rw [fileSrc, if_neg (by rw [List.length_append, hfl]; simp)])
    rw [openUserInfoCache, this, hmap]
    simp
  · have hpos : 0 < torn.length := List.length_pos_iff.mpr h0
    have := (C115_any_source c (fileSrc 3484 ((us.map (UserInfo.marshal c)).flatten ++ torn)) (us.map (UserInfo.marshal c) ++ [torn]) (((us.map (UserInfo.marshal c)).flatten ++ torn).length + 1)
      (by rw [List.length_append, List.length_append, hfl, hlen]; simp; omega) (fun j hj => by
        by_cases hj' : j < us.length
        · rw [hget j hj', List.getElem_append_left (by omega)]
        · have hj2 : j = (us.map (UserInfo.marshal c)).length := by
            rw [List.length_append, hlen] at hj
            simp at hj
            omega
          have e : slice ((us.map (UserInfo.marshal c)).flatten ++ torn) (3484 * j) (3484 * j + 3484) = torn := by
            unfold slice
            rw [hj2, ← hfl, List.take_length_add_append, List.drop_left, List.take_of_length_le (by omega)]
          rw [fileSrc, if_pos (by rw [List.length_append, hfl, hj2]; omega), e, List.getElem_append_right (by omega)]
          simp)).1 (by
        rw [fileSrc, if_neg (by rw [List.length_append, List.length_append, hfl, Nat.mul_add]; simp; omega)])
    rw [openUserInfoCache, this, if_neg h0, List.map_append, hmap]
    simp [padTo, List.take_of_length_le (show torn.length ≤ 3484 by omega)]

/-- C115 is false of the code, because C06 is. -/
theorem C115_roundtrip_refuted : ¬ Spec.OnlineFileRoundtrip asciiCodec := by
  intro h
  have h1 := h [sampleOnline] (by simpa using sampleOnline_storable)
  have h2 := C115_roundtrip_partial asciiCodec [sampleOnline] (by simpa using sampleOnline_storable) [] (by simp)
  rw [List.append_nil, h1] at h2
  have h3 := congrArg (List.map UserInfo.five) (Res.ok.inj h2)
  revert h3
  simp only [List.map_cons, List.map_nil, if_pos, List.append_nil]
  decide

/-- Two records and ten bytes of a third meet the hypotheses. -/
example : (∀ u ∈ [sampleOnline, sampleOnline], u.Storable asciiCodec) ∧ ((sampleOnline.marshal asciiCodec).take 10).length < 3484 := by
  refine ⟨by simpa using sampleOnline_storable, ?_⟩
  simp only [List.length_take]
  omega

/-- A source that fails at its second read. -/
example : ∀ (j : Nat) (h : j < [ascii "x"].length), (fun k : Nat => if k = 0 then ReadRes.data (ascii "x") else .fail) j = .data [ascii "x"][j] := by
  intro j h
  obtain rfl : j = 0 := by simp at h; omega
  rfl

end Verif
