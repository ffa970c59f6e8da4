import Verif.Props.Big5
import Verif.Props.ArticleRecord
import Verif.Props.BoardRecord
/-!
# C97: Chinese titles in article and board records
-/

namespace Verif
open Spec

theorem cutTrim_of_not_mem {s : Bytes} (n : Nat) (h : (0 : UInt8) ∉ s) : cutTrim n s = s.take n := by
  have h1 : (0 : UInt8) ∉ s.take n := fun x => h (List.mem_of_mem_take x)
  have := trimNul_append_zeros (nulEndsFree_of_not_mem h1) 0
  simpa [cutTrim, zeros] using this

theorem cut_of_not_mem {s : Bytes} (n : Nat) (h : (0 : UInt8) ∉ s) : cut n s = s.take n := by
  have h1 : (0 : UInt8) ∉ s.take n := fun x => h (List.mem_of_mem_take x)
  have := takeWhile_ne_zero_append_zeros h1 (k := 0)
  simpa [cut, zeros] using this

/-- **C97.** An article whose title can be written in Big5 is read back with the characters that fit 65 bytes (and U+FFFD for
one that is cut in two); a board keeps 49 bytes of its title and 13 of its name. -/
theorem C97_titles_exact {T : Big5Tables} (w : Fit T) (cs : List Nat) (h : ∀ c ∈ cs, Encodable T c) (h0 : 0 ∉ cs) :
    (∀ f : FileHeader, f.title = utf8Text cs → ∃ g, FileHeader.unmarshal (big5Codec T) (f.marshal (big5Codec T)) = .ok g ∧
      g.title = utf8Text (fitting 65 cs ++ if splits 65 cs then [0xFFFD] else [])) ∧
    (∀ b : BoardHeader, b.title = utf8Text cs → ∃ g, BoardHeader.unmarshal (big5Codec T) (b.marshal (big5Codec T)) = .ok g ∧
      g.title = utf8Text (fitting 49 cs ++ if splits 49 cs then [0xFFFD] else [])) ∧
    (∀ b : BoardHeader, b.brdName = utf8Text cs → ∃ g, BoardHeader.unmarshal (big5Codec T) (b.marshal (big5Codec T)) = .ok g ∧
      g.brdName = utf8Text (fitting 13 cs ++ if splits 13 cs then [0xFFFD] else [])) := by
  have hz : (0 : UInt8) ∉ T.enc (utf8Text cs) := by
    rw [C94_loses_partial T cs h, (C95_shape w cs h).2]
    exact h0
  refine ⟨?_, ?_, ?_⟩
  · intro f hf
    refine ⟨_, (C02_exact _ f).2, ?_⟩
    show T.dec (cutTrim 65 (T.enc f.title)) = _
    rw [hf, cutTrim_of_not_mem 65 hz, C96_cut_exact w cs h]
  · intro b hb
    refine ⟨_, (C04_exact _ b).2, ?_⟩
    show T.dec (cut 49 (T.enc b.title)) = _
    rw [hb, cut_of_not_mem 49 hz, C96_cut_exact w cs h]
  · intro b hb
    refine ⟨_, (C04_exact _ b).2, ?_⟩
    show T.dec (cut 13 (T.enc b.brdName)) = _
    rw [hb, cut_of_not_mem 13 hz, C96_cut_exact w cs h]

/-- A title of 33 characters: 32 fit, and the last one is cut. -/
example : (∀ c ∈ List.replicate 33 0x65B0, Encodable sampleTables c) ∧ 0 ∉ List.replicate 33 0x65B0 ∧
    splits 65 (List.replicate 33 0x65B0) ∧ fitting 65 (List.replicate 33 0x65B0) = List.replicate 32 0x65B0 := by
  decide +kernel

/-- The full claim of C97: recommending an article leaves its title alone. -/
def Spec.RecommendKeepsTitle (T : Big5Tables) : Prop :=
  ∀ (data : Bytes) (f : FileHeader) (u : Int8), data.length = 128 → FileHeader.unmarshal (big5Codec T) data = .ok f →
    slice ((f.addRecommend u).marshal (big5Codec T)) 54 119 = slice data 54 119

/-- **C97, exactly**: what the title field holds after a recommendation. -/
theorem C97_recommend_exact (T : Big5Tables) (data : Bytes) (f : FileHeader) (u : Int8)
    (hf : FileHeader.unmarshal (big5Codec T) data = .ok f) :
    slice ((f.addRecommend u).marshal (big5Codec T)) 54 119 = padTo 65 (T.enc (T.dec (trimNul (slice data 54 119)))) := by
  have h6 : slice ((f.addRecommend u).marshal (big5Codec T)) 54 119 =
      padTo 65 ((big5Codec T).enc (f.addRecommend u).title) :=
    read_copy ((f.addRecommend u).writesIn _) ((f.addRecommend u).writesDisjoint _) (by simp [FileHeader.writes])
  rw [h6]
  rw [FileHeader.unmarshal_def] at hf
  split at hf
  · cases hf
  · cases hf
    rfl

/-- A record with the given title bytes. -/
def titledRecord (t : Bytes) : Bytes := padTo 54 [] ++ padTo 74 t

theorem titledRecord_length (t : Bytes) : (titledRecord t).length = 128 := by simp [titledRecord]

theorem titledRecord_title {t : Bytes} (h : t.length ≤ 65) : slice (titledRecord t) 54 119 = padTo 65 t := by
  have e : padTo 74 t = padTo 65 t ++ zeros 9 := (padTo_append_zeros (k := 9) h).symm
  unfold titledRecord slice
  rw [e, ← List.append_assoc, List.take_append_of_le_length (by simp), List.take_of_length_le (by simp),
    List.drop_append_of_le_length (by simp), List.drop_eq_nil_of_le (by simp), List.nil_append]

/-- **C97 is false of the code** with every codec tables that fit: half a character in a title, followed by more text, makes a
recommendation delete the rest of the title. -/
theorem C97_recommend_refuted {T : Big5Tables} (w : Fit T) : ¬ Spec.RecommendKeepsTitle T := by
  intro h
  let t : Bytes := [65, 0x81, 32, 66]
  have hf : FileHeader.unmarshal (big5Codec T) (titledRecord t) = .ok (FileHeader.parse (big5Codec T) (titledRecord t)) := by
    simp [FileHeader.unmarshal_def, titledRecord_length]
  have h1 := h _ _ 1 (titledRecord_length t) hf
  rw [C97_recommend_exact T _ _ 1 hf, titledRecord_title (by simp [t]), trimNul_padTo (by decide) (by simp [t])] at h1
  have h2 : T.enc (T.dec t) = [65] := by
    have := C95_resave_drops w [65] (by
      intro c hc
      rw [List.mem_singleton.mp hc]
      exact ⟨Or.inl (by omega), Or.inl (by omega)⟩) [0x81, 32, 66] ⟨by decide, fun hp => absurd hp (by decide)⟩
    exact this
  rw [h2] at h1
  exact absurd h1 (by decide +kernel)

/-- **C97, the part that holds**: a title that is Big5 text stays as it is. (Missing for the full claim: titles with bytes that
have no meaning in Big5 or a second code for a character, and NULs in front; `C97_recommend_exact` says what becomes of them.) -/
theorem C97_recommend_partial {T : Big5Tables} (w : Fit T) (data : Bytes) (f : FileHeader) (u : Int8) (cs : List Nat)
    (h : ∀ c ∈ cs, Encodable T c) (h0 : 0 ∉ cs) (hl : (big5Text T cs).length ≤ 65)
    (hd : slice data 54 119 = padTo 65 (big5Text T cs)) (hf : FileHeader.unmarshal (big5Codec T) data = .ok f) :
    slice ((f.addRecommend u).marshal (big5Codec T)) 54 119 = slice data 54 119 := by
  have hz : (0 : UInt8) ∉ big5Text T cs := by
    rw [(C95_shape w cs h).2]
    exact h0
  rw [C97_recommend_exact T data f u hf, hd, trimNul_padTo (nulEndsFree_of_not_mem hz) hl,
    (C95_resave_exact w _).mpr ⟨cs, h, rfl⟩]

/-- A record with the title 新的 meets the hypotheses. -/
example : ∃ f, FileHeader.unmarshal (big5Codec sampleTables) (titledRecord (big5Text sampleTables [0x65B0, 0x7684])) = .ok f ∧
    slice (titledRecord (big5Text sampleTables [0x65B0, 0x7684])) 54 119 =
      padTo 65 (big5Text sampleTables [0x65B0, 0x7684]) ∧
    (∀ c ∈ [0x65B0, 0x7684], Encodable sampleTables c) ∧ (big5Text sampleTables [0x65B0, 0x7684]).length ≤ 65 := by
  refine ⟨_, by rw [FileHeader.unmarshal_def, if_neg (by simp [titledRecord_length])], ?_, by decide +kernel, by decide +kernel⟩
  exact titledRecord_title (by decide +kernel)

end Verif
