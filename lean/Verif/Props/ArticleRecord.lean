import Verif.Proofs.Decode
import Verif.Model.FileHeader
import Verif.Proofs.Record
/-!
# C02, C03, C29: the article record
-/

namespace Verif
open Spec

theorem FileHeader.writesIn (c : Codec) (f : FileHeader) : WritesIn 128 (f.writes c) := by
  simp [WritesIn, FileHeader.writes, wCopy, w32, w8]

theorem FileHeader.writesDisjoint (c : Codec) (f : FileHeader) :
    (f.writes c).Pairwise Write.Disjoint := by
  simp [FileHeader.writes, wCopy, w32, w8, Write.Disjoint]

/-- What a saved article record contains, for any record whatever: strings are cut at the end of their field and trimmed of
NULs, the time is taken modulo 2³², and the fields that are never written are zero. -/
def Spec.storedArticle (c : Codec) (f : FileHeader) : FileHeader :=
  { filename := cutTrim 28 f.filename
    modified := wrap32 f.modified
    recommend := f.recommend
    owner := cutTrim 14 f.owner
    date := cutTrim 6 f.date
    title := c.dec (cutTrim 65 (c.enc f.title))
    money := 0
    annoUID := 0
    voteLimits := ⟨0, 0, 0, 0⟩
    filemode := 0 }

theorem FileHeader.parse_marshal_exact (c : Codec) (f : FileHeader) :
    FileHeader.parse c (f.marshal c) = storedArticle c f := by
  have hin := f.writesIn c
  have hdj := f.writesDisjoint c
  have h1 : slice (f.marshal c) 0 28 = padTo 28 f.filename :=
    read_copy hin hdj (by simp [FileHeader.writes])
  have h2 : slice (f.marshal c) 28 32 = le32 (unixU32 f.modified) :=
    read_32 hin hdj (a := 28) (by simp [FileHeader.writes])
  have h3 : byteAt (f.marshal c) 33 = f.recommend.toUInt8 :=
    read_8 hin hdj (by simp [FileHeader.writes])
  have h4 : slice (f.marshal c) 34 48 = padTo 14 f.owner :=
    read_copy hin hdj (by simp [FileHeader.writes])
  have h5 : slice (f.marshal c) 48 54 = padTo 6 f.date :=
    read_copy hin hdj (by simp [FileHeader.writes])
  have h6 : slice (f.marshal c) 54 119 = padTo 65 (c.enc f.title) :=
    read_copy hin hdj (by simp [FileHeader.writes])
  have h7 : slice (f.marshal c) 120 124 = zeros 4 :=
    slice_runWrites_untouched hin (by omega) (by simp [FileHeader.writes, wCopy, w32, w8])
  have h8 : byteAt (f.marshal c) 124 = 0 :=
    read_untouched_8 hin (by omega) (by simp [FileHeader.writes, wCopy, w32, w8])
  have h9 : rd32 (zeros 4) = 0 := by decide
  have h10 : isVotePost 0 = false := by decide
  simp [FileHeader.parse, storedArticle, h1, h2, h3, h4, h5, h6, h7, h8, h9, h10, trimNul_padTo_cut, time_wrap]

/-- **C02, for any record at all**: 128 bytes, and what they contain. -/
theorem C02_exact (c : Codec) (f : FileHeader) :
    (f.marshal c).length = 128 ∧ FileHeader.unmarshal c (f.marshal c) = .ok (storedArticle c f) := by
  have hl : (f.marshal c).length = 128 := runWrites_length (f.writesIn c)
  refine ⟨hl, ?_⟩
  simp [FileHeader.unmarshal_def, hl, f.parse_marshal_exact c]

/-- **C02.** Serialising gives 128 bytes, and parsing them gives back every persisted field. -/
theorem C02_article_record_roundtrip (c : Codec) (f : FileHeader)
    (hfn : FitsTrim 28 f.filename) (ho : FitsTrim 14 f.owner) (hd : FitsTrim 6 f.date)
    (htf : FitsTrim 65 (c.enc f.title)) (htc : c.dec (c.enc f.title) = f.title)
    (hm : FitsTime f.modified) :
    (f.marshal c).length = 128 ∧
    ∃ g, FileHeader.unmarshal c (f.marshal c) = .ok g ∧
      g.filename = f.filename ∧ g.modified = f.modified ∧ g.recommend = f.recommend ∧
      g.owner = f.owner ∧ g.date = f.date ∧ g.title = f.title := by
  refine ⟨(C02_exact c f).1, _, (C02_exact c f).2, ?_⟩
  unfold storedArticle
  simp only [cutTrim_of_fits hfn, cutTrim_of_fits ho, cutTrim_of_fits hd, cutTrim_of_fits htf, htc, wrap32_of_fits hm,
    and_self]

/-- A concrete record used in the examples below. -/
def sampleArticle : FileHeader :=
  { FileHeader.zero with
    filename := ascii "M.1599059246.A.CF6", modified := 1599059246, recommend := -7,
    owner := ascii "SYSOP", date := ascii " 9/02", title := ascii "[test] hello" }

/-- Non-vacuity of C02. -/
example : FitsTrim 28 sampleArticle.filename ∧ FitsTrim 14 sampleArticle.owner ∧
    FitsTrim 6 sampleArticle.date ∧ FitsTrim 65 (asciiCodec.enc sampleArticle.title) ∧
    asciiCodec.dec (asciiCodec.enc sampleArticle.title) = sampleArticle.title ∧
    FitsTime sampleArticle.modified := by decide

/-- An over-long date, an owner between NULs and a time past 2106. -/
example :
    let f := { sampleArticle with date := ascii "12/31/2026", owner := [0, 65, 0, 66, 0], modified := 4294967297, money := 3 }
    (storedArticle asciiCodec f).date = ascii "12/31/" ∧ (storedArticle asciiCodec f).owner = [65, 0, 66] ∧
      (storedArticle asciiCodec f).modified = 1 ∧ (storedArticle asciiCodec f).money = 0 := by decide

/-! ## C03 -/

/-- The full claim of C03 for one codec: reading any 128-byte record and writing it back keeps money,
announcement uid, vote limits and file mode. -/
def Spec.SaveKeepsExtras (c : Codec) : Prop :=
  ∀ data : Bytes, data.length = 128 → ∀ f, FileHeader.unmarshal c data = .ok f →
    ∃ g, FileHeader.unmarshal c (f.marshal c) = .ok g ∧
      g.money = f.money ∧ g.annoUID = f.annoUID ∧ g.voteLimits = f.voteLimits ∧ g.filemode = f.filemode

/-- What the code really does: every record read back after a save has these fields zero. -/
theorem C03_save_erases_extras (c : Codec) (f : FileHeader) :
    ∃ g, FileHeader.unmarshal c (f.marshal c) = .ok g ∧
      g.money = 0 ∧ g.annoUID = 0 ∧ g.voteLimits = ⟨0, 0, 0, 0⟩ ∧ g.filemode = 0 :=
  ⟨_, (C02_exact c f).2, rfl, rfl, rfl, rfl⟩

/-- **C03 is false of the code**: saving loses the money of a record. -/
theorem C03_save_keeps_extras_refuted (c : Codec) : ¬ Spec.SaveKeepsExtras c := by
  intro h
  let data : Bytes := zeros 120 ++ [1, 0, 0, 0] ++ zeros 4
  obtain ⟨g, hg, hm, _⟩ := h data (by simp [data]) (FileHeader.parse c data)
    (by simp [FileHeader.unmarshal_def, data])
  obtain ⟨g', hg', hm', _⟩ := C03_save_erases_extras c (FileHeader.parse c data)
  rw [hg] at hg'
  cases hg'
  rw [hm'] at hm
  have : (FileHeader.parse c data).money = 1 := by
    change (rd32 (slice data 120 124)).toNat = 1
    decide +kernel
  omega

/-- **C03, the part that holds**: the fields survive a save exactly when they were all zero. (Missing for the
full property: any non-zero value.) -/
theorem C03_save_keeps_extras_partial (c : Codec) (f : FileHeader) :
    (∃ g, FileHeader.unmarshal c (f.marshal c) = .ok g ∧
      g.money = f.money ∧ g.annoUID = f.annoUID ∧ g.voteLimits = f.voteLimits ∧ g.filemode = f.filemode) ↔
    (f.money = 0 ∧ f.annoUID = 0 ∧ f.voteLimits = ⟨0, 0, 0, 0⟩ ∧ f.filemode = 0) := by
  obtain ⟨g, hg, h1, h2, h3, h4⟩ := C03_save_erases_extras c f
  constructor
  · rintro ⟨g', hg', k1, k2, k3, k4⟩
    rw [hg] at hg'
    cases hg'
    exact ⟨by rw [← k1, h1], by rw [← k2, h2], by rw [← k3, h3], by rw [← k4, h4]⟩
  · rintro ⟨k1, k2, k3, k4⟩
    exact ⟨g, hg, by rw [h1, k1], by rw [h2, k2], by rw [h3, k3], by rw [h4, k4]⟩

/-- Both sides of the equivalence occur. -/
example : sampleArticle.money = 0 ∧ sampleArticle.filemode = 0 ∧
    { sampleArticle with money := 5 }.money ≠ 0 := by decide

/-! ## C29 -/

/-- Applying a sequence of recommendation updates. -/
def FileHeader.addRecommends (f : FileHeader) (us : List Int8) : FileHeader :=
  us.foldl FileHeader.addRecommend f

/-- The full claim of C29. -/
def Spec.RecommendAccumulates : Prop :=
  ∀ (f : FileHeader) (us : List Int8),
    (f.addRecommends us).recommendInt = f.recommendInt + (us.map Int8.toInt).sum

/-- **C29 is false of the code**: 127 + 1 wraps to -128. -/
theorem C29_recommend_accumulates_refuted : ¬ Spec.RecommendAccumulates := by
  intro h
  have := h { FileHeader.zero with recommend := 127 } [1]
  revert this
  decide

/-- The exact law: the score is the true sum reduced to the int8 range (balanced residue modulo 256). -/
theorem C29_recommend_wraps (f : FileHeader) (us : List Int8) :
    (f.addRecommends us).recommendInt = (f.recommendInt + (us.map Int8.toInt).sum).bmod 256 := by
  induction us generalizing f with
  | nil =>
    have h1 := f.recommend.toInt_lt
    have h2 := f.recommend.le_toInt
    simp only [FileHeader.addRecommends, List.foldl_nil, List.map_nil, List.sum_nil, FileHeader.recommendInt,
      Int.add_zero]
    rw [Int.bmod_eq_of_le] <;> omega
  | cons u us ih =>
    have := ih (f.addRecommend u)
    simp only [FileHeader.addRecommends, List.foldl_cons, List.map_cons, List.sum_cons] at this ⊢
    rw [this]
    simp only [FileHeader.recommendInt, FileHeader.addRecommend, Int8.toInt_add, Nat.reducePow]
    rw [Int.bmod_add_bmod]
    congr 1
    omega

/-- **C29, the part that holds**: whenever the true total fits in an int8, the score is the true total —
even if intermediate totals overflow. (Missing for the full property: totals outside -128…127.) -/
theorem C29_recommend_accumulates_partial (f : FileHeader) (us : List Int8)
    (h1 : -128 ≤ f.recommendInt + (us.map Int8.toInt).sum)
    (h2 : f.recommendInt + (us.map Int8.toInt).sum ≤ 127) :
    (f.addRecommends us).recommendInt = f.recommendInt + (us.map Int8.toInt).sum := by
  rw [C29_recommend_wraps, Int.bmod_eq_of_le] <;> omega

/-- Other fields are not affected by recommendation updates. -/
theorem C29_recommend_only_score (f : FileHeader) (us : List Int8) :
    ∃ r, f.addRecommends us = { f with recommend := r } := by
  induction us generalizing f with
  | nil => exact ⟨f.recommend, rfl⟩
  | cons u us ih =>
    obtain ⟨r, hr⟩ := ih (f.addRecommend u)
    exact ⟨r, hr⟩

/-- Non-vacuity of C29: 100 + 100 - 120 fits although 100 + 100 does not. -/
example : -128 ≤ ({ FileHeader.zero with recommend := 100 } : FileHeader).recommendInt +
      (([100, -120] : List Int8).map Int8.toInt).sum ∧
    ({ FileHeader.zero with recommend := 100 } : FileHeader).recommendInt +
      (([100, -120] : List Int8).map Int8.toInt).sum ≤ 127 := by decide

end Verif
