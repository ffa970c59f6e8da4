import Verif.Proofs.Fav
/-!
# C07, C08, C09: the favourites file
-/

namespace Verif
open Spec

/-! ## Helper lemmas -/

theorem FavFile.roundtrip_fuel (c : Codec) (f : FavFile) (h : WfFolder c f.folder) (rest : Bytes) :
    ∃ bs, f.marshal c = .ok bs ∧ unmarshalFavFile c (bs ++ rest) = .ok f := by
  obtain ⟨bs, hb, N, hu⟩ := folder_roundtrip c f.folder h
  have hr : runWrites 2 [w16 0 f.version] = le16 f.version := by
    simp [runWrites, w16, Write.apply, zeros, le16]
  refine ⟨le16 f.version ++ bs, by simp [FavFile.marshal, hb, hr], ?_⟩
  let data := le16 f.version ++ bs ++ rest
  have hlen : data.length = 2 + bs.length + rest.length := by simp [data]; omega
  have h1 : unmarshalFavFolder c data (max N (data.length + 1)) 2 = .ok (f.folder, 2 + bs.length) := by
    exact hu (le16 f.version) rest (max N (data.length + 1)) (by omega)
  have hs := (unmarshalFavFolder_sat c data (data.length + 1) 2 (by omega) (by omega)).returns
  have h2 := unmarshalFavFolder_mono c data (data.length + 1) (max N (data.length + 1)) (by omega) 2
    (by intro e; rw [e] at hs; exact hs)
  have hv : slice data 0 2 = le16 f.version := by
    show slice ((le16 f.version ++ bs) ++ rest) 0 2 = _
    simp [slice, le16]
  show unmarshalFavFileF c (data.length + 1) data = .ok f
  rw [unmarshalFavFileF_eq]
  rw [if_neg (by omega), ← h2, h1, hv]
  simp

theorem kinds_add (l : List Fav) : boards l + lines l + folders l = l.length := by
  induction l with
  | nil => rfl
  | cons x xs ih =>
    unfold boards lines folders at *
    cases x <;> simp <;> omega

mutual
theorem toItem_wf (c : Codec) (L F : UInt8) : ∀ (l : List Fav) (lid fid : UInt8), AllOk c l →
    L = lid + UInt8.ofNat (lines l) → F = fid + UInt8.ofNat (folders l) →
    WfItems c L F lid fid (toItems lid fid l)
  | [], lid, fid, _, hL, hF => by
    simp only [toItems, WfItems]
    exact ⟨by simpa [lines] using hL, by simpa [folders] using hF⟩
  | .board a b v t :: xs, lid, fid, h, hL, hF => by
    simp only [AllOk] at h
    simp only [toItems, Fav.toItem, WfItems]
    refine ⟨trivial, timeOfU32_fits v, trivial, toItem_wf c L F xs lid fid h.2 ?_ ?_⟩
    · simpa [lines] using hL
    · simpa [folders] using hF
  | .line a :: xs, lid, fid, h, hL, hF => by
    simp only [AllOk] at h
    simp only [toItems, Fav.toItem, WfItems]
    refine ⟨trivial, trivial, toItem_wf c L F xs (lid + 1) fid h.2 ?_ ?_⟩
    · rw [hL]; simp [lines, UInt8.ofNat_add]; ac_rfl
    · simpa [folders] using hF
  | .folder a title items :: xs, lid, fid, h, hL, hF => by
    simp only [AllOk, Fav.Ok] at h
    simp only [toItems, Fav.toItem, WfItems]
    refine ⟨trivial, trivial, h.1.1, h.1.2.1, toFolder_wf c items h.1.2.2.1 h.1.2.2.2,
      toItem_wf c L F xs lid (fid + 1) h.2 ?_ ?_⟩
    · simpa [lines] using hL
    · rw [hF]; simp [folders, UInt8.ofNat_add]; ac_rfl
termination_by l => (sizeOf l, 0)
theorem toFolder_wf (c : Codec) : ∀ (l : List Fav), CountsFit l → AllOk c l → WfFolder c (toFolder l)
  | l, hf, ho => by
    have hk := kinds_add l
    obtain ⟨h1, h2, h3⟩ := hf
    simp only [toFolder, WfFolder]
    refine ⟨?_, trivial, ?_, toItem_wf c _ _ l 0 0 ho (by simp) (by simp)⟩
    · apply UInt16.toNat_inj.mp
      simp only [UInt16.toNat_add, UInt16.toNat_ofNat', UInt8.toNat_toUInt16, UInt8.toNat_ofNat']
      omega
    · rw [toItems_length, UInt16.toNat_ofNat']; omega
termination_by l => (sizeOf l, 1)
theorem toItems_length : ∀ (l : List Fav) (lid fid : UInt8), (toItems lid fid l).length = l.length
  | [], _, _ => by simp [toItems]
  | x :: xs, lid, fid => by
    cases x <;> simp [toItems, toItems_length xs]
termination_by l => (sizeOf l, 0)
end

mutual
theorem wf_total (c : Codec) : ∀ f : FavFolder, WfFolder c f → EveryFolder TotalAgrees f
  | .mk na dt nb nl nf li fi items, h => by
    simp only [WfFolder] at h
    simp only [EveryFolder, TotalAgrees]
    exact ⟨⟨h.2.2.1.symm, by rw [h.1]; ac_rfl⟩, wf_total_items c li fi items 0 0 h.2.2.2⟩
theorem wf_total_items (c : Codec) (L F : UInt8) : ∀ (items : List FavItem) (lid fid : UInt8),
    WfItems c L F lid fid items → EveryFolderIn TotalAgrees items
  | [], _, _, _ => by simp [EveryFolderIn]
  | .mk t a (.board bid lv attr name) :: rest, lid, fid, h => by
    simp only [WfItems] at h
    simpa only [EveryFolderIn] using wf_total_items c L F rest lid fid h.2.2.2
  | .mk t a (.line id) :: rest, lid, fid, h => by
    simp only [WfItems] at h
    simpa only [EveryFolderIn] using wf_total_items c L F rest (lid + 1) fid h.2.2
  | .mk t a (.folder id title (some f)) :: rest, lid, fid, h => by
    simp only [WfItems] at h
    simp only [EveryFolderIn]
    exact ⟨wf_total c f h.2.2.2.2.1, wf_total_items c L F rest lid (fid + 1) h.2.2.2.2.2⟩
  | .mk t a (.folder id title none) :: rest, lid, fid, h => by simp [WfItems] at h
  | .mk t a .nil :: rest, lid, fid, h => by simp [WfItems] at h
end

/-! ## C07 -/

/-- C07: saving a well-formed tree (of any depth) succeeds, and loading the saved bytes, whatever bytes follow
them, gives the same version and the same tree. -/
theorem C07_fav_roundtrip (c : Codec) (f : FavFile) (h : WfFolder c f.folder) (rest : Bytes) :
    ∃ bs, f.marshal c = .ok bs ∧ unmarshalFavFile c (bs ++ rest) = .ok f :=
  FavFile.roundtrip_fuel c f h rest

/-- C07 for trees as a user sees them: every nested list of boards, lines and titled folders whose counts fit the
format is saved and loaded back exactly. -/
theorem C07_fav_roundtrip_plain (c : Codec) (version : UInt16) (l : List Fav) (hf : CountsFit l) (ho : AllOk c l)
    (rest : Bytes) :
    ∃ bs, FavFile.marshal c ⟨version, toFolder l⟩ = .ok bs ∧
      unmarshalFavFile c (bs ++ rest) = .ok ⟨version, toFolder l⟩ :=
  C07_fav_roundtrip c _ (toFolder_wf c l hf ho) rest

/-- A tree of depth three meeting the hypotheses. -/
def sampleFavs : List Fav :=
  [.board 1 10 1600000000 0, .line 1,
   .folder 1 (ascii "news") [.board 1 3 0 1, .folder 1 (ascii "empty") [], .line 1], .board 3 2 5 0]

example : CountsFit sampleFavs ∧ AllOk asciiCodec sampleFavs := by
  refine ⟨by simp [CountsFit, sampleFavs, lines, folders], ?_⟩
  simp [AllOk, Fav.Ok, sampleFavs, CountsFit, lines, folders, FitsCstr, asciiCodec, ascii]

/-! ## C08 -/

/-- The full claim of C08. -/
def Spec.FavLoadReturns : Prop := ∀ (c : Codec) (data : Bytes), (unmarshalFavFile c data).Returns

/-- C08 is false of `UnmarshalFavFile`: a slice with room for fewer than two bytes panics. -/
theorem C08_fav_load_returns_refuted : ¬ Spec.FavLoadReturns := by
  intro h
  exact h asciiCodec []

/-- C08: on a slice whose capacity is its length it panics exactly if there are fewer than the two bytes of the version. -/
theorem C08_fav_load_panics_iff (c : Codec) (data : Bytes) :
    unmarshalFavFile c data = .panic ↔ data.length < 2 := by
  simp only [unmarshalFavFile, unmarshalFavFileF_eq]
  by_cases h : data.length < 2
  · simp [h]
  · rw [if_neg h]
    have hs := unmarshalFavFolder_sat c data (data.length + 1) 2 (by omega) (by omega)
    cases hr : unmarshalFavFolder c data (data.length + 1) 2 with
    | ok p => simp [h]
    | err e => simp [h]
    | panic => rw [hr] at hs; exact absurd hs id
    | diverge => rw [hr] at hs; exact absurd hs id

/-- C08 (partial: files of at least two bytes). The loader returns a tree or an error: no panic; and the recursion
ends, since every recursion budget above the file length gives that same result. -/
theorem C08_fav_load_returns_partial (c : Codec) (data : Bytes) (h : 2 ≤ data.length) :
    (unmarshalFavFile c data).Returns ∧
      ∀ fuel, data.length < fuel → unmarshalFavFileF c fuel data = unmarshalFavFile c data := by
  have hs := (unmarshalFavFolder_sat c data (data.length + 1) 2 h (by omega)).returns
  constructor
  · simp only [unmarshalFavFile, unmarshalFavFileF_eq]
    rw [if_neg (by omega)]
    cases hr : unmarshalFavFolder c data (data.length + 1) 2 with
    | ok p => trivial
    | err e => trivial
    | panic => rw [hr] at hs; exact hs
    | diverge => rw [hr] at hs; exact hs
  · intro fuel hf
    simp only [unmarshalFavFile, unmarshalFavFileF_eq]
    rw [if_neg (by omega), if_neg (by omega),
      unmarshalFavFolder_mono c data (data.length + 1) fuel (by omega) 2 (by intro e; rw [e] at hs; exact hs)]

/-- C08 for files: `OpenFavFile` returns a tree or an error for every file, since the buffer it reads into has room for the version. -/
theorem C08_open_returns (c : Codec) (data : Bytes) : (loadFav c data).Returns := by
  rw [loadFav_eq]
  split
  · trivial
  · exact (C08_fav_load_returns_partial c data (by omega)).1

/-- The memory behind the file, and how much of it there is, makes no difference. -/
theorem C08_memory (c : Codec) (data rest : Bytes) (h : 512 ≤ (data ++ rest).length) :
    unmarshalFavSlice c (data.length + 1) ⟨data ++ rest, data.length⟩ = loadFav c data := by
  rw [unmarshalFavSlice_eq c data rest (by omega), loadFav_eq]

/-- C08, exact for slices: it panics exactly if the capacity is less than two. -/
theorem C08_slice_panics_iff (c : Codec) (data rest : Bytes) :
    unmarshalFavSlice c (data.length + 1) ⟨data ++ rest, data.length⟩ = .panic ↔ (data ++ rest).length < 2 := by
  by_cases h : (data ++ rest).length < 2
  · refine ⟨fun _ => h, fun _ => ?_⟩
    unfold unmarshalFavSlice GSlice.sub
    rw [if_neg (by simp only; omega)]
    rfl
  · have e := unmarshalFavSlice_eq c data rest (by omega)
    rw [e]
    refine ⟨fun hp => ?_, fun h' => absurd h' h⟩
    rw [← loadFav_eq] at hp
    have := C08_open_returns c data
    rw [hp] at this
    exact absurd this id

/-- An empty file is an error, not a crash. -/
example : loadFav asciiCodec [] = .err "index out of range, file format invalid" ∧ loadFav asciiCodec [7] = .err "index out of range, file format invalid" := by
  constructor <;> rw [loadFav_eq] <;> rfl

/-- Both outcomes occur: a truncated file is an error, the empty tree is loaded. -/
example : unmarshalFavFile asciiCodec [0, 0, 1] = .err "index out of range, file format invalid" := by rfl
example : unmarshalFavFile asciiCodec [0, 0, 0, 0, 0, 0] = .ok ⟨0, .mk 8 0 0 0 0 0 0 []⟩ := by rfl

/-! ## C09 -/

theorem load_wf (c : Codec) (hc : TitleStable c) (data : Bytes) (f : FavFile)
    (h : unmarshalFavFile c data = .ok f) : WfFolder c f.folder := by
  rw [unmarshalFavFile, unmarshalFavFileF_eq] at h
  split at h
  · cases h
  · rename_i h2
    have hs := unmarshalFavFolder_sat c data (data.length + 1) 2 (by omega) (by omega)
    obtain ⟨⟨g, j⟩, hg, hf⟩ := Res.bind_eq_ok.mp h
    rw [hg] at hs
    cases hf
    exact hs.1 hc

/-- C09: if a file loads, the loaded tree can be saved, and loading the saved bytes gives the same tree. The codec
hypothesis says that re-encoding a decoded title gives a title that fits and decodes to the same text. -/
theorem C09_fav_resave_stable (c : Codec) (hc : TitleStable c) (data : Bytes) (f : FavFile)
    (h : unmarshalFavFile c data = .ok f) (rest : Bytes) :
    ∃ bs, f.marshal c = .ok bs ∧ unmarshalFavFile c (bs ++ rest) = .ok f :=
  C07_fav_roundtrip c f (load_wf c hc data f h) rest

/-- The codec hypothesis is met by ASCII text. -/
example : TitleStable asciiCodec := fun _ hx => ⟨hx, rfl⟩

/-- C09: in a loaded tree, in every folder at every depth, the item counter is the number of items and the sum of
the three counters of the file. -/
theorem C09_fav_total_counters (c : Codec) (hc : TitleStable c) (data : Bytes) (f : FavFile)
    (h : unmarshalFavFile c data = .ok f) : EveryFolder TotalAgrees f.folder :=
  wf_total c f.folder (load_wf c hc data f h)

/-- The per-kind reading of the counters claim. -/
def Spec.KindCounters : Prop :=
  ∀ (c : Codec) (data : Bytes) (f : FavFile), unmarshalFavFile c data = .ok f → EveryFolder KindsAgree f.folder

/-- C09, per-kind reading, is false of the code: a file announcing one board and holding one line loads. -/
theorem C09_fav_kind_counters_refuted : ¬ Spec.KindCounters := by
  intro h
  have := h asciiCodec [0, 0, 1, 0, 0, 0, 3, 1, 1] ⟨0, .mk 9 1 1 0 0 1 0 [.mk 3 1 (.line 1)]⟩ (by rfl)
  simp [EveryFolder, KindsAgree] at this

/-- A file that loads (one folder holding one board), so the hypotheses of the C09 theorems are met. -/
example : ∃ f, unmarshalFavFile asciiCodec
    ([0, 0, 0, 0, 0, 1] ++ [2, 1, 7, 65] ++ zeros 48 ++ [1, 0, 0, 0] ++ [1, 1, 5, 0, 0, 0, 9, 0, 0, 0, 0, 0, 0, 0])
    = .ok f ∧ f.folder.items.length = 1 := by
  refine ⟨⟨0, .mk 9 1 0 0 1 0 1 [.mk 2 1 (.folder 1 [65] (some (.mk 9 1 1 0 0 0 0
    [.mk 1 1 (.board 5 9 0 [])])))]⟩, ?_, rfl⟩
  rfl

end Verif
