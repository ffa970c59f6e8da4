import Verif.Props.Fav
import Verif.Props.Big5Records
import Verif.Proofs.FavTitles
/-!
# C07, C09: favourites trees with any titles

C07 and C09 with hypotheses on the codec are in `Verif/Props/Fav.lean`. Here there are none: what a title becomes is
part of the law. The real codec does not meet the hypothesis `TitleStable` of `C09_fav_resave_stable`.
-/

namespace Verif
open Spec

/-- **C07, exactly**: saving a tree (any titles, any codec) and loading the bytes gives the same version and the same
tree, where every title is the decoding of the 49 bytes at most, up to a NUL, that its field holds. -/
theorem C07_fav_roundtrip_exact (c : Codec) (f : FavFile) (h : Shape (fun _ => True) f.folder) (rest : Bytes) :
    ∃ bs, f.marshal c = .ok bs ∧
      unmarshalFavFile c (bs ++ rest) = .ok ⟨f.version, mapTitles (fun t => c.dec (cut 49 (c.enc t))) f.folder⟩ := by
  obtain ⟨bs, hb, N, hu⟩ := folder_resave c _ f.folder h
  have hr : runWrites 2 [w16 0 f.version] = le16 f.version := by
    simp [runWrites, w16, Write.apply, zeros, le16]
  refine ⟨le16 f.version ++ bs, by simp [FavFile.marshal, hb, hr], ?_⟩
  let data := le16 f.version ++ bs ++ rest
  have hlen : data.length = 2 + bs.length + rest.length := by simp [data]; omega
  have h1 : unmarshalFavFolder c data (max N (data.length + 1)) 2 =
      .ok (mapTitles (resaved c) f.folder, 2 + bs.length) :=
    hu (le16 f.version) rest (max N (data.length + 1)) (by omega)
  have hs := (unmarshalFavFolder_sat c data (data.length + 1) 2 (by omega) (by omega)).returns
  have h2 := unmarshalFavFolder_mono c data (data.length + 1) (max N (data.length + 1)) (by omega) 2
    (by intro e; rw [e] at hs; exact hs)
  have hv : slice data 0 2 = le16 f.version := by
    show slice ((le16 f.version ++ bs) ++ rest) 0 2 = _
    simp [slice, le16]
  show unmarshalFavFileF c (data.length + 1) data = _
  rw [unmarshalFavFileF_eq]
  rw [if_neg (by omega), ← h2, h1, hv]
  simp only [Res.ok_bind, rd16_le16]
  rfl

/-- A tree with a title of 60 letters meets the hypothesis. -/
example : Shape (fun _ => True)
    (.mk 9 1 0 0 1 0 1 [.mk 2 1 (.folder 1 (List.replicate 60 65) (some (.mk 8 0 0 0 0 0 0 [])))]) := by
  simp only [Shape, ShapeIn]
  decide

mutual
theorem shape_imp {P Q : Bytes → Prop} (h : ∀ t, P t → Q t) : ∀ f : FavFolder, Shape P f → Shape Q f
  | .mk na dt nb nl nf li fi items => by
    simp only [Shape]
    exact fun x => ⟨x.1, x.2.1, x.2.2.1, shapeIn_imp h li fi items 0 0 x.2.2.2⟩
theorem shapeIn_imp {P Q : Bytes → Prop} (h : ∀ t, P t → Q t) (L F : UInt8) : ∀ (items : List FavItem) (lid fid : UInt8),
    ShapeIn P L F lid fid items → ShapeIn Q L F lid fid items
  | [], lid, fid => by simp [ShapeIn]
  | .mk t a (.folder id title (some f)) :: rest, lid, fid => by
    simp only [ShapeIn]
    exact fun x => ⟨x.1, x.2.1, h _ x.2.2.1, shape_imp h f x.2.2.2.1, shapeIn_imp h L F rest lid (fid + 1) x.2.2.2.2⟩
  | .mk t a (.folder id title none) :: rest, lid, fid => by simp [ShapeIn]
  | .mk t a (.board b v at' nm) :: rest, lid, fid => by
    simp only [ShapeIn]
    exact fun x => ⟨x.1, x.2.1, x.2.2.1, shapeIn_imp h L F rest lid fid x.2.2.2⟩
  | .mk t a (.line id) :: rest, lid, fid => by
    simp only [ShapeIn]
    exact fun x => ⟨x.1, x.2.1, shapeIn_imp h L F rest (lid + 1) fid x.2.2⟩
  | .mk t a .nil :: rest, lid, fid => by simp [ShapeIn]
end

/-- **C09, exactly**: if a file loads, the loaded tree can be saved, and loading the saved bytes gives the same tree
up to titles; a title is re-encoded, cut to its field and decoded. For all codecs. -/
theorem C09_fav_resave_exact (c : Codec) (data : Bytes) (f : FavFile) (h : unmarshalFavFile c data = .ok f)
    (rest : Bytes) :
    ∃ bs, f.marshal c = .ok bs ∧
      unmarshalFavFile c (bs ++ rest) = .ok ⟨f.version, mapTitles (fun t => c.dec (cut 49 (c.enc t))) f.folder⟩ :=
  C07_fav_roundtrip_exact c f (shape_imp (fun _ _ => trivial) _ (load_shape c data f h)) rest

/-- C09: the loaded tree comes back unchanged if and only if each of its titles does. -/
theorem C09_fav_resave_iff (c : Codec) (data : Bytes) (f : FavFile) (h : unmarshalFavFile c data = .ok f)
    (rest : Bytes) :
    (∃ bs, f.marshal c = .ok bs ∧ unmarshalFavFile c (bs ++ rest) = .ok f) ↔
      EveryTitle (fun t => c.dec (cut 49 (c.enc t)) = t) f.folder := by
  obtain ⟨bs, hb, hu⟩ := C09_fav_resave_exact c data f h rest
  rw [mapTitles_same]
  constructor
  · rintro ⟨bs', hb', hu'⟩
    rw [hb] at hb'
    cases hb'
    rw [hu] at hu'
    exact congrArg FavFile.folder (Res.ok.inj hu')
  · intro e
    exact ⟨bs, hb, by rw [hu, e]⟩

/-- C09: the counters, for all codecs. -/
theorem C09_fav_total_counters_all (c : Codec) (data : Bytes) (f : FavFile) (h : unmarshalFavFile c data = .ok f) :
    EveryFolder TotalAgrees f.folder :=
  shape_total _ f.folder (load_shape c data f h)

/-- The full claim of C09 about saving, for the codec the code uses. -/
def Spec.FavResaveStable (T : Big5Tables) : Prop :=
  ∀ (data : Bytes) (f : FavFile), unmarshalFavFile (big5Codec T) data = .ok f →
    ∃ bs, f.marshal (big5Codec T) = .ok bs ∧ unmarshalFavFile (big5Codec T) bs = .ok f

/-- A file with one empty folder whose title field holds the given 49 bytes. -/
def oneFolder (title : Bytes) : Bytes := [0, 0, 0, 0, 0, 1] ++ ([2, 1, 7] ++ padTo 49 title) ++ [0, 0, 0, 0]

theorem oneFolder_loads (c : Codec) (t : Bytes) :
    unmarshalFavFile c (oneFolder t) =
      .ok ⟨0, .mk 9 1 0 0 1 0 1 [.mk 2 1 (.folder 1 (c.dec (cut 49 t)) (some (.mk 8 0 0 0 0 0 0 [])))]⟩ := by
  have hl : (oneFolder t).length = 62 := by simp [oneFolder]
  have hp : (padTo 49 t).length = 49 := by simp
  have s1 : slice (oneFolder t) 9 58 = padTo 49 t := by
    have := slice_mid' [0, 0, 0, 0, 0, 1, 2, 1, 7] (padTo 49 t) [0, 0, 0, 0] (a := 0) (b := 49) (by omega) (by omega)
    simp only [List.length_cons, List.length_nil, Nat.zero_add, Nat.reduceAdd] at this
    have e : oneFolder t = [0, 0, 0, 0, 0, 1, 2, 1, 7] ++ padTo 49 t ++ [0, 0, 0, 0] := by simp [oneFolder]
    rw [e, this]
    simp only [slice, List.drop_zero]
    exact List.take_of_length_le (by omega)
  have s2 : slice (oneFolder t) 58 60 = [0, 0] ∧ byteAt (oneFolder t) 60 = 0 ∧ byteAt (oneFolder t) 61 = 0 := by
    have e : oneFolder t = ([0, 0, 0, 0, 0, 1, 2, 1, 7] ++ padTo 49 t) ++ [0, 0, 0, 0] ++ [] := by simp [oneFolder]
    have hq : ([0, 0, 0, 0, 0, 1, 2, 1, 7] ++ padTo 49 t : Bytes).length = 58 := by simp
    have a1 := slice_mid' ([0, 0, 0, 0, 0, 1, 2, 1, 7] ++ padTo 49 t) [0, 0, 0, 0] [] (a := 0) (b := 2) (by omega) (by simp)
    have a2 := byteAt_mid ([0, 0, 0, 0, 0, 1, 2, 1, 7] ++ padTo 49 t) [0, 0, 0, 0] [] (a := 2) (by simp)
    have a3 := byteAt_mid ([0, 0, 0, 0, 0, 1, 2, 1, 7] ++ padTo 49 t) [0, 0, 0, 0] [] (a := 3) (by simp)
    rw [hq] at a1 a2 a3
    rw [e]
    exact ⟨a1, a2, a3⟩
  have b0 : slice (oneFolder t) 2 4 = [0, 0] ∧ byteAt (oneFolder t) 4 = 0 ∧ byteAt (oneFolder t) 5 = 1 ∧
      slice (oneFolder t) 0 2 = [0, 0] ∧ byteAt (oneFolder t) 6 = 2 ∧ byteAt (oneFolder t) 7 = 1 := by
    refine ⟨rfl, rfl, rfl, rfl, rfl, rfl⟩
  have z : rd16 [0, 0] = 0 := rfl
  have h0 : ∀ fuel, unmarshalFavFolder c (oneFolder t) (fuel + 1) 58 = .ok (.mk 8 0 0 0 0 0 0 [], 62) := by
    intro fuel
    unfold unmarshalFavFolder
    rw [if_neg (by omega)]
    simp [s2, z, unmarshalFavItems, fillSubs]
  have hi : unmarshalFavItem c (oneFolder t) 6 = .ok (.mk 2 1 (.folder (byteAt (oneFolder t) 8) (c.dec (cut 49 t)) none), 58) := by
    have h21 : ¬ ((2 : UInt8) = 1) := by decide
    have h23 : ¬ ((2 : UInt8) = 3) := by decide
    unfold unmarshalFavItem
    rw [if_neg (by omega)]
    simp only [b0, if_neg h21, if_neg h23, if_true]
    rw [if_neg (by omega), s1, splitNulHead, takeWhile_padTo_cut]
  simp only [unmarshalFavFile, unmarshalFavFileF_eq]
  rw [if_neg (by omega), hl]
  have h1 : unmarshalFavFolder c (oneFolder t) (62 + 1) 2 =
      .ok (.mk 9 1 0 0 1 0 1 [.mk 2 1 (.folder 1 (c.dec (cut 49 t)) (some (.mk 8 0 0 0 0 0 0 [])))], 62) := by
    unfold unmarshalFavFolder
    rw [if_neg (by omega)]
    have e1 : (rd16 (slice (oneFolder t) 2 4) + (byteAt (oneFolder t) (2 + 3)).toUInt16 +
        (byteAt (oneFolder t) (2 + 2)).toUInt16).toNat = 1 := by
      rw [b0.1, z, b0.2.2.1, b0.2.1]; rfl
    simp only [Nat.reduceAdd, b0, z] at e1 ⊢
    rw [e1]
    simp only [unmarshalFavItems, hi, Res.ok_bind, fillSubs, h0 61]
    rfl
  rw [h1, b0.2.2.2.1]
  rfl

/-- **C09 is false of the code** for all tables: a folder whose title ends in half a character is shown with U+FFFD,
and without it after the next save. -/
theorem C09_fav_resave_refuted {T : Big5Tables} (w : Fit T) : ¬ Spec.FavResaveStable T := by
  intro h
  have hl := oneFolder_loads (big5Codec T) [0x81]
  obtain ⟨bs, hb, hu⟩ := h _ _ hl
  have := (C09_fav_resave_iff (big5Codec T) _ _ hl []).mp ⟨bs, hb, by simpa using hu⟩
  simp only [EveryTitle, EveryTitleIn, and_true] at this
  have h2 : T.dec (cut 49 [0x81]) = utf8Char 0xFFFD := by
    have e1 : cut 49 [0x81] = [0x81] := rfl
    have : runeError = utf8Char 0xFFFD := by decide
    rw [e1, ← this]
    rfl
  have h3 : T.enc (utf8Char 0xFFFD) = [] := by
    refine enc_stuck T w.noError ?_
    rintro ⟨d, u, hd, e1⟩
    have e2 := (utf8Char_inj (c := 0xFFFD) (s := []) (by decide) hd.1 (by simpa using e1)).1
    subst e2
    rcases hd.2 with h | h
    · omega
    · exact h w.noError
  simp only [big5Codec] at this
  rw [h2, h3] at this
  simp [cut, Big5Tables.dec, utf8Char] at this

/-- A title of Big5 characters, without NUL, that fits its field. -/
def Spec.PlainTitle (T : Big5Tables) (n : Nat) (t : Bytes) : Prop :=
  ∃ cs, (∀ c ∈ cs, Encodable T c) ∧ 0 ∉ cs ∧ (cs.map fun c => if c < 0x80 then 1 else 2).sum ≤ n ∧ t = utf8Text cs

theorem plainTitle_stable {T : Big5Tables} (w : Fit T) {t : Bytes} (h : PlainTitle T 49 t) :
    T.dec (cut 49 (T.enc t)) = t := by
  obtain ⟨cs, h1, h2, h3, rfl⟩ := h
  have hz : (0 : UInt8) ∉ T.enc (utf8Text cs) := by
    rw [C94_loses_partial T cs h1, (C95_shape w cs h1).2]
    exact h2
  have hl : (T.enc (utf8Text cs)).length ≤ 49 := by
    rw [C94_loses_partial T cs h1, (C95_shape w cs h1).1]
    exact h3
  rw [cut_of_fits ⟨hl, hz⟩, C95_roundtrip w cs h1]

/-- C09 (partial: titles of Big5 characters that fit): the tree comes back unchanged, with the codec of the code. -/
theorem C09_fav_resave_big5_partial {T : Big5Tables} (w : Fit T) (data : Bytes) (f : FavFile)
    (h : unmarshalFavFile (big5Codec T) data = .ok f) (ht : EveryTitle (PlainTitle T 49) f.folder) (rest : Bytes) :
    ∃ bs, f.marshal (big5Codec T) = .ok bs ∧ unmarshalFavFile (big5Codec T) (bs ++ rest) = .ok f :=
  (C09_fav_resave_iff _ data f h rest).mpr (everyTitle_imp (fun _ p => plainTitle_stable w p) _ ht)

/-- 新的目錄 as title meets the hypotheses. -/
example : ∃ f, unmarshalFavFile (big5Codec sampleTables) (oneFolder [0xb7, 0x73, 0xaa, 0xba, 0xa5, 0xd8, 0xbf, 0xfd]) = .ok f ∧
    EveryTitle (PlainTitle sampleTables 49) f.folder := by
  refine ⟨_, oneFolder_loads _ _, ?_⟩
  simp only [EveryTitle, EveryTitleIn, and_true]
  refine ⟨[0x65B0, 0x7684, 0x76EE, 0x9304], by decide +kernel, by decide, by decide, ?_⟩
  show sampleTables.dec _ = _
  decide +kernel


/-! ## Saving again and again -/

theorem fitting_prefix {T : Big5Tables} (cs : List Nat) (h : ∀ c ∈ cs, Encodable T c) :
    ∀ n, big5Text T (fitting n cs) <+: (big5Text T cs).take n ∧ ∀ c ∈ fitting n cs, c ∈ cs := by
  induction cs with
  | nil => intro n; simp [fitting, big5Text]
  | cons c cs ih =>
    intro n
    have hcs : ∀ d ∈ cs, Encodable T d := fun d hd => h d (by simp [hd])
    have e : big5Text T (c :: cs) = big5Char T c ++ big5Text T cs := by simp [big5Text]
    have key : ∀ k, (big5Char T c).length = k → k ≤ n →
        big5Text T (c :: fitting (n - k) cs) <+: (big5Text T (c :: cs)).take n ∧
          ∀ d ∈ c :: fitting (n - k) cs, d ∈ c :: cs := by
      intro k hk hn
      have e2 : big5Text T (c :: fitting (n - k) cs) = big5Char T c ++ big5Text T (fitting (n - k) cs) := by
        simp [big5Text]
      rw [e, e2, List.take_append, List.take_of_length_le (by omega), hk]
      refine ⟨List.prefix_append_right_inj _ |>.mpr (ih hcs (n - k)).1, ?_⟩
      intro d hd
      rcases List.mem_cons.mp hd with hd | hd
      · simp [hd]
      · exact List.mem_cons_of_mem _ ((ih hcs (n - k)).2 d hd)
    unfold fitting
    split
    · rename_i hc
      split
      · exact key 1 (by simp [big5Char, hc]) (by omega)
      · simp [big5Text]
    · rename_i hc
      split
      · exact key 2 (by simp [big5Char, hc]) (by omega)
      · simp [big5Text]

theorem cut_eq_take (n : Nat) (s : Bytes) : ∃ k, k ≤ n ∧ cut n s = s.take k ∧ (0 : UInt8) ∉ cut n s := by
  have h1 : cut n s = (s.take n).takeWhile (· != 0) := rfl
  have h2 := List.takeWhile_prefix (l := s.take n) (· != (0 : UInt8))
  have h3 := List.prefix_iff_eq_take.mp h2
  rw [List.take_take] at h3
  refine ⟨_, Nat.min_le_right _ _, by rw [h1]; exact h3, ?_⟩
  rw [h1]
  intro hm
  have := List.all_takeWhile (p := (· != (0 : UInt8))) (l := s.take n)
  rw [List.all_eq_true] at this
  simpa using this 0 hm

/-- After two saves a title is a text of Big5 characters that fits its field, whatever it was before. -/
theorem resaved_twice {T : Big5Tables} (w : Fit T) (t : Bytes) :
    PlainTitle T 49 (T.dec (cut 49 (T.enc (T.dec (cut 49 (T.enc t)))))) := by
  obtain ⟨cs, h1, h2⟩ := enc_range T w.noError t
  obtain ⟨k, hk, h3, h4⟩ := cut_eq_take 49 (T.enc t)
  obtain ⟨hp, hm⟩ := fitting_prefix cs h1 k
  have hf : ∀ c ∈ fitting k cs, Encodable T c := fun c hc => h1 c (hm c hc)
  have e1 : T.dec (cut 49 (T.enc t)) = utf8Text (fitting k cs ++ if splits k cs then [0xFFFD] else []) := by
    rw [h3, h2, ← C94_loses_partial T cs h1]
    exact C96_cut_exact w cs h1 k
  have e2 : T.enc (T.dec (cut 49 (T.enc t))) = big5Text T (fitting k cs) := by
    rw [e1]
    have : utf8Text (fitting k cs ++ if splits k cs then [0xFFFD] else []) =
        utf8Text (fitting k cs) ++ utf8Text (if splits k cs then [0xFFFD] else []) := by simp [utf8Text]
    rw [this]
    refine C94_exact T w.noError _ hf _ ?_
    rintro ⟨d, u, hd, e⟩
    split at e
    · have e2 := (utf8Char_inj (c := 0xFFFD) (s := []) (by decide) hd.1 (by simpa [utf8Text] using e)).1
      subst e2
      rcases hd.2 with h | h
      · omega
      · exact h w.noError
    · have := utf8Char_ne_nil d
      simp [utf8Text] at e
      exact this e.1
  have hsub := hp
  rw [← h2, ← h3] at hsub
  have hz : (0 : UInt8) ∉ big5Text T (fitting k cs) := fun hx => h4 (hsub.subset hx)
  have hl : (big5Text T (fitting k cs)).length ≤ 49 := by
    have := hp.length_le
    simp only [List.length_take] at this
    omega
  refine ⟨fitting k cs, hf, ?_, ?_, ?_⟩
  · exact fun hx => hz ((C95_shape w _ hf).2.mpr hx)
  · rw [← (C95_shape w _ hf).1]; exact hl
  · rw [e2, cut_of_fits ⟨hl, hz⟩, ← C94_loses_partial T _ hf]
    exact C95_roundtrip w _ hf

mutual
theorem everyTitle_map (P : Bytes → Prop) (g : Bytes → Bytes) (h : ∀ t, P (g t)) : ∀ f : FavFolder,
    EveryTitle P (mapTitles g f)
  | .mk na dt nb nl nf li fi items => by
    simp only [mapTitles, EveryTitle]
    exact everyTitleIn_map P g h items
theorem everyTitleIn_map (P : Bytes → Prop) (g : Bytes → Bytes) (h : ∀ t, P (g t)) : ∀ items : List FavItem,
    EveryTitleIn P (mapTitlesIn g items)
  | [] => by simp [mapTitlesIn, EveryTitleIn]
  | .mk t a (.folder id title (some f)) :: rest => by
    simp only [mapTitlesIn, EveryTitleIn]
    exact ⟨h _, everyTitle_map P g h f, everyTitleIn_map P g h rest⟩
  | .mk t a (.folder id title none) :: rest => by
    simp only [mapTitlesIn, EveryTitleIn]
    exact ⟨h _, everyTitleIn_map P g h rest⟩
  | .mk t a (.board b v at' nm) :: rest => by
    simpa only [mapTitlesIn, EveryTitleIn] using everyTitleIn_map P g h rest
  | .mk t a (.line id) :: rest => by simpa only [mapTitlesIn, EveryTitleIn] using everyTitleIn_map P g h rest
  | .mk t a .nil :: rest => by simpa only [mapTitlesIn, EveryTitleIn] using everyTitleIn_map P g h rest
end

mutual
theorem mapTitles_comp (g k : Bytes → Bytes) : ∀ f : FavFolder, mapTitles g (mapTitles k f) = mapTitles (fun t => g (k t)) f
  | .mk na dt nb nl nf li fi items => by simp only [mapTitles, mapTitlesIn_comp g k items]
theorem mapTitlesIn_comp (g k : Bytes → Bytes) : ∀ items : List FavItem,
    mapTitlesIn g (mapTitlesIn k items) = mapTitlesIn (fun t => g (k t)) items
  | [] => by simp [mapTitlesIn]
  | .mk t a (.folder id title (some f)) :: rest => by
    simp only [mapTitlesIn, mapTitles_comp g k f, mapTitlesIn_comp g k rest]
  | .mk t a (.folder id title none) :: rest => by simp only [mapTitlesIn, mapTitlesIn_comp g k rest]
  | .mk t a (.board b v at' nm) :: rest => by simp only [mapTitlesIn, mapTitlesIn_comp g k rest]
  | .mk t a (.line id) :: rest => by simp only [mapTitlesIn, mapTitlesIn_comp g k rest]
  | .mk t a .nil :: rest => by simp only [mapTitlesIn, mapTitlesIn_comp g k rest]
end

/-- Save and load a tree `n` times. -/
def Spec.cycles (c : Codec) : Nat → FavFile → Res FavFile
  | 0, f => .ok f
  | n + 1, f => do
    let bs ← f.marshal c
    let g ← unmarshalFavFile c bs
    cycles c n g

theorem cycles_fixed {c : Codec} {f g1 g2 : FavFile} {b1 b2 b3 : Bytes} (m1 : f.marshal c = .ok b1)
    (u1 : unmarshalFavFile c b1 = .ok g1) (m2 : g1.marshal c = .ok b2) (u2 : unmarshalFavFile c b2 = .ok g2)
    (m3 : g2.marshal c = .ok b3) (u3 : unmarshalFavFile c b3 = .ok g2) :
    ∃ g, ∀ n, 2 ≤ n → Spec.cycles c n f = .ok g := by
  refine ⟨g2, fun n hn => ?_⟩
  obtain ⟨k, rfl⟩ : ∃ k, n = k + 1 + 1 := ⟨n - 2, by omega⟩
  simp only [Spec.cycles, m1, u1, m2, u2, Res.ok_bind]
  clear hn
  induction k with
  | zero => rfl
  | succ k ih => simpa only [Spec.cycles, m3, u3, Res.ok_bind] using ih

/-- **C09 settles**: whatever file was loaded, after two rounds of saving and loading the tree is the one that every
further round gives. -/
theorem C09_fav_settles {T : Big5Tables} (w : Fit T) (data : Bytes) (f : FavFile)
    (h : unmarshalFavFile (big5Codec T) data = .ok f) :
    ∃ g, ∀ n, 2 ≤ n → Spec.cycles (big5Codec T) n f = .ok g := by
  obtain ⟨b1, m1, u1⟩ := C09_fav_resave_exact (big5Codec T) data f h []
  obtain ⟨b2, m2, u2⟩ := C09_fav_resave_exact (big5Codec T) _ _ u1 []
  rw [List.append_nil] at u1 u2
  have hstep := (C09_fav_resave_iff (big5Codec T) _ _ u2 []).mpr (by
    simp only [mapTitles_comp]
    exact everyTitle_imp (fun _ p => plainTitle_stable w p) _
      (everyTitle_map _ _ (fun t => resaved_twice w t) _))
  obtain ⟨b3, m3, u3⟩ := hstep
  rw [List.append_nil] at u3
  exact cycles_fixed m1 u1 m2 u2 m3 u3

end Verif
