import Verif.Spec.FavTitles
import Verif.Proofs.Fav
/-!
# Helper lemmas for favourites trees with arbitrary titles
-/

namespace Verif
open Spec

theorem item_resave_folder (c : Codec) (a fid : UInt8) (title : Bytes) (sub : Option FavFolder) (pre post : Bytes) :
    ∃ e, FavItem.marshal c (.mk 2 a (.folder fid title sub)) = .ok e ∧
      unmarshalFavItem c (pre ++ e ++ post) pre.length =
        .ok (.mk 2 a (.folder fid (c.dec (cut 49 (c.enc title))) none), pre.length + e.length) := by
  have ho : Ordered 50 0 [w8 0 fid, wCopy 1 50 (c.enc title)] := by simp [Ordered, w8, wCopy]
  let r := runWrites 50 [w8 0 fid, wCopy 1 50 (c.enc title)]
  have hl : r.length = 50 := runWrites_length ho.writesIn
  have r0 : byteAt r 0 = fid := read_8 ho.writesIn ho.disjoint (a := 0) (by simp)
  have r1 : slice r 1 50 = padTo 49 (c.enc title) := read_copy ho.writesIn ho.disjoint (by simp)
  refine ⟨[2, a] ++ r, rfl, ?_⟩
  have b0 := byteAt_mid pre ([2, a] ++ r) post (a := 0) (by simp)
  have b1 := byteAt_mid pre ([2, a] ++ r) post (a := 1) (by simp)
  have s0 := byteAt_mid (pre ++ [2, a]) r post (a := 0) (by omega)
  have s1 := slice_mid' (pre ++ [2, a]) r post (a := 1) (b := 50) (by omega) (by omega)
  simp only [List.append_assoc, List.length_append, List.length_cons, List.length_nil, Nat.add_zero, Nat.zero_add,
    r0, r1] at b0 b1 s0 s1
  have hb0 : byteAt ([2, a] ++ r) 0 = 2 := rfl
  have hb1 : byteAt ([2, a] ++ r) 1 = a := rfl
  have h21 : ¬ ((2 : UInt8) = 1) := by decide
  have h23 : ¬ ((2 : UInt8) = 3) := by decide
  unfold unmarshalFavItem
  simp only [List.append_assoc]
  rw [if_neg (by simp), b0, hb0]
  simp only [if_true, if_neg h21, if_neg h23]
  rw [if_neg (by simp; omega), b1, hb1]
  simp only [Nat.add_assoc] at s0 s1 ⊢
  simp only [Nat.reduceAdd] at s0 s1 ⊢
  rw [s0, s1, splitNulHead, takeWhile_padTo_cut]
  simp [hl]

/-- The title a folder has after saving and loading. -/
def resaved (c : Codec) (t : Bytes) : Bytes := c.dec (cut 49 (c.enc t))

theorem mapTitlesIn_length (g : Bytes → Bytes) : ∀ items : List FavItem, (mapTitlesIn g items).length = items.length
  | [] => by simp [mapTitlesIn]
  | .mk t a (.folder id title (some f)) :: rest => by simp [mapTitlesIn, mapTitlesIn_length g rest]
  | .mk t a (.folder id title none) :: rest => by simp [mapTitlesIn, mapTitlesIn_length g rest]
  | .mk t a (.board b v at' nm) :: rest => by simp [mapTitlesIn, mapTitlesIn_length g rest]
  | .mk t a (.line id) :: rest => by simp [mapTitlesIn, mapTitlesIn_length g rest]
  | .mk t a .nil :: rest => by simp [mapTitlesIn, mapTitlesIn_length g rest]

theorem items_resave (c : Codec) (P : Bytes → Prop) (L F : UInt8) (items : List FavItem) :
    ∀ lid fid, ShapeIn P L F lid fid items →
    ∃ hs, marshalItems c items = .ok hs ∧
      ∀ pre post, unmarshalFavItems c (pre ++ hs ++ post) items.length pre.length =
        .ok ((mapTitlesIn (resaved c) items).map FavItem.strip, pre.length + hs.length) := by
  induction items with
  | nil => intro lid fid _; exact ⟨[], rfl, fun pre post => by simp [unmarshalFavItems, mapTitlesIn]⟩
  | cons it rest ih =>
    intro lid fid h
    have step : ∀ lid' fid' (im : FavItem), ShapeIn P L F lid' fid' rest →
        mapTitlesIn (resaved c) (it :: rest) = im :: mapTitlesIn (resaved c) rest →
        (∃ e, it.marshal c = .ok e ∧ ∀ pre post,
          unmarshalFavItem c (pre ++ e ++ post) pre.length = .ok (im.strip, pre.length + e.length)) →
        ∃ hs, marshalItems c (it :: rest) = .ok hs ∧ ∀ pre post,
          unmarshalFavItems c (pre ++ hs ++ post) (it :: rest).length pre.length =
            .ok ((mapTitlesIn (resaved c) (it :: rest)).map FavItem.strip, pre.length + hs.length) := by
      rintro lid' fid' im hr him ⟨e, he, hu⟩
      obtain ⟨hs, hm, hru⟩ := ih lid' fid' hr
      refine ⟨e ++ hs, by simp [marshalItems, he, hm], ?_⟩
      intro pre post
      have h1 := hu pre (hs ++ post)
      have h2 := hru (pre ++ e) post
      rw [him]
      simp only [List.append_assoc, List.length_append] at h1 h2 ⊢
      simp only [List.length_cons, unmarshalFavItems, h1, Res.ok_bind, h2, List.map_cons]
      simp [Nat.add_assoc]
    match it, h with
    | .mk t a (.board bid lv attr name), h =>
      simp only [ShapeIn] at h
      obtain ⟨rfl, ht, rfl, hr⟩ := h
      refine step _ _ _ hr (by rw [mapTitlesIn]) ?_
      obtain ⟨e, he, _⟩ := item_roundtrip_board c a bid lv attr ht [] []
      refine ⟨e, he, fun pre post => ?_⟩
      obtain ⟨e', he', hu⟩ := item_roundtrip_board c a bid lv attr ht pre post
      rw [he] at he'; cases he'
      exact hu
    | .mk t a (.folder id title (some f)), h =>
      simp only [ShapeIn] at h
      obtain ⟨rfl, rfl, _, _, hr⟩ := h
      refine step _ _ _ hr (by rw [mapTitlesIn]) ?_
      obtain ⟨e, he, _⟩ := item_resave_folder c a (fid + 1) title (some f) [] []
      refine ⟨e, he, fun pre post => ?_⟩
      obtain ⟨e', he', hu⟩ := item_resave_folder c a (fid + 1) title (some f) pre post
      rw [he] at he'; cases he'
      exact hu
    | .mk t a (.line id), h =>
      simp only [ShapeIn] at h
      obtain ⟨rfl, rfl, hr⟩ := h
      refine step _ _ _ hr (by rw [mapTitlesIn]) ?_
      obtain ⟨e, he, _⟩ := item_roundtrip_line c a (lid + 1) [] []
      refine ⟨e, he, fun pre post => ?_⟩
      obtain ⟨e', he', hu⟩ := item_roundtrip_line c a (lid + 1) pre post
      rw [he] at he'; cases he'
      exact hu
    | .mk t a (.folder id title none), h => simp [ShapeIn] at h
    | .mk t a .nil, h => simp [ShapeIn] at h

mutual
theorem folder_resave (c : Codec) (P : Bytes → Prop) : ∀ f : FavFolder, Shape P f →
    ∃ bs, f.marshal c = .ok bs ∧ ∃ N, ∀ pre post fuel, N ≤ fuel →
      unmarshalFavFolder c (pre ++ bs ++ post) fuel pre.length = .ok (mapTitles (resaved c) f, pre.length + bs.length)
  | .mk nAlloc dataTail nBoards nLines nFolders lineID folderID items, h => by
    simp only [Shape] at h
    obtain ⟨hd, ha, hlen, hw⟩ := h
    obtain ⟨hs, hm, hu⟩ := items_resave c P lineID folderID items 0 0 hw
    obtain ⟨ss, hms, N, hus⟩ := subs_resave c P lineID folderID items 0 0 hw
    have ho : Ordered 4 0 [w16 0 nBoards, w8 2 nLines, w8 3 nFolders] := by simp [Ordered, w16, w8]
    let r := runWrites 4 [w16 0 nBoards, w8 2 nLines, w8 3 nFolders]
    have hl : r.length = 4 := runWrites_length ho.writesIn
    have r0 : slice r 0 2 = le16 nBoards := read_16 ho.writesIn ho.disjoint (a := 0) (by simp)
    have r2 : byteAt r 2 = nLines := read_8 ho.writesIn ho.disjoint (a := 2) (by simp)
    have r3 : byteAt r 3 = nFolders := read_8 ho.writesIn ho.disjoint (a := 3) (by simp)
    refine ⟨r ++ hs ++ ss, by simp [FavFolder.marshal, hm, hms, r], N + 1, ?_⟩
    intro pre post fuel hfuel
    obtain ⟨fuel, rfl⟩ : ∃ k, fuel = k + 1 := ⟨fuel - 1, by omega⟩
    have s0 := slice_mid' pre r (hs ++ ss ++ post) (a := 0) (b := 2) (by omega) (by omega)
    have b2 := byteAt_mid pre r (hs ++ ss ++ post) (a := 2) (by omega)
    have b3 := byteAt_mid pre r (hs ++ ss ++ post) (a := 3) (by omega)
    have hu' := hu (pre ++ r) (ss ++ post)
    have hus' := hus (pre ++ r ++ hs) post fuel (by omega)
    simp only [List.append_assoc, List.length_append, r0, r2, r3, hl, Nat.add_zero] at s0 b2 b3 hu' hus' ⊢
    unfold unmarshalFavFolder
    rw [if_neg (by simp; omega), mapTitles]
    simp only [s0, b2, b3, rd16_le16, ← hd, ← hlen, hu', Res.ok_bind]
    simp only [Nat.add_assoc] at hus' ⊢
    simp only [hus', Res.ok_bind, ha]
theorem subs_resave (c : Codec) (P : Bytes → Prop) (L F : UInt8) : ∀ (items : List FavItem) (lid fid : UInt8),
    ShapeIn P L F lid fid items →
    ∃ ss, marshalSubs c items = .ok ss ∧ ∃ N, ∀ pre post fuel, N ≤ fuel →
      fillSubs (unmarshalFavFolder c (pre ++ ss ++ post) fuel) ((mapTitlesIn (resaved c) items).map FavItem.strip)
        pre.length fid lid = .ok (mapTitlesIn (resaved c) items, pre.length + ss.length, F, L)
  | [], lid, fid, h => by
    simp only [ShapeIn] at h
    exact ⟨[], rfl, 0, fun pre post fuel _ => by simp [fillSubs, h, mapTitlesIn]⟩
  | .mk t a (.board bid lv attr name) :: rest, lid, fid, h => by
    simp only [ShapeIn] at h
    obtain ⟨ss, hm, N, hu⟩ := subs_resave c P L F rest lid fid h.2.2.2
    refine ⟨ss, by simpa [marshalSubs] using hm, N, fun pre post fuel hf => ?_⟩
    simp only [mapTitlesIn, List.map_cons, FavItem.strip, fillSubs, hu pre post fuel hf, Res.ok_bind]
  | .mk t a (.line id) :: rest, lid, fid, h => by
    simp only [ShapeIn] at h
    obtain ⟨ss, hm, N, hu⟩ := subs_resave c P L F rest (lid + 1) fid h.2.2
    refine ⟨ss, by simpa [marshalSubs] using hm, N, fun pre post fuel hf => ?_⟩
    simp only [mapTitlesIn, List.map_cons, FavItem.strip, fillSubs, hu pre post fuel hf, Res.ok_bind, h.2.1]
  | .mk t a (.folder id title (some f)) :: rest, lid, fid, h => by
    simp only [ShapeIn] at h
    obtain ⟨rfl, rfl, _, hwf, hr⟩ := h
    obtain ⟨bs, hb, N1, hu1⟩ := folder_resave c P f hwf
    obtain ⟨ss, hm, N2, hu2⟩ := subs_resave c P L F rest lid (fid + 1) hr
    refine ⟨bs ++ ss, by simp [marshalSubs, hb, hm], max N1 N2, fun pre post fuel hf => ?_⟩
    have h1 := hu1 pre (ss ++ post) fuel (by omega)
    have h2 := hu2 (pre ++ bs) post fuel (by omega)
    simp only [List.append_assoc, List.length_append] at h1 h2 ⊢
    simp only [mapTitlesIn, List.map_cons, FavItem.strip, fillSubs, h1, Res.ok_bind, h2, Nat.add_assoc]
  | .mk t a (.folder id title none) :: rest, lid, fid, h => by simp [ShapeIn] at h
  | .mk t a .nil :: rest, lid, fid, h => by simp [ShapeIn] at h
end

/-! ## The shape of a loaded tree -/

/-- What the title of a loaded folder is. -/
def Loaded (c : Codec) (t : Bytes) : Prop := ∃ x : Bytes, FitsCstr 49 x ∧ t = c.dec x

theorem fillSubs_shape (c : Codec) (rec : Nat → Res (FavFolder × Nat))
    (hrec : ∀ i f j, rec i = .ok (f, j) → Shape (Loaded c) f) :
    ∀ (its : List FavItem), (∀ it ∈ its, RawItem c it) → ∀ i fid lid r,
    fillSubs rec its i fid lid = .ok r →
      r.1.length = its.length ∧ ShapeIn (Loaded c) r.2.2.2 r.2.2.1 lid fid r.1 := by
  intro its
  induction its with
  | nil => intro _ i fid lid r h; simp only [fillSubs, Res.ok.injEq] at h; subst h; simp [ShapeIn]
  | cons it rest ih =>
    intro hraw i fid lid r h
    have hit := hraw it (by simp)
    have ih' := ih (fun x hx => hraw x (by simp [hx]))
    match it, hit with
    | .mk t a (.board bid lv attr name), hit =>
      simp only [RawItem] at hit
      unfold fillSubs at h
      obtain ⟨⟨its, k, f', l'⟩, h1, h2⟩ := Res.bind_eq_ok.mp h
      cases h2
      have := ih' _ _ _ _ h1
      exact ⟨by simpa using this.1, by simp only [ShapeIn]; exact ⟨hit.1, hit.2.1, hit.2.2, this.2⟩⟩
    | .mk t a (.line id), hit =>
      simp only [RawItem] at hit
      unfold fillSubs at h
      obtain ⟨⟨its, k, f', l'⟩, h1, h2⟩ := Res.bind_eq_ok.mp h
      cases h2
      have := ih' _ _ _ _ h1
      exact ⟨by simpa using this.1, by simp only [ShapeIn]; exact ⟨hit, trivial, this.2⟩⟩
    | .mk t a (.folder id title sub), hit =>
      simp only [RawItem] at hit
      unfold fillSubs at h
      obtain ⟨⟨f, j⟩, h0, h⟩ := Res.bind_eq_ok.mp h
      obtain ⟨⟨its, k, f', l'⟩, h1, h2⟩ := Res.bind_eq_ok.mp h
      cases h2
      have := ih' _ _ _ _ h1
      exact ⟨by simpa using this.1, by
        simp only [ShapeIn]; exact ⟨hit.1, trivial, hit.2.2, hrec _ _ _ h0, this.2⟩⟩

theorem unmarshalFavFolder_shape (c : Codec) (data : Bytes) (fuel : Nat) : ∀ i f j,
    unmarshalFavFolder c data fuel i = .ok (f, j) → Shape (Loaded c) f := by
  induction fuel with
  | zero => intro i f j h; cases h
  | succ fuel ih =>
    intro i f j h
    unfold unmarshalFavFolder at h
    split at h
    · cases h
    · rename_i h4
      obtain ⟨⟨its, k⟩, h1, h⟩ := Res.bind_eq_ok.mp h
      obtain ⟨⟨its', k', fid, lid⟩, h2, h⟩ := Res.bind_eq_ok.mp h
      cases h
      have hs := unmarshalFavItems_sat c data
        (rd16 (slice data i (i + 2)) + (byteAt data (i + 3)).toUInt16 + (byteAt data (i + 2)).toUInt16).toNat
        (i + 4) (by omega)
      rw [h1] at hs
      have h3 := fillSubs_shape c _ ih its hs.1 _ _ _ _ h2
      simp only [Shape]
      exact ⟨trivial, trivial, by rw [h3.1, hs.2.1], h3.2⟩

theorem load_shape (c : Codec) (data : Bytes) (f : FavFile) (h : unmarshalFavFile c data = .ok f) :
    Shape (Loaded c) f.folder := by
  rw [unmarshalFavFile, unmarshalFavFileF_eq] at h
  split at h
  · cases h
  · obtain ⟨⟨g, j⟩, hg, hf⟩ := Res.bind_eq_ok.mp h
    cases hf
    exact unmarshalFavFolder_shape c data _ _ _ _ hg

mutual
theorem shape_total (P : Bytes → Prop) : ∀ f : FavFolder, Shape P f → EveryFolder TotalAgrees f
  | .mk na dt nb nl nf li fi items, h => by
    simp only [Shape] at h
    simp only [EveryFolder, TotalAgrees]
    exact ⟨⟨h.2.2.1.symm, by rw [h.1]; ac_rfl⟩, shape_total_items P li fi items 0 0 h.2.2.2⟩
theorem shape_total_items (P : Bytes → Prop) (L F : UInt8) : ∀ (items : List FavItem) (lid fid : UInt8),
    ShapeIn P L F lid fid items → EveryFolderIn TotalAgrees items
  | [], _, _, _ => by simp [EveryFolderIn]
  | .mk t a (.board bid lv attr name) :: rest, lid, fid, h => by
    simp only [ShapeIn] at h
    simpa only [EveryFolderIn] using shape_total_items P L F rest lid fid h.2.2.2
  | .mk t a (.line id) :: rest, lid, fid, h => by
    simp only [ShapeIn] at h
    simpa only [EveryFolderIn] using shape_total_items P L F rest (lid + 1) fid h.2.2
  | .mk t a (.folder id title (some f)) :: rest, lid, fid, h => by
    simp only [ShapeIn] at h
    simp only [EveryFolderIn]
    exact ⟨shape_total P f h.2.2.2.1, shape_total_items P L F rest lid (fid + 1) h.2.2.2.2⟩
  | .mk t a (.folder id title none) :: rest, lid, fid, h => by simp [ShapeIn] at h
  | .mk t a .nil :: rest, lid, fid, h => by simp [ShapeIn] at h
end

mutual
/-- Replacing every title by itself. -/
theorem mapTitles_same (g : Bytes → Bytes) : ∀ f : FavFolder, EveryTitle (fun t => g t = t) f ↔ mapTitles g f = f
  | .mk na dt nb nl nf li fi items => by
    simp only [EveryTitle, mapTitles, FavFolder.mk.injEq, true_and]
    exact mapTitlesIn_same g items
theorem mapTitlesIn_same (g : Bytes → Bytes) : ∀ items : List FavItem,
    EveryTitleIn (fun t => g t = t) items ↔ mapTitlesIn g items = items
  | [] => by simp [EveryTitleIn, mapTitlesIn]
  | .mk t a (.folder id title (some f)) :: rest => by
    simp [EveryTitleIn, mapTitlesIn, mapTitles_same g f, mapTitlesIn_same g rest, and_assoc]
  | .mk t a (.folder id title none) :: rest => by simp [EveryTitleIn, mapTitlesIn, mapTitlesIn_same g rest]
  | .mk t a (.board b v at' nm) :: rest => by simp [EveryTitleIn, mapTitlesIn, mapTitlesIn_same g rest]
  | .mk t a (.line id) :: rest => by simp [EveryTitleIn, mapTitlesIn, mapTitlesIn_same g rest]
  | .mk t a .nil :: rest => by simp [EveryTitleIn, mapTitlesIn, mapTitlesIn_same g rest]
end

mutual
theorem everyTitle_imp {P Q : Bytes → Prop} (h : ∀ t, P t → Q t) : ∀ f : FavFolder, EveryTitle P f → EveryTitle Q f
  | .mk na dt nb nl nf li fi items => by
    simp only [EveryTitle]
    exact everyTitleIn_imp h items
theorem everyTitleIn_imp {P Q : Bytes → Prop} (h : ∀ t, P t → Q t) : ∀ items : List FavItem,
    EveryTitleIn P items → EveryTitleIn Q items
  | [] => by simp [EveryTitleIn]
  | .mk t a (.folder id title (some f)) :: rest => by
    simp only [EveryTitleIn]
    exact fun x => ⟨h _ x.1, everyTitle_imp h f x.2.1, everyTitleIn_imp h rest x.2.2⟩
  | .mk t a (.folder id title none) :: rest => by
    simp only [EveryTitleIn]
    exact fun x => ⟨h _ x.1, everyTitleIn_imp h rest x.2⟩
  | .mk t a (.board b v at' nm) :: rest => by simpa only [EveryTitleIn] using everyTitleIn_imp h rest
  | .mk t a (.line id) :: rest => by simpa only [EveryTitleIn] using everyTitleIn_imp h rest
  | .mk t a .nil :: rest => by simpa only [EveryTitleIn] using everyTitleIn_imp h rest
end

end Verif
