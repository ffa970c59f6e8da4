import Verif.Spec.Fav
import Verif.Proofs.Record
/-!
# Helper lemmas for the favourites file
-/

namespace Verif
open Spec

theorem slice_mid' (pre x post : Bytes) {a b : Nat} (_h : a ≤ b) (hb : b ≤ x.length) :
    slice (pre ++ x ++ post) (pre.length + a) (pre.length + b) = slice x a b := by
  apply List.ext_getElem?
  intro i
  rw [slice_getElem?, slice_getElem?]
  by_cases hi : a + i < b
  · rw [if_pos (by omega), if_pos hi, List.append_assoc, List.getElem?_append_right (by omega),
      List.getElem?_append_left (by omega)]
    congr 1; omega
  · rw [if_neg (by omega), if_neg hi]

theorem byteAt_mid (pre x post : Bytes) {a : Nat} (ha : a < x.length) :
    byteAt (pre ++ x ++ post) (pre.length + a) = byteAt x a := by
  unfold byteAt
  simp only [List.getD_eq_getElem?_getD]
  rw [List.append_assoc, List.getElem?_append_right (by omega), List.getElem?_append_left (by omega)]
  congr 2; omega

/-! ## Header loop: items without their sub-folders -/

/-- An item as it is right after `UnmarshalFavItem`: sub-folder not read yet. -/
def FavItem.strip : FavItem → FavItem
  | .mk t a (.folder id title _) => .mk t a (.folder id title none)
  | it => it

theorem item_roundtrip_board (c : Codec) (a : UInt8) (bid : UInt32) (lv : Int) (attr : UInt32) (h : FitsTime lv)
    (pre post : Bytes) :
    ∃ e, FavItem.marshal c (.mk 1 a (.board bid lv attr [])) = .ok e ∧
      unmarshalFavItem c (pre ++ e ++ post) pre.length = .ok (.mk 1 a (.board bid lv attr []), pre.length + e.length) := by
  have ho : Ordered 12 0 [w32 0 bid, w32 4 (unixU32 lv), w32 8 attr] := by simp [Ordered, w32]
  let r := runWrites 12 [w32 0 bid, w32 4 (unixU32 lv), w32 8 attr]
  have hl : r.length = 12 := runWrites_length ho.writesIn
  have r0 : slice r 0 4 = le32 bid := read_32 ho.writesIn ho.disjoint (a := 0) (by simp)
  have r4 : slice r 4 8 = le32 (unixU32 lv) := read_32 ho.writesIn ho.disjoint (a := 4) (by simp)
  have r8 : slice r 8 12 = le32 attr := read_32 ho.writesIn ho.disjoint (a := 8) (by simp)
  refine ⟨[1, a] ++ r, rfl, ?_⟩
  have b0 := byteAt_mid pre ([1, a] ++ r) post (a := 0) (by simp)
  have b1 := byteAt_mid pre ([1, a] ++ r) post (a := 1) (by simp)
  have s0 := slice_mid' (pre ++ [1, a]) r post (a := 0) (b := 4) (by omega) (by omega)
  have s4 := slice_mid' (pre ++ [1, a]) r post (a := 4) (b := 8) (by omega) (by omega)
  have s8 := slice_mid' (pre ++ [1, a]) r post (a := 8) (b := 12) (by omega) (by omega)
  simp only [List.append_assoc, List.length_append, List.length_cons, List.length_nil, Nat.add_zero, Nat.zero_add,
    r0, r4, r8] at b0 b1 s0 s4 s8
  have hb0 : byteAt ([1, a] ++ r) 0 = 1 := rfl
  have hb1 : byteAt ([1, a] ++ r) 1 = a := rfl
  unfold unmarshalFavItem
  simp only [List.append_assoc]
  rw [if_neg (by simp), b0, hb0]
  simp only [if_true]
  rw [if_neg (by simp; omega), b1, hb1]
  simp only [Nat.add_assoc] at s0 s4 s8 ⊢
  simp only [Nat.reduceAdd] at s0 s4 s8 ⊢
  rw [s0, s4, s8]
  simp [time_roundtrip h, hl]

theorem item_roundtrip_line (c : Codec) (a lid : UInt8) (pre post : Bytes) :
    ∃ e, FavItem.marshal c (.mk 3 a (.line lid)) = .ok e ∧
      unmarshalFavItem c (pre ++ e ++ post) pre.length = .ok (.mk 3 a (.line lid), pre.length + e.length) := by
  have hr : runWrites 1 [w8 0 lid] = [lid] := by
    simp [runWrites, w8, Write.apply, zeros]
  refine ⟨[3, a, lid], by simp [FavItem.marshal, hr], ?_⟩
  have b0 := byteAt_mid pre [3, a, lid] post (a := 0) (by simp)
  have b1 := byteAt_mid pre [3, a, lid] post (a := 1) (by simp)
  have b2 := byteAt_mid pre [3, a, lid] post (a := 2) (by simp)
  have hb0 : byteAt [3, a, lid] 0 = 3 := rfl
  have hb1 : byteAt [3, a, lid] 1 = a := rfl
  have hb2 : byteAt [3, a, lid] 2 = lid := rfl
  unfold unmarshalFavItem
  simp only [Nat.add_zero] at b0
  rw [if_neg (by simp), b0, hb0]
  have h31 : ¬ ((3 : UInt8) = 1) := by decide
  simp only [if_true, if_neg h31]
  rw [if_neg (by simp; omega), b1, b2, hb1, hb2]
  simp

theorem item_roundtrip_folder (c : Codec) (a fid : UInt8) (title : Bytes) (hf : FitsCstr 49 (c.enc title))
    (hc : c.dec (c.enc title) = title) (sub : Option FavFolder) (pre post : Bytes) :
    ∃ e, FavItem.marshal c (.mk 2 a (.folder fid title sub)) = .ok e ∧
      unmarshalFavItem c (pre ++ e ++ post) pre.length =
        .ok (.mk 2 a (.folder fid title none), pre.length + e.length) := by
  have ho : Ordered 50 0 [w8 0 fid, wCopy 1 50 (c.enc title)] := by simp [Ordered, w8, wCopy]
  let r := runWrites 50 [w8 0 fid, wCopy 1 50 (c.enc title)]
  have hl : r.length = 50 := runWrites_length ho.writesIn
  have r0 : byteAt r 0 = fid := read_8 ho.writesIn ho.disjoint (a := 0) (by simp)
  have r1 : slice r 1 50 = padTo 49 (c.enc title) := read_copy ho.writesIn ho.disjoint (by simp)
  refine ⟨[2, a] ++ r, rfl, ?_⟩
  have b0 := byteAt_mid pre ([2, a] ++ r) post (a := 0) (by simp)
  have b1 := byteAt_mid pre ([2, a] ++ r) post (a := 1) (by simp)
  have s0 := byteAt_mid (pre ++ [2, a]) r post (a := 0) (by omega)
  have s1 := slice_mid' (pre ++ [2, a]) r post (a := 1) (b := 50) (by omega) (by omega)
  simp only [List.append_assoc, List.length_append, List.length_cons, List.length_nil, Nat.add_zero, Nat.zero_add,
    r0, r1] at b0 b1 s0 s1
  have hb0 : byteAt ([2, a] ++ r) 0 = 2 := rfl
  have hb1 : byteAt ([2, a] ++ r) 1 = a := rfl
  have h21 : ¬ ((2 : UInt8) = 1) := by decide
  have h23 : ¬ ((2 : UInt8) = 3) := by decide
  unfold unmarshalFavItem
  simp only [List.append_assoc]
  rw [if_neg (by simp), b0, hb0]
  simp only [if_true, if_neg h21, if_neg h23]
  rw [if_neg (by simp; omega), b1, hb1]
  simp only [Nat.add_assoc] at s0 s1 ⊢
  simp only [Nat.reduceAdd] at s0 s1 ⊢
  rw [s0, s1, splitNulHead, takeWhile_padTo hf.2 hf.1, hc]
  simp [hl]

theorem items_roundtrip (c : Codec) (L F : UInt8) (items : List FavItem) :
    ∀ lid fid, WfItems c L F lid fid items →
    ∃ hs, marshalItems c items = .ok hs ∧
      ∀ pre post, unmarshalFavItems c (pre ++ hs ++ post) items.length pre.length =
        .ok (items.map FavItem.strip, pre.length + hs.length) := by
  induction items with
  | nil => intro lid fid _; exact ⟨[], rfl, fun pre post => by simp [unmarshalFavItems]⟩
  | cons it rest ih =>
    intro lid fid h
    -- one step, given the round trip of the first item
    have step : ∀ lid' fid', WfItems c L F lid' fid' rest →
        (∃ e, it.marshal c = .ok e ∧ ∀ pre post,
          unmarshalFavItem c (pre ++ e ++ post) pre.length = .ok (it.strip, pre.length + e.length)) →
        ∃ hs, marshalItems c (it :: rest) = .ok hs ∧ ∀ pre post,
          unmarshalFavItems c (pre ++ hs ++ post) (it :: rest).length pre.length =
            .ok ((it :: rest).map FavItem.strip, pre.length + hs.length) := by
      rintro lid' fid' hr ⟨e, he, hu⟩
      obtain ⟨hs, hm, hru⟩ := ih lid' fid' hr
      refine ⟨e ++ hs, by simp [marshalItems, he, hm], ?_⟩
      intro pre post
      have h1 := hu pre (hs ++ post)
      have h2 := hru (pre ++ e) post
      simp only [List.append_assoc, List.length_append] at h1 h2 ⊢
      simp only [List.length_cons, unmarshalFavItems, h1, Res.ok_bind, h2, List.map_cons]
      simp [Nat.add_assoc]
    match it, h with
    | .mk t a (.board bid lv attr name), h =>
      simp only [WfItems] at h
      obtain ⟨rfl, ht, rfl, hr⟩ := h
      refine step _ _ hr ?_
      obtain ⟨e, he, _⟩ := item_roundtrip_board c a bid lv attr ht [] []
      refine ⟨e, he, fun pre post => ?_⟩
      obtain ⟨e', he', hu⟩ := item_roundtrip_board c a bid lv attr ht pre post
      rw [he] at he'; cases he'
      exact hu
    | .mk t a (.folder id title (some f)), h =>
      simp only [WfItems] at h
      obtain ⟨rfl, rfl, hf, hc, _, hr⟩ := h
      refine step _ _ hr ?_
      obtain ⟨e, he, _⟩ := item_roundtrip_folder c a (fid + 1) title hf hc (some f) [] []
      refine ⟨e, he, fun pre post => ?_⟩
      obtain ⟨e', he', hu⟩ := item_roundtrip_folder c a (fid + 1) title hf hc (some f) pre post
      rw [he] at he'; cases he'
      exact hu
    | .mk t a (.line id), h =>
      simp only [WfItems] at h
      obtain ⟨rfl, rfl, hr⟩ := h
      refine step _ _ hr ?_
      obtain ⟨e, he, _⟩ := item_roundtrip_line c a (lid + 1) [] []
      refine ⟨e, he, fun pre post => ?_⟩
      obtain ⟨e', he', hu⟩ := item_roundtrip_line c a (lid + 1) pre post
      rw [he] at he'; cases he'
      exact hu
    | .mk t a (.folder id title none), h => simp [WfItems] at h
    | .mk t a .nil, h => simp [WfItems] at h

/-! ## The whole tree -/

mutual
theorem folder_roundtrip (c : Codec) : ∀ f : FavFolder, WfFolder c f →
    ∃ bs, f.marshal c = .ok bs ∧ ∃ N, ∀ pre post fuel, N ≤ fuel →
      unmarshalFavFolder c (pre ++ bs ++ post) fuel pre.length = .ok (f, pre.length + bs.length)
  | .mk nAlloc dataTail nBoards nLines nFolders lineID folderID items, h => by
    simp only [WfFolder] at h
    obtain ⟨hd, ha, hlen, hw⟩ := h
    obtain ⟨hs, hm, hu⟩ := items_roundtrip c lineID folderID items 0 0 hw
    obtain ⟨ss, hms, N, hus⟩ := subs_roundtrip c lineID folderID items 0 0 hw
    have ho : Ordered 4 0 [w16 0 nBoards, w8 2 nLines, w8 3 nFolders] := by simp [Ordered, w16, w8]
    let r := runWrites 4 [w16 0 nBoards, w8 2 nLines, w8 3 nFolders]
    have hl : r.length = 4 := runWrites_length ho.writesIn
    have r0 : slice r 0 2 = le16 nBoards := read_16 ho.writesIn ho.disjoint (a := 0) (by simp)
    have r2 : byteAt r 2 = nLines := read_8 ho.writesIn ho.disjoint (a := 2) (by simp)
    have r3 : byteAt r 3 = nFolders := read_8 ho.writesIn ho.disjoint (a := 3) (by simp)
    refine ⟨r ++ hs ++ ss, by simp [FavFolder.marshal, hm, hms, r], N + 1, ?_⟩
    intro pre post fuel hfuel
    obtain ⟨fuel, rfl⟩ : ∃ k, fuel = k + 1 := ⟨fuel - 1, by omega⟩
    have s0 := slice_mid' pre r (hs ++ ss ++ post) (a := 0) (b := 2) (by omega) (by omega)
    have b2 := byteAt_mid pre r (hs ++ ss ++ post) (a := 2) (by omega)
    have b3 := byteAt_mid pre r (hs ++ ss ++ post) (a := 3) (by omega)
    have hu' := hu (pre ++ r) (ss ++ post)
    have hus' := hus (pre ++ r ++ hs) post fuel (by omega)
    simp only [List.append_assoc, List.length_append, r0, r2, r3, hl, Nat.add_zero] at s0 b2 b3 hu' hus' ⊢
    unfold unmarshalFavFolder
    rw [if_neg (by simp; omega)]
    simp only [s0, b2, b3, rd16_le16, ← hd, ← hlen, hu', Res.ok_bind]
    simp only [Nat.add_assoc] at hus' ⊢
    simp only [hus', Res.ok_bind, ha]
theorem subs_roundtrip (c : Codec) (L F : UInt8) : ∀ (items : List FavItem) (lid fid : UInt8),
    WfItems c L F lid fid items →
    ∃ ss, marshalSubs c items = .ok ss ∧ ∃ N, ∀ pre post fuel, N ≤ fuel →
      fillSubs (unmarshalFavFolder c (pre ++ ss ++ post) fuel) (items.map FavItem.strip) pre.length fid lid =
        .ok (items, pre.length + ss.length, F, L)
  | [], lid, fid, h => by
    simp only [WfItems] at h
    exact ⟨[], rfl, 0, fun pre post fuel _ => by simp [fillSubs, h]⟩
  | .mk t a (.board bid lv attr name) :: rest, lid, fid, h => by
    simp only [WfItems] at h
    obtain ⟨ss, hm, N, hu⟩ := subs_roundtrip c L F rest lid fid h.2.2.2
    refine ⟨ss, by simpa [marshalSubs] using hm, N, fun pre post fuel hf => ?_⟩
    simp only [List.map_cons, FavItem.strip, fillSubs, hu pre post fuel hf, Res.ok_bind]
  | .mk t a (.line id) :: rest, lid, fid, h => by
    simp only [WfItems] at h
    obtain ⟨ss, hm, N, hu⟩ := subs_roundtrip c L F rest (lid + 1) fid h.2.2
    refine ⟨ss, by simpa [marshalSubs] using hm, N, fun pre post fuel hf => ?_⟩
    simp only [List.map_cons, FavItem.strip, fillSubs, hu pre post fuel hf, Res.ok_bind, h.2.1]
  | .mk t a (.folder id title (some f)) :: rest, lid, fid, h => by
    simp only [WfItems] at h
    obtain ⟨rfl, rfl, _, _, hwf, hr⟩ := h
    obtain ⟨bs, hb, N1, hu1⟩ := folder_roundtrip c f hwf
    obtain ⟨ss, hm, N2, hu2⟩ := subs_roundtrip c L F rest lid (fid + 1) hr
    refine ⟨bs ++ ss, by simp [marshalSubs, hb, hm], max N1 N2, fun pre post fuel hf => ?_⟩
    have h1 := hu1 pre (ss ++ post) fuel (by omega)
    have h2 := hu2 (pre ++ bs) post fuel (by omega)
    simp only [List.append_assoc, List.length_append] at h1 h2 ⊢
    simp only [List.map_cons, FavItem.strip, fillSubs, h1, Res.ok_bind, h2, Nat.add_assoc]
  | .mk t a (.folder id title none) :: rest, lid, fid, h => by simp [WfItems] at h
  | .mk t a .nil :: rest, lid, fid, h => by simp [WfItems] at h
end

/-! ## The loader always returns -/

/-- What an item looks like right after it was read. -/
def RawItem (c : Codec) : FavItem → Prop
  | .mk t _ (.board _ lv _ name) => t = 1 ∧ FitsTime lv ∧ name = []
  | .mk t _ (.folder _ title sub) => t = 2 ∧ sub = none ∧ ∃ x : Bytes, FitsCstr 49 x ∧ title = c.dec x
  | .mk t _ (.line _) => t = 3
  | .mk _ _ .nil => False

theorem timeOfU32_fits (u : UInt32) : FitsTime (timeOfU32 u) := by
  have := u.toNat_lt
  unfold FitsTime timeOfU32
  omega

theorem unmarshalFavItem_sat (c : Codec) (data : Bytes) (i : Nat) :
    (unmarshalFavItem c data i).Sat (fun r => RawItem c r.1 ∧ i < r.2 ∧ r.2 ≤ data.length) := by
  unfold unmarshalFavItem
  split
  · trivial
  · rename_i h2
    simp only []
    split
    · rename_i ht
      split
      · trivial
      · rename_i h12
        simp only [Res.Sat, RawItem]
        exact ⟨⟨ht, timeOfU32_fits _, trivial⟩, by omega, by omega⟩
    · split
      · rename_i ht
        split
        · trivial
        · simp only [Res.Sat, RawItem]
          exact ⟨ht, by omega, by omega⟩
      · split
        · rename_i ht
          split
          · trivial
          · rename_i h50
            simp only [Res.Sat, RawItem]
            refine ⟨⟨ht, trivial, splitNulHead (slice data (i + 2 + 1) (i + 2 + 50)), ⟨?_, ?_⟩, rfl⟩,
              by omega, by omega⟩
            · unfold splitNulHead
              have := (List.takeWhile_sublist (l := slice data (i + 2 + 1) (i + 2 + 50)) (· != (0 : UInt8))).length_le
              simp only [slice_length] at this
              omega
            · unfold splitNulHead
              intro hm
              have := List.all_takeWhile (p := (· != (0 : UInt8))) (l := slice data (i + 2 + 1) (i + 2 + 50))
              rw [List.all_eq_true] at this
              simpa using this 0 hm
        · trivial

theorem unmarshalFavItems_sat (c : Codec) (data : Bytes) (n : Nat) : ∀ i, i ≤ data.length →
    (unmarshalFavItems c data n i).Sat
      (fun r => (∀ it ∈ r.1, RawItem c it) ∧ r.1.length = n ∧ i ≤ r.2 ∧ r.2 ≤ data.length) := by
  induction n with
  | zero => intro i hi; simp [unmarshalFavItems, Res.Sat, hi]
  | succ n ih =>
    intro i hi
    unfold unmarshalFavItems
    refine (unmarshalFavItem_sat c data i).bind ?_
    rintro ⟨it, j⟩ ⟨hr, hij, hj⟩
    simp only [] at hr hij hj
    refine (ih j hj).bind ?_
    rintro ⟨its, k⟩ ⟨hrs, hlen, hjk, hk⟩
    simp only [Res.Sat] at *
    refine ⟨?_, by simp [hlen], by omega, hk⟩
    intro x hx
    rcases List.mem_cons.mp hx with rfl | hx
    · exact hr
    · exact hrs x hx

/-- The codec facts about titles needed to save a loaded tree again. -/
def TitleStable (c : Codec) : Prop :=
  ∀ x : Bytes, FitsCstr 49 x → FitsCstr 49 (c.enc (c.dec x)) ∧ c.dec (c.enc (c.dec x)) = c.dec x

theorem fillSubs_sat (c : Codec) (data : Bytes) (rec : Nat → Res (FavFolder × Nat)) (lo : Nat)
    (hrec : ∀ i, lo ≤ i → i ≤ data.length →
      (rec i).Sat (fun r => (TitleStable c → WfFolder c r.1) ∧ i ≤ r.2 ∧ r.2 ≤ data.length)) :
    ∀ (its : List FavItem), (∀ it ∈ its, RawItem c it) → ∀ i fid lid, lo ≤ i → i ≤ data.length →
    (fillSubs rec its i fid lid).Sat (fun r =>
      r.1.length = its.length ∧ (TitleStable c → WfItems c r.2.2.2 r.2.2.1 lid fid r.1) ∧
        i ≤ r.2.1 ∧ r.2.1 ≤ data.length) := by
  intro its
  induction its with
  | nil => intro _ i fid lid hlo hi; simp [fillSubs, Res.Sat, WfItems, hi]
  | cons it rest ih =>
    intro hraw i fid lid hlo hi
    have hit := hraw it (by simp)
    have ih' := ih (fun x hx => hraw x (by simp [hx]))
    match it, hit with
    | .mk t a (.board bid lv attr name), hit =>
      simp only [RawItem] at hit
      unfold fillSubs
      refine (ih' i fid lid hlo hi).bind ?_
      rintro ⟨its, k, f', l'⟩ ⟨h1, h2, h3, h4⟩
      exact ⟨by simpa using h1, fun hs => by simp only [WfItems]; exact ⟨hit.1, hit.2.1, hit.2.2, h2 hs⟩, h3, h4⟩
    | .mk t a (.line id), hit =>
      simp only [RawItem] at hit
      unfold fillSubs
      refine (ih' i fid (lid + 1) hlo hi).bind ?_
      rintro ⟨its, k, f', l'⟩ ⟨h1, h2, h3, h4⟩
      exact ⟨by simpa using h1, fun hs => by simp only [WfItems]; exact ⟨hit, trivial, h2 hs⟩, h3, h4⟩
    | .mk t a (.folder id title sub), hit =>
      simp only [RawItem] at hit
      obtain ⟨ht, _, x, hx, rfl⟩ := hit
      unfold fillSubs
      refine (hrec i hlo hi).bind ?_
      rintro ⟨f, j⟩ ⟨hf, hij, hj⟩
      simp only [] at hf hij hj
      refine (ih' j (fid + 1) lid (by omega) hj).bind ?_
      rintro ⟨its, k, f', l'⟩ ⟨h1, h2, h3, h4⟩
      simp only [] at h1 h2 h3 h4
      refine ⟨by simpa using h1, fun hs => ?_, by simp only []; omega, h4⟩
      simp only [WfItems]
      exact ⟨ht, trivial, (hs x hx).1, (hs x hx).2, hf hs, h2 hs⟩

theorem unmarshalFavFolder_sat (c : Codec) (data : Bytes) (fuel : Nat) : ∀ i, i ≤ data.length →
    data.length < i + fuel →
    (unmarshalFavFolder c data fuel i).Sat
      (fun r => (TitleStable c → WfFolder c r.1) ∧ i ≤ r.2 ∧ r.2 ≤ data.length) := by
  induction fuel with
  | zero => intro i hi hf; omega
  | succ fuel ih =>
    intro i hi hf
    unfold unmarshalFavFolder
    split
    · trivial
    · rename_i h4
      refine (unmarshalFavItems_sat c data _ (i + 4) (by omega)).bind ?_
      rintro ⟨its, j⟩ ⟨hraw, hlen, hj1, hj2⟩
      simp only [] at hraw hlen hj1 hj2
      refine (fillSubs_sat c data _ j ?_ its hraw j 0 0 (by omega) hj2).bind ?_
      · intro k hk1 hk2
        exact ih k hk2 (by omega)
      · rintro ⟨its', k, fid, lid⟩ ⟨h1, h2, h3, h5⟩
        simp only [] at h1 h2 h3 h5
        simp only [Res.Sat, WfFolder]
        refine ⟨fun hs => ⟨trivial, trivial, ?_, h2 hs⟩, by omega, h5⟩
        rw [h1, hlen]

/-! ## More fuel does not change the result -/

theorem fillSubs_mono (rec rec' : Nat → Res (FavFolder × Nat))
    (h : ∀ i, rec i ≠ .diverge → rec' i = rec i) (its : List FavItem) :
    ∀ i fid lid, fillSubs rec its i fid lid ≠ .diverge → fillSubs rec' its i fid lid = fillSubs rec its i fid lid := by
  induction its with
  | nil => intro i fid lid _; rfl
  | cons it rest ih =>
    intro i fid lid hne
    match it with
    | .mk t a (.board bid lv attr name) =>
      unfold fillSubs at hne ⊢
      rw [ih]
      intro e; rw [e] at hne; exact hne rfl
    | .mk t a .nil =>
      unfold fillSubs at hne ⊢
      rw [ih]
      intro e; rw [e] at hne; exact hne rfl
    | .mk t a (.line id) =>
      unfold fillSubs at hne ⊢
      rw [ih]
      intro e; rw [e] at hne; exact hne rfl
    | .mk t a (.folder id title sub) =>
      unfold fillSubs at hne ⊢
      have h1 : rec i ≠ .diverge := by intro e; rw [e] at hne; exact hne rfl
      rw [h i h1]
      cases hr : rec i with
      | ok p =>
        obtain ⟨f, j⟩ := p
        rw [hr] at hne
        simp only [Res.ok_bind] at hne ⊢
        rw [ih]
        intro e; rw [e] at hne; exact hne rfl
      | err e => rfl
      | panic => rfl
      | diverge => exact absurd hr h1

theorem unmarshalFavFolder_mono (c : Codec) (data : Bytes) (fuel : Nat) : ∀ (fuel' : Nat), fuel ≤ fuel' → ∀ i,
    unmarshalFavFolder c data fuel i ≠ .diverge →
    unmarshalFavFolder c data fuel' i = unmarshalFavFolder c data fuel i := by
  induction fuel with
  | zero => intro fuel' _ i h; exact absurd rfl h
  | succ fuel ih =>
    intro fuel' hle i hne
    obtain ⟨fuel', rfl⟩ : ∃ k, fuel' = k + 1 := ⟨fuel' - 1, by omega⟩
    unfold unmarshalFavFolder at hne ⊢
    split
    · rfl
    · rename_i h4
      rw [if_neg h4] at hne
      simp only [] at hne ⊢
      cases hr : unmarshalFavItems c data
          (rd16 (slice data i (i + 2)) + (byteAt data (i + 3)).toUInt16 + (byteAt data (i + 2)).toUInt16).toNat
          (i + 4) with
      | ok p =>
        obtain ⟨its, j⟩ := p
        rw [hr] at hne
        simp only [Res.ok_bind] at hne ⊢
        rw [fillSubs_mono (unmarshalFavFolder c data fuel) (unmarshalFavFolder c data fuel')
          (fun k hk => ih fuel' (by omega) k hk)]
        intro e; rw [e] at hne; exact hne rfl
      | err e => rfl
      | panic => rfl
      | diverge => rfl

end Verif
