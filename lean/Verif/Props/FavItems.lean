import Verif.Props.Connector
/-!
# The entries of a loaded favourites list (C36)
-/

namespace Verif

mutual
/-- The type byte of every entry agrees with what the entry holds. -/
def TypedFolder : FavFolder → Prop
  | .mk _ _ _ _ _ _ _ items => TypedItems items
def TypedItems : List FavItem → Prop
  | [] => True
  | .mk t _ (.board _ _ _ _) :: rest => t = 1 ∧ TypedItems rest
  | .mk t _ (.folder _ _ (some f)) :: rest => t = 2 ∧ TypedFolder f ∧ TypedItems rest
  | .mk t _ (.line _) :: rest => t = 3 ∧ TypedItems rest
  | .mk _ _ (.folder _ _ none) :: _ => False
  | .mk _ _ .nil :: _ => False
end

theorem fillSubs_typed (c : Codec) (rec : Nat → Res (FavFolder × Nat)) (hrec : ∀ i f j, rec i = .ok (f, j) → TypedFolder f) :
    ∀ (its : List FavItem), (∀ it ∈ its, RawItem c it) → ∀ i fid lid r, fillSubs rec its i fid lid = .ok r → TypedItems r.1 := by
  intro its
  induction its with
  | nil => intro _ i fid lid r h; cases h; trivial
  | cons it rest ih =>
    intro hraw i fid lid r h
    have hit := hraw it (by simp)
    have ih' := ih (fun x hx => hraw x (by simp [hx]))
    match it, hit with
    | .mk t a (.board bid lv attr name), hit =>
      simp only [RawItem] at hit
      unfold fillSubs at h
      obtain ⟨⟨its, k, f', l'⟩, h1, h2⟩ := Res.bind_eq_ok.1 h
      cases h2
      exact ⟨hit.1, ih' _ _ _ _ h1⟩
    | .mk t a (.line id), hit =>
      simp only [RawItem] at hit
      unfold fillSubs at h
      obtain ⟨⟨its, k, f', l'⟩, h1, h2⟩ := Res.bind_eq_ok.1 h
      cases h2
      exact ⟨hit, ih' _ _ _ _ h1⟩
    | .mk t a (.folder id title sub), hit =>
      simp only [RawItem] at hit
      unfold fillSubs at h
      obtain ⟨⟨f, j⟩, h0, h⟩ := Res.bind_eq_ok.1 h
      obtain ⟨⟨its, k, f', l'⟩, h1, h2⟩ := Res.bind_eq_ok.1 h
      cases h2
      exact ⟨hit.1, hrec _ _ _ h0, ih' _ _ _ _ h1⟩

theorem items_raw {c : Codec} {data : Bytes} {n i : Nat} {r : List FavItem × Nat} (hi : i ≤ data.length)
    (h : unmarshalFavItems c data n i = .ok r) : ∀ it ∈ r.1, RawItem c it := by
  have hs := unmarshalFavItems_sat c data n i hi
  rw [h] at hs
  exact hs.1

theorem unmarshalFavFolder_typed (c : Codec) (data : Bytes) (fuel : Nat) :
    ∀ i f j, unmarshalFavFolder c data fuel i = .ok (f, j) → TypedFolder f := by
  induction fuel with
  | zero => intro i f j h; cases h
  | succ fuel ih =>
    intro i f j h
    unfold unmarshalFavFolder at h
    split at h
    · cases h
    · rename_i h4
      obtain ⟨⟨its, k⟩, h0, h⟩ := Res.bind_eq_ok.1 h
      obtain ⟨⟨its', k', fid, lid⟩, h1, h2⟩ := Res.bind_eq_ok.1 h
      cases h2
      exact fillSubs_typed c _ ih its (items_raw (by omega) h0) _ _ _ _ h1

theorem unmarshalFavFile_typed {c : Codec} {data : Bytes} {fav : FavFile} (h : unmarshalFavFile c data = .ok fav) :
    TypedFolder fav.folder := by
  rw [unmarshalFavFile, unmarshalFavFileF_eq] at h
  split at h
  · cases h
  · obtain ⟨⟨f, j⟩, h0, h1⟩ := Res.bind_eq_ok.1 h
    cases h1
    exact unmarshalFavFolder_typed c data _ _ _ _ h0

mutual
theorem resolve_typed (brd : List BoardHeader) (f f' : FavFolder) (h : TypedFolder f) (hr : f.resolve brd = .ok f') :
    TypedFolder f' := by
  match f with
  | .mk na dt nb nl nf li fi items =>
    rw [FavFolder.resolve] at hr
    obtain ⟨its, h0, h1⟩ := Res.bind_eq_ok.1 hr
    cases h1
    simp only [TypedFolder] at h ⊢
    exact resolveItems_typed brd items its h h0
theorem resolveItems_typed (brd : List BoardHeader) (items its : List FavItem) (h : TypedItems items)
    (hr : resolveItems brd items = .ok its) : TypedItems its := by
  match items with
  | [] => simp only [resolveItems] at hr; cases hr; exact h
  | .mk t a (.board b v at' nm) :: rest =>
    simp only [TypedItems] at h
    rw [resolveItems] at hr
    cases hb : brd[(b - 1).toNat]? with
    | none => rw [hb] at hr; cases hr
    | some x =>
      rw [hb] at hr
      obtain ⟨r, h0, h1⟩ := Res.bind_eq_ok.1 hr
      cases h1
      simp only [TypedItems]
      exact ⟨h.1, resolveItems_typed brd rest r h.2 h0⟩
  | .mk t a (.folder id title (some f)) :: rest =>
    simp only [TypedItems] at h
    rw [resolveItems] at hr
    obtain ⟨f', h0, h1⟩ := Res.bind_eq_ok.1 hr
    obtain ⟨r, h2, h3⟩ := Res.bind_eq_ok.1 h1
    cases h3
    simp only [TypedItems]
    exact ⟨h.1, resolve_typed brd f f' h.2.1 h0, resolveItems_typed brd rest r h.2.2 h2⟩
  | .mk t a (.folder id title none) :: rest => simp only [TypedItems] at h
  | .mk t a (.line id) :: rest =>
    simp only [TypedItems] at h
    rw [resolveItems] at hr
    obtain ⟨r, h0, h1⟩ := Res.bind_eq_ok.1 hr
    cases h1
    simp only [TypedItems]
    exact ⟨h.1, resolveItems_typed brd rest r h.2 h0⟩
  | .mk t a .nil :: rest => simp only [TypedItems] at h
end

theorem TypedItems.mem {items : List FavItem} (h : TypedItems items) {it : FavItem} (hm : it ∈ items) : TypedItems [it] := by
  induction items with
  | nil => cases hm
  | cons x rest ih =>
    have hx : TypedItems [x] ∧ TypedItems rest := by
      match x, h with
      | .mk t a (.board b v at' nm), h => simp only [TypedItems] at h ⊢; exact ⟨⟨h.1, trivial⟩, h.2⟩
      | .mk t a (.folder id title (some f)), h => simp only [TypedItems] at h ⊢; exact ⟨⟨h.1, h.2.1, trivial⟩, h.2.2⟩
      | .mk t a (.line id), h => simp only [TypedItems] at h ⊢; exact ⟨⟨h.1, trivial⟩, h.2⟩
      | .mk t a (.folder id title none), h => simp only [TypedItems] at h
      | .mk t a .nil, h => simp only [TypedItems] at h
    rcases List.mem_cons.1 hm with rfl | hm
    · exact hx.1
    · exact ih hx.2 hm

/-- The entries a caller can get at: the list itself, and the records of any entry already reached. -/
inductive Spec.Reachable (items : List FavItem) : FavItem → Prop where
  | top (it : FavItem) : it ∈ items → Spec.Reachable items it
  | sub (p it : FavItem) (l : List FavItem) : Spec.Reachable items p → p.records = .ok l → it ∈ l → Spec.Reachable items it

/-- The text shown for a separator. -/
def Spec.dashes : Bytes := ascii "------------------------------------------"

/-- Every entry that can be reached holds what its type byte says. -/
theorem reachable_typed {db : DB} {c : Codec} {fs : FS} {user : Bytes} {items : List FavItem}
    (h : db.readFavorites c fs user = .ok items) {it : FavItem} (hr : Spec.Reachable items it) : TypedItems [it] := by
  have hitems : TypedItems items := by
    unfold DB.readFavorites at h
    obtain ⟨p, _, h⟩ := Res.bind_eq_ok.1 h
    unfold DB.readFavoriteFile at h
    split at h
    · cases h; simp only [TypedItems]
    · obtain ⟨data, _, h⟩ := Res.bind_eq_ok.1 h
      obtain ⟨fav, h1, h⟩ := Res.bind_eq_ok.1 h
      obtain ⟨bp, _, h⟩ := Res.bind_eq_ok.1 h
      obtain ⟨br, _, h⟩ := Res.bind_eq_ok.1 h
      obtain ⟨f, h2, h⟩ := Res.bind_eq_ok.1 h
      cases h
      have := resolve_typed br _ _ (unmarshalFavFile_typed ((loadFav_ok _ _ _).mp h1)) h2
      match f, this with
      | .mk _ _ _ _ _ _ _ its, this => simpa only [TypedFolder, FavFolder.items] using this
  induction hr with
  | top it hm => exact hitems.mem hm
  | sub p it l _ hp hm ih =>
    match p, ih, hp with
    | .mk t a (.board b v at' nm), ih, hp =>
      simp only [TypedItems] at ih
      obtain ⟨rfl, -⟩ := ih
      cases hp; cases hm
    | .mk t a (.line id), ih, hp =>
      simp only [TypedItems] at ih
      obtain ⟨rfl, -⟩ := ih
      cases hp; cases hm
    | .mk t a (.folder id title (some f)), ih, hp =>
      simp only [TypedItems] at ih
      obtain ⟨rfl, hf, -⟩ := ih
      cases hp
      match f, hf, hm with
      | .mk _ _ _ _ _ _ _ its, hf, hm =>
        simp only [TypedFolder] at hf
        exact hf.mem hm
    | .mk t a (.folder id title none), ih, hp => simp only [TypedItems] at ih
    | .mk t a .nil, ih, hp => simp only [TypedItems] at ih

/-- **C36.** Whatever bytes the favourites file holds: if the list is returned at all, every entry at every depth can be asked for its
kind, name, title and records without a crash. A board has a name only, a separator a row of dashes, a folder a title and records. -/
theorem C36_entries (db : DB) (c : Codec) (fs : FS) (user : Bytes) (items : List FavItem)
    (h : db.readFavorites c fs user = .ok items) (it : FavItem) (hr : Spec.Reachable items it) :
    (it.kind = .board → (∃ name, it.boardID = .ok name) ∧ it.title = .ok [] ∧ it.records = .ok []) ∧
    (it.kind = .line → it.boardID = .ok [] ∧ it.title = .ok Spec.dashes ∧ it.records = .ok []) ∧
    (it.kind = .folder → it.boardID = .ok [] ∧ (∃ title, it.title = .ok title) ∧ ∃ l, it.records = .ok l) := by
  have hit := reachable_typed h hr
  match it, hit with
  | .mk t a (.board b v at' nm), hit =>
    simp only [TypedItems] at hit
    obtain ⟨rfl, -⟩ := hit
    exact ⟨fun _ => ⟨⟨nm, rfl⟩, rfl, rfl⟩, fun h => (nomatch h), fun h => (nomatch h)⟩
  | .mk t a (.line id), hit =>
    simp only [TypedItems] at hit
    obtain ⟨rfl, -⟩ := hit
    exact ⟨fun h => (nomatch h), fun _ => ⟨rfl, congrArg Res.ok (by decide), rfl⟩, fun h => (nomatch h)⟩
  | .mk t a (.folder id title (some f)), hit =>
    simp only [TypedItems] at hit
    obtain ⟨rfl, -⟩ := hit
    exact ⟨fun h => (nomatch h), fun h => (nomatch h), fun _ => ⟨rfl, ⟨title, rfl⟩, _, rfl⟩⟩
  | .mk t a (.folder id title none), hit => simp only [TypedItems] at hit
  | .mk t a .nil, hit => simp only [TypedItems] at hit

/-- **C36, the typed accessors**: exactly the one of the entry's kind gives a value, and that value has the name, title and entries that
the plain accessors report. -/
theorem C36_typed_accessors (db : DB) (c : Codec) (fs : FS) (user : Bytes) (items : List FavItem)
    (h : db.readFavorites c fs user = .ok items) (it : FavItem) (hr : Spec.Reachable items it) :
    (it.kind = .board → it.getFolder = none ∧ it.getLine = none ∧
      ∃ id lv attr name, it.getBoard = some (id, lv, attr, name) ∧ it.boardID = .ok name) ∧
    (it.kind = .folder → it.getBoard = none ∧ it.getLine = none ∧
      ∃ id title f, it.getFolder = some (id, title, some f) ∧ it.title = .ok title ∧ it.records = .ok f.items) ∧
    (it.kind = .line → it.getBoard = none ∧ it.getFolder = none ∧ ∃ id, it.getLine = some id) := by
  have hit := reachable_typed h hr
  match it, hit with
  | .mk t a (.board b v at' nm), hit =>
    simp only [TypedItems] at hit
    obtain ⟨rfl, -⟩ := hit
    exact ⟨fun _ => ⟨rfl, rfl, _, _, _, nm, rfl, rfl⟩, fun h => (nomatch h), fun h => (nomatch h)⟩
  | .mk t a (.line id), hit =>
    simp only [TypedItems] at hit
    obtain ⟨rfl, -⟩ := hit
    exact ⟨fun h => (nomatch h), fun h => (nomatch h), fun _ => ⟨rfl, rfl, id, rfl⟩⟩
  | .mk t a (.folder id title (some f)), hit =>
    simp only [TypedItems] at hit
    obtain ⟨rfl, -⟩ := hit
    exact ⟨fun h => (nomatch h), fun _ => ⟨rfl, rfl, id, title, f, rfl, rfl, rfl⟩, fun h => (nomatch h)⟩
  | .mk t a (.folder id title none), hit => simp only [TypedItems] at hit
  | .mk t a .nil, hit => simp only [TypedItems] at hit

/-- An entry whose type byte and content disagree (only a caller can build one) crashes the accessor of its declared kind. -/
theorem C36_inconsistent (a : UInt8) :
    (∀ d, (∀ b v at' nm, d ≠ .board b v at' nm) → (FavItem.mk 1 a d).boardID = .panic) ∧
    (∀ d, (∀ id title sub, d ≠ .folder id title sub) → (FavItem.mk 2 a d).title = .panic) ∧
    (∀ d, (∀ id title f, d ≠ .folder id title (some f)) → (FavItem.mk 2 a d).records = .panic) := by
  refine ⟨?_, ?_, ?_⟩
  · intro d h
    cases d with
    | board b v at' nm => exact absurd rfl (h b v at' nm)
    | _ => rfl
  · intro d h
    cases d with
    | folder id title sub => exact absurd rfl (h id title sub)
    | _ => rfl
  · intro d h
    match d, h with
    | .folder id title (some f), h => exact absurd rfl (h id title f)
    | .folder id title none, h => rfl
    | .board _ _ _ _, h => rfl
    | .line _, h => rfl
    | .nil, h => rfl

theorem item_marshal_ok (c : Codec) {it : FavItem} (h : TypedItems [it]) : ∃ b, it.marshal c = .ok b := by
  match it, h with
  | .mk t a (.board b v at' nm), _ => exact ⟨_, rfl⟩
  | .mk t a (.folder id title (some f)), _ => exact ⟨_, rfl⟩
  | .mk t a (.line id), _ => exact ⟨_, rfl⟩
  | .mk t a (.folder id title none), h => simp only [TypedItems] at h
  | .mk t a .nil, h => simp only [TypedItems] at h

theorem marshalItems_ok (c : Codec) {items : List FavItem} (h : TypedItems items) : ∃ b, marshalItems c items = .ok b := by
  induction items with
  | nil => exact ⟨_, rfl⟩
  | cons x rest ih =>
    obtain ⟨b, hb⟩ := item_marshal_ok c (h.mem (List.mem_cons_self ..))
    obtain ⟨r, hr⟩ := ih (by
      match x, h with
      | .mk t a (.board b v at' nm), h => simp only [TypedItems] at h; exact h.2
      | .mk t a (.folder id title (some f)), h => simp only [TypedItems] at h; exact h.2.2
      | .mk t a (.line id), h => simp only [TypedItems] at h; exact h.2
      | .mk t a (.folder id title none), h => simp only [TypedItems] at h
      | .mk t a .nil, h => simp only [TypedItems] at h)
    exact ⟨b ++ r, by rw [marshalItems, hb, Res.ok_bind, hr]; rfl⟩

theorem marshalItems_append (c : Codec) (pre post : List FavItem) (h : TypedItems pre) :
    ∃ b, marshalItems c (pre ++ post) = (do let r ← marshalItems c post; .ok (b ++ r)) := by
  induction pre with
  | nil =>
    refine ⟨[], ?_⟩
    cases hm : marshalItems c post <;> simp [hm]
  | cons x rest ih =>
    obtain ⟨b, hb⟩ := item_marshal_ok c (h.mem (List.mem_cons_self ..))
    obtain ⟨r, hr⟩ := ih (by
      match x, h with
      | .mk t a (.board b v at' nm), h => simp only [TypedItems] at h; exact h.2
      | .mk t a (.folder id title (some f)), h => simp only [TypedItems] at h; exact h.2.2
      | .mk t a (.line id), h => simp only [TypedItems] at h; exact h.2
      | .mk t a (.folder id title none), h => simp only [TypedItems] at h
      | .mk t a .nil, h => simp only [TypedItems] at h)
    refine ⟨b ++ r, ?_⟩
    rw [List.cons_append, marshalItems, hb, Res.ok_bind, hr]
    cases hm : marshalItems c post <;> simp [List.append_assoc]

mutual
theorem folder_marshal_ok (c : Codec) (f : FavFolder) (h : TypedFolder f) : ∃ b, f.marshal c = .ok b := by
  match f with
  | .mk na dt nb nl nf li fi items =>
    simp only [TypedFolder] at h
    obtain ⟨b, hb⟩ := marshalItems_ok c h
    obtain ⟨r, hr⟩ := marshalSubs_append c items [] h
    rw [List.append_nil] at hr
    refine ⟨runWrites 4 [w16 0 nb, w8 2 nl, w8 3 nf] ++ b ++ (r ++ []), ?_⟩
    rw [FavFolder.marshal, hb, Res.ok_bind, hr]
    simp only [marshalSubs, Res.ok_bind]
theorem marshalSubs_append (c : Codec) (pre post : List FavItem) (h : TypedItems pre) :
    ∃ b, marshalSubs c (pre ++ post) = (do let r ← marshalSubs c post; .ok (b ++ r)) := by
  match pre with
  | [] =>
    refine ⟨[], ?_⟩
    cases hm : marshalSubs c post <;> simp [hm]
  | .mk t a (.board b v at' nm) :: rest =>
    simp only [TypedItems] at h
    obtain ⟨r, hr⟩ := marshalSubs_append c rest post h.2
    exact ⟨r, by rw [List.cons_append, marshalSubs, hr]⟩
  | .mk t a (.folder id title (some f)) :: rest =>
    simp only [TypedItems] at h
    obtain ⟨b, hb⟩ := folder_marshal_ok c f h.2.1
    obtain ⟨r, hr⟩ := marshalSubs_append c rest post h.2.2
    refine ⟨b ++ r, ?_⟩
    rw [List.cons_append, marshalSubs, hb, Res.ok_bind, hr]
    cases hm : marshalSubs c post <;> simp [List.append_assoc]
  | .mk t a (.line id) :: rest =>
    simp only [TypedItems] at h
    obtain ⟨r, hr⟩ := marshalSubs_append c rest post h.2
    exact ⟨r, by rw [List.cons_append, marshalSubs, hr]⟩
  | .mk t a (.folder id title none) :: rest => simp only [TypedItems] at h
  | .mk t a .nil :: rest => simp only [TypedItems] at h
end

/-- Which trees can be saved: any tree whose entries are consistent (so every loaded one) is saved; an empty entry is an error; a folder
entry without a folder crashes the save. -/
theorem C07_savable (c : Codec) (version na dt nb : UInt16) (nl nf li fi t a : UInt8) (pre post : List FavItem)
    (hpre : TypedItems pre) :
    (∃ b, (FavFile.mk version (.mk na dt nb nl nf li fi pre)).marshal c = .ok b) ∧
    (∃ e, (FavFile.mk version (.mk na dt nb nl nf li fi (pre ++ .mk t a .nil :: post))).marshal c = .err e) ∧
    (∀ id title, TypedItems post →
      (FavFile.mk version (.mk na dt nb nl nf li fi (pre ++ .mk t a (.folder id title none) :: post))).marshal c = .panic) := by
  refine ⟨?_, ?_, ?_⟩
  · obtain ⟨b, hb⟩ := folder_marshal_ok c (.mk na dt nb nl nf li fi pre) (by simpa only [TypedFolder] using hpre)
    exact ⟨_, by simp only [FavFile.marshal]; rw [hb]; rfl⟩
  · obtain ⟨b, hb⟩ := marshalItems_append c pre (.mk t a .nil :: post) hpre
    refine ⟨"FavItem.Item must implement encoding.BinaryMarshaler", ?_⟩
    simp only [FavFile.marshal]
    rw [FavFolder.marshal, hb]
    simp only [marshalItems, FavItem.marshal, Res.err_bind]
  · intro id title hpost
    obtain ⟨b, hb⟩ := marshalItems_append c pre (.mk t a (.folder id title none) :: post) hpre
    obtain ⟨p, hp⟩ := marshalItems_ok c hpost
    obtain ⟨r, hr⟩ := marshalSubs_append c pre (.mk t a (.folder id title none) :: post) hpre
    simp only [FavFile.marshal]
    rw [FavFolder.marshal, hb, hr]
    simp only [marshalItems, FavItem.marshal, hp, Res.ok_bind, marshalSubs, Res.panic_bind]

/-- A list with a folder inside it: the hypotheses of `C36_entries` are met, and both entries are reached. -/
example : ∃ items, sampleDB.readFavorites asciiCodec (favFS favTree) (ascii "Ab") = .ok items := by
  obtain ⟨items, h, _⟩ := C36_favourites_partial sampleDB asciiCodec (favFS favTree) (ascii "Ab") (favBytes favTree) listBoards 3363 favTree
    (by decide) (by decide) (favFS_boards _) list_onDisk.storable (favFS_fav _) (favBytes_eq _ favTree_ok.1 favTree_ok.2)
    favTree_ok.1 favTree_ok.2 (by simp [Spec.EveryFav, Spec.Fav.Every, favTree, Spec.BoardExists, listBoards])
  exact ⟨items, h⟩

example : TypedItems [.mk 3 0 (.line 1), .mk 1 0 (.board 7 0 0 [])] := by simp [TypedItems]

end Verif
