import Verif.Props.Answers
import Verif.Props.FullDisk
import Verif.Props.Lists

/-!
# C16, C32, C33, C54 and C104: exactly when

For five claims that hold only in part, the outcome in every case.
-/

namespace Verif

open Spec

/-! ## C16 -/

/-- **C16**, exactly, for a tear within a record: what is read is the records from before, one record that joins what was
stored of the torn record to the head of the next, and so on, each later record being cut at the same place; nothing is
read as it was appended (unless the cut records happen to spell it). -/
theorem C16_torn_exact (c : Codec) (d : Bytes) (n : Nat) (hd : d.length = 128 * n) (old : List FileHeader)
    (ho : openFileHeaderFile c (some d) = .ok old) (r : FileHeader) (k : Nat) (h0 : 0 < k) (hk : k < 128)
    (later : List FileHeader) :
    openFileHeaderFile c (later.foldl (appendFileHeader c) (some (d ++ (r.marshal c).take k))) =
      .ok (old ++ (shifted ((r.marshal c).take k) (later.map (·.marshal c))).map (FileHeader.parse c)) := by
  obtain ⟨rs, hr, rfl, hl⟩ := aligned_flatten (size := 128) n _ hd
  unfold openFileHeaderFile at ho
  rw [readFile_slots (by omega) (FileHeader.unmarshal_eq c), slots_flatten (by omega) hr] at ho
  have ho := Res.ok.inj ho
  have e := foldl_appendFile_some (fun r : FileHeader => r.marshal c) (some (rs.flatten ++ (r.marshal c).take k)) later (.inl (by simp))
  have hs : Sized 128 (later.map (·.marshal c)) := by
    intro x hx
    obtain ⟨y, _, rfl⟩ := List.mem_map.mp hx
    exact y.marshal_length c
  have hlen : ((r.marshal c).take k).length = k := by rw [List.length_take, r.marshal_length c]; omega
  show openFileHeaderFile c (later.foldl (fun f r => appendFile f (r.marshal c)) _) = _
  rw [e]
  unfold openFileHeaderFile
  rw [readFile_slots (by omega) (FileHeader.unmarshal_eq c), Option.getD_some, List.append_assoc,
    slots_shifted hs hr (by omega) (by omega), List.map_append, ho]

/-- One record more than was appended whole, whatever follows. -/
theorem C16_torn_count (c : Codec) (d : Bytes) (n : Nat) (hd : d.length = 128 * n) (r : FileHeader) (k : Nat) (h0 : 0 < k)
    (hk : k < 128) (later : List FileHeader) :
    ∃ l, openFileHeaderFile c (later.foldl (appendFileHeader c) (some (d ++ (r.marshal c).take k))) = .ok l ∧
      l.length = n + later.length + 1 := by
  obtain ⟨rs, hr, rfl, hl⟩ := aligned_flatten (size := 128) n _ hd
  have ho : openFileHeaderFile c (some rs.flatten) = .ok (rs.map (FileHeader.parse c)) := by
    unfold openFileHeaderFile
    rw [readFile_slots (by omega) (FileHeader.unmarshal_eq c), slots_flatten (by omega) hr]
  refine ⟨_, C16_torn_exact c rs.flatten n hd _ ho r k h0 hk later, ?_⟩
  simp only [List.length_append, List.length_map, shifted_length, hl]
  omega

/-- One byte of a record, and then the record again: two records, the first with a letter too many. -/
example : openFileHeaderFile asciiCodec ([tornRecord].foldl (appendFileHeader asciiCodec)
    (some ([] ++ (tornRecord.marshal asciiCodec).take 1))) =
      .ok ([] ++ (shifted ((tornRecord.marshal asciiCodec).take 1) [tornRecord.marshal asciiCodec]).map (FileHeader.parse asciiCodec)) ∧
    ((shifted ((tornRecord.marshal asciiCodec).take 1) [tornRecord.marshal asciiCodec]).map
      (fun b => (FileHeader.parse asciiCodec b).filename)) = [ascii "MM.1.A.1", []] :=
  ⟨C16_torn_exact asciiCodec [] 0 rfl [] rfl tornRecord 1 (by omega) (by omega) [tornRecord], by decide +kernel⟩

/-! ## C32 -/

open Classical in
/-- **C32**, exactly: the search lists the articles if every board has a name, and panics otherwise. -/
theorem C32_exact (db : DB) (c : Codec) (fs : FS) (boards : List BoardHeader) (index : Bytes → List FileHeader)
    (user : Bytes) (h : OnDisk db c fs boards index) :
    db.userArticles c fs user =
      if ∀ b ∈ boards, b.brdName ≠ [] then .ok (articlesOf boards index user) else .panic := by
  split
  · rename_i hn
    exact C32_article_list_partial db c fs boards index user h hn
  · rename_i hn
    have first : ∀ l : List BoardHeader, (¬ ∀ b ∈ l, b.brdName ≠ []) →
        ∃ pre b post, l = pre ++ b :: post ∧ (∀ x ∈ pre, x.brdName ≠ []) ∧ b.brdName = [] := by
      intro l
      induction l with
      | nil => intro h; exact absurd (fun b hb => nomatch hb) h
      | cons a l ih =>
        intro h
        by_cases ha : a.brdName = []
        · exact ⟨[], a, l, rfl, by simp, ha⟩
        · obtain ⟨pre, b, post, e, h1, h2⟩ := ih (fun h' => h (by
            intro b hb
            rcases List.mem_cons.mp hb with rfl | hb
            · exact ha
            · exact h' b hb))
          refine ⟨a :: pre, b, post, by rw [e]; rfl, ?_, h2⟩
          intro x hx
          rcases List.mem_cons.mp hx with rfl | hx
          · exact ha
          · exact h1 x hx
    obtain ⟨pre, b, post, rfl, h1, h2⟩ := first boards hn
    exact C32_empty_name_panics db c fs pre post b index user h h1 h2

/-- Both cases occur. -/
example : (∀ b ∈ listBoards, b.brdName ≠ []) ∧ ¬ (∀ b ∈ [vacantBoard], b.brdName ≠ []) :=
  ⟨by decide, by decide⟩

/-! ## C33 -/

/-- The lines the comment search looks at: those before the first one of 64 KiB or more. -/
def Spec.linesSeen (d : Bytes) : List Bytes :=
  ((rawLines d).takeWhile (fun l => decide (l.length < 65536))).map dropCR

/-- The search can read an article: the file is there, and no line it looks at gives an impossible time. -/
def Spec.Searchable (db : DB) (fs : FS) (board file : Bytes) (d : Bytes) : Prop :=
  fs.readFile db.cwd (articlePath db.home board file) = .ok d ∧ ∀ l ∈ linesSeen d, Readable l

/-- The comments of the user in the lines looked at. -/
def Spec.commentsSeen (boards : List BoardHeader) (index : Bytes → List FileHeader) (content : Bytes → Bytes → Bytes)
    (user : Bytes) : List UserComment :=
  (boards.filter (fun b => b.brdName ≠ ascii "ALLPOST")).flatMap (fun b => (index b.brdName).flatMap (fun r =>
    (numbered b.brdName r.filename ((linesSeen (content b.brdName r.filename)).filterMap lineComment)).filter
      (fun x => x.owner = user)))

theorem comments_seen {db : DB} {c : Codec} {fs : FS} {boards : List BoardHeader}
    {index : Bytes → List FileHeader} {content : Bytes → Bytes → Bytes} (user : Bytes)
    (h : OnDisk db c fs boards index)
    (hc : ∀ b ∈ boards, b.brdName ≠ ascii "ALLPOST" → b.brdName ≠ [] ∧ ∀ r ∈ index b.brdName,
      Searchable db fs b.brdName r.filename (content b.brdName r.filename)) :
    db.userComments c fs user = .ok (commentsSeen boards index content user) := by
  have inner : ∀ b ∈ boards, b.brdName ≠ ascii "ALLPOST" → ∀ rs : List FileHeader, (∀ r ∈ rs, r ∈ index b.brdName) →
      db.boardUserCommentLoop fs b.brdName user (rs.map persisted) = .ok (rs.flatMap (fun r =>
        (numbered b.brdName r.filename ((linesSeen (content b.brdName r.filename)).filterMap lineComment)).filter
          (fun x => x.owner = user))) := by
    intro b hb hsk rs
    induction rs with
    | nil => intro _; rfl
    | cons r rs ih =>
      intro hm
      have hr := hm r (by simp)
      have ih := ih (fun x hx => hm x (by simp [hx]))
      obtain ⟨hne, hse⟩ := hc b hb hsk
      obtain ⟨h1, h2⟩ := hse r hr
      have hac := (articleComments_exact b.brdName r.filename (content b.brdName r.filename) _).mpr ⟨h2, rfl⟩
      rw [List.map_cons, DB.boardUserCommentLoop, ih]
      show (do
        let crs ← db.boardArticleComments fs b.brdName r.filename
        let rest ← Res.ok (rs.flatMap (fun r : FileHeader =>
          (numbered b.brdName r.filename ((linesSeen (content b.brdName r.filename)).filterMap lineComment)).filter
            (fun x : UserComment => x.owner = user)))
        Res.ok (crs.filter (fun cr : UserComment => cr.owner = user) ++ rest)) = _
      rw [DB.boardArticleComments, DB.readBoardArticleFile, articlePath_of _ hne, Res.ok_bind, h1, Res.ok_bind, hac]
      rfl
  have key : ∀ bs : List BoardHeader, (∀ b ∈ bs, b ∈ boards) →
      db.userCommentLoop c fs user bs = .ok (commentsSeen bs index content user) := by
    intro bs
    induction bs with
    | nil => intro _; rfl
    | cons b bs ih =>
      intro hm
      have hb := hm b (by simp)
      have ih := ih (fun x hx => hm x (by simp [hx]))
      unfold DB.userCommentLoop
      by_cases hsk : b.brdName = ascii "ALLPOST"
      · rw [if_pos (by simp [DB.shouldSkip, hsk]), ih]
        simp [commentsSeen, hsk]
      · have hn := (hc b hb hsk).1
        rw [if_neg (by simp [DB.shouldSkip, hsk]), DB.boardUserComments,
          readArticleRecords_of hn (h.indexFile b hb hsk hn) (h.indexStorable b hb), Res.ok_bind,
          inner b hb hsk _ (fun _ hr => hr), Res.ok_bind, ih]
        simp [commentsSeen, hsk]
  rw [DB.userComments, readBoardRecords_of h.boardList h.storable, Res.ok_bind]
  exact key boards (fun _ hb => hb)

/-- **C33**, exactly: the search lists comments if and only if every board searched has a name and every article in its
index can be searched; it then lists the user's comments in the lines it looks at, and nothing else. -/
theorem C33_exact (db : DB) (c : Codec) (fs : FS) (boards : List BoardHeader) (index : Bytes → List FileHeader)
    (user : Bytes) (cs : List UserComment) (h : OnDisk db c fs boards index) :
    db.userComments c fs user = .ok cs ↔
      ∃ content, (∀ b ∈ boards, b.brdName ≠ ascii "ALLPOST" → b.brdName ≠ [] ∧ ∀ r ∈ index b.brdName,
          Searchable db fs b.brdName r.filename (content b.brdName r.filename)) ∧
        cs = commentsSeen boards index content user := by
  constructor
  · intro hcs
    have k := userComments_ok h hcs
    have hc : ∀ b ∈ boards, b.brdName ≠ ascii "ALLPOST" → b.brdName ≠ [] ∧ ∀ r ∈ index b.brdName,
        Searchable db fs b.brdName r.filename
          (match fs.readFile db.cwd (articlePath db.home b.brdName r.filename) with | .ok d => d | _ => []) := by
      intro b hb hsk
      refine ⟨(k b hb hsk).1, fun r hr => ?_⟩
      obtain ⟨d, xs, k1, k2, _⟩ := (k b hb hsk).2 r hr
      rw [k1]
      exact ⟨k1, ((articleComments_exact _ _ _ _).mp k2).1⟩
    refine ⟨fun b f => match fs.readFile db.cwd (articlePath db.home b f) with | .ok d => d | _ => [], hc, ?_⟩
    have := comments_seen user h (content := fun b f => match fs.readFile db.cwd (articlePath db.home b f) with | .ok d => d | _ => []) hc
    rw [hcs] at this
    exact Res.ok.inj this
  · rintro ⟨content, hc, rfl⟩
    exact comments_seen user h hc

/-- The sample of C33 is searchable throughout, and a comment is found. -/
example : (∀ b ∈ listBoards, b.brdName ≠ ascii "ALLPOST" → b.brdName ≠ [] ∧ ∀ r ∈ listIndex b.brdName,
      listFS.readFile sampleDB.cwd (articlePath sampleDB.home b.brdName r.filename) = .ok (listContents b.brdName r.filename)) ∧
    linesSeen listContent = [ascii "hi", ascii "Push tom: a 02/28 23:59"] ∧
    commentsSeen listBoards listIndex listContents (ascii "tom") =
      [⟨1, ⟨0, 2, 28, 23, 59, 0⟩, ascii "tom", ascii "S", ascii "M.1.A.1", ascii "a"⟩] := by
  refine ⟨?_, by decide +kernel, by decide +kernel⟩
  decide +kernel

/-! ## C54 -/

/-- **C54**, exactly, for everything the token endpoint can do: with a first record of that name, a token if it accepts the
password; otherwise an error answer if its hash begins with two ASCII characters, and a crash if it does not. Without one, an
error answer. -/
theorem C54_exact (sign : Claims → Bytes) (st : ServerState) (r : Request) (hp : r.path = ascii "/v1/token")
    (hm : r.method = ascii "POST") :
    (∀ u, FirstWithID st.userRecs r.username u →
      (Accepts u r.password → serve sign st r = .ok (.accessToken (sign ⟨1800, r.username⟩))) ∧
      (¬ Accepts u r.password → AsciiSalt u.password → serve sign st r = .ok (.grantError "password incorrect")) ∧
      (¬ AsciiSalt u.password → serve sign st r = .panic)) ∧
    ((∀ u ∈ st.userRecs, u.userID ≠ r.username) → serve sign st r = .ok (.grantError "user record not found")) := by
  rw [serve_token sign st r hp hm]
  rcases postToken_cases sign st r with ⟨u, hu, h⟩ | h
  · refine ⟨fun v hv => ?_, fun hn => absurd hu.mem.2 (hn u hu.mem.1)⟩
    rw [hv.unique hu]
    have acc : Accepts u r.password → AsciiSalt u.password := by
      intro ha
      apply Classical.byContradiction
      intro hs
      have hok := (verifyPassword_ok u r.password).2 ha
      exact (C46_exact u.password r.password).2 hs (by
        rw [show verifyHash u.password r.password = .ok () from hok]; trivial)
    rcases h with h | h | h
    · exact ⟨fun _ => h.2, fun n => absurd h.1 n, fun n => absurd (acc h.1) n⟩
    · exact ⟨fun a => absurd a h.2.1, fun _ _ => h.2.2, fun n => absurd h.1 n⟩
    · exact ⟨fun a => absurd a h.2.1, fun _ a => absurd a h.1, fun _ => h.2.2⟩
  · exact ⟨fun u hu => absurd hu.mem.2 (h.1 u hu.mem.1), fun _ => h.2⟩

/-- **C54**: the endpoint crashes if and only if the first record of that name has a hash that does not begin with two ASCII
characters. -/
theorem C54_crash_exact (sign : Claims → Bytes) (st : ServerState) (r : Request) (hp : r.path = ascii "/v1/token")
    (hm : r.method = ascii "POST") :
    serve sign st r = .panic ↔ ∃ u, FirstWithID st.userRecs r.username u ∧ ¬ AsciiSalt u.password := by
  obtain ⟨h1, h2⟩ := C54_exact sign st r hp hm
  constructor
  · intro hpn
    rcases postToken_cases sign st r with ⟨u, hu, _⟩ | h
    · refine ⟨u, hu, fun hs => ?_⟩
      obtain ⟨a, b, _⟩ := h1 u hu
      by_cases ha : Accepts u r.password
      · rw [a ha] at hpn; cases hpn
      · rw [b ha hs] at hpn; cases hpn
    · rw [h2 h.1] at hpn; cases hpn
  · rintro ⟨u, hu, hs⟩
    exact (h1 u hu).2.2 hs

/-- A record that makes it crash. -/
example : FirstWithID [emptyRecord] [] emptyRecord ∧ ¬ AsciiSalt emptyRecord.password :=
  ⟨first_empty, by rw [emptyRecord_fields.2]; exact not_asciiSalt_nil⟩

/-! ## C104 -/

theorem isText_cleaned (s : Bytes) : IsText (cleaned s) := by
  match s with
  | [] => exact isText_nil
  | b :: rest =>
    rcases rune_cases b rest with ⟨n, t, hn, e⟩ | ⟨_, e⟩
    · have hlt : t.length < (b :: rest).length := by
        rw [e, List.length_append]
        have := List.length_pos_iff.mpr (utf8Char_ne_nil n)
        omega
      unfold cleaned
      rw [e, runes_utf8Char hn, List.flatMap_cons]
      exact isText_app (isText_char hn) (isText_cleaned t)
    · have hlt : rest.length < (b :: rest).length := Nat.lt_succ_self _
      unfold cleaned
      rw [e, List.flatMap_cons]
      exact isText_app (isText_char (n := 65533) (by decide)) (isText_cleaned rest)
  termination_by s.length

theorem isText_of_cleaned {s : Bytes} (h : cleaned s = s) : IsText s := h ▸ isText_cleaned s

/-- **C104**, exactly: a client reads what the record says if and only if its name and its address are text. -/
theorem C104_record_exact (T : Big5Tables) (zone : Int → Int) (d : Bytes) (hz : ∀ t, (zone t).natAbs < 86400) :
    (∃ j, readJson ((Response.userInfo (Userec.parse (big5Codec T) d).userData).body zone) = some (.obj [(ascii "data", j)]) ∧
      TellsRecord zone (Userec.parse (big5Codec T) d) j) ↔
    IsText (Userec.parse (big5Codec T) d).userID ∧ IsText (Userec.parse (big5Codec T) d).lastHost := by
  refine ⟨?_, fun h => C104_record_partial T zone d hz h.1 h.2⟩
  rintro ⟨j, h1, h2⟩
  have hb : 0 ≤ (Userec.parse (big5Codec T) d).lastLogin ∧ (Userec.parse (big5Codec T) d).lastLogin < 4294967296 := timeOfU32_bound _
  generalize Userec.parse (big5Codec T) d = u at h1 h2 hb ⊢
  obtain ⟨j', h3, h4⟩ := C104_user zone u.userData hz hb.1 hb.2
  rw [h1] at h3
  injection h3 with h3
  injection h3 with h3
  have h3 : j = j' := by injection h3 with h3 _; injection h3
  subst h3
  constructor
  · have a := h2.userID
    have b := h4.userID
    unfold says at a b
    rw [a] at b
    injection b with b
    injection b with b
    exact isText_of_cleaned b.symm
  · have a := h2.ip
    have b := h4.ip
    unfold says at a b
    rw [a] at b
    injection b with b
    injection b with b
    exact isText_of_cleaned b.symm

/-- Records of both kinds. -/
example : IsText (ascii "SYSOP") ∧ ¬ IsText [0xA4] :=
  ⟨isText_ascii _ (by decide), fun h => absurd (cleaned_of_isText h) (by decide)⟩

end Verif
