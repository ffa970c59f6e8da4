import Verif.Props.Crypt
import Verif.Props.Big5Lines
import Verif.Props.ErrText
import Verif.Props.Ansi
import Verif.Props.Fnv
import Verif.Props.Comment
import Verif.Props.FavTitles
import Verif.Props.FavItems
import Verif.Props.Token
import Verif.Props.UserRecord
import Verif.Props.Formosa
import Verif.Props.Exactly
import Verif.Props.LogExact
import Verif.Props.Limits
/-!
# Cases: records, texts and passwords

Each theorem named is applied to something that meets its hypotheses.
-/

namespace Verif
open Spec

/-! ## Passwords -/

/-- `C43_seven_bits`: the eighth bit, and what follows the eighth byte. -/
example : fcrypt (ascii "password1") (ascii "AA") = fcrypt (ascii "passwor" ++ [228, 50]) (ascii "AA") := C43_seven_bits _ _ _ (by decide)

/-- `C44_crypt3`. -/
example (p : Bytes) : verifyHash (65 :: 46 :: ascii "3QBhLWk1BWA") p = .ok () ↔ 65 :: 46 :: ascii "3QBhLWk1BWA" = Spec.DES.crypt3 p 65 46 :=
  C44_crypt3 65 46 _ p (by decide) (by decide)

/-- `C44_record`: a record with the hash in its place. -/
example : (Userec.parse asciiCodec (zeros 61 ++ (ascii "AA3QBhLWk1BWA" ++ [0]) ++ zeros 437)).verifyPassword (ascii "012345678901") = .ok () :=
  C44_record asciiCodec _ (ascii "AA") (ascii "AA3QBhLWk1BWA" ++ [0]) _ (by decide +kernel) (by decide +kernel)

/-! ## Big5 -/

/-- `C93_ascii`: before a Chinese character. -/
example : sampleTables.enc (ascii "[test]" ++ utf8Char 0x65B0) = ascii "[test]" ++ [0xB7, 0x73] :=
  (C93_ascii (T := sampleTables) _ _ (by decide)).1.trans (by decide +kernel)

/-- `C113_lines`: a pair cut in two by the end of a line. -/
example : splitByte 10 (sampleTables.dec [0xB7, 0x73, 0xAA, 0x0A, 0xAA, 0xBA]) = [[0xB7, 0x73, 0xAA], [0xAA, 0xBA]].map sampleTables.dec :=
  (C113_lines sampleTables_noLow 10 (by decide) _).trans (by decide +kernel)

/-- `C113_low_bytes`. -/
example : (sampleTables.dec [0xB7, 0x73, 0xAA, 0x0A, 0xAA, 0xBA, 0x20]).filter (· < 0x40) = [0x0A, 0x20] :=
  (C113_low_bytes sampleTables_noLow _).trans (by decide)

/-! ## Errors as texts -/

/-- `C126_partial`. -/
example : sampleDB.readArticleRecordsText asciiCodec blockedFS (ascii "S") = .err "not a directory" :=
  ((C126_partial sampleDB asciiCodec blockedFS (ascii "S") _ rfl (by decide +kernel) (by decide +kernel)).2 _).mpr (by decide +kernel)

/-! ## Colours -/

/-- `C37_plain_unchanged`, `C38_idempotent_partial`. -/
example : filterANSI (ascii "plain") = ascii "plain" := C37_plain_unchanged (ascii "plain") (by decide +kernel)
example := C38_idempotent_partial (ascii "a" ++ colour [ascii "33"] ++ ascii "b") (by decide +kernel)

/-- `C37_colour_removed`. -/
example : filterANSI (ascii "-> " ++ colour [ascii "1", ascii "31"] ++ ascii ": ok") = ascii "-> " ++ filterANSI (ascii ": ok") := by
  refine C37_colour_removed (ascii "-> ") (ascii ": ok") [ascii "1", ascii "31"] (by decide) (by decide) ?_
  rintro y ⟨x, h1, h2⟩
  cases x with
  | nil => revert h1; simp [ascii]
  | cons b x =>
    have h3 := h2 b (by simp)
    injection h1 with h4 _
    subst h4
    revert h3
    decide

/-! ## The hash of names -/

/-- `C53_splits`, `C53_sum`. -/
example : fnvSum32 ([ascii "SY", ascii "SOP"].foldl fnvWrite (fnvNew32aWith 33554467)) = fnvSum32 ([ascii "SYSOP"].foldl fnvWrite (fnvNew32aWith 33554467)) :=
  C53_splits _ _ _ (by decide)
example : (fnvSum 0xAABBCCDD [1, 2]).length = 6 ∧ (fnvSum 0xAABBCCDD [1, 2]).take 2 = [1, 2] :=
  ⟨(C53_sum _ _).1, (C53_sum 0xAABBCCDD [1, 2]).2.1⟩

/-! ## Comments -/

/-- `C39_parse_exact`: a text with colons; the first of its pieces keep none. -/
example : ∃ text, parseUserComment (commentLine (ascii "Push") (ascii "lex2") (ascii "a:b") ⟨0, 2, 29, 23, 59, 0⟩) =
    .ok (ascii "lex2", ⟨0, 2, 29, 23, 59, 0⟩, text) :=
  ⟨_, C39_parse_exact _ _ _ _ (by decide) ⟨0x6C, ascii "ex2", by decide, by decide, by decide, by decide⟩ (by decide) ⟨by decide, rfl, rfl⟩⟩

/-- `C39_not_comment`. -/
example : parseUserComment (ascii "no comment at all") = .err errNotUserComment := C39_not_comment _ (by decide)

/-! ## Favourites -/

/-- `C08_fav_load_returns_partial`, `C08_memory`. -/
example : (unmarshalFavFile asciiCodec [0, 0, 1]).Returns := (C08_fav_load_returns_partial asciiCodec _ (by decide)).1
example : unmarshalFavSlice asciiCodec 4 ⟨[0, 0, 1] ++ zeros 509, 3⟩ = loadFav asciiCodec [0, 0, 1] :=
  C08_memory asciiCodec [0, 0, 1] (zeros 509) (by rw [List.length_append, zeros_length]; decide)

/-- `C09_fav_resave_exact`, `C09_fav_total_counters_all`, `C09_fav_settles`: a folder with a Chinese title. -/
example : ∃ f bs, unmarshalFavFile (big5Codec sampleTables) (oneFolder [0xb7, 0x73]) = .ok f ∧ f.marshal (big5Codec sampleTables) = .ok bs ∧
    EveryFolder TotalAgrees f.folder := by
  obtain ⟨bs, h, -⟩ := C09_fav_resave_exact _ _ _ (oneFolder_loads _ [0xb7, 0x73]) []
  exact ⟨_, bs, oneFolder_loads _ _, h, C09_fav_total_counters_all _ _ _ (oneFolder_loads _ [0xb7, 0x73])⟩

/-! ## Tokens -/

/-- `C128_reads`, `C128_carried`, `C128_names_exact`. -/
example : ∃ us t, serve (jwtSign fun _ => some (1, 2)) ⟨us, []⟩ ⟨ascii "POST", ascii "/v1/token", [], ascii "SYSOP", []⟩ = .ok (.accessToken t) ∧
    (∃ h p r s, TokenSays t h p r s ∧ fieldOf p (ascii "sub") = some (.str (ascii "SYSOP"))) ∧
    getTokenFromRequest ⟨ascii "GET", ascii "/v1/users/SYSOP/information", ascii "bearer " ++ t, [], []⟩ = t := by
  obtain ⟨us, h⟩ := two_logins (jwtSign fun _ => some (1, 2)) (ascii "SYSOP") (ascii "guest") (by decide)
  have h' := h _ (Or.inl rfl)
  refine ⟨us, _, h', ?_, ?_⟩
  · obtain ⟨m, c, p, r, s, -, -, -, h1, -, h2⟩ := C128_reads (fun _ => some (1, 2)) (fun m => ⟨1, 2, rfl, by decide, by decide⟩) _ _ _ h'
    exact ⟨_, p, r, s, h1, h2.trans (by
      rw [if_neg (by decide), cleaned_of_isText (isText_ascii _ (by decide))])⟩
  · exact (C128_carried (fun _ => some (1, 2)) (fun _ => 0) _ _ _ h').2 _ (ascii "bearer") (by decide) (by simp [ascii])

/-! ## Records -/

/-- `C05_user_record_roundtrip_role_zero`: the full record, without its role. -/
example : Userec.unmarshal asciiCodec ({ sampleUser with role := 0 }.marshal asciiCodec) = .ok { sampleUser with role := 0 } :=
  (C05_user_record_roundtrip_role_zero asciiCodec _ (by constructor <;> decide) rfl).2

def caseFormosa : FormosaRecord := ⟨ascii "M.1.A", zeros 28, 7, zeros 4, ascii "SYSOP", 1, zeros 4, ascii "hello", zeros 21⟩

theorem caseFormosa_valid : caseFormosa.Valid asciiCodec := ⟨by decide, rfl, rfl, by decide, rfl, by decide, by decide, rfl⟩

/-- `C58_fields`, `C58_file`: one record, and two. -/
example : FormosaHeader.unmarshal asciiCodec (caseFormosa.bytes asciiCodec) =
    .ok ⟨ascii "M.1.A", 1, ascii "SYSOP", ascii "hello", 7⟩ := by
  rw [C58_fields _ _ caseFormosa_valid]
  rfl
example := C58_file asciiCodec [caseFormosa, caseFormosa] (by
  intro r h
  simp only [List.mem_cons, List.not_mem_nil, or_false, or_self] at h
  exact h ▸ caseFormosa_valid)

/-- `C58_positions_only`: the bytes between the fields do not matter. -/
example : FormosaHeader.unmarshal asciiCodec (zeros 44 ++ List.replicate 28 1 ++ zeros 176) = FormosaHeader.unmarshal asciiCodec (zeros 248) :=
  C58_positions_only asciiCodec _ _ (by decide +kernel) (by decide +kernel) (by
    intro i h
    by_cases h1 : i < 44
    · rw [List.append_assoc, List.getElem?_append_left (by simpa [zeros] using h1)]
      simp only [zeros, List.getElem?_replicate, h1, if_true]
      rw [if_pos (by omega)]
    · have h2 : 72 ≤ i := by omega
      rw [List.getElem?_append_right (by simp [zeros]; omega)]
      simp only [zeros, List.getElem?_replicate, List.length_append, List.length_replicate]
      by_cases h3 : i < 248
      · rw [if_pos (by omega), if_pos h3]
      · rw [if_neg (by omega), if_neg h3])

/-- `C58_any_file`: 249 bytes are two records. -/
example : ∃ l, openFormosaFile asciiCodec (some (zeros 249)) = .ok l ∧ l.length = 2 := by
  obtain ⟨l, h, hl, -⟩ := C58_any_file asciiCodec (zeros 249)
  exact ⟨l, h, hl.trans (by rw [zeros_length])⟩

/-! ## Lists -/

/-- `C34_floors`: the floor of the only comment. -/
example : ∃ cs, articleComments (ascii "S") (ascii "M.1.A.1") listContent = .ok cs ∧ cs.map (fun c => c.order.toNat) = [1] := by
  refine ⟨[⟨1, ⟨0, 2, 28, 23, 59, 0⟩, ascii "tom", ascii "S", ascii "M.1.A.1", ascii "a"⟩], by decide +kernel, ?_⟩
  exact (C34_floors (ascii "S") (ascii "M.1.A.1") listContent _ (by decide +kernel) (by decide)).1

/-! ## Logging in -/

/-- `C54_exact`, `C150_token`: nobody is known. -/
example : serve (fun _ => []) ⟨[], []⟩ ⟨ascii "POST", ascii "/v1/token", [], ascii "A", []⟩ = .ok (.grantError "user record not found") ∧
    requestLog (fun _ => []) ⟨[], []⟩ ⟨ascii "POST", ascii "/v1/token", [], ascii "A", []⟩ = [] :=
  ⟨(C54_exact _ _ _ rfl rfl).2 (fun _ h => absurd h List.not_mem_nil), (C150_token _ _ _ rfl rfl).2 (fun _ h => absurd h List.not_mem_nil)⟩
/-- A record without a password. -/
example : serve (fun _ => []) ⟨[emptyRecord], []⟩ ⟨ascii "POST", ascii "/v1/token", [], [], []⟩ = .panic :=
  ((C54_exact _ _ _ rfl rfl).1 emptyRecord first_empty).2.2 (by rw [emptyRecord_fields.2]; exact not_asciiSalt_nil)

/-! ## Long names -/

/-- `C143_fits`, `C143_short`. -/
example (fs : FS) (ns : List Nat) := C143_fits mixedDB mixedCodec (.readDraft (ascii "SYSOP") (ascii "1"))
  (fits_short (by constructor <;> decide +kernel) (by constructor <;> decide +kernel)) fs ns

/-- `C143_favourites`. -/
example : Job.playLimited [] [0] longFS (Job.start mixedDB mixedCodec (.readFavourites longId)) = (longFS, .done (.ok (.favourites []))) :=
  C143_favourites mixedDB mixedCodec longFS longId _ rfl (by decide +kernel) 0 []

end Verif
