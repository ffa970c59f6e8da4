import Verif.Model.Answer
import Verif.Proofs.Json
import Verif.Spec.Rfc3339
import Verif.Props.Server
import Verif.Props.Routes
import Verif.Props.Big5
/-!
# C104–C107: what the service writes
-/

namespace Verif
open Spec

/-! ## C106: times -/

theorem two_dec2 (n : Nat) (h : n < 100) :
    two (UInt8.ofNat (48 + n / 10 % 10)) (UInt8.ofNat (48 + n % 10)) = some n := by
  have hd : ∀ k, k < 10 → digit (UInt8.ofNat (48 + k)) = some k := by
    intro k hk
    have e : (UInt8.ofNat (48 + k)).toNat = 48 + k := by simp only [UInt8.toNat_ofNat']; omega
    unfold digit
    rw [if_pos]
    · rw [e]; congr 1; omega
    · simp only [UInt8.le_iff_toNat_le, e, UInt8.reduceToNat]; omega
  unfold two
  rw [hd _ (by omega), hd _ (by omega)]
  simp only [Option.bind_eq_bind, Option.bind_some, Option.some.injEq]
  omega

theorem readOffset_format (off : Int) (h : off.natAbs < 86400) : readOffset (formatZone off) = some (off - off.tmod 60) := by
  unfold formatZone
  by_cases h0 : off = 0
  · subst h0; rfl
  rw [if_neg h0]
  have ht : off.tdiv 60 * 60 + off.tmod 60 = off := by have := Int.tdiv_mul_add_tmod off 60; omega
  have hz : (off.tdiv 60).natAbs < 1440 := by
    rw [Int.natAbs_tdiv, show (60 : Int).natAbs = 60 from rfl]
    exact Nat.div_lt_of_lt_mul (by omega)
  obtain ⟨z, hzz⟩ : ∃ z, z = off.tdiv 60 := ⟨_, rfl⟩
  rw [← hzz] at hz ht
  simp only [← hzz, dec2, List.cons_append, List.nil_append]
  have e1 := two_dec2 (z.natAbs / 60) (by omega)
  have e2 := two_dec2 (z.natAbs % 60) (by omega)
  simp only [readOffset, e1, e2, Option.bind_eq_bind, Option.bind_some]
  rw [if_neg (by omega)]
  by_cases hneg : z < 0
  · rw [if_pos hneg, if_neg (by decide), if_pos rfl]
    congr 1
    omega
  · rw [if_neg hneg, if_pos rfl]
    congr 1
    omega

/-- **C106.** A time in an answer denotes the instant that was stored, moved by the odd seconds of the zone. -/
theorem C106_instant_exact (zone : Int → Int) (sec : Int) (hz : (zone sec).natAbs < 86400)
    (h0 : -62167219200 ≤ sec + zone sec) (h1 : sec + zone sec < 253402300800) :
    readRFC3339 (formatRFC3339 zone sec) = some (sec + (zone sec).tmod 60) := by
  obtain ⟨hv, hi⟩ := civilOf_spec _ h0 h1
  have ho := readOffset_format _ hz
  obtain ⟨⟨Y, M, D, H, N, S⟩, ht⟩ : ∃ t, t = civilOf (sec + zone sec) := ⟨_, rfl⟩
  rw [← ht] at hv hi
  have hvv := hv
  obtain ⟨v1, v2, v3, v4, v5, v6, v7, v8⟩ := hv
  dsimp only at v1 v2 v3 v4 v5 v6 v7 v8
  have v5' : D ≤ 31 := by
    unfold daysIn at v5
    repeat' split at v5
    all_goals omega
  unfold formatRFC3339
  rw [← ht]
  simp only [timeFormat, layoutDateTime, List.flatMap_cons, List.flatMap_nil, Chunk.format, dec4, dec2, List.cons_append, List.nil_append,
    List.append_nil, readRFC3339]
  rw [two_dec2 (Y / 100) (by omega), two_dec2 (Y % 100) (by omega), two_dec2 M (by omega), two_dec2 D (by omega), two_dec2 H (by omega),
    two_dec2 N (by omega), two_dec2 S (by omega), ho]
  simp only [Option.bind_eq_bind, Option.bind_some]
  rw [show 100 * (Y / 100) + Y % 100 = Y by omega, if_pos hvv, hi]
  congr 1
  omega

/-- The full claim of C106: a time in an answer denotes the instant that was stored. -/
def Spec.C106 : Prop := ∀ (zone : Int → Int) (sec : Int), (zone sec).natAbs < 86400 → 0 ≤ sec → sec < 4294967296 →
  readRFC3339 (formatRFC3339 zone sec) = some sec

/-- **C106, the part that holds**: zones of whole minutes. (Missing for the full claim: zones with odd seconds, such as local mean
time before standard time was introduced.) -/
theorem C106_instant_partial (zone : Int → Int) (sec : Int) (hz : (zone sec).natAbs < 86400) (hm : zone sec % 60 = 0) (h0 : 0 ≤ sec)
    (h1 : sec < 4294967296) : readRFC3339 (formatRFC3339 zone sec) = some sec := by
  rw [C106_instant_exact zone sec hz (by omega) (by omega), Int.tmod_eq_zero_of_dvd (Int.dvd_of_emod_eq_zero hm), Int.add_zero]

/-- **C106 is false of the code** as it stands: the seconds of Amsterdam time, 19 minutes and 32 seconds east, are lost. -/
theorem C106_instant_refuted : ¬ Spec.C106 := by
  intro h
  have h1 := h (fun _ => 1172) 0 (by decide) (by decide) (by decide)
  rw [C106_instant_exact _ _ (by decide) (by decide) (by decide)] at h1
  exact absurd h1 (by decide)

example : formatRFC3339 (fun _ => 28800) 1605510000 = ascii "2020-11-16T15:00:00+08:00" ∧
    readRFC3339 (ascii "2020-11-16T15:00:00+08:00") = some 1605510000 ∧
    formatRFC3339 (fun _ => -12600) 1582934399 = ascii "2020-02-28T20:29:59-03:30" ∧
    formatRFC3339 (fun _ => 0) 4294967295 = ascii "2106-02-07T06:28:15Z" ∧
    readRFC3339 (ascii "2021-02-29T00:00:00Z") = none := by decide +kernel

/-- Years of instants, at both ends of what can be written. -/
theorem yearOf_range (sec : Int) (h0 : -9223372028715321600 ≤ sec) (h1 : sec < 9223372044994230016) :
    (yearOf sec < 0 ↔ sec < -62167219200) ∧ (10000 ≤ yearOf sec ↔ 253402300800 ≤ sec) := by
  have habs : (absSeconds sec : Int) = sec + 9223372028715321600 := by unfold absSeconds; omega
  unfold yearOf
  obtain ⟨A, hA⟩ : ∃ A, absSeconds sec = A := ⟨_, rfl⟩
  rw [hA] at habs ⊢
  obtain ⟨k, hk⟩ : ∃ k, k = 292277022399 := ⟨_, rfl⟩
  have hq : k + 1 = 400 * 730692556 := by omega
  have f0 := daysFromOne_zero k hk
  have f1 : daysFromOne (10000 + k) = 106751990353566 + 3652425 := by rw [daysFromOne_shift _ _ _ hq, f0, daysToYear_eq]
  obtain ⟨y, n, hyn⟩ : ∃ y n, yearDay (A / 86400) = (y, n) := ⟨_, _, rfl⟩
  obtain ⟨e1, e2⟩ := yearDay_spec _ _ _ hyn
  have e1 : A / 86400 = daysFromOne y + n := by unfold daysFromOne; omega
  have e3 : A / 86400 < daysFromOne (y + 1) := by rw [daysFromOne_succ]; omega
  rw [hyn]
  dsimp only
  have m1 : y < k → daysFromOne (y + 1) ≤ daysFromOne k := fun h => daysFromOne_mono h
  have m2 : k ≤ y → daysFromOne k ≤ daysFromOne y := fun h => daysFromOne_mono h
  have m3 : y < 10000 + k → daysFromOne (y + 1) ≤ daysFromOne (10000 + k) := fun h => daysFromOne_mono h
  have m4 : 10000 + k ≤ y → daysFromOne (10000 + k) ≤ daysFromOne y := fun h => daysFromOne_mono h
  constructor
  · constructor
    · intro h
      have := m1 (by omega)
      omega
    · intro h
      apply Int.not_le.mp
      intro hc
      have := m2 (by omega)
      omega
  · constructor
    · intro h
      have := m4 (by omega)
      omega
    · intro h
      apply Int.not_lt.mp
      intro hc
      have := m3 (by omega)
      omega

/-- **C106.** A time can be written if and only if its year, in the zone, has at most four digits. -/
theorem C106_writable_exact (zone : Int → Int) (sec : Int) (h0 : -9223372028715321600 ≤ sec + zone sec)
    (h1 : sec + zone sec < 9223372044994230016) :
    timeJson zone sec = if -62167219200 ≤ sec + zone sec ∧ sec + zone sec < 253402300800 then some (.str (formatRFC3339 zone sec))
      else none := by
  obtain ⟨a, b⟩ := yearOf_range _ h0 h1
  unfold timeJson
  by_cases h : -62167219200 ≤ sec + zone sec ∧ sec + zone sec < 253402300800
  · rw [if_neg (by omega), if_pos h]
  · rw [if_pos (by omega), if_neg h]

/-! ## C104: bodies -/

/-- Valid UTF-8. -/
def Spec.IsText (s : Bytes) : Prop := ∃ cs, (∀ c ∈ cs, Scalar c) ∧ s = utf8Text cs

theorem isText_ascii (s : Bytes) (h : ∀ b ∈ s, b < 0x80) : IsText s := by
  refine ⟨s.map UInt8.toNat, ?_, ?_⟩
  · intro c hc
    obtain ⟨b, hb, rfl⟩ := List.mem_map.mp hc
    have := h b hb
    rw [UInt8.lt_iff_toNat_lt] at this
    exact Or.inl (by simp only [UInt8.reduceToNat] at this; omega)
  · induction s with
    | nil => rfl
    | cons b s ih =>
      have hb := h b (by simp)
      rw [UInt8.lt_iff_toNat_lt, show (0x80 : UInt8).toNat = 128 from rfl] at hb
      rw [List.map_cons, utf8Text, List.flatMap_cons, utf8Char, if_pos hb]
      show b :: s = UInt8.ofNat b.toNat :: utf8Text (s.map UInt8.toNat)
      rw [← ih (fun x hx => h x (by simp [hx])), UInt8.ofNat_toNat]

theorem isText_app {s t : Bytes} (hs : IsText s) (ht : IsText t) : IsText (s ++ t) := isText_append hs ht

theorem isText_cons {b : UInt8} {s : Bytes} (h : b < 0x80) (hs : IsText s) : IsText (b :: s) :=
  isText_app (s := [b]) (isText_ascii _ (by simpa using h)) hs

theorem isText_nil : IsText [] := ⟨[], by simp, rfl⟩

theorem isText_char {n : Nat} (h : Scalar n) : IsText (utf8Char n) :=
  ⟨[n], by simpa using h, by simp [utf8Text]⟩

theorem cleaned_of_isText {s : Bytes} (h : IsText s) : cleaned s = s := by
  obtain ⟨cs, h1, rfl⟩ := h
  exact cleaned_text h1

theorem quoteAscii_text : ∀ b : Fin 128, ∀ x ∈ quoteAscii (UInt8.ofNat b.val), x < 0x80 := by decide +kernel

theorem isText_quoted (s : Bytes) : IsText ((runes s).flatMap quoteRune) := by
  match s with
  | [] => exact ⟨[], by simp, rfl⟩
  | b :: rest =>
    rcases rune_cases b rest with ⟨n, t, hn, e⟩ | ⟨_, e⟩
    · have hlt : t.length < (b :: rest).length := by
        rw [e, List.length_append]
        have := List.length_pos_iff.mpr (utf8Char_ne_nil n)
        omega
      rw [e, runes_utf8Char hn, List.flatMap_cons]
      refine isText_app ?_ (isText_quoted t)
      unfold quoteRune
      dsimp only
      split
      · exact isText_ascii _ (quoteAscii_text ⟨n, by omega⟩)
      · split
        · exact isText_ascii _ (by decide)
        · split
          · rename_i h1 h2 h3
            refine isText_ascii _ ?_
            rcases h3 with rfl | rfl <;> decide
          · exact isText_char hn
    · have hlt : rest.length < (b :: rest).length := Nat.lt_succ_self _
      rw [e, List.flatMap_cons]
      exact isText_app (isText_ascii (ascii "\\ufffd") (by decide)) (isText_quoted rest)
  termination_by s.length

theorem isText_quote (s : Bytes) : IsText (quote s) := by
  unfold quote
  exact isText_app (isText_cons (by decide) (isText_quoted s)) (isText_ascii _ (by decide))

theorem isText_dec (n : Nat) : IsText (dec n) :=
  isText_ascii _ fun b hb => by
    have := dec_digits n b hb
    simp only [UInt8.lt_iff_toNat_lt, UInt8.le_iff_toNat_le, UInt8.reduceToNat] at this ⊢
    omega

theorem isText_decInt (n : Int) : IsText (decInt n) := by
  unfold decInt
  split
  · exact isText_cons (by decide) (isText_dec _)
  · exact isText_dec _

theorem isText_newline (d : Nat) : IsText (jsonNewline d) :=
  isText_ascii _ fun b hb => by
    unfold jsonNewline at hb
    rcases List.mem_cons.mp hb with rfl | hb
    · decide
    · rw [(List.mem_replicate.mp hb).2]; decide

mutual
theorem isText_render : (v : Json) → ∀ d, IsText (v.render d)
  | .null, d => isText_ascii (ascii "null") (by decide)
  | .num n, d => isText_decInt n
  | .str s, d => isText_quote s
  | .arr [], d => isText_ascii (ascii "[]") (by decide)
  | .arr (v :: l), d => by
    have h1 := isText_render v (d + 1)
    have h2 := isText_renderItems l (d + 1)
    simp only [Json.render]
    repeat first | exact h1 | exact h2 | exact isText_nil | exact isText_newline _ | apply isText_app | apply isText_cons (by decide)
  | .obj [], d => isText_ascii (ascii "{}") (by decide)
  | .obj ((k, v) :: l), d => by
    have h1 := isText_render v (d + 1)
    have h2 := isText_renderFields l (d + 1)
    simp only [Json.render]
    repeat first | exact h1 | exact h2 | exact isText_nil | exact isText_newline _ | exact isText_quote _ | apply isText_app | apply isText_cons (by decide)

theorem isText_renderItems : (l : List Json) → ∀ d, IsText (renderItems d l)
  | [], d => isText_nil
  | v :: l, d => by
    have h1 := isText_render v d
    have h2 := isText_renderItems l d
    simp only [renderItems]
    repeat first | exact h1 | exact h2 | exact isText_nil | exact isText_newline _ | apply isText_app | apply isText_cons (by decide)

theorem isText_renderFields : (l : List (Bytes × Json)) → ∀ d, IsText (renderFields d l)
  | [], d => isText_nil
  | (k, v) :: l, d => by
    have h1 := isText_render v d
    have h2 := isText_renderFields l d
    simp only [renderFields]
    repeat first | exact h1 | exact h2 | exact isText_nil | exact isText_newline _ | exact isText_quote _ | apply isText_app | apply isText_cons (by decide)
end

theorem body_of_value {zone : Int → Int} {r : Response} {v : Json} (h : r.value zone = some v) : r.body zone = v.render 0 := by
  unfold Response.body
  rw [h]

/-- **C104.** A body that is written is valid UTF-8 and valid JSON, and what a client reads is what the handler had to say, with
U+FFFD for what is no text. -/
theorem C104_read_back (zone : Int → Int) (r : Response) (v : Json) (h : r.value zone = some v) :
    IsText (r.body zone) ∧ readJson (r.body zone) = some v.clean := by
  rw [body_of_value h]
  exact ⟨isText_render v 0, readJson_render v⟩

/-- How a body is laid out: two blanks for every level. -/
example : Json.render 0 (.obj [(ascii "data", .obj [(ascii "items", .arr [.num 1, .arr [.num 2, .num 3], .arr []])]), (ascii "n", .null)]) =
    ascii "{\n  \"data\": {\n    \"items\": [\n      1,\n      [\n        2,\n        3\n      ],\n      []\n    ]\n  },\n  \"n\": null\n}" := by
  decide +kernel

/-! ### Single answers -/

/-- The member of an object. -/
def Spec.field (k : String) : Json → Option Json
  | .obj l => (l.find? fun p => p.1 = ascii k).map (·.2)
  | _ => none

/-- The names of the members, in order. -/
def Spec.names : Json → List Bytes
  | .obj l => l.map (·.1)
  | _ => []

/-- A member holds the text. -/
def Spec.says (j : Json) (k : String) (s : Bytes) : Prop := field k j = some (.str s)

/-- A member holds the number. -/
def Spec.counts (j : Json) (k : String) (n : Int) : Prop := field k j = some (.num n)

/-- A member holds the time, as far as the zone allows (C106). -/
def Spec.dates (zone : Int → Int) (j : Json) (k : String) (t : Int) : Prop :=
  ∃ s, field k j = some (.str s) ∧ readRFC3339 s = some (t + (zone t).tmod 60)

/-- An object says all there is to be said of a user. -/
structure Spec.TellsUser (zone : Int → Int) (u : UserData) (j : Json) : Prop where
  names : names j = [ascii "chess_status", ascii "last_login_ip", ascii "last_login_ipv4", ascii "last_login_time", ascii "money",
    ascii "nickname", ascii "number_of_login_days", ascii "number_of_posts", ascii "plan", ascii "realname", ascii "user_id"]
  userID : says j "user_id" (cleaned u.userID)
  nickname : says j "nickname" (cleaned u.nickname)
  realname : says j "realname" (cleaned u.realname)
  days : says j "number_of_login_days" (cleaned u.numberOfLoginDays)
  posts : says j "number_of_posts" (cleaned u.numberOfPosts)
  money : says j "money" (cleaned u.money)
  time : dates zone j "last_login_time" u.lastLoginTime
  ip : says j "last_login_ip" (cleaned u.lastLoginIP)
  ipv4 : says j "last_login_ipv4" (cleaned u.lastLoginIP)
  plan : field "plan" j = some (.obj [])
  chess : field "chess_status" j = some (.obj [])

theorem cleaned_name {s : Bytes} (h : ∀ b ∈ s, b < 0x80) : cleaned s = s := cleaned_of_isText (isText_ascii s h)

theorem formatZone_ascii (o : Int) : ∀ b ∈ formatZone o, b < 0x80 := by
  have hd : ∀ n, UInt8.ofNat (48 + n % 10) < 0x80 := by
    intro n
    rw [UInt8.lt_iff_toNat_lt, UInt8.toNat_ofNat', show (0x80 : UInt8).toNat = 128 from rfl]
    omega
  unfold formatZone
  intro b hb
  split at hb
  · rw [List.mem_singleton.mp hb]; decide
  · simp only [dec2, List.cons_append, List.nil_append, List.mem_cons, List.not_mem_nil, or_false] at hb
    rcases hb with h | h | h | h | h | h <;> rw [h]
    · split <;> decide
    · exact hd _
    · exact hd _
    · decide
    · exact hd _
    · exact hd _

theorem formatRFC3339_ascii (zone : Int → Int) (sec : Int) : ∀ b ∈ formatRFC3339 zone sec, b < 0x80 := by
  have hd : ∀ n, UInt8.ofNat (48 + n % 10) < 0x80 := by
    intro n
    rw [UInt8.lt_iff_toNat_lt, UInt8.toNat_ofNat', show (0x80 : UInt8).toNat = 128 from rfl]
    omega
  intro b hb
  unfold formatRFC3339 at hb
  rcases List.mem_append.mp hb with hb | hb
  · simp only [timeFormat, layoutDateTime, List.flatMap_cons, List.flatMap_nil, Chunk.format, dec4, dec2, List.cons_append,
      List.nil_append, List.mem_cons, List.not_mem_nil, or_false] at hb
    rcases hb with h | h | h | h | h | h | h | h | h | h | h | h | h | h | h | h | h | h | h <;> rw [h]
    all_goals first | exact hd _ | decide
  · exact formatZone_ascii _ b hb

theorem cleaned_time (zone : Int → Int) (sec : Int) : cleaned (formatRFC3339 zone sec) = formatRFC3339 zone sec :=
  cleaned_name (formatRFC3339_ascii zone sec)

theorem dates_of (zone : Int → Int) (j : Json) (k : String) (t : Int) (h : field k j = some (.str (formatRFC3339 zone t)))
    (hz : (zone t).natAbs < 86400) (h0 : 0 ≤ t) (h1 : t < 4294967296) : dates zone j k t :=
  ⟨_, h, C106_instant_exact zone t hz (by omega) (by omega)⟩

/-- **C104.** The answer about a user, as a client reads it. -/
theorem C104_user (zone : Int → Int) (u : UserData) (hz : ∀ t, (zone t).natAbs < 86400) (h0 : 0 ≤ u.lastLoginTime)
    (h1 : u.lastLoginTime < 4294967296) :
    ∃ j, readJson ((Response.userInfo u).body zone) = some (.obj [(ascii "data", j)]) ∧ TellsUser zone u j := by
  have h := (C104_read_back zone (.userInfo u) _ rfl).2
  simp only [Json.clean, cleanFields, UserData.json, cleaned_time, cleaned_name (s := ascii "data") (by decide)] at h
  refine ⟨_, h, ?_⟩
  simp only [cleaned_name (s := ascii "chess_status") (by decide), cleaned_name (s := ascii "last_login_ip") (by decide),
    cleaned_name (s := ascii "last_login_ipv4") (by decide), cleaned_name (s := ascii "last_login_time") (by decide),
    cleaned_name (s := ascii "money") (by decide), cleaned_name (s := ascii "nickname") (by decide),
    cleaned_name (s := ascii "number_of_login_days") (by decide), cleaned_name (s := ascii "number_of_posts") (by decide),
    cleaned_name (s := ascii "plan") (by decide), cleaned_name (s := ascii "realname") (by decide),
    cleaned_name (s := ascii "user_id") (by decide)]
  constructor
  case time => exact dates_of _ _ _ _ rfl (hz _) h0 h1
  all_goals rfl

/-- A member holds the list of numbers; `null` if there is none. -/
def Spec.lists (j : Json) (k : String) (l : List Int) : Prop := field k j = some (if l = [] then .null else .arr (l.map .num))

/-- An object says what is to be said of a board. -/
structure Spec.TellsBoard (zone : Int → Int) (b : BoardHeader) (j : Json) : Prop where
  names : names j = [ascii "BrdName", ascii "Brdattr", ascii "ChessCountry", ascii "VoteLimitPosts", ascii "VoteLimitLogins", ascii
    "BUpdate", ascii "PostLimitPosts", ascii "PostLimitLogins", ascii "BVote", ascii "VTime", ascii "Level", ascii
    "PermReload", ascii "Gid", ascii "Next", ascii "FirstChild", ascii "Parent", ascii "ChildCount", ascii "Nuser", ascii
    "PostExpire", ascii "EndGamble", ascii "PostType", ascii "PostTypeF", ascii "FastRecommendPause", ascii
    "VoteLimitBadPost", ascii "PostLimitBadPost", ascii "SRexpire"]
  brdName : says j "BrdName" (cleaned b.brdName)
  brdattr : counts j "Brdattr" b.brdattr.toNat
  chessCountry : says j "ChessCountry" (cleaned b.chessCountry)
  voteLimitPosts : counts j "VoteLimitPosts" b.voteLimitPosts.toNat
  voteLimitLogins : counts j "VoteLimitLogins" b.voteLimitLogins.toNat
  bUpdate : dates zone j "BUpdate" b.bUpdate
  postLimitPosts : counts j "PostLimitPosts" b.postLimitPosts.toNat
  postLimitLogins : counts j "PostLimitLogins" b.postLimitLogins.toNat
  bVote : counts j "BVote" b.bVote.toNat
  vTime : dates zone j "VTime" b.vTime
  level : counts j "Level" b.level.toNat
  permReload : dates zone j "PermReload" b.permReload
  gid : counts j "Gid" b.gid.toInt
  next : lists j "Next" (b.next.map Int32.toInt)
  firstChild : lists j "FirstChild" (b.firstChild.map Int32.toInt)
  parent : counts j "Parent" b.parent.toInt
  childCount : counts j "ChildCount" b.childCount.toInt
  nuser : counts j "Nuser" b.nuser.toInt
  postExpire : counts j "PostExpire" b.postExpire.toInt
  endGamble : dates zone j "EndGamble" b.endGamble
  postType : says j "PostType" (cleaned b.postType)
  postTypeF : says j "PostTypeF" (cleaned b.postTypeF)
  fastRecommendPause : counts j "FastRecommendPause" b.fastRecommendPause.toNat
  voteLimitBadPost : counts j "VoteLimitBadPost" b.voteLimitBadPost.toNat
  postLimitBadPost : counts j "PostLimitBadPost" b.postLimitBadPost.toNat
  srExpire : dates zone j "SRexpire" b.srExpire

/-- The times of a board. -/
def Spec.boardTimes (b : BoardHeader) : List Int := [b.bUpdate, b.vTime, b.permReload, b.endGamble, b.srExpire]

theorem cleanItems_nums (l : List Int32) : cleanItems (l.map fun x => .num x.toInt) = l.map fun x => .num x.toInt := by
  induction l with
  | nil => rfl
  | cons x l ih => simp only [List.map_cons, cleanItems, Json.clean, ih]

theorem clean_numsJson (l : List Int32) : (numsJson l).clean = if l.map Int32.toInt = [] then .null else .arr ((l.map Int32.toInt).map .num) := by
  unfold numsJson
  cases l with
  | nil => rfl
  | cons x l =>
    rw [if_neg (by simp), if_neg (by simp), Json.clean, cleanItems_nums, List.map_map]
    rfl

theorem timeJson_loaded (zone : Int → Int) (t : Int) (hz : (zone t).natAbs < 86400) (h : 0 ≤ t ∧ t < 4294967296) :
    timeJson zone t = some (.str (formatRFC3339 zone t)) := by
  rw [C106_writable_exact zone t (by omega) (by omega), if_pos (by omega)]

/-- One board, as a client reads it. -/
theorem board_read (zone : Int → Int) (b : BoardHeader) (hz : ∀ t, (zone t).natAbs < 86400)
    (ht : ∀ t ∈ boardTimes b, 0 ≤ t ∧ t < 4294967296) : ∃ j, b.json zone = some j ∧ TellsBoard zone b j.clean := by
  have e : ∀ t ∈ boardTimes b, timeJson zone t = some (.str (formatRFC3339 zone t)) := fun t h => timeJson_loaded zone t (hz t) (ht t h)
  unfold BoardHeader.json
  rw [e b.bUpdate (by simp [boardTimes]), e b.vTime (by simp [boardTimes]), e b.permReload (by simp [boardTimes]),
    e b.endGamble (by simp [boardTimes]), e b.srExpire (by simp [boardTimes])]
  simp only [Option.bind_eq_bind, Option.bind_some]
  refine ⟨_, rfl, ?_⟩
  simp only [Json.clean, cleanFields, cleaned_time, clean_numsJson]
  simp only [cleaned_name (s := ascii "BrdName") (by decide), cleaned_name (s := ascii "Brdattr") (by decide), cleaned_name (s :=
    ascii "ChessCountry") (by decide), cleaned_name (s := ascii "VoteLimitPosts") (by decide), cleaned_name (s := ascii
    "VoteLimitLogins") (by decide), cleaned_name (s := ascii "BUpdate") (by decide), cleaned_name (s := ascii
    "PostLimitPosts") (by decide), cleaned_name (s := ascii "PostLimitLogins") (by decide), cleaned_name (s := ascii
    "BVote") (by decide), cleaned_name (s := ascii "VTime") (by decide), cleaned_name (s := ascii "Level") (by decide),
    cleaned_name (s := ascii "PermReload") (by decide), cleaned_name (s := ascii "Gid") (by decide), cleaned_name (s :=
    ascii "Next") (by decide), cleaned_name (s := ascii "FirstChild") (by decide), cleaned_name (s := ascii "Parent") (by
    decide), cleaned_name (s := ascii "ChildCount") (by decide), cleaned_name (s := ascii "Nuser") (by decide), cleaned_name
    (s := ascii "PostExpire") (by decide), cleaned_name (s := ascii "EndGamble") (by decide), cleaned_name (s := ascii
    "PostType") (by decide), cleaned_name (s := ascii "PostTypeF") (by decide), cleaned_name (s := ascii
    "FastRecommendPause") (by decide), cleaned_name (s := ascii "VoteLimitBadPost") (by decide), cleaned_name (s := ascii
    "PostLimitBadPost") (by decide), cleaned_name (s := ascii "SRexpire") (by decide)]
  constructor
  case bUpdate => exact dates_of _ _ _ _ rfl (hz _) (ht _ (by simp [boardTimes])).1 (ht _ (by simp [boardTimes])).2
  case vTime => exact dates_of _ _ _ _ rfl (hz _) (ht _ (by simp [boardTimes])).1 (ht _ (by simp [boardTimes])).2
  case permReload => exact dates_of _ _ _ _ rfl (hz _) (ht _ (by simp [boardTimes])).1 (ht _ (by simp [boardTimes])).2
  case endGamble => exact dates_of _ _ _ _ rfl (hz _) (ht _ (by simp [boardTimes])).1 (ht _ (by simp [boardTimes])).2
  case srExpire => exact dates_of _ _ _ _ rfl (hz _) (ht _ (by simp [boardTimes])).1 (ht _ (by simp [boardTimes])).2
  all_goals rfl

theorem allJson_map (zone : Int → Int) (l : List BoardHeader) (P : BoardHeader → Json → Prop)
    (h : ∀ b ∈ l, ∃ j, b.json zone = some j ∧ P b j.clean) :
    ∃ js, allJson (l.map (BoardHeader.json zone)) = some js ∧ (cleanItems js).length = l.length ∧
      ∀ i (hi : i < l.length) (hj : i < (cleanItems js).length), P l[i] (cleanItems js)[i] := by
  induction l with
  | nil => exact ⟨[], rfl, rfl, fun i hi => absurd hi (by simp)⟩
  | cons b l ih =>
    obtain ⟨j, hj, hp⟩ := h b (by simp)
    obtain ⟨js, e, hl, hq⟩ := ih (fun x hx => h x (by simp [hx]))
    refine ⟨j :: js, ?_, ?_, ?_⟩
    · simp only [List.map_cons, allJson, hj, e, Option.bind_eq_bind, Option.bind_some]
    · simp only [cleanItems, List.length_cons, hl]
    · intro i hi hk
      cases i with
      | zero => exact hp
      | succ i => exact hq i (by simpa using hi) (by simpa [cleanItems] using hk)

/-- **C104.** The list of boards, as a client reads it: one object per board, in the order of the file. -/
theorem C104_boards (zone : Int → Int) (l : List BoardHeader) (hz : ∀ t, (zone t).natAbs < 86400)
    (ht : ∀ b ∈ l, ∀ t ∈ boardTimes b, 0 ≤ t ∧ t < 4294967296) :
    ∃ js, readJson ((Response.boards l).body zone) = some (.obj [(ascii "data", .arr js)]) ∧ js.length = l.length ∧
      ∀ i (hi : i < l.length) (hj : i < js.length), TellsBoard zone l[i] js[i] := by
  obtain ⟨js, e, hl, hq⟩ := allJson_map zone l (TellsBoard zone) (fun b hb => board_read zone b hz (ht b hb))
  refine ⟨cleanItems js, ?_, hl, hq⟩
  have hv : (Response.boards l).value zone = some (.obj [(ascii "data", .arr js)]) := by
    simp only [Response.value, e, Option.bind_eq_bind, Option.bind_some]
  rw [(C104_read_back zone _ _ hv).2]
  simp only [Json.clean, cleanFields, cleaned_name (s := ascii "data") (by decide)]

/-- **C104.** The remaining bodies, as a client reads them. -/
theorem C104_errors (zone : Int → Int) (e : String) (t i : Bytes) :
    readJson ((Response.grantError e).body zone) =
      some (.obj [(ascii "error", .str (ascii "grant_error")), (ascii "error_description", .str (cleaned (ascii e)))]) ∧
    readJson ((Response.accessToken t).body zone) =
      some (.obj [(ascii "access_token", .str (cleaned t)), (ascii "token_type", .str (ascii "bearer"))]) ∧
    readJson ((Response.userError i).body zone) = some (.obj [(ascii "error", .str (ascii "find_userrec_error")),
      (ascii "error_description", .str (cleaned (ascii "get userrec for " ++ i ++ ascii " failed")))]) := by
  refine ⟨?_, ?_, ?_⟩
  · rw [(C104_read_back zone (.grantError e) _ rfl).2]
    simp only [Json.clean, cleanFields, cleaned_name (s := ascii "error") (by decide), cleaned_name (s := ascii "grant_error") (by decide),
      cleaned_name (s := ascii "error_description") (by decide)]
  · rw [(C104_read_back zone (.accessToken t) _ rfl).2]
    simp only [Json.clean, cleanFields, cleaned_name (s := ascii "access_token") (by decide), cleaned_name (s := ascii "token_type") (by decide),
      cleaned_name (s := ascii "bearer") (by decide)]
  · rw [(C104_read_back zone (.userError i) _ rfl).2]
    simp only [Json.clean, cleanFields, cleaned_name (s := ascii "error") (by decide),
      cleaned_name (s := ascii "find_userrec_error") (by decide), cleaned_name (s := ascii "error_description") (by decide)]

/-! ### Answers from records read from disk -/

theorem timeOfU32_bound (u : UInt32) : 0 ≤ timeOfU32 u ∧ timeOfU32 u < 4294967296 := by
  have := u.toNat_lt
  unfold timeOfU32
  omega

/-- The times of a board read from disk can be written. -/
theorem boardTimes_parse (c : Codec) (d : Bytes) : ∀ t ∈ boardTimes (BoardHeader.parse c d), 0 ≤ t ∧ t < 4294967296 := by
  intro t ht
  simp only [boardTimes, BoardHeader.parse, List.mem_cons, List.not_mem_nil, or_false] at ht
  rcases ht with rfl | rfl | rfl | rfl | rfl <;> exact timeOfU32_bound _

theorem cleaned_dec (T : Big5Tables) (s : Bytes) : cleaned (T.dec s) = T.dec s := cleaned_of_isText (C95_decoded_utf8 T s)

/-- **C104.** The list of boards read from disk is always written, and names and article types come out as decoded. -/
theorem C104_loaded_boards (T : Big5Tables) (zone : Int → Int) (hz : ∀ t, (zone t).natAbs < 86400) (sign : Claims → Bytes)
    (us : List Userec) (ds : List Bytes) (auth n p : Bytes) :
    ∃ r js, serve sign ⟨us, ds.map (BoardHeader.parse (big5Codec T))⟩ ⟨ascii "GET", ascii "/v1/boards", auth, n, p⟩ = .ok r ∧
      readJson (r.body zone) = some (.obj [(ascii "data", .arr js)]) ∧ js.length = ds.length ∧
      ∀ i (hi : i < ds.length) (hj : i < js.length), TellsBoard zone (BoardHeader.parse (big5Codec T) ds[i]) js[i] ∧
        says js[i] "BrdName" (BoardHeader.parse (big5Codec T) ds[i]).brdName ∧
        says js[i] "PostType" (BoardHeader.parse (big5Codec T) ds[i]).postType ∧
        says js[i] "PostTypeF" (BoardHeader.parse (big5Codec T) ds[i]).postTypeF := by
  have hs : serve sign ⟨us, ds.map (BoardHeader.parse (big5Codec T))⟩ ⟨ascii "GET", ascii "/v1/boards", auth, n, p⟩ =
      .ok (.boards (ds.map (BoardHeader.parse (big5Codec T)))) := by
    have e1 : cleanPath (ascii "/v1/boards") = ascii "/v1/boards" := by decide
    have e2 : muxWantsSlash (ascii "/v1/boards") = false := by decide
    have e3 : muxMatch (ascii "/v1/boards") = some .boards := by decide
    unfold serve
    dsimp only
    rw [if_neg (by decide), if_neg (by decide), e1, e2, if_neg (by decide), if_neg (by simp), e3]
    show routeBoards _ _ = _
    unfold routeBoards
    rw [if_pos rfl]
  obtain ⟨js, h1, h2, h3⟩ := C104_boards zone (ds.map (BoardHeader.parse (big5Codec T))) hz (by
    intro b hb
    obtain ⟨d, _, rfl⟩ := List.mem_map.mp hb
    exact boardTimes_parse _ d)
  refine ⟨_, js, hs, h1, by simpa using h2, ?_⟩
  intro i hi hj
  have h := h3 i (by simpa using hi) hj
  rw [List.getElem_map] at h
  refine ⟨h, ?_, ?_, ?_⟩
  · have := h.brdName
    rwa [show (BoardHeader.parse (big5Codec T) ds[i]).brdName = T.dec _ from rfl, cleaned_dec] at this
  · have := h.postType
    rwa [show (BoardHeader.parse (big5Codec T) ds[i]).postType = T.dec _ from rfl, cleaned_dec] at this
  · have := h.postTypeF
    rwa [show (BoardHeader.parse (big5Codec T) ds[i]).postTypeF = T.dec _ from rfl, cleaned_dec] at this

/-- An object says of a record what the record says. -/
structure Spec.TellsRecord (zone : Int → Int) (u : Userec) (j : Json) : Prop where
  userID : says j "user_id" u.userID
  nickname : says j "nickname" u.nickname
  realname : says j "realname" u.realName
  days : says j "number_of_login_days" (dec u.numLoginDays.toNat)
  posts : says j "number_of_posts" (dec u.numPosts.toNat)
  money : says j "money" (decInt u.money.toInt)
  time : dates zone j "last_login_time" u.lastLogin
  ip : says j "last_login_ip" u.lastHost

/-- The full claim of C104 for a user: a client reads what the record on disk says. -/
def Spec.C104 (T : Big5Tables) : Prop := ∀ (zone : Int → Int) (d : Bytes), (∀ t, (zone t).natAbs < 86400) → d.length = 512 →
  ∃ j, readJson ((Response.userInfo (Userec.parse (big5Codec T) d).userData).body zone) = some (.obj [(ascii "data", j)]) ∧
    TellsRecord zone (Userec.parse (big5Codec T) d) j

/-- **C104, the part that holds**: a client reads what the record says if its name and its address are text. (Missing for the full
claim: a name or address that is not, which is neither decoded from Big5 nor refused.) -/
theorem C104_record_partial (T : Big5Tables) (zone : Int → Int) (d : Bytes) (hz : ∀ t, (zone t).natAbs < 86400)
    (hi : IsText (Userec.parse (big5Codec T) d).userID) (hh : IsText (Userec.parse (big5Codec T) d).lastHost) :
    ∃ j, readJson ((Response.userInfo (Userec.parse (big5Codec T) d).userData).body zone) = some (.obj [(ascii "data", j)]) ∧
      TellsRecord zone (Userec.parse (big5Codec T) d) j := by
  have hb : 0 ≤ (Userec.parse (big5Codec T) d).lastLogin ∧ (Userec.parse (big5Codec T) d).lastLogin < 4294967296 := timeOfU32_bound _
  have hn : cleaned (Userec.parse (big5Codec T) d).nickname = (Userec.parse (big5Codec T) d).nickname := cleaned_dec T _
  have hr : cleaned (Userec.parse (big5Codec T) d).realName = (Userec.parse (big5Codec T) d).realName := cleaned_dec T _
  obtain ⟨u, hu⟩ : ∃ u, u = Userec.parse (big5Codec T) d := ⟨_, rfl⟩
  rw [← hu] at hi hh hb hn hr ⊢
  obtain ⟨j, h1, h2⟩ := C104_user zone u.userData hz hb.1 hb.2
  refine ⟨j, h1, ?_⟩
  constructor
  · have := h2.userID; rwa [show u.userData.userID = u.userID from rfl, cleaned_of_isText hi] at this
  · have := h2.nickname; rwa [show u.userData.nickname = u.nickname from rfl, hn] at this
  · have := h2.realname; rwa [show u.userData.realname = u.realName from rfl, hr] at this
  · have := h2.days; rwa [show u.userData.numberOfLoginDays = dec u.numLoginDays.toNat from rfl, cleaned_of_isText (isText_dec _)] at this
  · have := h2.posts; rwa [show u.userData.numberOfPosts = dec u.numPosts.toNat from rfl, cleaned_of_isText (isText_dec _)] at this
  · have := h2.money; rwa [show u.userData.money = decInt u.money.toInt from rfl, cleaned_of_isText (isText_decInt _)] at this
  · exact h2.time
  · have := h2.ip; rwa [show u.userData.lastLoginIP = u.lastHost from rfl, cleaned_of_isText hh] at this

/-- A record whose name is the first half of a Big5 character. -/
def Spec.halfName : Bytes := zeros 4 ++ 0xA4 :: zeros 507

theorem halfName_userID (c : Codec) : (Userec.parse c halfName).userID = [0xA4] := by
  show cstrToString (slice (zeros 4 ++ 0xA4 :: zeros 507) 4 17) = [0xA4]
  have : slice (zeros 4 ++ 0xA4 :: zeros 507) 4 17 = 0xA4 :: zeros 12 := by
    unfold slice zeros
    rfl
  rw [this]
  decide

/-- **C104 is false of the code** as it stands: a name that is no UTF-8 is written as U+FFFD. -/
theorem C104_record_refuted (T : Big5Tables) : ¬ Spec.C104 T := by
  intro h
  obtain ⟨j, h1, h2⟩ := h (fun _ => 0) halfName (fun _ => by decide) (by rw [halfName, List.length_append, List.length_cons, zeros, zeros, List.length_replicate, List.length_replicate])
  obtain ⟨u, hu⟩ : ∃ u, u = Userec.parse (big5Codec T) halfName := ⟨_, rfl⟩
  have hid : u.userID = [0xA4] := by rw [hu]; exact halfName_userID _
  have hb : 0 ≤ u.lastLogin ∧ u.lastLogin < 4294967296 := by rw [hu]; exact timeOfU32_bound _
  rw [← hu] at h1 h2
  obtain ⟨j', h3, h4⟩ := C104_user (fun _ => 0) u.userData (fun _ => by decide) hb.1 hb.2
  rw [h1] at h3
  injection h3 with h3
  injection h3 with h3
  have h3 : j = j' := by injection h3 with h3 _; injection h3
  subst h3
  have a := h2.userID
  have b := h4.userID
  unfold says at a b
  rw [a] at b
  rw [show u.userData.userID = u.userID from rfl, hid] at b
  injection b with b
  injection b with b
  exact absurd b (by decide)

/-- An ordinary name, an address, and a name in Big5. -/
example : IsText (ascii "SYSOP") ∧ IsText (ascii "140.112.30.32") ∧ ¬ cleaned [0xA4, 0xA4] = [0xA4, 0xA4] ∧
    (Response.userError [0x3C, 0xA4]).body (fun _ => 0) = ascii
      "{\n  \"error\": \"find_userrec_error\",\n  \"error_description\": \"get userrec for \\u003c\\ufffd failed\"\n}" :=
  ⟨isText_ascii _ (by decide), isText_ascii _ (by decide), by decide, by decide +kernel⟩

/-! ## C105: titles and moderators -/

/-- The board without its title and its moderators. -/
def Spec.anonymous (b : BoardHeader) : BoardHeader := { b with title := [], bm := [] }

/-- The full claim of C105: the title of each board can be told from the list. -/
def Spec.C105_title : Prop := ∀ (zone : Int → Int) (l l' : List BoardHeader),
  (Response.boards l).body zone = (Response.boards l').body zone → l.map (·.title) = l'.map (·.title)

/-- Likewise the moderators. -/
def Spec.C105_moderators : Prop := ∀ (zone : Int → Int) (l l' : List BoardHeader),
  (Response.boards l).body zone = (Response.boards l').body zone → l.map (·.bm) = l'.map (·.bm)

/-- **C105**: the list of boards does not depend on titles and moderators. -/
theorem C105_hidden (zone : Int → Int) (l : List BoardHeader) :
    (Response.boards (l.map anonymous)).body zone = (Response.boards l).body zone := by
  have : (Response.boards (l.map anonymous)).value zone = (Response.boards l).value zone := by
    simp only [Response.value, List.map_map]
    rfl
  unfold Response.body
  rw [this]

/-- **C105 is false of the code**: titles are not shown. -/
theorem C105_title_refuted : ¬ Spec.C105_title := by
  intro h
  have := h (fun _ => 0) ([{ BoardHeader.zero with title := [65] }].map anonymous) [{ BoardHeader.zero with title := [65] }] (C105_hidden _ _)
  exact absurd this (by decide)

/-- **C105 is false of the code**: moderators are not shown. -/
theorem C105_moderators_refuted : ¬ Spec.C105_moderators := by
  intro h
  have := h (fun _ => 0) ([{ BoardHeader.zero with bm := [65] }].map anonymous) [{ BoardHeader.zero with bm := [65] }] (C105_hidden _ _)
  exact absurd this (by decide)

theorem map_inj {α β : Type} {f : α → β} (hf : ∀ a b, f a = f b → a = b) {l l' : List α} (h : l.map f = l'.map f) : l = l' := by
  induction l generalizing l' with
  | nil => cases l' with
    | nil => rfl
    | cons => simp at h
  | cons a l ih =>
    cases l' with
    | nil => simp at h
    | cons b l' =>
      simp only [List.map_cons, List.cons.injEq] at h
      rw [hf _ _ h.1, ih h.2]

/-- Everything but title, moderators and times, as far as it is text. -/
structure Spec.SameShown (b b' : BoardHeader) : Prop where
  brdName : cleaned b.brdName = cleaned b'.brdName
  brdattr : b.brdattr = b'.brdattr
  chessCountry : cleaned b.chessCountry = cleaned b'.chessCountry
  voteLimitPosts : b.voteLimitPosts = b'.voteLimitPosts
  voteLimitLogins : b.voteLimitLogins = b'.voteLimitLogins
  postLimitPosts : b.postLimitPosts = b'.postLimitPosts
  postLimitLogins : b.postLimitLogins = b'.postLimitLogins
  bVote : b.bVote = b'.bVote
  level : b.level = b'.level
  gid : b.gid = b'.gid
  next : b.next = b'.next
  firstChild : b.firstChild = b'.firstChild
  parent : b.parent = b'.parent
  childCount : b.childCount = b'.childCount
  nuser : b.nuser = b'.nuser
  postExpire : b.postExpire = b'.postExpire
  postType : cleaned b.postType = cleaned b'.postType
  postTypeF : cleaned b.postTypeF = cleaned b'.postTypeF
  fastRecommendPause : b.fastRecommendPause = b'.fastRecommendPause
  voteLimitBadPost : b.voteLimitBadPost = b'.voteLimitBadPost
  postLimitBadPost : b.postLimitBadPost = b'.postLimitBadPost

/-- **C105, the part that holds**: everything else is shown; lists that look the same agree, board by board, in every number and
in every text (times: C106). (Missing for the full claim: title and moderators.) -/
theorem C105_shown_partial (zone : Int → Int) (l l' : List BoardHeader) (hz : ∀ t, (zone t).natAbs < 86400)
    (ht : ∀ b ∈ l, ∀ t ∈ boardTimes b, 0 ≤ t ∧ t < 4294967296) (ht' : ∀ b ∈ l', ∀ t ∈ boardTimes b, 0 ≤ t ∧ t < 4294967296)
    (h : (Response.boards l).body zone = (Response.boards l').body zone) : l.length = l'.length ∧
    ∀ i (hi : i < l.length) (hj : i < l'.length), SameShown l[i] l'[i] := by
  obtain ⟨js, a1, a2, a3⟩ := C104_boards zone l hz ht
  obtain ⟨js', b1, b2, b3⟩ := C104_boards zone l' hz ht'
  rw [h, b1] at a1
  have e : js' = js := by
    injection a1 with a1; injection a1 with a1; injection a1 with a1 _; injection a1 with _ a1; injection a1
  subst e
  refine ⟨by omega, ?_⟩
  intro i hi hj
  have p := a3 i hi (by omega)
  have q := b3 i hj (by omega)
  have str : ∀ {k s t}, says js'[i] k s → says js'[i] k t → s = t := by
    intro k s t h1 h2
    unfold says at h1 h2
    rw [h1] at h2
    injection h2 with h2
    injection h2
  have num : ∀ {k s t}, counts js'[i] k s → counts js'[i] k t → s = t := by
    intro k s t h1 h2
    unfold counts at h1 h2
    rw [h1] at h2
    injection h2 with h2
    injection h2
  have nums : ∀ {k} {s t : List Int32}, lists js'[i] k (s.map Int32.toInt) → lists js'[i] k (t.map Int32.toInt) → s = t := by
    intro k s t h1 h2
    unfold lists at h1 h2
    rw [h1] at h2
    injection h2 with h2
    have inj : s.map Int32.toInt = t.map Int32.toInt := by
      split at h2
      · split at h2
        · rename_i h3 h4; rw [h3, h4]
        · cases h2
      · split at h2
        · cases h2
        · injection h2 with h2
          exact map_inj (fun a b h => by injection h) h2
    exact map_inj (fun a b h => Int32.toInt_inj.mp h) inj
  exact {
    brdName := str p.brdName q.brdName
    brdattr := UInt32.toNat_inj.mp (by have := num p.brdattr q.brdattr; omega)
    chessCountry := str p.chessCountry q.chessCountry
    voteLimitPosts := UInt8.toNat_inj.mp (by have := num p.voteLimitPosts q.voteLimitPosts; omega)
    voteLimitLogins := UInt8.toNat_inj.mp (by have := num p.voteLimitLogins q.voteLimitLogins; omega)
    postLimitPosts := UInt8.toNat_inj.mp (by have := num p.postLimitPosts q.postLimitPosts; omega)
    postLimitLogins := UInt8.toNat_inj.mp (by have := num p.postLimitLogins q.postLimitLogins; omega)
    bVote := UInt8.toNat_inj.mp (by have := num p.bVote q.bVote; omega)
    level := UInt32.toNat_inj.mp (by have := num p.level q.level; omega)
    gid := Int32.toInt_inj.mp (num p.gid q.gid)
    next := nums p.next q.next
    firstChild := nums p.firstChild q.firstChild
    parent := Int32.toInt_inj.mp (num p.parent q.parent)
    childCount := Int32.toInt_inj.mp (num p.childCount q.childCount)
    nuser := Int32.toInt_inj.mp (num p.nuser q.nuser)
    postExpire := Int32.toInt_inj.mp (num p.postExpire q.postExpire)
    postType := str p.postType q.postType
    postTypeF := str p.postTypeF q.postTypeF
    fastRecommendPause := UInt8.toNat_inj.mp (by have := num p.fastRecommendPause q.fastRecommendPause; omega)
    voteLimitBadPost := UInt8.toNat_inj.mp (by have := num p.voteLimitBadPost q.voteLimitBadPost; omega)
    postLimitBadPost := UInt8.toNat_inj.mp (by have := num p.postLimitBadPost q.postLimitBadPost; omega)
  }

/-- Two boards loaded from disk that look the same in the list. -/
example : (∀ t ∈ boardTimes (BoardHeader.parse asciiCodec (zeros 256)), 0 ≤ t ∧ t < 4294967296) ∧
    (Response.boards [BoardHeader.parse asciiCodec (zeros 256)]).body (fun _ => 28800) =
      (Response.boards [{ BoardHeader.parse asciiCodec (zeros 256) with title := ascii "PTT" }]).body (fun _ => 28800) :=
  ⟨boardTimes_parse _ _, rfl⟩

/-! ## C107: status codes -/

/-- The answer carries what was asked for. -/
def Spec.Served : Response → Prop
  | .accessToken _ | .boards _ | .userInfo _ => True
  | _ => False

/-- The full claim of C107: status 200 means that the request was served. -/
def Spec.C107 : Prop := ∀ (sign : Claims → Bytes) (st : ServerState) (r : Request) (x : Response),
  serve sign st r = .ok x → x.status = 200 → Served x

/-- **C107, exactly**: an answer has status 200 if it was served, if it is a refused login, or if it is empty (the method is not
the one expected). -/
theorem C107_exact (x : Response) : x.status = 200 ↔ Served x ∨ (∃ e, x = .grantError e) ∨ x = .empty := by
  cases x <;> simp [Response.status, Served]

/-- **C107, the part that holds**: what was asked for comes with status 200. (Missing for the full claim: the converse.) -/
theorem C107_served_partial (x : Response) (h : Served x) : x.status = 200 := (C107_exact x).2 (Or.inl h)

/-- **C107 is false of the code**: a refused login is answered with status 200. -/
theorem C107_login_refuted : ¬ Spec.C107 := by
  intro h
  have e := serve_token (fun _ => []) ⟨[], []⟩ ⟨ascii "POST", ascii "/v1/token", [], ascii "guest", []⟩ rfl rfl
  rcases postToken_cases (fun _ => []) ⟨[], []⟩ ⟨ascii "POST", ascii "/v1/token", [], ascii "guest", []⟩ with ⟨u, hu, _⟩ | h2
  · exact absurd hu.mem.1 (by simp)
  · rw [h2.2] at e
    exact h _ _ _ _ e rfl

/-- **C107 is false of the code**: so is any other method than the one expected, with nothing in the body. -/
theorem C107_method_refuted : ¬ Spec.C107 := by
  intro h
  exact h (fun _ => []) ⟨[], []⟩ ⟨ascii "DELETE", ascii "/v1/boards", [], [], []⟩ .empty (by decide) rfl

/-- **C107.** Nobody is ever answered "unauthorized". -/
theorem C107_never_unauthorized (sign : Claims → Bytes) (st : ServerState) (r : Request) (x : Response) (h : serve sign st r = .ok x) :
    x.status ≠ 401 := by
  have key : x ≠ .unauthorized → x.status ≠ 401 := by cases x <;> simp [Response.status]
  refine key ?_
  rintro rfl
  rcases serve_cases' r with ⟨x, hx, e⟩ | e
  · rw [e] at h
    injection h with h
    subst h
    rcases hx with hx | ⟨p, hx⟩ <;> cases hx
  · rw [e] at h
    cases hr : muxMatch r.path with
    | none => rw [hr] at h; cases h
    | some k =>
      rw [hr] at h
      cases k with
      | token =>
        change routeToken sign st r = _ at h
        unfold routeToken at h
        split at h
        · rcases postToken_cases sign st r with ⟨u, _, h1 | h1 | h1⟩ | h1
          · rw [h1.2] at h; cases h
          · rw [h1.2.2] at h; cases h
          · rw [h1.2.2] at h; cases h
          · rw [h1.2] at h; cases h
        · cases h
      | boards =>
        change routeBoards st r = _ at h
        unfold routeBoards at h
        split at h <;> cases h
      | classes =>
        change routeClasses r = _ at h
        unfold routeClasses at h
        split at h <;> cases h
      | users =>
        change routeUsers st r = _ at h
        unfold routeUsers getUsers getUserInformation checkTokenPermission at h
        split at h
        · cases hq : parseUserPath r.path with
          | ok q =>
            rw [hq, Res.ok_bind] at h
            simp only at h
            split at h
            · split at h <;> cases h
            · split at h <;> cases h
          | err _ => rw [hq] at h; cases h
          | panic => rw [hq] at h; cases h
          | diverge => rw [hq] at h; cases h
        · cases h

/-- **C107.** The information of a user who does not exist is answered with status 500. -/
theorem C107_unknown_user (sign : Claims → Bytes) (st : ServerState) (i auth n p : Bytes) (hi : Spec.PlainSegment i)
    (hu : ∀ u ∈ st.userRecs, u.userID ≠ i) :
    ∃ x, serve sign st ⟨ascii "GET", ascii "/v1/users/" ++ i ++ slash :: ascii "information", auth, n, p⟩ = .ok x ∧ x.status = 500 := by
  refine ⟨.userError i, ?_, rfl⟩
  rw [serve_information _ _ _ _ _ _ hi]
  unfold getUserInformation checkTokenPermission
  simp only
  rw [(findUserecByID_err _ _).2 hu]

example : Spec.PlainSegment (ascii "guest") ∧ Served (.boards []) ∧ ∀ x : Response, x.status = 401 ↔ x = .unauthorized :=
  ⟨⟨by decide, by decide, by decide, by decide⟩, trivial, fun x => by cases x <;> simp [Response.status]⟩

/-- **C107.** What is not there is answered with status 404: a path that belongs to none of the four routes, and an item of a user other than the two. -/
theorem C107_not_found (sign : Claims → Bytes) (st : ServerState) (r : Request) (segs : List Bytes) (tr : Bool) (hm : r.method ≠ ascii "CONNECT")
    (h : ∀ s ∈ segs, Spec.PlainSegment s) (hp : r.path = Spec.render segs tr)
    (hn : (¬ (segs = [ascii "v1", ascii "token"] ∧ tr = false) ∧ ¬ (segs = [ascii "v1", ascii "boards"] ∧ tr = false) ∧
        segs.take 2 ≠ [ascii "v1", ascii "classes"] ∧ segs.take 2 ≠ [ascii "v1", ascii "users"]) ∨
      (r.method = ascii "GET" ∧ (tr = true ∨ 2 < segs.length) ∧ segs.take 2 = [ascii "v1", ascii "users"] ∧
        segs[3]? ≠ some (ascii "information") ∧ segs[3]? ≠ some (ascii "favorites"))) :
    ∃ x, serve sign st r = .ok x ∧ x.status = 404 := by
  rcases hn with ⟨h1, h2, h3, h4⟩ | ⟨hg, hl, ht, h1, h2⟩
  · exact ⟨_, C63_nowhere sign st r segs tr hm h hp h1 h2 h3 h4, rfl⟩
  · match segs, ht with
    | a :: b :: rest, ht =>
      have ht : [a, b] = [ascii "v1", ascii "users"] := ht
      injection ht with e1 e2
      injection e2 with e2 _
      subst e1 e2
      refine ⟨_, (C63_users sign st r rest tr hg (fun s hs => h s (List.mem_cons_of_mem _ (List.mem_cons_of_mem _ hs))) ?_ hp).2.2.2 h1 h2, rfl⟩
      rcases hl with hl | hl
      · exact Or.inl hl
      · refine Or.inr ?_
        rintro rfl
        exact absurd hl (by decide)

/-- **C107.** What is not implemented is answered with status 501: reading classes, and the favourites of a user. -/
theorem C107_not_implemented (sign : Claims → Bytes) (st : ServerState) (r : Request) (rest : List Bytes) (tr : Bool) (hm : r.method = ascii "GET")
    (h : ∀ s ∈ rest, Spec.PlainSegment s) (hr : tr = true ∨ rest ≠ [])
    (hp : r.path = Spec.render (ascii "v1" :: ascii "classes" :: rest) tr ∨
      (r.path = Spec.render (ascii "v1" :: ascii "users" :: rest) tr ∧ rest[1]? = some (ascii "favorites"))) :
    ∃ x, serve sign st r = .ok x ∧ x.status = 501 := by
  rcases hp with hp | ⟨hp, hf⟩
  · exact ⟨_, (C63_classes sign st r rest tr (by rw [hm]; decide) h hr hp).1 hm, rfl⟩
  · exact ⟨_, (C63_users sign st r rest tr hm h hr hp).2.2.1 hf, rfl⟩

/-- **C107.** A path that is not spelled the canonical way is answered with status 301. -/
theorem C107_moved (sign : Claims → Bytes) (st : ServerState) (r : Request) (hm : r.method ≠ ascii "CONNECT") (hstar : r.path ≠ ascii "*")
    (hp : r.path ≠ Spec.render (resolve [] r.path) (r.path.getLast? = some slash)) : ∃ x, serve sign st r = .ok x ∧ x.status = 301 := by
  obtain ⟨tr, h⟩ := (C63_redirect sign st r hm hstar).2 hp
  exact ⟨_, h, rfl⟩

/-- **C107.** A request for `*` is answered with status 400. -/
theorem C107_bad (sign : Claims → Bytes) (st : ServerState) (r : Request) (hp : r.path = ascii "*") : ∃ x, serve sign st r = .ok x ∧ x.status = 400 := by
  refine ⟨.badRequest, ?_, rfl⟩
  unfold serve
  rw [if_pos hp]

example : (∀ s ∈ [ascii "v1", ascii "users", ascii "guest", ascii "articles"], Spec.PlainSegment s) ∧
    ascii "/v1/users/guest/articles" = Spec.render [ascii "v1", ascii "users", ascii "guest", ascii "articles"] false ∧
    ascii "/v1//boards" ≠ Spec.render (resolve [] (ascii "/v1//boards")) ((ascii "/v1//boards").getLast? = some slash) := by
  refine ⟨fun s hs => ?_, by decide, by decide⟩
  simp only [List.mem_cons, List.not_mem_nil, or_false] at hs
  rcases hs with rfl | rfl | rfl | rfl <;> exact ⟨by decide, by decide, by decide, by decide⟩

end Verif
