import Verif.Model.Server
import Verif.Props.Crypt
import Verif.Props.Flags
/-!
# The HTTP service (C54–C56, C59–C61)
-/

namespace Verif

/-! ## Routing -/

/-- The router either answers itself, from method and path alone, or calls the handler for the path as received. -/
theorem serve_cases (r : Request) :
    (∃ x, (x = .badRequest ∨ ∃ p, x = .redirect p) ∧ ∀ sign st a u p,
      serve sign st { r with auth := a, username := u, password := p } = .ok x) ∨
    (∀ sign st a u p, serve sign st { r with auth := a, username := u, password := p } =
      runRoute sign st { r with auth := a, username := u, password := p } (muxMatch r.path)) := by
  unfold serve
  by_cases h1 : r.path = ascii "*"
  · exact Or.inl ⟨.badRequest, Or.inl rfl, fun _ _ _ _ _ => if_pos h1⟩
  · by_cases h2 : r.method = ascii "CONNECT"
    · by_cases h3 : muxWantsSlash r.path = true
      · exact Or.inl ⟨.redirect (r.path ++ [slash]), Or.inr ⟨_, rfl⟩, fun _ _ _ _ _ => by rw [if_neg h1, if_pos h2, if_pos h3]⟩
      · exact Or.inr fun _ _ _ _ _ => by rw [if_neg h1, if_pos h2, if_neg h3]
    · by_cases h3 : muxWantsSlash (cleanPath r.path) = true
      · exact Or.inl ⟨.redirect (cleanPath r.path ++ [slash]), Or.inr ⟨_, rfl⟩, fun _ _ _ _ _ => by
          rw [if_neg h1, if_neg h2]; exact if_pos h3⟩
      · by_cases h4 : cleanPath r.path ≠ r.path
        · exact Or.inl ⟨.redirect (cleanPath r.path), Or.inr ⟨_, rfl⟩, fun _ _ _ _ _ => by
            rw [if_neg h1, if_neg h2]
            show (if _ then _ else if _ then _ else _) = _
            rw [if_neg h3, if_pos h4]⟩
        · refine Or.inr fun _ _ _ _ _ => ?_
          rw [if_neg h1, if_neg h2]
          show (if _ then _ else if _ then _ else _) = _
          rw [if_neg h3, if_neg h4]
          rw [Decidable.not_not.mp h4]

/-- The same for the request itself. -/
theorem serve_cases' (r : Request) : (∃ x, (x = .badRequest ∨ ∃ p, x = .redirect p) ∧ ∀ sign st, serve sign st r = .ok x) ∨
    (∀ sign st, serve sign st r = runRoute sign st r (muxMatch r.path)) := by
  rcases serve_cases r with ⟨x, hx, h⟩ | h
  · exact Or.inl ⟨x, hx, fun sign st => h sign st r.auth r.username r.password⟩
  · exact Or.inr fun sign st => h sign st r.auth r.username r.password

theorem muxMatch_token {p : Bytes} (h : muxMatch p = some .token) : p = ascii "/v1/token" := by
  unfold muxMatch at h
  split at h
  · assumption
  · split at h
    · cases h
    · split at h
      · cases h
      · split at h <;> cases h

theorem muxMatch_users {p : Bytes} (h : muxMatch p = some .users) : ∃ t, p = ascii "/v1/users/" ++ t := by
  unfold muxMatch at h
  split at h
  · cases h
  · split at h
    · cases h
    · split at h
      · cases h
      · split at h
        · rename_i h4
          rw [List.isPrefixOf_iff_prefix] at h4
          obtain ⟨t, ht⟩ := h4
          exact ⟨t, ht.symm⟩
        · cases h

/-- The token endpoint. -/
theorem serve_token (sign : Claims → Bytes) (st : ServerState) (r : Request) (h : r.path = ascii "/v1/token")
    (hm : r.method = ascii "POST") : serve sign st r = postToken sign st r := by
  have e1 : cleanPath (ascii "/v1/token") = ascii "/v1/token" := by decide
  unfold serve
  rw [h, if_neg (by decide), hm, if_neg (by decide)]
  simp only [e1]
  rw [if_neg (by decide), if_neg (by decide)]
  show routeToken sign st r = _
  unfold routeToken
  rw [if_pos hm]

/-! ## C54 -/

/-- The stored hash of the record accepts the password. -/
def Spec.Accepts (u : Userec) (password : Bytes) : Prop := fcrypt password (u.password.take 2) = .ok (u.password ++ [0])

theorem verifyPassword_ok (u : Userec) (p : Bytes) : u.verifyPassword p = .ok () ↔ Spec.Accepts u p := C44_iff u.password p

theorem asciiSalt_of_take {s : Bytes} (h : Spec.AsciiSalt (s.take 2)) : Spec.AsciiSalt s := by
  obtain ⟨s0, s1, t, e, h0, h1⟩ := h
  match s, e with
  | a :: b :: l, e =>
    simp at e
    exact ⟨s0, s1, l, by rw [e.1, e.2.1], h0, h1⟩

theorem postToken_cases (sign : Claims → Bytes) (st : ServerState) (r : Request) :
    (∃ u, Spec.FirstWithID st.userRecs r.username u ∧
      ((Spec.Accepts u r.password ∧ postToken sign st r = .ok (.accessToken (sign ⟨1800, r.username⟩))) ∨
       (Spec.AsciiSalt u.password ∧ ¬ Spec.Accepts u r.password ∧ postToken sign st r = .ok (.grantError "password incorrect")) ∨
       (¬ Spec.AsciiSalt u.password ∧ ¬ Spec.Accepts u r.password ∧ postToken sign st r = .panic))) ∨
    ((∀ x ∈ st.userRecs, x.userID ≠ r.username) ∧ postToken sign st r = .ok (.grantError "user record not found")) := by
  unfold postToken
  rcases findUserecByID_cases st.userRecs r.username with ⟨u, hu⟩ | he
  · left
    refine ⟨u, (findUserecByID_ok _ _ _).1 hu, ?_⟩
    rw [hu]
    by_cases ha : Spec.Accepts u r.password
    · left
      simp only [(verifyPassword_ok u r.password).2 ha]
      exact ⟨ha, rfl⟩
    · right
      by_cases hs : Spec.AsciiSalt u.password
      · left
        have := (C44_exact u.password r.password hs).2 ha
        refine ⟨hs, ha, ?_⟩
        have e : u.verifyPassword r.password = .err "password incorrect" := this
        simp only [e]
      · right
        refine ⟨hs, ha, ?_⟩
        have h1 := (C46_exact u.password r.password).2 hs
        have e : u.verifyPassword r.password = verifyHash u.password r.password := rfl
        cases hv : verifyHash u.password r.password with
        | ok x => rw [hv] at h1; exact absurd trivial h1
        | err x => rw [hv] at h1; exact absurd trivial h1
        | panic => simp only [e, hv]
        | diverge =>
          exfalso
          unfold verifyHash at hv
          split at hv
          · cases hv
          · rename_i hl
            rw [fcrypt_panic _ _ (fun h => hs (asciiSalt_of_take h))] at hv
            cases hv
  · right
    refine ⟨(findUserecByID_err _ _).1 he, ?_⟩
    rw [he]

theorem Spec.FirstWithID.unique {recs : List Userec} {i : Bytes} {u v : Userec} (h : Spec.FirstWithID recs i u)
    (h' : Spec.FirstWithID recs i v) : u = v := by
  have a := (findUserecByID_ok recs i u).2 h
  rw [(findUserecByID_ok recs i v).2 h'] at a
  exact (Res.ok.inj a).symm

theorem Spec.FirstWithID.mem {recs : List Userec} {i : Bytes} {u : Userec} (h : Spec.FirstWithID recs i u) :
    u ∈ recs ∧ u.userID = i := by
  obtain ⟨pre, post, rfl, hu, _⟩ := h
  exact ⟨by simp, hu⟩

/-- **C54.** The token endpoint issues a token iff the first record with the name given accepts the password; the token is
made out to that name. -/
theorem C54_issued (sign : Claims → Bytes) (st : ServerState) (r : Request) (hp : r.path = ascii "/v1/token")
    (hm : r.method = ascii "POST") (t : Bytes) : serve sign st r = .ok (.accessToken t) ↔
      ∃ u, Spec.FirstWithID st.userRecs r.username u ∧ Spec.Accepts u r.password ∧ t = sign ⟨1800, r.username⟩ := by
  rw [serve_token sign st r hp hm]
  rcases postToken_cases sign st r with ⟨u, hu, h | h | h⟩ | h
  · rw [h.2]
    constructor
    · intro e
      injection e with e
      injection e with e
      exact ⟨u, hu, h.1, e.symm⟩
    · rintro ⟨_, _, _, rfl⟩
      rfl
  · rw [h.2.2]
    constructor
    · intro e; injection e with e; cases e
    · rintro ⟨v, hv, hav, _⟩
      rw [hv.unique hu] at hav
      exact absurd hav h.2.1
  · rw [h.2.2]
    constructor
    · intro e; cases e
    · rintro ⟨v, hv, hav, _⟩
      rw [hv.unique hu] at hav
      exact absurd hav h.2.1
  · rw [h.2]
    constructor
    · intro e; injection e with e; cases e
    · rintro ⟨v, hv, _, _⟩
      exact absurd hv.mem.2 (h.1 v hv.mem.1)

/-- **C54.** No other request yields a token. -/
theorem C54_only_here (sign : Claims → Bytes) (st : ServerState) (r : Request) (t : Bytes)
    (h : serve sign st r = .ok (.accessToken t)) : r.method = ascii "POST" ∧ r.path = ascii "/v1/token" := by
  rcases serve_cases' r with ⟨x, hx, e⟩ | e
  · rw [e] at h
    injection h with h
    subst h
    rcases hx with hx | ⟨p, hx⟩ <;> cases hx
  · rw [e] at h
    cases hr : muxMatch r.path with
    | none => rw [hr] at h; cases h
    | some k =>
      rw [hr] at h
      cases k with
      | token =>
        refine ⟨?_, muxMatch_token hr⟩
        change routeToken sign st r = _ at h
        unfold routeToken at h
        split at h
        · assumption
        · cases h
      | boards =>
        change routeBoards st r = _ at h
        unfold routeBoards at h
        split at h <;> cases h
      | classes =>
        change routeClasses r = _ at h
        unfold routeClasses at h
        split at h <;> cases h
      | users =>
        change routeUsers st r = _ at h
        unfold routeUsers getUsers getUserInformation checkTokenPermission at h
        split at h
        · cases hq : parseUserPath r.path with
          | ok q =>
            rw [hq, Res.ok_bind] at h
            simp only at h
            split at h
            · split at h <;> cases h
            · split at h <;> cases h
          | err _ => rw [hq] at h; cases h
          | panic => rw [hq] at h; cases h
          | diverge => rw [hq] at h; cases h
        · cases h

/-- **C54**, the rest: when no token is issued the answer is an error. -/
def Spec.C54_refusal : Prop := ∀ (sign : Claims → Bytes) (st : ServerState) (r : Request), r.path = ascii "/v1/token" →
  r.method = ascii "POST" → (¬ ∃ u, Spec.FirstWithID st.userRecs r.username u ∧ Spec.Accepts u r.password) →
  ∃ e, serve sign st r = .ok (.grantError e)

/-- **C54.** A refusal is an error answer if the stored hashes begin with two ASCII characters. -/
theorem C54_refusal_partial (sign : Claims → Bytes) (st : ServerState) (r : Request) (hp : r.path = ascii "/v1/token")
    (hm : r.method = ascii "POST") (hs : ∀ u ∈ st.userRecs, Spec.AsciiSalt u.password)
    (hn : ¬ ∃ u, Spec.FirstWithID st.userRecs r.username u ∧ Spec.Accepts u r.password) :
    ∃ e, serve sign st r = .ok (.grantError e) := by
  rw [serve_token sign st r hp hm]
  rcases postToken_cases sign st r with ⟨u, hu, h | h | h⟩ | h
  · exact absurd ⟨u, hu, h.1⟩ hn
  · exact ⟨_, h.2.2⟩
  · exact absurd (hs u hu.mem.1) h.1
  · exact ⟨_, h.2⟩

theorem not_asciiSalt_nil : ¬ Spec.AsciiSalt [] := by
  rintro ⟨_, _, _, h, _⟩
  cases h

/-- An unused slot of the password file: everything zero. -/
def Spec.emptyRecord : Userec := Userec.parse asciiCodec (zeros 512)

theorem emptyRecord_fields : Spec.emptyRecord.userID = [] ∧ Spec.emptyRecord.password = [] := by
  constructor
  · show cstrToString (slice (zeros 512) 4 17) = []
    rw [slice_zeros (by omega)]
    decide
  · show cstrToString (slice (zeros 512) 61 75) = []
    rw [slice_zeros (by omega)]
    decide

/-- With an unused slot in the password file, a login without a name crashes the handler. -/
theorem empty_login_panics (sign : Claims → Bytes) (recs : List Userec) (bs : List BoardHeader) (auth pw : Bytes)
    (h : ∃ u, Spec.FirstWithID recs [] u ∧ u.password = []) :
    serve sign ⟨recs, bs⟩ ⟨ascii "POST", ascii "/v1/token", auth, [], pw⟩ = .panic := by
  obtain ⟨u, hu, hpw⟩ := h
  rw [serve_token _ _ _ rfl rfl]
  have hn : ¬ Spec.AsciiSalt u.password := by rw [hpw]; exact not_asciiSalt_nil
  rcases postToken_cases sign ⟨recs, bs⟩ ⟨ascii "POST", ascii "/v1/token", auth, [], pw⟩ with ⟨v, hv, h | h | h⟩ | h
  · have := hv.unique hu
    subst this
    have h1 := h.1
    unfold Spec.Accepts at h1
    rw [hpw, fcrypt_panic _ _ (by simpa using not_asciiSalt_nil)] at h1
    cases h1
  · rw [hv.unique hu] at h
    exact absurd h.1 hn
  · exact h.2.2
  · exact absurd hu.mem.2 (h.1 u hu.mem.1)

theorem first_empty : Spec.FirstWithID [Spec.emptyRecord] [] Spec.emptyRecord :=
  ⟨[], [], rfl, emptyRecord_fields.1, by simp⟩

theorem C54_refusal_refuted : ¬ Spec.C54_refusal := by
  intro h
  have hp := empty_login_panics (fun _ => []) [Spec.emptyRecord] [] [] [] ⟨_, first_empty, emptyRecord_fields.2⟩
  obtain ⟨e, he⟩ := h (fun _ => []) ⟨[Spec.emptyRecord], []⟩ ⟨ascii "POST", ascii "/v1/token", [], [], []⟩ rfl rfl (by
    rintro ⟨u, hu, ha⟩
    have := hu.unique first_empty
    subst this
    unfold Spec.Accepts at ha
    rw [emptyRecord_fields.2, fcrypt_panic _ _ (by simpa using not_asciiSalt_nil)] at ha
    cases ha)
  rw [hp] at he
  cases he

/-! ## C55 -/

/-- **C55** in full, for a policy `permits token permission user`. -/
def Spec.C55 (permits : Bytes → Permission → Bytes → Prop) : Prop := ∀ (sign : Claims → Bytes) (st : ServerState) (r : Request)
  (d : UserData), serve sign st r = .ok (.userInfo d) → permits (getTokenFromRequest r) .readUserInformation d.userID

theorem splitByte_users (t : Bytes) : splitByte slash (ascii "/v1/users/" ++ t) =
    [] :: ascii "v1" :: ascii "users" :: splitByte slash t := by
  have e : ascii "/v1/users/" ++ t = ascii "/v1/users" ++ slash :: t := rfl
  rw [e, splitByte_sep]
  rfl

theorem parseUserPath_users (t : Bytes) : parseUserPath (ascii "/v1/users/" ++ t) =
    .ok ((splitByte slash t).headD [], ((splitByte slash t).tail).headD []) := by
  unfold parseUserPath
  rw [splitByte_users]
  cases h : splitByte slash t with
  | nil => exact absurd h (splitByte_ne_nil _ _)
  | cons a l =>
    cases l with
    | nil => rfl
    | cons b l => rfl

/-- A path component that cleaning leaves alone. -/
def Spec.PlainSegment (s : Bytes) : Prop := slash ∉ s ∧ s ≠ [] ∧ s ≠ [dot] ∧ s ≠ [dot, dot]

theorem cleanPath_user (u i : Bytes) (hu : Spec.PlainSegment u) (hi : Spec.PlainSegment i) :
    cleanPath (ascii "/v1/users/" ++ u ++ slash :: i) = ascii "/v1/users/" ++ u ++ slash :: i := by
  have hsp : splitByte slash (ascii "/v1/users/" ++ u ++ slash :: i) = [[], ascii "v1", ascii "users", u, i] := by
    rw [List.append_assoc, splitByte_users, splitByte_sep, splitByte_of_not_mem hu.1, splitByte_of_not_mem hi.1]
    rfl
  have hen : ∀ (s : Bytes) (d : Path), Spec.PlainSegment s → Path.enter d s = d ++ [s] := by
    intro s d h
    unfold Path.enter
    rw [if_neg (by simp [h.2.1, h.2.2.1]), if_neg h.2.2.2]
  have hr : resolve [] (ascii "/v1/users/" ++ u ++ slash :: i) = [ascii "v1", ascii "users", u, i] := by
    unfold resolve
    rw [hsp]
    show Path.enter (Path.enter [ascii "v1", ascii "users"] u) i = _
    rw [hen _ _ hu, hen _ _ hi]
    rfl
  have hlast : (ascii "/v1/users/" ++ u ++ slash :: i).getLast? ≠ some slash := by
    rw [List.getLast?_append]
    cases hx : i.getLast? with
    | none => exact absurd (List.getLast?_eq_none_iff.mp hx) hi.2.1
    | some y =>
      have : y ∈ i := List.mem_of_getLast? hx
      rw [List.getLast?_cons, hx]
      simp only [Option.getD_some, Option.some_or, ne_eq, Option.some.injEq]
      rintro rfl
      exact hi.1 this
  unfold cleanPath
  have hne : ¬ (ascii "/v1/users/" ++ u ++ slash :: i = []) := by simp
  rw [if_neg hne]
  have hh : (ascii "/v1/users/" ++ u ++ slash :: i).head? = some slash := rfl
  simp only [hh, if_true]
  rw [if_neg (fun h => hlast h.1)]
  unfold cleanRooted
  rw [hr]
  simp [List.intercalate, ascii]
  decide

/-- The request for the information of a user reaches the handler. -/
theorem serve_information (sign : Claims → Bytes) (st : ServerState) (i auth n p : Bytes) (hi : Spec.PlainSegment i) :
    serve sign st ⟨ascii "GET", ascii "/v1/users/" ++ i ++ slash :: ascii "information", auth, n, p⟩ =
      getUserInformation st ⟨ascii "GET", ascii "/v1/users/" ++ i ++ slash :: ascii "information", auth, n, p⟩ i := by
  have hinf : Spec.PlainSegment (ascii "information") := ⟨by decide, by decide, by decide, by decide⟩
  have hc := cleanPath_user i (ascii "information") hi hinf
  have hnc : muxWantsSlash (ascii "/v1/users/" ++ i ++ slash :: ascii "information") = false := by
    have hl : ∀ x : Bytes, x.length < 20 → ascii "/v1/users/" ++ i ++ slash :: ascii "information" ≠ x := by
      intro x hx e
      have := congrArg List.length e
      simp [ascii] at this
      omega
    unfold muxWantsSlash
    rw [decide_eq_false_iff_not]
    rintro (h | h)
    · exact hl (ascii "/v1/classes") (by decide) h
    · exact hl (ascii "/v1/users") (by decide) h
  have hm : muxMatch (ascii "/v1/users/" ++ i ++ slash :: ascii "information") = some .users := by
    have hl : ∀ x : Bytes, x.length < 20 → ascii "/v1/users/" ++ i ++ slash :: ascii "information" ≠ x := by
      intro x hx e
      have := congrArg List.length e
      simp [ascii] at this
      omega
    unfold muxMatch
    rw [if_neg (hl _ (by decide)), if_neg (hl _ (by decide))]
    have h1 : ¬ (ascii "/v1/classes/").isPrefixOf (ascii "/v1/users/" ++ i ++ slash :: ascii "information") = true := by
      intro h
      exact absurd h (by simp [ascii, List.isPrefixOf])
    have h2 : (ascii "/v1/users/").isPrefixOf (ascii "/v1/users/" ++ i ++ slash :: ascii "information") = true := by
      rw [List.isPrefixOf_iff_prefix, List.append_assoc]
      exact List.prefix_append _ _
    rw [if_neg h1, if_pos h2]
  have hstar : ascii "/v1/users/" ++ i ++ slash :: ascii "information" ≠ ascii "*" := by
    intro h
    exact absurd (congrArg List.head? h) (by simp [ascii])
  unfold serve
  simp only
  rw [if_neg hstar, if_neg (by decide), hc, hnc, if_neg (by decide), if_neg (fun h => h rfl), hm]
  show routeUsers st _ = _
  unfold routeUsers getUsers
  rw [if_pos rfl]
  simp only
  have hpz : parseUserPath (ascii "/v1/users/" ++ i ++ slash :: ascii "information") = .ok (i, ascii "information") := by
    rw [List.append_assoc, parseUserPath_users, splitByte_sep, splitByte_of_not_mem hi.1, splitByte_of_not_mem hinf.1]
    rfl
  rw [hpz, Res.ok_bind]
  simp only [if_true]

/-- **C55**, exactly: whatever the token, the information of any user is handed out. -/
theorem C55_anyone (sign : Claims → Bytes) (st : ServerState) (u : Userec) (i auth n p : Bytes) (hi : Spec.PlainSegment i)
    (hu : Spec.FirstWithID st.userRecs i u) :
    serve sign st ⟨ascii "GET", ascii "/v1/users/" ++ i ++ slash :: ascii "information", auth, n, p⟩ = .ok (.userInfo u.userData) := by
  rw [serve_information _ _ _ _ _ _ hi]
  unfold getUserInformation checkTokenPermission
  simp only
  rw [(findUserecByID_ok _ _ _).2 hu]

/-- **C55.** The token never makes a difference. -/
theorem C55_token_ignored (sign : Claims → Bytes) (st : ServerState) (r : Request) (auth : Bytes) :
    serve sign st { r with auth := auth } = serve sign st r := by
  rcases serve_cases r with ⟨x, _, h⟩ | h
  · exact (h sign st auth r.username r.password).trans (h sign st r.auth r.username r.password).symm
  · refine (h sign st auth r.username r.password).trans (Eq.trans ?_ (h sign st r.auth r.username r.password).symm)
    cases muxMatch r.path with
    | none => rfl
    | some k => cases k <;> rfl

/-- **C55** is false for every policy that denies anything at all about an existing name. -/
theorem C55_refuted (permits : Bytes → Permission → Bytes → Prop) (i auth : Bytes) (hi : Spec.PlainSegment i)
    (h : ¬ permits (getTokenFromRequest ⟨ascii "GET", ascii "/v1/users/" ++ i ++ slash :: ascii "information", auth, [], []⟩)
      .readUserInformation i) : ¬ Spec.C55 permits := by
  intro hc
  have hf : Spec.FirstWithID [{ Spec.emptyRecord with userID := i }] i { Spec.emptyRecord with userID := i } :=
    ⟨[], [], rfl, rfl, by simp⟩
  have := hc (fun _ => []) ⟨[{ Spec.emptyRecord with userID := i }], []⟩ _ _ (C55_anyone _ _ _ i auth [] [] hi hf)
  exact h this

/-- **C55**, what does hold: the data handed out are those of the first record with the name in the path, and only for a GET
of `/v1/users/NAME/information`, possibly with more behind a slash. -/
theorem C55_own_data_partial (sign : Claims → Bytes) (st : ServerState) (r : Request) (d : UserData)
    (h : serve sign st r = .ok (.userInfo d)) : r.method = ascii "GET" ∧ ∃ i rest u, slash ∉ i ∧
      r.path = ascii "/v1/users/" ++ i ++ ascii "/information" ++ rest ∧ (rest = [] ∨ rest.head? = some slash) ∧
      Spec.FirstWithID st.userRecs i u ∧ d = u.userData ∧ d.userID = i := by
  rcases serve_cases' r with ⟨x, hx, e⟩ | e
  · rw [e] at h
    injection h with h
    subst h
    rcases hx with hx | ⟨p, hx⟩ <;> cases hx
  · rw [e] at h
    cases hr : muxMatch r.path with
    | none => rw [hr] at h; cases h
    | some k =>
      rw [hr] at h
      cases k with
      | token =>
        exfalso
        change routeToken sign st r = _ at h
        unfold routeToken at h
        split at h
        · rcases postToken_cases sign st r with ⟨u, hu, k | k | k⟩ | k
          · rw [k.2] at h; injection h with h; cases h
          · rw [k.2.2] at h; injection h with h; cases h
          · rw [k.2.2] at h; cases h
          · rw [k.2] at h; injection h with h; cases h
        · injection h with h; cases h
      | boards =>
        exfalso
        change routeBoards st r = _ at h
        unfold routeBoards at h
        split at h <;> (injection h with h; cases h)
      | classes =>
        exfalso
        change routeClasses r = _ at h
        unfold routeClasses at h
        split at h <;> (injection h with h; cases h)
      | users =>
        obtain ⟨t, ht⟩ := muxMatch_users hr
        change routeUsers st r = _ at h
        unfold routeUsers at h
        split at h
        · rename_i hm
          refine ⟨hm, ?_⟩
          unfold getUsers at h
          rw [ht, parseUserPath_users, Res.ok_bind] at h
          simp only at h
          split at h
          · rename_i hinf
            unfold getUserInformation checkTokenPermission at h
            simp only at h
            have hj := splitByte_join slash t
            have hnm := splitByte_not_mem slash t
            cases hsp : splitByte slash t with
            | nil => exact absurd hsp (splitByte_ne_nil _ _)
            | cons i l =>
              rw [hsp] at h hinf hj hnm
              cases l with
              | nil => exact absurd hinf (by simp [ascii])
              | cons j l =>
                simp only [List.headD_cons, List.tail_cons] at hinf h
                subst hinf
                rcases findUserecByID_cases st.userRecs i with ⟨u, hu⟩ | he
                · rw [hu] at h
                  injection h with h
                  injection h with h
                  have hfu := (findUserecByID_ok _ _ _).1 hu
                  refine ⟨i, (l.map (fun x => slash :: x)).flatten, u, hnm i (by simp), ?_, ?_, hfu, h.symm, ?_⟩
                  · rw [ht, ← hj]
                    have key : ∀ (a : Bytes) (l : List Bytes), [slash].intercalate (a :: l) = a ++ (l.map (fun x => slash :: x)).flatten := by
                      intro a l
                      induction l generalizing a with
                      | nil => simp [List.intercalate]
                      | cons b l ih =>
                        rw [List.map_cons, List.flatten_cons, List.cons_append, ← ih b]
                        simp [List.intercalate]
                    rw [key]
                    simp [ascii, slash]
                  · cases l with
                    | nil => exact Or.inl rfl
                    | cons x l => exact Or.inr rfl
                  · rw [← h]; exact hfu.mem.2
                · rw [he] at h
                  injection h with h
                  cases h
          · split at h <;> (injection h with h; cases h)
        · injection h with h; cases h

example : Spec.PlainSegment (ascii "SYSOP") := ⟨by decide, by decide, by decide, by decide⟩

/-! ## C56 -/

/-- **C56** in full. -/
def Spec.C56 : Prop := ∀ (sign : Claims → Bytes) (st : ServerState) (r : Request), (serve sign st r).Returns

/-- **C56**, exactly: a request fails to be answered iff it is a login with the name of a user whose stored hash does not begin
with two ASCII characters. -/
theorem C56_exact (sign : Claims → Bytes) (st : ServerState) (r : Request) : ¬ (serve sign st r).Returns ↔
    r.method = ascii "POST" ∧ r.path = ascii "/v1/token" ∧
      ∃ u, Spec.FirstWithID st.userRecs r.username u ∧ ¬ Spec.AsciiSalt u.password := by
  constructor
  · intro h
    rcases serve_cases' r with ⟨x, hx, e⟩ | e
    · rw [e] at h
      exact absurd trivial h
    · rw [e] at h
      cases hr : muxMatch r.path with
      | none => rw [hr] at h; exact absurd trivial h
      | some k =>
        rw [hr] at h
        cases k with
        | token =>
          change ¬ (routeToken sign st r).Returns at h
          unfold routeToken at h
          split at h
          · rename_i hm
            refine ⟨hm, muxMatch_token hr, ?_⟩
            rcases postToken_cases sign st r with ⟨u, hu, k | k | k⟩ | k
            · rw [k.2] at h; exact absurd trivial h
            · rw [k.2.2] at h; exact absurd trivial h
            · exact ⟨u, hu, k.1⟩
            · rw [k.2] at h; exact absurd trivial h
          · exact absurd trivial h
        | boards =>
          change ¬ (routeBoards st r).Returns at h
          unfold routeBoards at h
          split at h <;> exact absurd trivial h
        | classes =>
          change ¬ (routeClasses r).Returns at h
          unfold routeClasses at h
          split at h <;> exact absurd trivial h
        | users =>
          exfalso
          obtain ⟨t, ht⟩ := muxMatch_users hr
          change ¬ (routeUsers st r).Returns at h
          unfold routeUsers at h
          split at h
          · unfold getUsers at h
            rw [ht, parseUserPath_users, Res.ok_bind] at h
            simp only at h
            split at h
            · unfold getUserInformation checkTokenPermission at h
              simp only at h
              rcases findUserecByID_cases st.userRecs ((splitByte slash t).headD []) with ⟨u, hu⟩ | he
              · rw [hu] at h; exact h trivial
              · rw [he] at h; exact h trivial
            · split at h <;> exact h trivial
          · exact h trivial
  · rintro ⟨hm, hp, u, hu, hn⟩
    rw [serve_token sign st r hp hm]
    rcases postToken_cases sign st r with ⟨v, hv, k | k | k⟩ | k
    · exfalso
      rw [hv.unique hu] at k
      have h1 := (verifyPassword_ok u r.password).2 k.1
      have h2 := (C46_exact u.password r.password).2 hn
      apply h2
      have e : u.verifyPassword r.password = verifyHash u.password r.password := rfl
      rw [← e, h1]
      trivial
    · rw [hv.unique hu] at k
      exact absurd k.1 hn
    · rw [k.2.2]
      exact fun h => h
    · exact absurd hu.mem.2 (k.1 u hu.mem.1)

/-- **C56** for every request but a login, and for every login if the hashes are well-formed. -/
theorem C56_returns_partial (sign : Claims → Bytes) (st : ServerState) (r : Request)
    (h : r.method ≠ ascii "POST" ∨ r.path ≠ ascii "/v1/token" ∨ ∀ u ∈ st.userRecs, Spec.AsciiSalt u.password) :
    (serve sign st r).Returns := by
  apply Classical.byContradiction
  intro hn
  obtain ⟨hm, hp, u, hu, hs⟩ := (C56_exact sign st r).1 hn
  rcases h with h | h | h
  · exact h hm
  · exact h hp
  · exact hs (h u hu.mem.1)

/-- **C56** is false: a password file with an unused slot, and a login without a name. -/
theorem C56_refuted : ¬ Spec.C56 := by
  intro h
  have hp := empty_login_panics (fun _ => []) [Spec.emptyRecord] [] [] [] ⟨_, first_empty, emptyRecord_fields.2⟩
  have := h (fun _ => []) ⟨[Spec.emptyRecord], []⟩ ⟨ascii "POST", ascii "/v1/token", [], [], []⟩
  rw [hp] at this
  exact this

/-- `parseUserPath` alone panics for short paths; behind the router that cannot happen. -/
theorem C56_parse_alone (p : Bytes) : ¬ (parseUserPath p).Returns ↔ (splitByte slash p).length < 4 := by
  unfold parseUserPath
  match h : splitByte slash p with
  | [] => simp [Res.Returns]
  | [_] => simp [Res.Returns]
  | [_, _] => simp [Res.Returns]
  | [_, _, _] => simp [Res.Returns]
  | [_, _, _, _] => simp [Res.Returns]
  | _ :: _ :: _ :: _ :: _ :: _ => simp [Res.Returns]

/-! ## C59: secrets in answers -/

/-- Two lists of the same length, related element by element. -/
inductive Spec.ListRel {α β : Type} (R : α → β → Prop) : List α → List β → Prop
  | nil : ListRel R [] []
  | cons {a b as bs} : R a b → ListRel R as bs → ListRel R (a :: as) (b :: bs)

/-- Two user records that differ at most in what is not to be shown: password hash, mail address, address, registration text. -/
def Spec.SamePublic (u v : Userec) : Prop := u.userID = v.userID ∧ u.nickname = v.nickname ∧ u.realName = v.realName ∧
  u.numLoginDays = v.numLoginDays ∧ u.numPosts = v.numPosts ∧ u.money = v.money ∧ u.lastLogin = v.lastLogin ∧ u.lastHost = v.lastHost

/-- **C59.** Except for a login, no answer depends on the password hashes or on any other field that is not to be shown. -/
theorem C59_no_leak (sign : Claims → Bytes) (us vs : List Userec) (bs : List BoardHeader) (r : Request)
    (hr : r.method ≠ ascii "POST" ∨ r.path ≠ ascii "/v1/token") (h : Spec.ListRel Spec.SamePublic us vs) :
    serve sign ⟨us, bs⟩ r = serve sign ⟨vs, bs⟩ r := by
  have hfind : ∀ i, (∃ u v, findUserecByID us i = .ok u ∧ findUserecByID vs i = .ok v ∧ Spec.SamePublic u v) ∨
      (findUserecByID us i = .err "user record not found" ∧ findUserecByID vs i = .err "user record not found") := by
    intro i
    induction h with
    | nil => right; exact ⟨rfl, rfl⟩
    | @cons u v us vs huv _ ih =>
      unfold findUserecByID
      by_cases hu : i = u.userID
      · left
        rw [if_pos hu, if_pos (hu.trans huv.1)]
        exact ⟨u, v, rfl, rfl, huv⟩
      · rw [if_neg hu, if_neg (fun e => hu (e.trans huv.1.symm))]
        exact ih
  rcases serve_cases' r with ⟨x, _, e⟩ | e
  · rw [e, e]
  · rw [e, e]
    cases hk : muxMatch r.path with
    | none => rfl
    | some k =>
      cases k with
      | token =>
        have hr : r.method ≠ ascii "POST" := by
          rcases hr with hr | hr
          · exact hr
          · unfold muxMatch at hk
            rw [if_neg hr] at hk
            split at hk
            · cases hk
            · split at hk
              · cases hk
              · split at hk <;> cases hk
        show routeToken sign _ r = routeToken sign _ r
        unfold routeToken
        rw [if_neg hr, if_neg hr]
      | boards => rfl
      | classes => rfl
      | users =>
        show routeUsers _ r = routeUsers _ r
        unfold routeUsers getUsers getUserInformation
        split
        · cases parseUserPath r.path with
          | ok q =>
            rw [Res.ok_bind, Res.ok_bind]
            simp only [checkTokenPermission]
            rcases hfind q.1 with ⟨u, v, h1, h2, h3⟩ | ⟨h1, h2⟩
            · have : u.userData = v.userData := by
                unfold Userec.userData
                obtain ⟨e1, e2, e3, e4, e5, e6, e7, e8⟩ := h3
                rw [e1, e2, e3, e4, e5, e6, e7, e8]
              simp only [h1, h2, this]
            · simp only [h1, h2]
          | err _ => rfl
          | panic => rfl
          | diverge => rfl
        · rfl

example : Spec.SamePublic { Spec.emptyRecord with password := ascii "ab" } { Spec.emptyRecord with password := ascii "cd" } :=
  ⟨rfl, rfl, rfl, rfl, rfl, rfl, rfl, rfl⟩

/-! ## C60: life time of a token -/

/-- A token is accepted at a moment if the moment is before its expiry (RFC 7519, section 4.1.4). -/
def Spec.Unexpired (c : Claims) (now : Int) : Prop := now < c.expiresAt

/-- **C60** in full: a token issued at a moment is accepted during the half hour that follows. -/
def Spec.C60 : Prop := ∀ (sign : Claims → Bytes) (st : ServerState) (r : Request) (t : Bytes) (issued : Int), 0 ≤ issued →
  serve sign st r = .ok (.accessToken t) → ∃ c, t = sign c ∧ ∀ now, issued ≤ now → now < issued + 1800 → Spec.Unexpired c now

/-- **C60**, exactly: whenever it is issued, a token is made out to the name given and expires half an hour after the beginning
of 1970. -/
theorem C60_claims (sign : Claims → Bytes) (st : ServerState) (r : Request) (t : Bytes)
    (h : serve sign st r = .ok (.accessToken t)) : ∃ c, t = sign c ∧ c.subject = r.username ∧
      ∀ now, Spec.Unexpired c now ↔ now < 1800 := by
  obtain ⟨hm, hp⟩ := C54_only_here sign st r t h
  obtain ⟨_, _, _, ht⟩ := (C54_issued sign st r hp hm t).1 h
  exact ⟨⟨1800, r.username⟩, ht, rfl, fun now => Iff.rfl⟩

/-- There are users and passwords with which a login succeeds. -/
theorem login_exists (i p : Bytes) : ∃ u : Userec, u.userID = i ∧ Spec.Accepts u p := by
  obtain ⟨h, e1, _⟩ := C42_exact p 97 98 [] (by decide) (by decide)
  exact ⟨{ Spec.emptyRecord with userID := i, password := (h ++ [0]).take 13 }, rfl,
    (C44_iff _ _).1 (C44_own_password p [97, 98] _ e1).1⟩

/-- **C60** for tokens issued at the very beginning of 1970. -/
theorem C60_epoch_partial (sign : Claims → Bytes) (st : ServerState) (r : Request) (t : Bytes)
    (h : serve sign st r = .ok (.accessToken t)) : ∃ c, t = sign c ∧ ∀ now, 0 ≤ now → now < 1800 → Spec.Unexpired c now := by
  obtain ⟨c, hc, _, hn⟩ := C60_claims sign st r t h
  exact ⟨c, hc, fun now _ h2 => (hn now).2 h2⟩

/-- **C60** is false: the expiry is a duration where a date is needed, so every token issued after 00:30 on 1 January 1970 has
already expired. -/
theorem C60_refuted : ¬ Spec.C60 := by
  intro h
  obtain ⟨u, hu, ha⟩ := login_exists [] []
  have hf : Spec.FirstWithID [u] [] u := ⟨[], [], rfl, hu, by simp⟩
  let sign : Claims → Bytes := fun c => if c.expiresAt = 1800 then [1] else [0]
  have hs : serve sign ⟨[u], []⟩ ⟨ascii "POST", ascii "/v1/token", [], [], []⟩ = .ok (.accessToken [1]) :=
    (C54_issued sign _ _ rfl rfl _).2 ⟨u, hf, ha, rfl⟩
  obtain ⟨c, hc, hn⟩ := h sign _ _ _ 1800 (by decide) hs
  have hc' : c.expiresAt = 1800 := by
    apply Classical.byContradiction
    intro hne
    simp [sign, hne] at hc
  have := hn 1800 (by decide) (by decide)
  unfold Spec.Unexpired at this
  omega

/-! ## C61: secrets in the log -/

/-- **C61** in full: what is logged during a login depends neither on the password typed nor on the password hashes. -/
def Spec.C61 : Prop := ∀ (us vs : List Userec) (bs : List BoardHeader) (r : Request) (p : Bytes),
  Spec.ListRel (fun u v => v = { u with password := v.password }) us vs →
  postTokenLog ⟨us, bs⟩ r = postTokenLog ⟨vs, bs⟩ { r with password := p }

/-- **C61**, the half that holds: the password typed is not logged. -/
theorem C61_typed_partial (st : ServerState) (r : Request) (p : Bytes) :
    postTokenLog st r = postTokenLog st { r with password := p } := rfl

/-- **C61** is false: the stored hash is logged, twice, before the password is checked. -/
theorem C61_hash_refuted : ¬ Spec.C61 := by
  intro h
  have := h [{ Spec.emptyRecord with password := ascii "ab" }] [{ Spec.emptyRecord with password := ascii "cd" }] []
    ⟨ascii "POST", ascii "/v1/token", [], [], []⟩ [] (.cons rfl .nil)
  unfold postTokenLog findUserecByID at this
  have hu := emptyRecord_fields.1
  simp [hu, ascii] at this

/-- **C61**, exactly: anyone knowing a name makes the server log that user's hash. -/
theorem C61_logged (st : ServerState) (r : Request) (u : Userec) (h : Spec.FirstWithID st.userRecs r.username u) :
    postTokenLog st r = [.foundUser u, .password u.password] := by
  unfold postTokenLog
  rw [(findUserecByID_ok _ _ _).2 h]

end Verif
