import Verif.Proofs.Token
import Verif.Props.Answers
/-!
# C128: what a token says
-/

namespace Verif
open Spec

/-- Signing never fails: two numbers of at most 256 bits for every text. -/
def Spec.Signs (ecdsa : Bytes → Option (Nat × Nat)) : Prop := ∀ m, ∃ r s, ecdsa m = some (r, s) ∧ r < 256 ^ 32 ∧ s < 256 ^ 32

/-- The full claim of C128: the token of one user does not pass for the token of another. -/
def Spec.TokenNamesUser : Prop :=
  ∀ (ecdsa : Bytes → Option (Nat × Nat)) (st : ServerState) (q₁ q₂ : Request) (t₁ t₂ : Bytes) (h₁ h₂ p : Json) (r₁ s₁ r₂ s₂ : Nat), Signs ecdsa →
    serve (jwtSign ecdsa) st q₁ = .ok (.accessToken t₁) → serve (jwtSign ecdsa) st q₂ = .ok (.accessToken t₂) →
    TokenSays t₁ h₁ p r₁ s₁ → TokenSays t₂ h₂ p r₂ s₂ → q₁.username = q₂.username

theorem cleaned_nil_iff (s : Bytes) : cleaned s = [] ↔ s = [] := by
  constructor
  · intro h
    match s with
    | [] => rfl
    | b :: rest =>
      exfalso
      rcases rune_cases b rest with ⟨n, t, hn, e⟩ | ⟨_, e⟩
      · rw [e, cleaned_char hn] at h
        exact utf8Char_ne_nil n (List.append_eq_nil_iff.mp h).1
      · unfold cleaned at h
        rw [e, List.flatMap_cons] at h
        exact utf8Char_ne_nil _ (List.append_eq_nil_iff.mp h).1
  · rintro rfl; rfl

/-- A text without a dot, up to the first dot. -/
theorem before_dot {a b x y : Bytes} (ha : (46 : UInt8) ∉ a) (hb : (46 : UInt8) ∉ b) (h : a ++ 46 :: x = b ++ 46 :: y) : a = b ∧ x = y := by
  induction a generalizing b with
  | nil =>
    cases b with
    | nil => exact ⟨rfl, (List.cons.inj h).2⟩
    | cons c b => exact absurd (List.mem_cons.mpr (Or.inl (List.cons.inj h).1)) hb
  | cons c a ih =>
    cases b with
    | nil => exact absurd (List.mem_cons.mpr (Or.inl (List.cons.inj h).1.symm)) ha
    | cons d b =>
      obtain ⟨h1, h2⟩ := List.cons.inj h
      obtain ⟨e1, e2⟩ := ih (fun m => ha (List.mem_cons_of_mem _ m)) (fun m => hb (List.mem_cons_of_mem _ m)) h2
      exact ⟨by rw [h1, e1], e2⟩

/-- **C128, one meaning.** A text is a token in one way at most. -/
theorem C128_one_meaning (t : Bytes) (h h' p p' : Json) (r s r' s' : Nat) (a : TokenSays t h p r s) (b : TokenSays t h' p' r' s') :
    h = h' ∧ p = p' ∧ r = r' ∧ s = s' := by
  obtain ⟨x, y, z, hx, py, sz, e, nx, ny, nz, rx, ry, rz, jx, jy, _, e1, e2⟩ := a
  obtain ⟨x', y', z', hx', py', sz', e', nx', ny', nz', rx', ry', rz', jx', jy', _, e1', e2'⟩ := b
  rw [e] at e'
  obtain ⟨rfl, e3⟩ := before_dot nx nx' e'
  obtain ⟨rfl, rfl⟩ := before_dot ny ny' e3
  rw [rx] at rx'; cases rx'
  rw [ry] at ry'; cases ry'
  rw [rz] at rz'; cases rz'
  rw [jx] at jx'; cases jx'
  rw [jy] at jy'; cases jy'
  exact ⟨rfl, rfl, e1.symm.trans e1', e2.symm.trans e2'⟩

/-- A text without a dot, after the last dot. -/
theorem after_dot {a b x y : Bytes} (hx : (46 : UInt8) ∉ x) (hy : (46 : UInt8) ∉ y) (h : a ++ 46 :: x = b ++ 46 :: y) : a = b ∧ x = y := by
  have := congrArg List.reverse h
  simp only [List.reverse_append, List.reverse_cons, List.append_assoc, List.cons_append, List.nil_append] at this
  obtain ⟨e1, e2⟩ := before_dot (by simpa using hx) (by simpa using hy) this
  exact ⟨List.reverse_inj.mp e2, List.reverse_inj.mp e1⟩

theorem bigNat_inj : (s t : Bytes) → ∀ a a' : Nat, s.length = t.length →
    s.foldl (fun a b => 256 * a + b.toNat) a = t.foldl (fun a b => 256 * a + b.toNat) a' → a = a' ∧ s = t
  | [], [], a, a', _, h => ⟨h, rfl⟩
  | b :: s, c :: t, a, a', hl, h => by
    obtain ⟨e1, e2⟩ := bigNat_inj s t _ _ (by simpa using hl) h
    dsimp only at e1
    have hb := b.toNat_lt
    have hc := c.toNat_lt
    have : b = c := UInt8.toNat_inj.mp (by omega)
    exact ⟨by omega, by rw [this, e2]⟩
  | [], _ :: _, _, _, hl, _ => by cases hl
  | _ :: _, [], _, _, hl, _ => by cases hl

/-- **C128, one spelling.** The same signed text with the same signature is the same token: no other spelling of the signature is read. -/
theorem C128_one_spelling (m c c' : Bytes) (h p h' p' : Json) (r s : Nat) (hc : 46 ∉ c) (hc' : 46 ∉ c') (a : TokenSays (m ++ 46 :: c) h p r s)
    (b : TokenSays (m ++ 46 :: c') h' p' r s) : c = c' := by
  obtain ⟨x, y, z, _, _, sz, e, _, _, nz, _, _, rz, _, _, l, e1, e2⟩ := a
  obtain ⟨x', y', z', _, _, sz', e', _, _, nz', _, _, rz', _, _, l', e1', e2'⟩ := b
  have ez : c = z := (after_dot (a := m) (b := x ++ 46 :: y) hc nz (by rw [e]; simp)).2
  have ez' : c' = z' := (after_dot (a := m) (b := x' ++ 46 :: y') hc' nz' (by rw [e']; simp)).2
  have q1 := (bigNat_inj (sz.take 32) (sz'.take 32) 0 0 (by simp only [List.length_take]; omega) (e1.trans e1'.symm)).2
  have q2 := (bigNat_inj (sz.drop 32) (sz'.drop 32) 0 0 (by simp only [List.length_drop]; omega) (e2.trans e2'.symm)).2
  have q : sz = sz' := by rw [← List.take_append_drop 32 sz, ← List.take_append_drop 32 sz', q1, q2]
  rw [ez, ez', readB64_canonical z sz rz, readB64_canonical z' sz' rz', q]

theorem nodot (s : Bytes) : (46 : UInt8) ∉ b64Encode s := fun h => (b64_safe s _ h).1 rfl

/-- The claims of an issued token, as they are read. -/
def Spec.readClaims (u : Bytes) : Json :=
  .obj ((ascii "exp", .num 1800) :: if u = [] then [] else [(ascii "sub", .str (cleaned u))])

theorem claims_clean (u : Bytes) : (Claims.json ⟨1800, u⟩).clean = Spec.readClaims u := by
  unfold Claims.json Spec.readClaims
  rw [if_neg (show ¬ (1800 : Int) = 0 by decide)]
  by_cases h : u = []
  · simp only [if_pos h, List.append_nil, Json.clean, cleanFields, cleaned_name (s := ascii "exp") (by decide)]
  · simp only [if_neg h, List.cons_append, List.nil_append, Json.clean, cleanFields, cleaned_name (s := ascii "exp") (by decide),
      cleaned_name (s := ascii "sub") (by decide)]

theorem header_clean : jwtHeader.clean = .obj [(ascii "alg", .str (ascii "ES256")), (ascii "typ", .str (ascii "JWT"))] := by
  unfold jwtHeader
  simp only [Json.clean, cleanFields, cleaned_name (s := ascii "alg") (by decide), cleaned_name (s := ascii "ES256") (by decide),
    cleaned_name (s := ascii "typ") (by decide), cleaned_name (s := ascii "JWT") (by decide)]

theorem token_says {ecdsa : Bytes → Option (Nat × Nat)} (u : Bytes) {r s : Nat} (he : ecdsa (Claims.signingString ⟨1800, u⟩) = some (r, s))
    (hr : r < 256 ^ 32) (hs : s < 256 ^ 32) :
    TokenSays (newAccessToken (jwtSign ecdsa) u) (.obj [(ascii "alg", .str (ascii "ES256")), (ascii "typ", .str (ascii "JWT"))])
      (Spec.readClaims u) r s := by
  refine ⟨b64Encode jwtHeader.compact, b64Encode (Claims.json ⟨1800, u⟩).compact, b64Encode (bigEndian 32 r ++ bigEndian 32 s), _, _, _, ?_,
    nodot _, nodot _, nodot _, readB64_encode _, readB64_encode _, readB64_encode _, ?_, ?_, ?_, ?_, ?_⟩
  · show jwtSign ecdsa ⟨1800, u⟩ = _
    unfold jwtSign
    rw [he]
    simp only [Claims.signingString, List.append_assoc, List.cons_append]
  · rw [readJson_compact, header_clean]
  · rw [readJson_compact, claims_clean]
  · rw [List.length_append, bigEndian_length, bigEndian_length]
  · rw [List.take_left' (bigEndian_length 32 r), bigNat_bigEndian 32 r hr]
  · rw [List.drop_left' (bigEndian_length 32 r), bigNat_bigEndian 32 s hs]

theorem field_exp (u : Bytes) : fieldOf (Spec.readClaims u) (ascii "exp") = some (.num 1800) := rfl

theorem field_sub (u : Bytes) : fieldOf (Spec.readClaims u) (ascii "sub") = if u = [] then none else some (.str (cleaned u)) := by
  by_cases h : u = []
  · rw [if_pos h]; unfold Spec.readClaims; rw [if_pos h]; rfl
  · rw [if_neg h]; unfold Spec.readClaims; rw [if_neg h]; rfl

/-- **C128, what a token says.** An issued token is a signed JWT: the text before the last dot is what was signed, with ES256; the claims are an
expiry half an hour after the beginning of 1970 and the name of the user who logged in, with U+FFFD for what is no text. -/
theorem C128_reads (ecdsa : Bytes → Option (Nat × Nat)) (hsig : Signs ecdsa) (st : ServerState) (q : Request) (t : Bytes)
    (h : serve (jwtSign ecdsa) st q = .ok (.accessToken t)) :
    ∃ m c payload r s, t = m ++ 46 :: c ∧ 46 ∉ c ∧ ecdsa m = some (r, s) ∧
      TokenSays t (.obj [(ascii "alg", .str (ascii "ES256")), (ascii "typ", .str (ascii "JWT"))]) payload r s ∧
      fieldOf payload (ascii "exp") = some (.num 1800) ∧
      fieldOf payload (ascii "sub") = if q.username = [] then none else some (.str (cleaned q.username)) := by
  obtain ⟨hm, hp⟩ := C54_only_here _ st q t h
  obtain ⟨_, _, _, ht⟩ := (C54_issued _ st q hp hm t).1 h
  obtain ⟨r, s, he, hr, hs⟩ := hsig (Claims.signingString ⟨1800, q.username⟩)
  refine ⟨_, b64Encode (bigEndian 32 r ++ bigEndian 32 s), Spec.readClaims q.username, r, s, ?_, nodot _, he, ?_, field_exp _, field_sub _⟩
  · rw [ht]; unfold jwtSign; rw [he]
  · rw [ht]; exact token_says q.username he hr hs

/-- The bytes of a token are ASCII, and none is a blank. -/
theorem token_bytes (ecdsa : Bytes → Option (Nat × Nat)) (c : Claims) : ∀ x ∈ jwtSign ecdsa c, x ≠ 32 ∧ x < 0x80 := by
  intro x hx
  unfold jwtSign at hx
  split at hx
  · cases hx
  · simp only [Claims.signingString, List.append_assoc, List.cons_append, List.mem_append, List.mem_cons] at hx
    rcases hx with h | rfl | h | rfl | h
    · exact ⟨(b64_safe _ x h).2.1, (b64_safe _ x h).2.2⟩
    · decide
    · exact ⟨(b64_safe _ x h).2.1, (b64_safe _ x h).2.2⟩
    · decide
    · exact ⟨(b64_safe _ x h).2.1, (b64_safe _ x h).2.2⟩

/-- **C128, the way of a token.** A client reads the token from the body of the answer unchanged, and the service finds it unchanged in the header
of any later request. -/
theorem C128_carried (ecdsa : Bytes → Option (Nat × Nat)) (zone : Int → Int) (st : ServerState) (q : Request) (t : Bytes)
    (h : serve (jwtSign ecdsa) st q = .ok (.accessToken t)) :
    readJson ((Response.accessToken t).body zone) = some (.obj [(ascii "access_token", .str t), (ascii "token_type", .str (ascii "bearer"))]) ∧
    ∀ (later : Request) (scheme : Bytes), (32 : UInt8) ∉ scheme → later.auth = scheme ++ 32 :: t → getTokenFromRequest later = t := by
  obtain ⟨hm, hp⟩ := C54_only_here _ st q t h
  obtain ⟨_, _, _, ht⟩ := (C54_issued _ st q hp hm t).1 h
  have hb := token_bytes ecdsa ⟨1800, q.username⟩
  rw [← ht] at hb
  refine ⟨?_, ?_⟩
  · rw [(C104_errors zone "" t []).2.1, cleaned_of_isText (isText_ascii t fun x hx => (hb x hx).2)]
  · intro later scheme hsch e
    exact C63_token_header later scheme t [] hsch (fun m => (hb _ m).1 rfl) (by rw [e]; simp)

/-- **C128, exactly whom a token names.** The tokens of two logins carry the same claims iff the two names are the same text with U+FFFD for every
byte that is no text. -/
theorem C128_names_exact (ecdsa : Bytes → Option (Nat × Nat)) (hsig : Signs ecdsa) (st : ServerState) (q₁ q₂ : Request) (t₁ t₂ : Bytes)
    (h₁ h₂ p₁ p₂ : Json) (r₁ s₁ r₂ s₂ : Nat) (i₁ : serve (jwtSign ecdsa) st q₁ = .ok (.accessToken t₁))
    (i₂ : serve (jwtSign ecdsa) st q₂ = .ok (.accessToken t₂)) (m₁ : TokenSays t₁ h₁ p₁ r₁ s₁) (m₂ : TokenSays t₂ h₂ p₂ r₂ s₂) :
    p₁ = p₂ ↔ cleaned q₁.username = cleaned q₂.username := by
  have key : ∀ (q : Request) (t : Bytes) (h p : Json) (r s : Nat), serve (jwtSign ecdsa) st q = .ok (.accessToken t) → TokenSays t h p r s →
      p = Spec.readClaims q.username := by
    intro q t h p r s i m
    obtain ⟨hm, hp⟩ := C54_only_here _ st q t i
    obtain ⟨_, _, _, ht⟩ := (C54_issued _ st q hp hm t).1 i
    obtain ⟨r', s', he, hr, hs⟩ := hsig (Claims.signingString ⟨1800, q.username⟩)
    have := token_says q.username he hr hs
    rw [ht] at m
    exact (C128_one_meaning _ _ _ _ _ _ _ _ _ m this).2.1
  rw [key q₁ t₁ h₁ p₁ r₁ s₁ i₁ m₁, key q₂ t₂ h₂ p₂ r₂ s₂ i₂ m₂]
  constructor
  · intro e
    have := congrArg (fun j => fieldOf j (ascii "sub")) e
    simp only [field_sub] at this
    by_cases h1 : q₁.username = [] <;> by_cases h2 : q₂.username = []
    · rw [h1, h2]
    · rw [if_pos h1, if_neg h2] at this; cases this
    · rw [if_neg h1, if_pos h2] at this; cases this
    · rw [if_neg h1, if_neg h2] at this
      injection this with this
      injection this
  · intro e
    unfold Spec.readClaims
    have : q₁.username = [] ↔ q₂.username = [] := by rw [← cleaned_nil_iff, e, cleaned_nil_iff]
    by_cases h1 : q₁.username = []
    · rw [if_pos h1, if_pos (this.mp h1)]
    · rw [if_neg h1, if_neg (fun h => h1 (this.mpr h)), e]

/-- **C128, the part that holds**: users whose names are valid UTF-8, as all names that follow the rules of the site are. (Missing for the full
claim: other names.) -/
theorem C128_names_partial (ecdsa : Bytes → Option (Nat × Nat)) (hsig : Signs ecdsa) (st : ServerState) (q₁ q₂ : Request) (t₁ t₂ : Bytes)
    (h₁ h₂ p : Json) (r₁ s₁ r₂ s₂ : Nat) (i₁ : serve (jwtSign ecdsa) st q₁ = .ok (.accessToken t₁))
    (i₂ : serve (jwtSign ecdsa) st q₂ = .ok (.accessToken t₂)) (m₁ : TokenSays t₁ h₁ p r₁ s₁) (m₂ : TokenSays t₂ h₂ p r₂ s₂)
    (u₁ : IsText q₁.username) (u₂ : IsText q₂.username) : q₁.username = q₂.username := by
  have := (C128_names_exact ecdsa hsig st q₁ q₂ t₁ t₂ h₁ h₂ p p r₁ s₁ r₂ s₂ i₁ i₂ m₁ m₂).mp rfl
  rwa [cleaned_of_isText u₁, cleaned_of_isText u₂] at this

/-- Two users with given names, and the password of neither matters. -/
theorem two_logins (sign : Claims → Bytes) (i j : Bytes) (hij : i ≠ j) : ∃ us, ∀ n, n = i ∨ n = j →
    serve sign ⟨us, []⟩ ⟨ascii "POST", ascii "/v1/token", [], n, []⟩ = .ok (.accessToken (sign ⟨1800, n⟩)) := by
  obtain ⟨u, hu, au⟩ := login_exists i []
  obtain ⟨v, hv, av⟩ := login_exists j []
  refine ⟨[u, v], ?_⟩
  rintro n (rfl | rfl)
  · exact (C54_issued sign _ _ rfl rfl _).2 ⟨u, ⟨[], [v], rfl, hu, by simp⟩, au, rfl⟩
  · exact (C54_issued sign _ _ rfl rfl _).2 ⟨v, ⟨[u], [], rfl, hv, by simpa [hu] using hij⟩, av, rfl⟩

/-- **C128 is false of the code** for names of other bytes: the users A4 and A5 get tokens with the same claims. -/
theorem C128_names_refuted : ¬ Spec.TokenNamesUser := by
  intro h
  obtain ⟨us, hus⟩ := two_logins (jwtSign fun _ => some (1, 1)) [0xA4] [0xA5] (by decide)
  have hs : Signs fun _ => some (1, 1) := fun m => ⟨1, 1, rfl, by decide, by decide⟩
  have m₁ := token_says (ecdsa := fun _ => some (1, 1)) [0xA4] rfl (by decide) (by decide)
  have m₂ := token_says (ecdsa := fun _ => some (1, 1)) [0xA5] rfl (by decide) (by decide)
  have e : Spec.readClaims [0xA5] = Spec.readClaims [0xA4] := by
    unfold Spec.readClaims
    rw [show cleaned [0xA5] = cleaned [0xA4] by decide +kernel]
    rfl
  rw [e] at m₂
  have := h _ ⟨us, []⟩ ⟨ascii "POST", ascii "/v1/token", [], [0xA4], []⟩ ⟨ascii "POST", ascii "/v1/token", [], [0xA5], []⟩ _ _ _ _ _ _ _ _ _ hs
    (hus _ (Or.inl rfl)) (hus _ (Or.inr rfl)) m₁ m₂
  exact absurd this (by decide)

/-- **C128, when signing fails**: the login is answered with status 200 and an empty text for a token, which no reader takes for one. -/
theorem C128_unsigned (ecdsa : Bytes → Option (Nat × Nat)) (he : ∀ m, ecdsa m = none) (st : ServerState) (q : Request) (t : Bytes)
    (h : serve (jwtSign ecdsa) st q = .ok (.accessToken t)) :
    t = [] ∧ (Response.accessToken t).status = 200 ∧ ∀ hd p r s, ¬ TokenSays t hd p r s := by
  obtain ⟨hm, hp⟩ := C54_only_here _ st q t h
  obtain ⟨_, _, _, ht⟩ := (C54_issued _ st q hp hm t).1 h
  have : t = [] := by rw [ht]; unfold jwtSign; rw [he]
  refine ⟨this, rfl, ?_⟩
  rintro hd p r s ⟨a, b, c, _, _, _, e, _⟩
  rw [this] at e
  exact absurd e.symm (by simp)

/-- A token as it is. The signature is that of the numbers 1 and 2. -/
example : newAccessToken (jwtSign fun _ => some (1, 2)) (ascii "SYSOP") =
    ascii "eyJhbGciOiJFUzI1NiIsInR5cCI6IkpXVCJ9.eyJleHAiOjE4MDAsInN1YiI6IlNZU09QIn0." ++
      ascii "AAAAAAAAAAAAAAAAAAAAAAAAAAAAAAAAAAAAAAAAAAEAAAAAAAAAAAAAAAAAAAAAAAAAAAAAAAAAAAAAAAAAAg" := by decide +kernel

/-- Hypotheses that are met: a login, and signing that never fails. -/
example : Signs (fun _ => some (1, 2)) ∧ ∃ us, serve (jwtSign fun _ => some (1, 2)) ⟨us, []⟩ ⟨ascii "POST", ascii "/v1/token", [], ascii "SYSOP", []⟩ =
    .ok (.accessToken (jwtSign (fun _ => some (1, 2)) ⟨1800, ascii "SYSOP"⟩)) := by
  refine ⟨fun m => ⟨1, 2, rfl, by decide, by decide⟩, ?_⟩
  obtain ⟨us, h⟩ := two_logins (jwtSign fun _ => some (1, 2)) (ascii "SYSOP") (ascii "guest") (by decide)
  exact ⟨us, h _ (Or.inl rfl)⟩

/-- Left-over bits, padding and other alphabets are refused. -/
example : readB64 (ascii "QQ") = some (ascii "A") ∧ readB64 (ascii "QR") = none ∧ readB64 (ascii "QQ==") = none ∧ readB64 (ascii "+/") = none ∧
    readB64 (ascii "Q") = none := by decide +kernel

end Verif
