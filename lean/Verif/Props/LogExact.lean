import Verif.Props.Log
import Verif.Props.Routes
/-!
# C150, message by message: what each request writes to the log
-/

namespace Verif
open Spec

theorem requestLog_canonical (shown : Userec → Bytes) (st : ServerState) (r : Request) (segs : List Bytes) (tr : Bool)
    (h : ∀ s ∈ segs, PlainSegment s) (hm : r.method ≠ ascii "CONNECT") (hp : r.path = render segs tr) :
    requestLog shown st r = if muxWantsSlash (render segs tr) = true then [] else routeLog shown st r (muxMatch (render segs tr)) := by
  have hstar : r.path ≠ ascii "*" := by
    rw [hp]
    intro e
    have : (render segs tr).head? = some slash := by
      unfold render
      split
      · rfl
      · cases segs with
        | nil => contradiction
        | cons a l => simp
    rw [e] at this
    exact absurd this (by decide)
  unfold requestLog
  rw [if_neg hstar, if_neg hm, hp, cleanPath_render _ _ h]
  simp

/-- **C150, users.** A request for a user's page writes a message exactly in two cases: for the information, if the header with the token has no space in
it; for a page that does not exist, the two names in the path. Neither the token nor anything from the disk is in it. -/
theorem C150_users (shown : Userec → Bytes) (st : ServerState) (r : Request) (rest : List Bytes) (tr : Bool)
    (hm : r.method = ascii "GET") (h : ∀ s ∈ rest, PlainSegment s) (hr : tr = true ∨ rest ≠ [])
    (hp : r.path = render (ascii "v1" :: ascii "users" :: rest) tr) :
    (rest[1]? = some (ascii "information") → (32 : UInt8) ∈ r.auth → requestLog shown st r = []) ∧
    (rest[1]? = some (ascii "information") → (32 : UInt8) ∉ r.auth →
      requestLog shown st r = [ascii "getTokenFromRequest error: len(s) < 2, got 1"]) ∧
    (rest[1]? = some (ascii "favorites") → requestLog shown st r = []) ∧
    (rest[1]? ≠ some (ascii "information") → rest[1]? ≠ some (ascii "favorites") →
      requestLog shown st r = [rest.headD [] ++ ascii " " ++ rest[1]?.getD [] ++ ascii " <nil>"]) := by
  have hpl : ∀ s ∈ ascii "v1" :: ascii "users" :: rest, PlainSegment s := by
    intro s hs
    rcases List.mem_cons.mp hs with rfl | hs
    · exact plain_v1
    · rcases List.mem_cons.mp hs with rfl | hs
      · exact plain_names.2.2.2
      · exact h s hs
  have hc : tr = true ∨ 2 < (ascii "v1" :: ascii "users" :: rest).length := by
    rcases hr with hr | hr
    · exact .inl hr
    · right
      cases rest with
      | nil => exact absurd rfl hr
      | cons a l => simp
  have hw : ¬ muxWantsSlash (render (ascii "v1" :: ascii "users" :: rest) tr) = true := by
    rw [muxWantsSlash_render _ _ hpl]
    rintro ⟨e, rfl⟩
    rcases hr with hr | hr
    · cases hr
    · apply hr
      rcases e with e | e <;> simpa using (congrArg (List.drop 2) e)
  have hs : requestLog shown st r = usersLog r := by
    rw [requestLog_canonical shown st r _ tr hpl (by rw [hm]; decide) hp, if_neg hw, muxMatch_render _ _ hpl,
      if_neg (fun e => absurd (congrArg (List.take 2) e.1) (by simp [ascii])),
      if_neg (fun e => absurd (congrArg (List.take 2) e.1) (by simp [ascii])),
      if_neg (fun e => absurd e.1 (by simp [ascii])), if_pos ⟨rfl, hc⟩]
    exact if_pos hm
  have hparse : parseUserPath r.path = .ok (rest.headD [], rest[1]?.getD []) := by
    unfold parseUserPath
    rw [hp, splitByte_render _ _ hpl (by simp)]
    match rest, hr with
    | [], hr =>
      have : tr = true := by simpa using hr
      subst this
      rfl
    | [a], _ => cases tr <;> rfl
    | a :: b :: l, _ => rfl
  have hpl1 : ∀ x, rest[1]? = some x → rest[1]?.getD [] = x := by intro x hx; rw [hx]; rfl
  rw [hs]
  unfold usersLog
  rw [hparse]
  refine ⟨fun hi ha => ?_, fun hi ha => ?_, fun hi => ?_, fun h1 h2 => ?_⟩
  · simp only
    rw [hpl1 _ hi, if_pos rfl, if_neg]
    obtain ⟨x, y, e⟩ := List.append_of_mem ha
    rw [e, splitByte_sep, List.length_append]
    have := List.length_pos_iff.mpr (splitByte_ne_nil 32 x)
    have := List.length_pos_iff.mpr (splitByte_ne_nil 32 y)
    omega
  · simp only
    rw [hpl1 _ hi, if_pos rfl, splitByte_of_not_mem ha, if_pos (by simp), List.length_singleton]
    decide +kernel
  · simp only
    rw [hpl1 _ hi, if_neg (by decide), if_pos rfl]
  · have g : ∀ x : Bytes, x ≠ [] → rest[1]? ≠ some x → rest[1]?.getD [] ≠ x := by
      intro x hx hn
      cases hy : rest[1]? with
      | none => exact fun e => hx e.symm
      | some y =>
        rw [hy] at hn
        exact fun e => hn (congrArg some e)
    simp only
    rw [if_neg (g _ (by decide) h1), if_neg (g _ (by decide) h2)]
    rw [show ascii " " = [32] by decide]
    simp

/-- **C150, the token.** Asking for a token writes nothing if nobody has that name; otherwise the whole record and the stored password hash, whether
the password is right or not. -/
theorem C150_token (shown : Userec → Bytes) (st : ServerState) (r : Request) (hm : r.method = ascii "POST") (hp : r.path = ascii "/v1/token") :
    (∀ u, FirstWithID st.userRecs r.username u → requestLog shown st r = [ascii "found user: " ++ shown u, ascii "password " ++ u.password]) ∧
    ((∀ u ∈ st.userRecs, u.userID ≠ r.username) → requestLog shown st r = []) := by
  have hs : requestLog shown st r = tokenLog shown st r := by
    rw [requestLog_canonical shown st r [ascii "v1", ascii "token"] false (by
        intro s hs
        rcases List.mem_cons.mp hs with rfl | hs
        · exact plain_v1
        · rw [List.mem_singleton.mp hs]; exact plain_names.1) (by rw [hm]; decide) (by rw [hp]; decide),
      if_neg (by decide)]
    show routeLog shown st r (muxMatch _) = _
    rw [show muxMatch (render [ascii "v1", ascii "token"] false) = some .token by decide]
    exact if_pos hm
  rw [hs]
  unfold tokenLog postTokenLog
  refine ⟨fun u hu => ?_, fun hn => ?_⟩
  · rw [(findUserecByID_ok _ _ _).2 hu]; rfl
  · rcases findUserecByID_cases st.userRecs r.username with ⟨u, hx⟩ | hx
    · obtain ⟨pre, post, e, e2, -⟩ := (findUserecByID_ok _ _ _).1 hx
      exact absurd e2 (hn u (by rw [e]; simp))
    · rw [hx]; rfl

/-- **C150, everything else.** Other methods, and other paths, write nothing. -/
theorem C150_quiet (shown : Userec → Bytes) (st : ServerState) (r : Request)
    (h : (r.method ≠ ascii "GET" ∧ r.method ≠ ascii "POST") ∨ (r.method = ascii "GET" ∧ ∀ t, r.path ≠ ascii "/v1/users/" ++ t) ∨
      (r.method = ascii "POST" ∧ r.path ≠ ascii "/v1/token")) : requestLog shown st r = [] := by
  have route : ∀ o, (o = some .users → r.method ≠ ascii "GET") → (o = some .token → r.method ≠ ascii "POST") → routeLog shown st r o = [] := by
    intro o h1 h2
    unfold routeLog
    split
    · rw [if_neg (h2 rfl)]
    · rw [if_neg (h1 rfl)]
    · rfl
  have users : ∀ p, muxMatch p = some .users → ∃ t, p = ascii "/v1/users/" ++ t := by
    intro p hp
    unfold muxMatch at hp
    repeat' split at hp
    all_goals first | cases hp | skip
    next e => exact (List.isPrefixOf_iff_prefix.1 e).elim fun t e => ⟨t, e.symm⟩
  have token : ∀ p, muxMatch p = some .token → p = ascii "/v1/token" := by
    intro p hp
    unfold muxMatch at hp
    repeat' split at hp
    all_goals first | assumption | cases hp
  have all : routeLog shown st r (muxMatch r.path) = [] := by
    refine route _ (fun e hg => ?_) (fun e hg => ?_)
    · obtain ⟨t, ht⟩ := users _ e
      rcases h with h | ⟨_, h⟩ | ⟨h, _⟩
      · exact h.1 hg
      · exact h t ht
      · rw [hg] at h; exact absurd h (by decide)
    · have ht := token _ e
      rcases h with h | ⟨h, _⟩ | ⟨_, h⟩
      · exact h.2 hg
      · rw [hg] at h; exact absurd h (by decide)
      · exact h ht
  unfold requestLog
  split
  · rfl
  · split
    · split
      · rfl
      · exact all
    · split
      · rfl
      · next h2 =>
        rw [not_or, Decidable.not_not] at h2
        rw [h2.2]
        exact all

/-! ## Examples -/

/-- The information of user `A`, with a token and without. -/
def askInformation (auth : Bytes) : Request := ⟨ascii "GET", ascii "/v1/users/A/information", auth, [], []⟩

example : requestLog (fun _ => []) ⟨[], []⟩ (askInformation (ascii "bearer x")) = [] ∧
    requestLog (fun _ => []) ⟨[], []⟩ (askInformation (ascii "bearer")) = [ascii "getTokenFromRequest error: len(s) < 2, got 1"] := by
  have h := C150_users (fun _ => []) ⟨[], []⟩ (askInformation (ascii "bearer x")) [ascii "A", ascii "information"] false rfl
    (by unfold PlainSegment; decide) (.inr (by simp)) (by decide)
  have h' := C150_users (fun _ => []) ⟨[], []⟩ (askInformation (ascii "bearer")) [ascii "A", ascii "information"] false rfl
    (by unfold PlainSegment; decide) (.inr (by simp)) (by decide)
  exact ⟨h.1 rfl (by decide), h'.2.1 rfl (by decide)⟩

example : requestLog (fun _ => []) ⟨[], []⟩ ⟨ascii "GET", ascii "/v1/users/A/mail", [], [], []⟩ = [ascii "A mail <nil>"] := by decide +kernel

end Verif
